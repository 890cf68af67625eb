import Verif.Spec.Agent
import Mathlib.Analysis.SpecialFunctions.ExpDeriv
import Mathlib.Analysis.Calculus.Deriv.Inv
import Mathlib.Analysis.Calculus.Deriv.Pow
/-
Property theorems C35 (src/agent_mod): forces and potentials.
-/
set_option linter.unusedSimpArgs false
namespace Moledyn.Props
open Moledyn

/-! ## C35: forces and potentials -/

private theorem expBuilt_coeff {G F : Type} [Fl F] {a : ExpAgent F} (h : ExpAgent.Built G a) :
    a.coeffPot = a.strength ∧ a.coeffForce = a.strength / a.gamma := by
  induction h with
  | @new it mt pos st a h =>
    unfold ExpAgent.new at h
    cases it <;> simp only at h <;> try (simp at h; done)
    split at h
    · simp at h
    · simp only [Res.ok.injEq] at h; subst h; exact ⟨rfl, rfl⟩
  | @newUniform sys t i f g it mt st a g' h =>
    unfold ExpAgent.newUniform at h
    cases it with
    | exponential d ga =>
      simp only at h
      split at h
      · simp at h
      · simp only [Option.map_eq_some_iff] at h
        obtain ⟨⟨⟨p, r⟩, g1⟩, -, h⟩ := h
        cases r with
        | ok u => simp only [Res.map_ok, Prod.mk.injEq, Res.ok.injEq] at h; rw [← h.1]; exact ⟨rfl, rfl⟩
        | err e => simp at h
        | panic => simp at h
    | coulomb2D => simp at h
    | coulomb3D => simp at h
    | lennardJones _ => simp at h
  | @convertFrom mt it ga d st n l a h hm =>
    unfold ExpAgent.convertFrom at h
    simp only at h
    split at h
    · simp at h
    · simp only [Res.ok.injEq] at h
      subst h
      rw [List.eq_of_mem_replicate hm]
      exact ⟨rfl, rfl⟩
  | @renew sys t i f g a b r g' _ h ih =>
    unfold ExpAgent.renewUniform at h
    simp only [Option.map_eq_some_iff] at h
    obtain ⟨⟨⟨p, r⟩, g1⟩, -, h⟩ := h
    simp only [Prod.mk.injEq] at h
    rw [← h.1.1]
    split
    · exact ⟨rfl, rfl⟩
    · exact ih
  | move p _ ih => exact ih

private theorem ljBuilt_coeff {G F : Type} [Fl F] {a : LJAgent F} (h : LJAgent.Built G a) :
    a.coeffPot = Fl.lit 4 * a.strength ∧ a.coeffForce = Fl.lit 24 * a.strength / a.ptlSize := by
  induction h with
  | @new it mt pos st a h =>
    unfold LJAgent.new at h
    cases it <;> simp only at h <;> try (simp at h; done)
    simp only [Res.ok.injEq] at h; subst h; exact ⟨rfl, rfl⟩
  | @newUniform sys t i f g it mt st a g' h =>
    unfold LJAgent.newUniform at h
    cases it with
    | lennardJones ps =>
      simp only at h
      simp only [Option.map_eq_some_iff] at h
      obtain ⟨⟨⟨p, r⟩, g1⟩, -, h⟩ := h
      cases r with
      | ok u => simp only [Res.map_ok, Prod.mk.injEq, Res.ok.injEq] at h; rw [← h.1]; exact ⟨rfl, rfl⟩
      | err e => simp at h
      | panic => simp at h
    | coulomb2D => simp at h
    | coulomb3D => simp at h
    | exponential _ _ => simp at h
  | @convertFrom mt it ps st n a hm =>
    rw [List.eq_of_mem_replicate hm]
    exact ⟨rfl, rfl⟩
  | @renew sys t i f g a b r g' _ h ih =>
    unfold LJAgent.renewUniform at h
    simp only [Option.map_eq_some_iff] at h
    obtain ⟨⟨⟨p, r⟩, g1⟩, -, h⟩ := h
    simp only [Prod.mk.injEq] at h
    rw [← h.1.1]
    split
    · exact ⟨rfl, rfl⟩
    · exact ih
  | move p _ ih => exact ih

/-- Exact arithmetic: for every exponential agent a program can hold, at every distance, the force is minus
the derivative of the potential. -/
theorem C35_exponential (G : Type) (a : ExpAgent ℝ) (h : ExpAgent.Built G a) (hγ : a.gamma ≠ 0) (r : ℝ) :
    HasDerivAt (fun x => a.potential x) (-(a.force r)) r := by
  obtain ⟨h1, h2⟩ := expBuilt_coeff h
  unfold ExpAgent.potential ExpAgent.force
  rw [h1, h2]
  have hd : HasDerivAt (fun x : ℝ => -x / a.gamma) (-1 / a.gamma) r := (hasDerivAt_neg r).div_const _
  have := (hd.exp).const_mul a.strength
  refine (this.congr_deriv ?_)
  simp only [fl_exp, fl_mul, fl_div, fl_neg]
  field_simp

/-- Exact arithmetic: for every Lennard-Jones agent a program can hold, at every distance r ≠ 0, the force is
minus the derivative of the potential. -/
theorem C35_lennard_jones (G : Type) (a : LJAgent ℝ) (h : LJAgent.Built G a) (hs : a.ptlSize ≠ 0) (r : ℝ)
    (hr : r ≠ 0) : HasDerivAt (fun x => a.potential x) (-(a.force r)) r := by
  obtain ⟨h1, h2⟩ := ljBuilt_coeff h
  unfold LJAgent.potential LJAgent.force
  rw [h1, h2]
  simp only [fl_powi, fl_mul, fl_div, fl_sub, fl_lit, Rat.cast_one, Rat.cast_ofNat]
  have hx : HasDerivAt (fun x : ℝ => a.ptlSize / x) (-a.ptlSize / r ^ 2) r := by
    have := (hasDerivAt_inv hr).const_mul a.ptlSize
    refine (this.congr_deriv ?_)
    field_simp
  have h6 := hx.pow 6
  have hp := (h6.const_mul ((4 : ℝ) * a.strength)).mul (h6.sub_const 1)
  have hfun : (fun x : ℝ => (4 : ℝ) * a.strength * (a.ptlSize / x) ^ 6 * ((a.ptlSize / x) ^ 6 - 1)) =
      (fun x : ℝ => (4 : ℝ) * a.strength * ((fun x => a.ptlSize / x) ^ 6) x) *
        fun x => ((fun x => a.ptlSize / x) ^ 6) x - 1 := by
    funext x; rfl
  rw [hfun]
  refine (hp.congr_deriv ?_)
  simp only [Pi.pow_apply, show 6 - 1 = 5 from rfl, div_pow]
  push_cast
  field_simp
  ring

/-- Exact arithmetic: with positive strength and particle size, the Lennard-Jones force is repulsive exactly
below the distance `2^(1/6) * size` (i.e. `r^6 < 2 size^6`), attractive exactly beyond it, and the potential
vanishes at `r = size`; the exponential force is repulsive at every distance. -/
theorem C35_signs (G : Type) (a : LJAgent ℝ) (h : LJAgent.Built G a) (hs : 0 < a.ptlSize) (hst : 0 < a.strength)
    (b : ExpAgent ℝ) (hb : ExpAgent.Built G b) (hγ : 0 < b.gamma) (hbs : 0 < b.strength) (r : ℝ) (hr : 0 < r) :
    (0 < a.force r ↔ r ^ 6 < 2 * a.ptlSize ^ 6) ∧ (a.force r < 0 ↔ 2 * a.ptlSize ^ 6 < r ^ 6) ∧
    a.potential a.ptlSize = 0 ∧ 0 < b.force r ∧ 0 < b.potential r := by
  obtain ⟨h1, h2⟩ := ljBuilt_coeff h
  obtain ⟨h3, h4⟩ := expBuilt_coeff hb
  have hpos : 0 < (24 : ℝ) * a.strength / a.ptlSize * (a.ptlSize / r) ^ 6 * (a.ptlSize / r) := by
    positivity
  have hf : a.force r = (24 : ℝ) * a.strength / a.ptlSize * (a.ptlSize / r) ^ 6 * (a.ptlSize / r) *
      (2 * (a.ptlSize / r) ^ 6 - 1) := by
    unfold LJAgent.force; rw [h2]
    simp only [fl_powi, fl_mul, fl_div, fl_sub, fl_lit, Rat.cast_one, Rat.cast_ofNat]
  have hr6 : (0 : ℝ) < r ^ 6 := by positivity
  have e : 2 * (a.ptlSize / r) ^ 6 - 1 = (2 * a.ptlSize ^ 6 - r ^ 6) / r ^ 6 := by
    rw [div_pow]; field_simp
  refine ⟨?_, ?_, ?_, ?_, ?_⟩
  · rw [hf, mul_pos_iff_of_pos_left hpos, e, div_pos_iff_of_pos_right hr6, sub_pos]
  · rw [hf, e, ← neg_pos, ← mul_neg, mul_pos_iff_of_pos_left hpos, ← neg_div, div_pos_iff_of_pos_right hr6,
      neg_pos, sub_neg]
  · unfold LJAgent.potential
    simp only [fl_powi, fl_mul, fl_div, fl_sub, fl_lit, Rat.cast_one]
    rw [div_self hs.ne']; simp
  · unfold ExpAgent.force; rw [h4]
    simp only [fl_exp, fl_mul, fl_div]; positivity
  · unfold ExpAgent.potential; rw [h3]
    simp only [fl_exp, fl_mul]; positivity

example : ∃ a : LJAgent ℝ, LJAgent.Built Unit a ∧ a.ptlSize = 2 ∧ a.strength = 3 := by
  refine ⟨_, LJAgent.Built.new (it := .lennardJones 2) (mt := .levy) (pos := [0]) (st := 3) rfl, rfl, rfl⟩

end Moledyn.Props
