import Mathlib.Analysis.InnerProductSpace.Basic
import Mathlib.Analysis.SpecialFunctions.Log.Basic
import Mathlib.Tactic.Linarith
import Mathlib.Tactic.Positivity
/-
A walker in a ball with a mirror that is pushed along an axis, then back, then forth again, comes near every point of that
axis, wherever it was.
-/
namespace Moledyn.BallSweep
open scoped RealInnerProductSpace
set_option linter.unusedSectionVars false
variable {E : Type*} [NormedAddCommGroup E] [InnerProductSpace ℝ E]

/-- a mirror at distance `R` from the centre. -/
noncomputable def mirror (R : ℝ) (x : E) : E := if R < ‖x‖ then ((2 * R - ‖x‖) / ‖x‖) • x else x

/-- the height along the axis `e`. -/
noncomputable def up (e x : E) : ℝ := ⟪e, x⟫
/-- the distance from the axis `e`. -/
noncomputable def off (e x : E) : ℝ := ‖x - up e x • e‖

theorem up_add (e x v : E) : up e (x + v) = up e x + up e v := inner_add_right e x v
theorem up_smul (e x : E) (a : ℝ) : up e (a • x) = a * up e x := by simp [up, inner_smul_right]
theorem up_le {e : E} (he : ‖e‖ = 1) (x : E) : |up e x| ≤ ‖x‖ := by
  have := abs_real_inner_le_norm e x
  rwa [he, one_mul] at this
theorem off_add (e x v : E) : off e (x + v) ≤ off e x + off e v := by
  unfold off
  rw [up_add, show x + v - (up e x + up e v) • e = (x - up e x • e) + (v - up e v • e) by rw [add_smul]; abel]
  exact norm_add_le _ _
theorem off_smul (e x : E) {a : ℝ} (ha : 0 ≤ a) : off e (a • x) = a * off e x := by
  unfold off
  rw [up_smul, mul_smul, ← smul_sub, norm_smul, Real.norm_eq_abs, abs_of_nonneg ha]
theorem off_nonneg (e x : E) : 0 ≤ off e x := norm_nonneg _
theorem norm_le_up_off {e : E} (he : ‖e‖ = 1) (x : E) : ‖x‖ ≤ |up e x| + off e x := by
  calc ‖x‖ = ‖up e x • e + (x - up e x • e)‖ := by rw [add_sub_cancel]
    _ ≤ ‖up e x • e‖ + ‖x - up e x • e‖ := norm_add_le _ _
    _ = _ := by rw [norm_smul, he, mul_one, Real.norm_eq_abs, off]
theorem off_le {e : E} (he : ‖e‖ = 1) (x : E) : off e x ≤ ‖x‖ := by
  have h : ‖x - up e x • e‖ ^ 2 ≤ ‖x‖ ^ 2 := by
    rw [norm_sub_sq_real, inner_smul_right, real_inner_comm, norm_smul, he, mul_one, Real.norm_eq_abs, sq_abs]
    have : (⟪e, x⟫ : ℝ) = up e x := rfl
    rw [this]
    nlinarith [sq_nonneg (up e x)]
  exact le_of_sq_le_sq h (norm_nonneg _)
theorem near_axis {e : E} (he : ‖e‖ = 1) (x : E) (c : ℝ) : ‖x - c • e‖ ≤ |up e x - c| + off e x := by
  calc ‖x - c • e‖ = ‖(up e x - c) • e + (x - up e x • e)‖ := by rw [sub_smul]; congr 1; abel
    _ ≤ ‖(up e x - c) • e‖ + ‖x - up e x • e‖ := norm_add_le _ _
    _ = _ := by rw [norm_smul, he, mul_one, Real.norm_eq_abs, off]

/-- what the mirror does to a short step. -/
theorem mirror_step {R : ℝ} (hR : 0 < R) {x v : E} (hx : ‖x‖ ≤ R) (hv : ‖v‖ < R) :
    ∃ φ : ℝ, 0 < φ ∧ φ ≤ 1 ∧ mirror R (x + v) = φ • (x + v) ∧ ‖x + v‖ < 2 * R ∧ ‖mirror R (x + v)‖ ≤ R ∧
      (φ = 1 ∨ R < ‖x + v‖) ∧ (1 - φ) * ‖x + v‖ ≤ 2 * ‖v‖ := by
  have h1 : ‖x + v‖ ≤ ‖x‖ + ‖v‖ := norm_add_le _ _
  by_cases h : R < ‖x + v‖
  · have hp : 0 < ‖x + v‖ := hR.trans h
    refine ⟨(2 * R - ‖x + v‖) / ‖x + v‖, div_pos (by linarith) hp, ?_, by rw [mirror, if_pos h], by linarith, ?_, .inr h, ?_⟩
    · rw [div_le_one hp]; linarith
    · rw [mirror, if_pos h, norm_smul, Real.norm_eq_abs, abs_of_nonneg (div_nonneg (by linarith) hp.le), div_mul_cancel₀ _ hp.ne']
      linarith
    · rw [sub_mul, div_mul_cancel₀ _ hp.ne']
      linarith
  · refine ⟨1, one_pos, le_rfl, by rw [mirror, if_neg h, one_smul], by linarith [not_lt.1 h], ?_, .inl rfl, ?_⟩
    · rw [mirror, if_neg h]; exact not_lt.1 h
    · simp

/-- a push along the axis, up (`s = 1`) or down (`s = -1`), by at least `a` and at most `b`, and at most `δ` aside. -/
structure Push (e : E) (a b δ s : ℝ) (v : E) : Prop where
  along : a ≤ s * up e v
  short : ‖v‖ ≤ b
  aside : off e v ≤ δ

section
variable {e : E} (he : ‖e‖ = 1) {R a b δ : ℝ} (hR : 0 < R) (hbR : b < R) (hδ : 0 ≤ δ)
include he hR hbR hδ

theorem off_step {s : ℝ} {x v : E} (hx : ‖x‖ ≤ R) (hv : Push e a b δ s v) : off e (mirror R (x + v)) ≤ off e x + δ := by
  obtain ⟨φ, h0, h1, hm, -⟩ := mirror_step hR hx (hv.short.trans_lt hbR)
  rw [hm, off_smul e _ h0.le]
  have h2 := off_add e x v
  have h3 := off_nonneg e (x + v)
  have := hv.aside
  nlinarith

/-- after `j` pushes upwards. -/
def Rising (e : E) (R a δ : ℝ) (j : ℕ) (x : E) : Prop :=
  ∃ f : ℝ, 0 < f ∧ f ≤ 1 ∧ off e x ≤ R * f + δ * j ∧ -R + a * j + 2 * R * Real.log f ≤ up e x

theorem rising_zero {x : E} (hx : ‖x‖ ≤ R) : Rising e R a δ 0 x := by
  refine ⟨1, one_pos, le_rfl, ?_, ?_⟩
  · simpa using (off_le he x).trans hx
  · have := (abs_le.1 ((up_le he x).trans hx)).1
    simpa using this

theorem rising_step {x v : E} {j : ℕ} (hx : ‖x‖ ≤ R) (hv : Push e a b δ 1 v) (h : Rising e R a δ j x) :
    Rising e R a δ (j + 1) (mirror R (x + v)) := by
  obtain ⟨f, f0, f1, h1, h2⟩ := h
  obtain ⟨φ, p0, p1, hm, hn, -, -, -⟩ := mirror_step hR hx (hv.short.trans_lt hbR)
  have hu : up e (x + v) ≤ 2 * R := ((le_abs_self _).trans (up_le he _)).trans hn.le
  have hl : Real.log φ ≤ φ - 1 := Real.log_le_sub_one_of_pos p0
  refine ⟨f * φ, mul_pos f0 p0, mul_le_one₀ f1 p0.le p1, ?_, ?_⟩
  · rw [hm, off_smul e _ p0.le]
    have h3 := off_add e x v
    have h4 := hv.aside
    push_cast
    have h5 : off e (x + v) ≤ R * f + δ * (j + 1) := by linarith
    have h6 : φ * off e (x + v) ≤ φ * (R * f + δ * (j + 1)) := mul_le_mul_of_nonneg_left h5 p0.le
    have h7 : φ * (δ * ((j : ℝ) + 1)) ≤ 1 * (δ * (j + 1)) := mul_le_mul_of_nonneg_right p1 (by positivity)
    nlinarith
  · rw [hm, up_smul, Real.log_mul f0.ne' p0.ne']
    have h3 := hv.along
    rw [one_mul] at h3
    have h4 := up_add e x v
    have h5 : (1 - φ) * up e (x + v) ≤ (1 - φ) * (2 * R) := mul_le_mul_of_nonneg_left hu (by linarith)
    have h6 : 2 * R * Real.log φ ≤ 2 * R * (φ - 1) := mul_le_mul_of_nonneg_left hl (by linarith)
    push_cast
    nlinarith

theorem rising_end {x : E} {j : ℕ} (hx : ‖x‖ ≤ R) (h : Rising e R a δ j x) :
    off e x ≤ R * Real.exp (1 - a * j / (2 * R)) + δ * j := by
  obtain ⟨f, f0, f1, h1, h2⟩ := h
  have hu : up e x ≤ R := (le_abs_self _).trans ((up_le he x).trans hx)
  have hl : Real.log f ≤ 1 - a * j / (2 * R) := by
    rw [le_sub_iff_add_le, ← sub_nonneg]
    have h3 : 0 ≤ (2 * R - a * j - 2 * R * Real.log f) / (2 * R) := div_nonneg (by linarith) (by linarith)
    have h4 : (2 * R - a * j - 2 * R * Real.log f) / (2 * R) = 1 - (Real.log f + a * j / (2 * R)) := by field_simp; ring
    linarith
  have hf : f ≤ Real.exp (1 - a * j / (2 * R)) := by
    rw [← Real.exp_log f0]
    exact Real.exp_le_exp.2 hl
  nlinarith

/-- a push downwards. -/
theorem down_step {c ε : ℝ} (hc : 0 ≤ c) (ha : 0 ≤ a) (hbε : 3 * b ≤ ε) {x v : E} (hx : ‖x‖ ≤ R) (hv : Push e a b δ (-1) v)
    (hoff : off e (mirror R (x + v)) < ε / 2) (hmiss : ε ≤ ‖mirror R (x + v) - c • e‖) {top : ℝ}
    (h : up e x ≤ c ∨ (c + ε / 2 ≤ up e x ∧ up e x ≤ top)) :
    up e (mirror R (x + v)) ≤ c ∨ (c + ε / 2 ≤ up e (mirror R (x + v)) ∧ up e (mirror R (x + v)) ≤ top - a) := by
  obtain ⟨φ, p0, p1, hm, hn, -, -, hback⟩ := mirror_step hR hx (hv.short.trans_lt hbR)
  have h1 := hv.along
  have h2 := hv.short
  have h3 := up_add e x v
  have h4 := up_le he (x + v)
  have h5 := up_le he v
  have hw : ε / 2 < |up e (mirror R (x + v)) - c| := by
    have := near_axis he (mirror R (x + v)) c
    linarith
  rw [hm, up_smul] at hw ⊢
  have hlow : φ * up e (x + v) ≤ max 0 (up e (x + v)) := by
    rcases le_total 0 (up e (x + v)) with h | h
    · rw [max_eq_right h]; nlinarith
    · rw [max_eq_left h]; nlinarith
  rcases h with h | ⟨h, htop⟩
  · left
    refine hlow.trans (max_le hc ?_)
    linarith
  · right
    have h6 := (abs_le.1 h5).1
    have hpos : 0 ≤ up e (x + v) := by linarith
    have h7 : (1 - φ) * up e (x + v) ≤ 2 * b := by
      have : (1 - φ) * up e (x + v) ≤ (1 - φ) * ‖x + v‖ := mul_le_mul_of_nonneg_left ((le_abs_self _).trans h4) (by linarith)
      linarith
    have h8 : φ * up e (x + v) ≤ top - a := by
      rw [max_eq_right hpos] at hlow
      linarith
    refine ⟨?_, h8⟩
    by_contra hlt
    push Not at hlt
    have h9 : c + ε / 2 - 3 * b ≤ φ * up e (x + v) := by nlinarith
    have : |φ * up e (x + v) - c| ≤ ε / 2 := abs_le.2 ⟨by linarith, by linarith⟩
    linarith

/-- a push upwards, below the point looked for. -/
theorem up_step {c ε : ℝ} (hc : 0 ≤ c) (hcR : c + ε ≤ R) (hbε : 3 * b ≤ ε) {x v : E} (hx : ‖x‖ ≤ R) (hv : Push e a b δ 1 v)
    (hoffx : off e (x + v) < ε / 2) (hoff : off e (mirror R (x + v)) < ε / 2) (hmiss : ε ≤ ‖mirror R (x + v) - c • e‖)
    (h : up e x ≤ c - ε / 2) :
    up e (mirror R (x + v)) ≤ c - ε / 2 ∧ up e x + a ≤ up e (mirror R (x + v)) := by
  obtain ⟨φ, p0, p1, hm, hn, -, hcase, -⟩ := mirror_step hR hx (hv.short.trans_lt hbR)
  have h1 := hv.along
  rw [one_mul] at h1
  have h2 := hv.short
  have h3 := up_add e x v
  have h4 := up_le he (x + v)
  have h5 := (abs_le.1 (up_le he v)).2
  have h0 := norm_nonneg v
  have hw : ε / 2 < |up e (mirror R (x + v)) - c| := by
    have := near_axis he (mirror R (x + v)) c
    linarith
  have hu : up e (x + v) ≤ c - ε / 2 + b := by linarith
  rcases hcase with rfl | hout
  · rw [hm, one_smul] at hw ⊢
    refine ⟨?_, by linarith⟩
    by_contra hlt
    push Not at hlt
    have : |up e (x + v) - c| ≤ ε / 2 := abs_le.2 ⟨by linarith, by linarith⟩
    linarith
  · have h6 := norm_le_up_off he (x + v)
    have hneg : up e (x + v) < 0 := by
      by_contra hge
      push Not at hge
      rw [abs_of_nonneg hge] at h6
      linarith
    rw [hm, up_smul] at hw ⊢
    have h7 : up e (x + v) ≤ φ * up e (x + v) := by nlinarith
    refine ⟨?_, by linarith⟩
    by_contra hlt
    push Not at hlt
    have h8 : φ * up e (x + v) ≤ 0 := by nlinarith
    have : |φ * up e (x + v) - c| ≤ ε / 2 := abs_le.2 ⟨by linarith, by linarith⟩
    linarith
end

/-- A walker that is pushed up `J` times or more, then down, then up again, comes nearer than `ε` to the point at height `c` of
the axis. -/
theorem sweep_core {e : E} (he : ‖e‖ = 1) {R a b δ c ε : ℝ} (hδ : 0 ≤ δ) (ha : 0 < a) (hε : 0 < ε) (hc : 0 ≤ c) (hcR : c + ε ≤ R)
    (hbε : 3 * b ≤ ε) {J L t₁ t₂ t₃ : ℕ} (h1 : J ≤ t₁) (h2 : t₁ + J ≤ t₂) (h3 : t₂ + J ≤ t₃) (hL : t₃ ≤ L)
    (hJ1 : R * Real.exp (1 - a * J / (2 * R)) ≤ ε / 8) (hJ2 : 2 * R < a * J) (hδL : δ * L ≤ ε / 8)
    (x v : ℕ → E) (hx : ‖x 0‖ ≤ R) (hstep : ∀ t < t₃, x (t + 1) = mirror R (x t + v t))
    (hu : ∀ t < t₁, Push e a b δ 1 (v t)) (hd : ∀ t, t₁ ≤ t → t < t₂ → Push e a b δ (-1) (v t))
    (hu' : ∀ t, t₂ ≤ t → t < t₃ → Push e a b δ 1 (v t)) : ∃ t < t₃, ‖x (t + 1) - c • e‖ < ε := by
  have hR : 0 < R := by linarith
  have hbR : b < R := by linarith
  by_contra hmiss
  push Not at hmiss
  have hv : ∀ t < t₃, ∃ s, Push e a b δ s (v t) := by
    intro t ht
    rcases lt_or_ge t t₁ with h | h
    · exact ⟨_, hu t h⟩
    · rcases lt_or_ge t t₂ with h' | h'
      · exact ⟨_, hd t h h'⟩
      · exact ⟨_, hu' t h' ht⟩
  have hin : ∀ t ≤ t₃, ‖x t‖ ≤ R := by
    intro t ht
    induction t with
    | zero => exact hx
    | succ t ih =>
      obtain ⟨s, hs⟩ := hv t (by omega)
      obtain ⟨φ, -, -, -, -, h, -⟩ := mirror_step hR (ih (by omega)) (hs.short.trans_lt hbR)
      rw [hstep t (by omega)]
      exact h
  have hJpos : 0 < J := by
    rcases Nat.eq_zero_or_pos J with h | h
    · rw [h] at hJ2; simp at hJ2; linarith
    · exact h
  -- the first pushes bring it near the axis
  have hrise : ∀ t ≤ t₁, Rising e R a δ t (x t) := by
    intro t ht
    induction t with
    | zero => exact rising_zero he hR hbR hδ hx
    | succ t ih =>
      rw [hstep t (by omega)]
      exact rising_step he hR hbR hδ (hin t (by omega)) (hu t (by omega)) (ih (by omega))
  have hoff1 : off e (x t₁) ≤ ε / 8 + δ * t₁ := by
    refine (rising_end he hR hbR hδ (hin t₁ (by omega)) (hrise t₁ le_rfl)).trans (add_le_add_left (le_trans ?_ hJ1) _)
    refine mul_le_mul_of_nonneg_left (Real.exp_le_exp.2 ?_) hR.le
    have : (J : ℝ) ≤ t₁ := by exact_mod_cast h1
    have : a * J / (2 * R) ≤ a * t₁ / (2 * R) := div_le_div_of_nonneg_right (mul_le_mul_of_nonneg_left this ha.le) (by linarith)
    linarith
  have hoff : ∀ t, t₁ ≤ t → t ≤ t₃ → off e (x t) ≤ ε / 8 + δ * t := by
    intro t ht
    induction t, ht using Nat.le_induction with
    | base => exact fun _ => hoff1
    | succ t ht ih =>
      intro h
      obtain ⟨s, hs⟩ := hv t (by omega)
      rw [hstep t (by omega)]
      have := off_step he hR hbR hδ (hin t (by omega)) hs
      have := ih (by omega)
      push_cast
      linarith
  have hδt : ∀ t ≤ t₃, δ * t ≤ ε / 8 := fun t ht => le_trans (mul_le_mul_of_nonneg_left (by exact_mod_cast ht.trans hL) hδ) hδL
  have hoff' : ∀ t, t₁ ≤ t → t ≤ t₃ → off e (x t) ≤ ε / 4 := fun t h h' => by
    have := hoff t h h'
    have := hδt t h'
    linarith
  -- then down
  have hwin : ∀ t, t₁ ≤ t → t ≤ t₃ → 0 < t → up e (x t) ≤ c - ε / 2 ∨ c + ε / 2 ≤ up e (x t) := by
    intro t h h' h0
    obtain ⟨t, rfl⟩ : ∃ s, t = s + 1 := ⟨t - 1, by omega⟩
    have h4 := hmiss t (by omega)
    have h5 := near_axis he (x (t + 1)) c
    have h6 := hoff' _ h h'
    by_contra hno
    push Not at hno
    have : |up e (x (t + 1)) - c| ≤ ε / 2 := abs_le.2 ⟨by linarith, by linarith⟩
    linarith
  have hdown : ∀ t, t₁ ≤ t → t ≤ t₂ → up e (x t) ≤ c ∨ (c + ε / 2 ≤ up e (x t) ∧ up e (x t) ≤ R - a * (t - t₁ : ℕ)) := by
    intro t ht
    induction t, ht using Nat.le_induction with
    | base =>
      intro _
      rcases hwin t₁ le_rfl (by omega) (by omega) with h | h
      · left; linarith
      · right
        refine ⟨h, ?_⟩
        have := (le_abs_self _).trans ((up_le he (x t₁)).trans (hin t₁ (by omega)))
        simpa using this
    | succ t ht ih =>
      intro h
      have hs := hd t ht (by omega)
      have h4 := hoff' (t + 1) (by omega) (by omega)
      have h5 := hmiss t (by omega)
      rw [hstep t (by omega)] at h4 h5 ⊢
      have h6 := down_step he hR hbR hδ hc ha.le hbε (hin t (by omega)) hs (by linarith) h5 (ih (by omega))
      rw [show t + 1 - t₁ = (t - t₁) + 1 by omega]
      push_cast
      rw [show R - a * (((t - t₁ : ℕ) : ℝ) + 1) = R - a * (t - t₁ : ℕ) - a by ring]
      exact h6
  have hlow : up e (x t₂) ≤ c - ε / 2 := by
    rcases hwin t₂ (by omega) (by omega) (by omega) with h | h
    · exact h
    · exfalso
      rcases hdown t₂ (by omega) le_rfl with h' | ⟨-, h'⟩
      · linarith
      · have h4 : (J : ℝ) ≤ (t₂ - t₁ : ℕ) := by exact_mod_cast (by omega : J ≤ t₂ - t₁)
        have h5 := mul_le_mul_of_nonneg_left h4 ha.le
        linarith
  -- then up again
  have hup : ∀ t, t₂ ≤ t → t ≤ t₃ → up e (x t) ≤ c - ε / 2 ∧ -R + a * (t - t₂ : ℕ) ≤ up e (x t) := by
    intro t ht
    induction t, ht using Nat.le_induction with
    | base =>
      intro _
      refine ⟨hlow, ?_⟩
      have := (abs_le.1 ((up_le he (x t₂)).trans (hin t₂ (by omega)))).1
      simpa using this
    | succ t ht ih =>
      intro h
      have hs := hu' t ht (by omega)
      have h4 := hoff' (t + 1) (by omega) (by omega)
      have h5 := hmiss t (by omega)
      rw [hstep t (by omega)] at h4 h5 ⊢
      obtain ⟨i1, i2⟩ := ih (by omega)
      have hb0 : off e (v t) ≤ ε / 8 := by
        refine hs.aside.trans ?_
        have := hδt (t + 1) (by omega)
        push_cast at this
        have : 0 ≤ δ * (t : ℝ) := by positivity
        linarith
      have h7 : off e (x t + v t) < ε / 2 := by
        have := off_add e (x t) (v t)
        have := hoff' t (by omega) (by omega)
        linarith
      obtain ⟨j1, j2⟩ := up_step he hR hbR hδ hc hcR hbε (hin t (by omega)) hs h7 (by linarith) h5 i1
      refine ⟨j1, ?_⟩
      rw [show t + 1 - t₂ = (t - t₂) + 1 by omega]
      push_cast
      linarith
  obtain ⟨f1, f2⟩ := hup t₃ (by omega) le_rfl
  have h4 : (J : ℝ) ≤ (t₃ - t₂ : ℕ) := by exact_mod_cast (by omega : J ≤ t₃ - t₂)
  have h5 := mul_le_mul_of_nonneg_left h4 ha.le
  linarith

/-- the direction of push number `k`: up, down, up, `M` times each. -/
def turnOf (M k : ℕ) : ℝ := if k < M then 1 else if k < 2 * M then -1 else 1

/-- a counter that grows by `1` to `N` passes every mark, and not too fast. -/
theorem first_past {k : ℕ → ℕ} {N : ℕ} (h0 : k 0 ≤ N) (hk : ∀ t, k t < k (t + 1) ∧ k (t + 1) ≤ k t + N) (m : ℕ) :
    ∃ t, (∀ s < t, k s < m) ∧ (∀ s, t ≤ s → m ≤ k s) ∧ t ≤ m ∧ k t ≤ m + N := by
  have hm : StrictMono k := strictMono_nat_of_lt_succ fun t => (hk t).1
  have hex : ∃ t, m ≤ k t := ⟨m, hm.le_apply⟩
  classical
  refine ⟨Nat.find hex, fun s hs => not_le.1 (Nat.find_min hex hs), fun s hs => (Nat.find_spec hex).trans (hm.monotone hs),
    Nat.find_min' hex hm.le_apply, ?_⟩
  rcases Nat.eq_zero_or_pos (Nat.find hex) with h | h
  · rw [h]; omega
  · obtain ⟨t, ht⟩ : ∃ t, Nat.find hex = t + 1 := ⟨Nat.find hex - 1, by omega⟩
    rw [ht]
    have := not_le.1 (Nat.find_min hex (m := t) (by omega))
    have := (hk t).2
    omega

theorem grows {k : ℕ → ℕ} {N : ℕ} (hk : ∀ t, k t < k (t + 1) ∧ k (t + 1) ≤ k t + N) (t j : ℕ) : k (t + j) ≤ k t + N * j := by
  induction j with
  | zero => simp
  | succ j ih =>
    have := (hk (t + j)).2
    rw [show t + (j + 1) = t + j + 1 by omega, Nat.mul_succ]
    omega

/-- The walker makes its steps number `k 0 < k 1 < …`, not too far apart. -/
theorem sweep_hits {e : E} (he : ‖e‖ = 1) {R a b δ c ε : ℝ} (hδ : 0 ≤ δ) (ha : 0 < a) (hε : 0 < ε) (hc : 0 ≤ c) (hcR : c + ε ≤ R)
    (hbε : 3 * b ≤ ε) {J N : ℕ} (hN : 0 < N)
    (hJ1 : R * Real.exp (1 - a * J / (2 * R)) ≤ ε / 8) (hJ2 : 2 * R < a * J) (hδL : δ * (3 * (N * (J + 1)) : ℕ) ≤ ε / 8)
    (x v : ℕ → E) (hx : ‖x 0‖ ≤ R) (k : ℕ → ℕ) (h0 : k 0 ≤ N) (hk : ∀ t, k t < k (t + 1) ∧ k (t + 1) ≤ k t + N)
    (hstep : ∀ t < 3 * (N * (J + 1)), x (t + 1) = mirror R (x t + v t))
    (hv : ∀ t, k t < 3 * (N * (J + 1)) → Push e a b δ (turnOf (N * (J + 1)) (k t)) (v t)) :
    ∃ t < 3 * (N * (J + 1)), ‖x (t + 1) - c • e‖ < ε := by
  set M := N * (J + 1) with hM
  obtain ⟨t₁, a1, a2, a3, a4⟩ := first_past h0 hk M
  obtain ⟨t₂, b1, b2, b3, b4⟩ := first_past h0 hk (2 * M)
  obtain ⟨t₃, c1, c2, c3, c4⟩ := first_past h0 hk (3 * M)
  have hMN : M = N * J + N := by rw [hM, Nat.mul_succ]
  have gap : ∀ {m s t : ℕ}, k s ≤ m + N → m + M ≤ k t → s ≤ t → s + J ≤ t := by
    intro m s t hs ht hst
    have h := grows hk s (t - s)
    rw [Nat.add_sub_cancel' hst] at h
    have h1 : N * J ≤ N * (t - s) := by omega
    have := Nat.le_of_mul_le_mul_left h1 hN
    omega
  have h12 : t₁ ≤ t₂ := by
    by_contra hlt
    have := a1 t₂ (by omega)
    have := b2 t₂ le_rfl
    omega
  have h23 : t₂ ≤ t₃ := by
    by_contra hlt
    have := b1 t₃ (by omega)
    have := c2 t₃ le_rfl
    omega
  have g1 : J ≤ t₁ := by
    have := gap (m := 0) (s := 0) (t := t₁) (by omega) (by have := a2 t₁ le_rfl; omega) (by omega)
    omega
  have g2 := gap (m := M) a4 (by have := b2 t₂ le_rfl; omega) h12
  have g3 := gap (m := 2 * M) b4 (by have := c2 t₃ le_rfl; omega) h23
  obtain ⟨t, ht, hh⟩ := sweep_core he hδ ha hε hc hcR hbε g1 g2 g3 (L := 3 * M) c3 hJ1 hJ2 hδL x v hx
    (fun t ht => hstep t (by omega))
    (fun t ht => by
      have h := hv t (by have := a1 t ht; omega)
      rwa [turnOf, if_pos (a1 t ht)] at h)
    (fun t ht ht' => by
      have h := hv t (by have := b1 t ht'; omega)
      rwa [turnOf, if_neg (by have := a2 t ht; omega), if_pos (b1 t ht')] at h)
    (fun t ht ht' => by
      have h := hv t (c1 t ht')
      rwa [turnOf, if_neg (by have := b2 t ht; omega), if_neg (by have := b2 t ht; omega)] at h)
  exact ⟨t, by omega, hh⟩
end Moledyn.BallSweep
