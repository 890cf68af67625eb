import Verif.Lemmas.System
/-
Property theorems C19-C25 (src/system_mod).
-/
namespace Moledyn.Props
open Pos hiding norm

/-! ## C19: an accepted move ends inside -/

/-- Any arithmetic (rounding, overflow, NaN): when `check_bc` answers Ok, the new position passes
`check_inclusion`. -/
theorem C19_accepted_is_inside {F : Type} [Fl F] (cu : Cubic F) (ci : Circ F) (cy : Cyl F)
    (pos dp : Pos F) :
    ((cu.checkBc pos dp).2 = .ok () → cu.checkInclusion (cu.checkBc pos dp).1 = .ok true) ∧
    ((ci.checkBc pos dp).2 = .ok () → ci.checkInclusion (ci.checkBc pos dp).1 = .ok true) ∧
    ((cy.checkBc pos dp).2 = .ok () → cy.checkInclusion (cy.checkBc pos dp).1 = .ok true) := by
  refine ⟨?_, ?_, ?_⟩
  · rw [Cubic.checkBc_eq]; exact bcStep_ok
  · rw [Circ.checkBc_eq]; exact bcStep_ok
  · rw [Cyl.checkBc_eq]; exact bcStep_ok

private theorem finish_ok {F : Type} [Fl F] (s : Circ F) (p d : Pos F)
    (h : (Circ.finish s p d).2 = .ok ()) : s.checkInclusion (Circ.finish s p d).1.1 = .ok true := by
  unfold Circ.finish at *
  rcases hm : p.mutAdd d with ⟨q, r⟩
  rw [hm] at h
  cases r with
  | err e => simp at h
  | panic => simp at h
  | ok u =>
    simp only at h ⊢
    rcases hi : s.checkInclusion q with b | e | _
    · rw [hi] at h
      cases b with
      | true => simpa using hi
      | false => simp at h
    · rw [hi] at h; simp at h
    · rw [hi] at h; simp at h

/-- The same for the alternative reflections `check_bc_exact` and `check_bc_first_order`. -/
theorem C19_exact_and_first_order {F : Type} [Fl F] (s : Circ F) (pos dp : Pos F) :
    ((s.checkBcExact pos dp).2 = .ok () → s.checkInclusion (s.checkBcExact pos dp).1.1 = .ok true) ∧
    ((s.checkBcFirstOrder pos dp).2 = .ok () →
      s.checkInclusion (s.checkBcFirstOrder pos dp).1.1 = .ok true) := by
  constructor
  · intro h
    unfold Circ.checkBcExact at *
    rcases hm : pos.mutAdd dp with ⟨p, r⟩
    rw [hm] at h
    cases r with
    | err e => simp at h
    | panic => simp at h
    | ok u =>
      simp only at h ⊢
      rcases hi : s.checkInclusion p with b | e | _
      · rw [hi] at h
        cases b with
        | true => simpa using hi
        | false =>
          simp only at h ⊢
          rcases hs : p.mutSub dp with ⟨p2, r2⟩
          rw [hs] at h
          cases r2 with
          | err e => simp at h
          | panic => simp at h
          | ok u =>
            simp only at h ⊢
            rcases hp : Pos.innerProduct p2 dp with x | e | _
            · rw [hp] at h; exact finish_ok s _ _ h
            · rw [hp] at h; simp at h
            · rw [hp] at h; simp at h
      · rw [hi] at h; simp at h
      · rw [hi] at h; simp at h
  · intro h
    unfold Circ.checkBcFirstOrder at *
    rcases hm : pos.mutAdd dp with ⟨p, r⟩
    rw [hm] at h
    cases r with
    | err e => simp at h
    | panic => simp at h
    | ok u =>
      simp only at h ⊢
      rcases hi : s.checkInclusion p with b | e | _
      · rw [hi] at h
        cases b with
        | true => simpa using hi
        | false =>
          simp only at h ⊢
          rcases hs : p.mutSub dp with ⟨p2, r2⟩
          rw [hs] at h
          cases r2 with
          | err e => simp at h
          | panic => simp at h
          | ok u =>
            simp only at h ⊢
            rcases hp : Pos.innerProduct p2 dp with x | e | _
            · rw [hp] at h; exact finish_ok s _ _ h
            · rw [hp] at h; simp at h
            · rw [hp] at h; simp at h
      · rw [hi] at h; simp at h
      · rw [hi] at h; simp at h

/-- What "passes check_inclusion" means in exact arithmetic: right dimension, and every coordinate within
`[-L, L]` (cube), distance from the centre at most `R` (sphere), both on the respective axes (cylinder). -/
theorem C19_inclusion_meaning (cu : Cubic ℝ) (ci : Circ ℝ) (cy : Cyl ℝ) (d : Nat)
    (hty : cy.sysType = .continuousCylindrical d) (hd : d ≤ cy.dim) (p : Pos ℝ) :
    (cu.checkInclusion p = .ok true ↔ p.length = cu.dim ∧ ∀ x ∈ p, |x| ≤ cu.sysSize) ∧
    (ci.checkInclusion p = .ok true ↔ p.length = ci.dim ∧ radius p ≤ ci.sysSize) ∧
    (cy.checkInclusion p = .ok true ↔ p.length = cy.dim ∧ radius (p.take d) ≤ cy.sysRadius ∧
      ∀ x ∈ p.drop d, |x| ≤ cy.sysLength) := by
  refine ⟨?_, ?_, ?_⟩
  · rcases cu.checkInclusion_cases p with ⟨h, e⟩ | ⟨h, e⟩
    · rw [e]; simp; intro h'; exact absurd h'.symm h
    · rw [e, any_gt_real]; simp [h]
  · rcases ci.checkInclusion_cases p with ⟨h, e⟩ | ⟨h, e⟩
    · rw [e]; simp; intro h'; exact absurd h'.symm h
    · rw [e, norm_eq_radius]; simp [h]
  · by_cases h : cy.dim = p.length
    · rw [cy.checkInclusion_eq p d h hty (by omega), any_gt_real, norm_eq_radius]
      simp only [fl_lt, Res.ok.injEq, Bool.and_eq_true, Bool.not_eq_true', decide_eq_false_iff_not,
        not_lt, decide_eq_true_eq, h, true_and]
    · rw [cy.checkInclusion_dim p h]; simp; intro h'; exact absurd h'.symm h

/-- Any arithmetic: a position that passes `check_inclusion` has the dimension of the system, so an accepted move does not
change it. -/
theorem C19_inside_has_dimension {F : Type} [Fl F] (cu : Cubic F) (ci : Circ F) (cy : Cyl F) (p : Pos F) :
    (cu.checkInclusion p = .ok true → p.length = cu.dim) ∧
    (ci.checkInclusion p = .ok true → p.length = ci.dim) ∧
    (cy.checkInclusion p = .ok true → p.length = cy.dim) := by
  refine ⟨fun h => ?_, fun h => ?_, fun h => ?_⟩
  · rcases cu.checkInclusion_cases p with ⟨_, e⟩ | ⟨h', _⟩
    · rw [e] at h; cases h
    · exact h'.symm
  · rcases ci.checkInclusion_cases p with ⟨_, e⟩ | ⟨h', _⟩
    · rw [e] at h; cases h
    · exact h'.symm
  · by_contra hn
    rw [cy.checkInclusion_dim p (Ne.symm hn)] at h; cases h

example : (⟨.continuousRectangular, .reflection, 1, 2⟩ : Cubic ℝ).checkInclusion [1/2, -1] = .ok true := by
  rw [((C19_inclusion_meaning _ ⟨.continuousCircular, .reflection, 1, 2⟩ ⟨.continuousCylindrical 1, .mixed 1, 1, 1, 2⟩ 1
    rfl (by norm_num) _).1)]
  refine ⟨rfl, ?_⟩
  intro x hx
  simp at hx
  rcases hx with rfl | rfl <;> norm_num [abs_of_nonneg]

/-- NaN coordinates count as inside for the cube: comparisons with NaN are false. -/
theorem C19_nan_is_inside (L : ℚ) (bc : BoundaryCond) :
    (⟨.continuousRectangular, bc, .fin L, 1⟩ : Cubic XF).checkInclusion [.nan] = .ok true := rfl

/-! ## C20: the cube -/

theorem new_cubic {bc : BoundaryCond} {L : ℝ} {n : Nat} {s : Cubic ℝ}
    (h : Cubic.new bc L n = .ok s) :
    0 < L ∧ 0 < n ∧ s = ⟨.continuousRectangular, bc, L, n⟩ ∧ ∀ d, bc = .mixed d → d ≤ n := by
  unfold Cubic.new at h
  split at h
  · simp at h
  · rename_i hc
    simp only [fl_le, fl_zero, Bool.or_eq_true, decide_eq_true_eq, not_or, not_le, beq_iff_eq] at hc
    have hn : 0 < n := Nat.pos_of_ne_zero hc.2
    cases bc with
    | mixed d =>
      simp only at h
      split at h
      · simp at h
      · rename_i hd
        simp at h
        exact ⟨hc.1, hn, h.symm, fun d' e => by cases e; omega⟩
    | periodic => simp at h; exact ⟨hc.1, hn, h.symm, fun _ e => by cases e⟩
    | reflection => simp at h; exact ⟨hc.1, hn, h.symm, fun _ e => by cases e⟩

/-- coordinates of the folded position -/
private theorem cubic_fold (bc : BoundaryCond) (L : ℝ) (n : Nat) (hL : 0 < L)
    (hd : ∀ d, bc = .mixed d → d ≤ n) (q : Pos ℝ) (hq : q.length = n) :
    ∃ q2, (⟨.continuousRectangular, bc, L, n⟩ : Cubic ℝ).fold q = .ok q2 ∧ q2.length = n ∧
      ∀ i x, q[i]? = some x → ∃ y, q2[i]? = some y ∧
        (bc.mirrored i → MirrorImage L x y) ∧ (¬ bc.mirrored i → PeriodicImage L x y) := by
  cases bc with
  | reflection =>
    refine ⟨q.map (Fold.reflect L), rfl, by simpa using hq, fun i x hx => ⟨Fold.reflect L x, by simp [hx],
      fun _ => reflect_image L x hL, fun h => absurd trivial h⟩⟩
  | periodic =>
    refine ⟨q.map (Fold.wrap L), rfl, by simpa using hq, fun i x hx => ⟨Fold.wrap L x, by simp [hx],
      fun h => h.elim, fun _ => wrap_image L x hL⟩⟩
  | mixed d =>
    have hdn := hd d rfl
    refine ⟨(q.take d).map (Fold.reflect L) ++ (q.drop d).map (Fold.wrap L), ?_, ?_, ?_⟩
    · unfold Cubic.fold; simp only; rw [if_neg (by omega)]
    · simp; omega
    · intro i x hx
      by_cases hi : i < d
      · refine ⟨Fold.reflect L x, ?_, fun _ => reflect_image L x hL, fun h => absurd hi h⟩
        rw [List.getElem?_append_left (by simp; omega)]
        simp [hi, hx]
      · refine ⟨Fold.wrap L x, ?_, fun h => absurd h hi, fun _ => wrap_image L x hL⟩
        rw [List.getElem?_append_right (by simp; omega)]
        simp only [List.length_map, List.length_take, List.getElem?_map, List.getElem?_drop]
        rw [show d + (i - min d q.length) = i by omega, hx]; rfl

/-- Exact arithmetic.  For a cube built by `new` and vectors of its dimension, `check_bc` leaves in `pos`
the image of `pos + dp`: coordinate by coordinate the mirror image on mirrored axes and the periodic image
on the others.  It answers Ok exactly when every coordinate of `pos + dp` is within `[-3L, 3L]`, and
TooLargeTimeStep otherwise. -/
theorem C20_cube_image (bc : BoundaryCond) (L : ℝ) (n : Nat) (s : Cubic ℝ)
    (hnew : Cubic.new bc L n = .ok s) (pos dp : Pos ℝ) (hpos : pos.length = n) (hdp : dp.length = n) :
    (s.checkBc pos dp).1.length = n ∧
    (∀ (i : Nat) (a b : ℝ), pos[i]? = some a → dp[i]? = some b → ∃ y, (s.checkBc pos dp).1[i]? = some y ∧
      (bc.mirrored i → MirrorImage L (a + b) y) ∧ (¬ bc.mirrored i → PeriodicImage L (a + b) y)) ∧
    ((s.checkBc pos dp).2 = .ok () ↔
      ∀ (i : Nat) (a b : ℝ), pos[i]? = some a → dp[i]? = some b → |a + b| ≤ 3 * L) ∧
    ((s.checkBc pos dp).2 = .ok () ∨ (s.checkBc pos dp).2 = .err .tooLargeTimeStep) := by
  obtain ⟨hL, hn, rfl, hd⟩ := new_cubic hnew
  have hq : (List.zipWith (· + ·) pos dp).length = n := by simp [hpos, hdp]
  obtain ⟨q2, hf, hl2, hco⟩ := cubic_fold bc L n hL hd _ hq
  have hget : ∀ (i : Nat) (x : ℝ), (List.zipWith (· + ·) pos dp)[i]? = some x ↔
      ∃ a b, pos[i]? = some a ∧ dp[i]? = some b ∧ a + b = x := by
    intro i x; rw [List.getElem?_zipWith_eq_some]
  have hinc : ∀ p : Pos ℝ, p.length = n →
      (⟨.continuousRectangular, bc, L, n⟩ : Cubic ℝ).checkInclusion p = .ok (decide (∀ x ∈ p, |x| ≤ L)) := by
    intro p hp
    rcases Cubic.checkInclusion_cases (⟨.continuousRectangular, bc, L, n⟩ : Cubic ℝ) p with ⟨h, _⟩ | ⟨_, e⟩
    · exact absurd hp.symm h
    · rw [e, any_gt_real]
  have hmem : (∀ y ∈ q2, |y| ≤ L) ↔
      ∀ (i : Nat) (a b : ℝ), pos[i]? = some a → dp[i]? = some b → |a + b| ≤ 3 * L := by
    constructor
    · intro h i a b ha hb
      obtain ⟨y, hy, h1, h2⟩ := hco i (a + b) ((hget i _).2 ⟨a, b, ha, hb, rfl⟩)
      have := h y (List.mem_of_getElem? hy)
      by_cases hm : bc.mirrored i
      · exact (mirror_inside_iff hL (h1 hm)).1 this
      · exact (periodic_inside_iff hL (h2 hm)).1 this
    · intro h y hy
      obtain ⟨i, hi⟩ := List.mem_iff_getElem?.1 hy
      have hlt : i < (List.zipWith (· + ·) pos dp).length := by
        rw [hq, ← hl2]; exact (List.getElem?_eq_some_iff.1 hi).1
      obtain ⟨a, b, ha, hb, hab⟩ := (hget i _).1 (List.getElem?_eq_getElem hlt)
      obtain ⟨y', hy', h1, h2⟩ := hco i (a + b) ((hget i _).2 ⟨a, b, ha, hb, rfl⟩)
      rw [hi] at hy'
      simp only [Option.some.injEq] at hy'
      subst hy'
      have := h i a b ha hb
      by_cases hm : bc.mirrored i
      · exact (mirror_inside_iff hL (h1 hm)).2 this
      · exact (periodic_inside_iff hL (h2 hm)).2 this
  have hstep := bcStep_eq (incl := (⟨.continuousRectangular, bc, L, n⟩ : Cubic ℝ).checkInclusion)
    (fold := (⟨.continuousRectangular, bc, L, n⟩ : Cubic ℝ).fold) (pos := pos) (dp := dp)
    (by omega) ⟨_, hinc _ hq⟩ hf (hinc q2 hl2) (by
      rw [hinc _ hq]
      intro h
      simp only [Res.ok.injEq, decide_eq_true_eq] at h
      apply List.ext_getElem?
      intro i
      rcases hx : (List.zipWith (· + ·) pos dp)[i]? with _ | x
      · rw [List.getElem?_eq_none_iff] at hx ⊢; omega
      · obtain ⟨y, hy, h1, h2⟩ := hco i x hx
        rw [hy]
        have hin := h x (List.mem_of_getElem? hx)
        by_cases hm : bc.mirrored i
        · rw [(h1 hm).1 hin]
        · rw [(h2 hm).1 hin])
  rw [Cubic.checkBc_eq, hstep]
  refine ⟨hl2, ?_, ?_, ?_⟩
  · intro i a b ha hb
    exact hco i (a + b) ((hget i _).2 ⟨a, b, ha, hb, rfl⟩)
  · rw [← hmem]
    by_cases h : ∀ y ∈ q2, |y| ≤ L
    · rw [if_pos (by simpa using h)]; simpa using h
    · rw [if_neg (by simpa using h)]; simpa using h
  · by_cases h : ∀ y ∈ q2, |y| ≤ L
    · left; exact if_pos (by simpa using h)
    · right; exact if_neg (by simpa using h)

/-- The periodic image differs from the exact sum by a whole number of periods, the mirror image is the
sum itself or its reflection in one of the two walls. -/
theorem C20_images (L x y : ℝ) :
    (PeriodicImage L x y → ∃ k : ℤ, y = x + k * (2 * L)) ∧
    (MirrorImage L x y → y = x ∨ y - L = L - x ∨ y - (-L) = -L - x) := by
  constructor
  · rintro ⟨h1, h2, h3⟩
    rcases le_or_gt |x| L with hx | hx
    · exact ⟨0, by rw [h1 hx]; simp⟩
    · rcases lt_abs.1 hx with hx | hx
      · exact ⟨-1, by rw [h2 hx]; push_cast; ring⟩
      · exact ⟨1, by rw [h3 (by linarith)]; push_cast; ring⟩
  · rintro ⟨h1, h2, h3⟩
    rcases le_or_gt |x| L with hx | hx
    · exact Or.inl (h1 hx)
    · rcases lt_abs.1 hx with hx | hx
      · exact Or.inr (Or.inl (h2 hx))
      · exact Or.inr (Or.inr (by rw [sub_neg_eq_add]; exact h3 (by linarith)))

example : ∃ s : Cubic ℝ, Cubic.new (.mixed 1) 1 2 = .ok s ∧
    (BoundaryCond.mixed 1).mirrored 0 ∧ ¬ (BoundaryCond.mixed 1).mirrored 1 := by
  refine ⟨⟨.continuousRectangular, .mixed 1, 1, 2⟩, ?_, by simp [BoundaryCond.mirrored],
    by simp [BoundaryCond.mirrored]⟩
  unfold Cubic.new
  rw [if_neg (by simp)]
  simp

/-! ## C21: the sphere -/

private theorem circ_fold_image (R : ℝ) (n : Nat) (q : Pos ℝ) (hq : R < radius q) :
    ∃ q2, (⟨.continuousCircular, .reflection, R, n⟩ : Circ ℝ).fold q = .ok q2 ∧
      q2.length = q.length ∧ RadialImage R q q2 := by
  refine ⟨_, rfl, by simp [Pos.mutScalarMul], fun h => absurd h (not_le.2 hq), fun _ => ?_⟩
  simp only [Pos.mutScalarMul, norm_eq_radius, fl_two]
  apply List.map_congr_left
  intro c _
  show c * ((2 * R - radius q) / radius q) = _
  ring

/-- Exact arithmetic.  For a sphere built by `new`, `check_bc` leaves in `pos` the radial image of
`pos + dp`; it answers Ok exactly when `|pos + dp| ≤ 3R` and TooLargeTimeStep otherwise; a reflected point
is at distance `|2R - |pos+dp||` from the centre. -/
theorem C21_sphere_image (R : ℝ) (n : Nat) (s : Circ ℝ) (hnew : Circ.new R n = .ok s) (pos dp : Pos ℝ)
    (hpos : pos.length = n) (hdp : dp.length = n) :
    RadialImage R (List.zipWith (· + ·) pos dp) (s.checkBc pos dp).1 ∧
    ((s.checkBc pos dp).2 = .ok () ↔ radius (List.zipWith (· + ·) pos dp) ≤ 3 * R) ∧
    ((s.checkBc pos dp).2 = .ok () ∨ (s.checkBc pos dp).2 = .err .tooLargeTimeStep) ∧
    (R < radius (List.zipWith (· + ·) pos dp) →
      radius (s.checkBc pos dp).1 = |2 * R - radius (List.zipWith (· + ·) pos dp)|) := by
  unfold Circ.new at hnew
  split at hnew
  · simp at hnew
  rename_i hc
  simp only [fl_le, fl_zero, Bool.or_eq_true, decide_eq_true_eq, not_or, not_le, beq_iff_eq] at hc
  simp only [Res.ok.injEq] at hnew
  subst hnew
  have hR := hc.1
  have hq : (List.zipWith (· + ·) pos dp).length = n := by simp [hpos, hdp]
  have hinc : ∀ p : Pos ℝ, p.length = n →
      (⟨.continuousCircular, .reflection, R, n⟩ : Circ ℝ).checkInclusion p = .ok (decide (radius p ≤ R)) := by
    intro p hp
    rcases Circ.checkInclusion_cases (⟨.continuousCircular, .reflection, R, n⟩ : Circ ℝ) p with ⟨h, _⟩ | ⟨_, e⟩
    · exact absurd hp.symm h
    · rw [e, norm_eq_radius]; simp [← not_lt]
  rw [Circ.checkBc_eq]
  generalize hQ : List.zipWith (· + ·) pos dp = q at *
  rcases le_or_gt (radius q) R with hin | hout
  · rw [bcStep_inside (by omega) (by rw [hQ, hinc q hq]; simp [hin]), hQ]
    exact ⟨⟨fun _ => rfl, fun h => absurd hin (not_le.2 h)⟩,
      ⟨fun _ => by linarith, fun _ => rfl⟩, Or.inl rfl, fun h => absurd hin (not_le.2 h)⟩
  · obtain ⟨q2, hf, hl2, him⟩ := circ_fold_image R n q hout
    rw [bcStep_outside (by omega) (by rw [hQ, hinc q hq]; simp [hout]) (by rw [hQ]; exact hf)
      (hinc q2 (by omega))]
    refine ⟨him, ?_, ?_, fun h => radial_radius hR him h⟩
    · rw [← radial_inside_iff hR him]
      by_cases h : radius q2 ≤ R <;> simp [h]
    · by_cases h : radius q2 ≤ R <;> simp [h]

example : ∃ s : Circ ℝ, Circ.new 2 3 = .ok s :=
  ⟨⟨.continuousCircular, .reflection, 2, 3⟩, by unfold Circ.new; rw [if_neg (by simp)]⟩

/-! ## C22: the cylinder -/

theorem new_cyl {d : Nat} {R L : ℝ} {n : Nat} {s : Cyl ℝ} (h : Cyl.new d R L n = .ok s) :
    0 < R ∧ 0 < L ∧ d ≤ n ∧ 0 < n ∧ s = ⟨.continuousCylindrical d, .mixed d, R, L, n⟩ := by
  unfold Cyl.new at h
  split at h
  · simp at h
  · rename_i hc
    simp only [fl_le, fl_zero, Bool.or_eq_true, decide_eq_true_eq, not_or, not_le, not_lt, beq_iff_eq] at hc
    simp only [Res.ok.injEq] at h
    exact ⟨hc.1.1.2, hc.1.2, hc.1.1.1, Nat.pos_of_ne_zero hc.2, h.symm⟩

private theorem verdict_iff (P : Prop) (i : Decidable P) :
    ((if @decide P i = true then Res.ok () else Res.err ErrorCode.tooLargeTimeStep) = .ok () ↔ P) ∧
    ((if @decide P i = true then Res.ok () else Res.err ErrorCode.tooLargeTimeStep) = .ok () ∨
     (if @decide P i = true then Res.ok () else Res.err ErrorCode.tooLargeTimeStep) =
        .err .tooLargeTimeStep) := by
  by_cases h : P <;> simp [h]

/-- Exact arithmetic.  For a cylinder built by `new` (circular in the first `d` coordinates, periodic in the
others), `check_bc` leaves in `pos` the radial image of the first `d` coordinates of `pos + dp` followed by
the periodic images of the others; it answers Ok exactly when the circular part of `pos + dp` is within `3R`
and the other coordinates within `3L`, and TooLargeTimeStep otherwise. -/
theorem C22_cylinder_image (d : Nat) (R L : ℝ) (n : Nat) (s : Cyl ℝ) (hnew : Cyl.new d R L n = .ok s)
    (pos dp : Pos ℝ) (hpos : pos.length = n) (hdp : dp.length = n) :
    (s.checkBc pos dp).1.length = n ∧
    RadialImage R ((List.zipWith (· + ·) pos dp).take d) ((s.checkBc pos dp).1.take d) ∧
    (∀ (i : Nat) (a b : ℝ), d ≤ i → pos[i]? = some a → dp[i]? = some b →
      ∃ y, (s.checkBc pos dp).1[i]? = some y ∧ PeriodicImage L (a + b) y) ∧
    ((s.checkBc pos dp).2 = .ok () ↔ radius ((List.zipWith (· + ·) pos dp).take d) ≤ 3 * R ∧
      ∀ (i : Nat) (a b : ℝ), d ≤ i → pos[i]? = some a → dp[i]? = some b → |a + b| ≤ 3 * L) ∧
    ((s.checkBc pos dp).2 = .ok () ∨ (s.checkBc pos dp).2 = .err .tooLargeTimeStep) := by
  obtain ⟨hR, hL, hdn, hn, rfl⟩ := new_cyl hnew
  have hq : (List.zipWith (· + ·) pos dp).length = n := by simp [hpos, hdp]
  have hget : ∀ (i : Nat) (x : ℝ), (List.zipWith (· + ·) pos dp)[i]? = some x ↔
      ∃ a b, pos[i]? = some a ∧ dp[i]? = some b ∧ a + b = x := by
    intro i x; rw [List.getElem?_zipWith_eq_some]
  have hinc : ∀ p : Pos ℝ, p.length = n →
      (⟨.continuousCylindrical d, .mixed d, R, L, n⟩ : Cyl ℝ).checkInclusion p =
        .ok (decide (radius (p.take d) ≤ R ∧ ∀ x ∈ p.drop d, |x| ≤ L)) := by
    intro p hp
    rw [Cyl.checkInclusion_eq _ p d hp.symm rfl (by omega), any_gt_real, norm_eq_radius]
    congr 1
    rw [Bool.eq_iff_iff]
    simp [not_lt]
  -- the folded point
  obtain ⟨front, hfront, hfl, him⟩ : ∃ front : Pos ℝ,
      (if Fl.gt (Pos.norm ((List.zipWith (· + ·) pos dp).take d)) R then
        ((List.zipWith (· + ·) pos dp).take d).map (· * ((Fl.two * R -
          Pos.norm ((List.zipWith (· + ·) pos dp).take d)) /
          Pos.norm ((List.zipWith (· + ·) pos dp).take d)))
       else (List.zipWith (· + ·) pos dp).take d) = front ∧ front.length = d ∧
      RadialImage R ((List.zipWith (· + ·) pos dp).take d) front := by
    refine ⟨_, rfl, ?_, ?_⟩
    · split <;> simp <;> omega
    · rw [norm_eq_radius]
      constructor
      · intro h; rw [if_neg (by simpa using h)]
      · intro h
        rw [if_pos (by simpa using h)]
        apply List.map_congr_left
        intro c _
        simp only [fl_two]
        show c * ((2 * R - radius _) / radius _) = _
        ring
  have hf : (⟨.continuousCylindrical d, .mixed d, R, L, n⟩ : Cyl ℝ).fold (List.zipWith (· + ·) pos dp) =
      .ok (front ++ ((List.zipWith (· + ·) pos dp).drop d).map (Fold.wrap L)) := by
    unfold Cyl.fold
    simp only
    rw [if_neg (by omega), hfront]
  have hl2 : (front ++ ((List.zipWith (· + ·) pos dp).drop d).map (Fold.wrap L)).length = n := by
    simp [hfl, hpos, hdp]; omega
  have hco : ∀ i x, d ≤ i → (List.zipWith (· + ·) pos dp)[i]? = some x →
      ∃ y, (front ++ ((List.zipWith (· + ·) pos dp).drop d).map (Fold.wrap L))[i]? = some y ∧
        PeriodicImage L x y := by
    intro i x hi hx
    refine ⟨Fold.wrap L x, ?_, wrap_image L x hL⟩
    rw [List.getElem?_append_right (by omega), hfl]
    simp only [List.getElem?_map, List.getElem?_drop]
    rw [show d + (i - d) = i by omega, hx]; rfl
  have htake : (front ++ ((List.zipWith (· + ·) pos dp).drop d).map (Fold.wrap L)).take d = front := by
    rw [List.take_append_of_le_length (by omega), List.take_of_length_le (by omega)]
  have hdrop : (front ++ ((List.zipWith (· + ·) pos dp).drop d).map (Fold.wrap L)).drop d =
      ((List.zipWith (· + ·) pos dp).drop d).map (Fold.wrap L) := by
    rw [List.drop_append_of_le_length (by omega), List.drop_of_length_le (by omega), List.nil_append]
  have hmem : (∀ y ∈ ((List.zipWith (· + ·) pos dp).drop d).map (Fold.wrap L), |y| ≤ L) ↔
      ∀ (i : Nat) (a b : ℝ), d ≤ i → pos[i]? = some a → dp[i]? = some b → |a + b| ≤ 3 * L := by
    constructor
    · intro h i a b hi ha hb
      rw [← periodic_inside_iff hL (wrap_image L (a + b) hL)]
      apply h
      apply List.mem_map_of_mem
      rw [List.mem_iff_getElem?]
      refine ⟨i - d, ?_⟩
      rw [List.getElem?_drop, show d + (i - d) = i by omega]
      exact (hget i _).2 ⟨a, b, ha, hb, rfl⟩
    · intro h y hy
      obtain ⟨x, hx, rfl⟩ := List.mem_map.1 hy
      rw [periodic_inside_iff hL (wrap_image L x hL)]
      obtain ⟨j, hj⟩ := List.mem_iff_getElem?.1 hx
      rw [List.getElem?_drop] at hj
      obtain ⟨a, b, ha, hb, rfl⟩ := (hget _ _).1 hj
      exact h _ a b (by omega) ha hb
  have hin : (radius ((front ++ ((List.zipWith (· + ·) pos dp).drop d).map (Fold.wrap L)).take d) ≤ R ∧
      ∀ x ∈ (front ++ ((List.zipWith (· + ·) pos dp).drop d).map (Fold.wrap L)).drop d, |x| ≤ L) ↔
      (radius ((List.zipWith (· + ·) pos dp).take d) ≤ 3 * R ∧
      ∀ (i : Nat) (a b : ℝ), d ≤ i → pos[i]? = some a → dp[i]? = some b → |a + b| ≤ 3 * L) := by
    rw [htake, hdrop, hmem, radial_inside_iff hR him]
  have hstep := bcStep_eq (incl := (⟨.continuousCylindrical d, .mixed d, R, L, n⟩ : Cyl ℝ).checkInclusion)
    (fold := (⟨.continuousCylindrical d, .mixed d, R, L, n⟩ : Cyl ℝ).fold) (pos := pos) (dp := dp)
    (by omega) ⟨_, hinc _ hq⟩ hf (hinc _ hl2) (by
      rw [hinc _ hq]
      intro h
      simp only [Res.ok.injEq, decide_eq_true_eq] at h
      rw [him.1 h.1]
      conv_rhs => rw [← List.take_append_drop d (List.zipWith (· + ·) pos dp)]
      congr 1
      have : ∀ l : List ℝ, (∀ x ∈ l, |x| ≤ L) → l.map (Fold.wrap L) = l := by
        intro l hl
        conv_rhs => rw [← List.map_id l]
        apply List.map_congr_left
        intro x hx
        exact (wrap_image L x hL).1 (hl x hx)
      exact this _ h.2)
  rw [Cyl.checkBc_eq, hstep]
  refine ⟨hl2, by rw [htake]; exact him, ?_, ?_, ?_⟩
  · intro i a b hi ha hb
    exact hco i (a + b) hi ((hget i _).2 ⟨a, b, ha, hb, rfl⟩)
  · rw [← hin]
    exact (verdict_iff _ _).1
  · exact (verdict_iff _ _).2

example : ∃ s : Cyl ℝ, Cyl.new 2 1 5 3 = .ok s :=
  ⟨⟨.continuousCylindrical 2, .mixed 2, 1, 5, 3⟩, by unfold Cyl.new; rw [if_neg (by simp)]⟩

/-! ## C23: moves that stay inside -/

/-- Any arithmetic: if the coordinatewise sum passes `check_inclusion`, `check_bc` answers Ok and the new
position is exactly that sum. -/
theorem C23_inside_is_addition {F : Type} [Fl F] (cu : Cubic F) (ci : Circ F) (cy : Cyl F)
    (pos dp : Pos F) (hl : dp.length = pos.length) :
    (cu.checkInclusion (List.zipWith (· + ·) pos dp) = .ok true →
      cu.checkBc pos dp = (List.zipWith (· + ·) pos dp, .ok ())) ∧
    (ci.checkInclusion (List.zipWith (· + ·) pos dp) = .ok true →
      ci.checkBc pos dp = (List.zipWith (· + ·) pos dp, .ok ()) ∧
      ci.checkBcExact pos dp = ((List.zipWith (· + ·) pos dp, dp), .ok ()) ∧
      ci.checkBcFirstOrder pos dp = ((List.zipWith (· + ·) pos dp, dp), .ok ())) ∧
    (cy.checkInclusion (List.zipWith (· + ·) pos dp) = .ok true →
      cy.checkBc pos dp = (List.zipWith (· + ·) pos dp, .ok ())) := by
  refine ⟨fun h => ?_, fun h => ⟨?_, ?_, ?_⟩, fun h => ?_⟩
  · rw [Cubic.checkBc_eq]; exact bcStep_inside (by omega) h
  · rw [Circ.checkBc_eq]; exact bcStep_inside (by omega) h
  · unfold Circ.checkBcExact; rw [mutAdd_eq (by omega)]; simp only [h]
  · unfold Circ.checkBcFirstOrder; rw [mutAdd_eq (by omega)]; simp only [h]
  · rw [Cyl.checkBc_eq]; exact bcStep_inside (by omega) h

/-- and conversely, for points of the right dimension that are not inside, the position left behind is not
the plain sum unless folding happens to be trivial: in exact arithmetic a point outside the cube always
moves (the sum itself is never left in `pos` on Ok). -/
theorem C23_outside_is_not_addition (bc : BoundaryCond) (L : ℝ) (n : Nat) (s : Cubic ℝ)
    (_hnew : Cubic.new bc L n = .ok s) (pos dp : Pos ℝ)
    (hout : s.checkInclusion (List.zipWith (· + ·) pos dp) = .ok false)
    (hok : (s.checkBc pos dp).2 = .ok ()) : (s.checkBc pos dp).1 ≠ List.zipWith (· + ·) pos dp := by
  intro h
  have := (C19_accepted_is_inside s (⟨.network, .periodic, 0, 0⟩ : Circ ℝ)
    (⟨.network, .periodic, 0, 0, 0⟩ : Cyl ℝ) pos dp).1 hok
  rw [h, hout] at this
  simp at this

/-! ## C24: dimensions -/

/-- Any arithmetic: `check_inclusion` answers Ok only for positions of the system's dimension and
InvalidDimension for all others. -/
theorem C24_inclusion_dimension {F : Type} [Fl F] (cu : Cubic F) (ci : Circ F) (cy : Cyl F) (p : Pos F) :
    (p.length ≠ cu.dim → cu.checkInclusion p = .err .invalidDimension) ∧
    (p.length = cu.dim → ∃ b, cu.checkInclusion p = .ok b) ∧
    (p.length ≠ ci.dim → ci.checkInclusion p = .err .invalidDimension) ∧
    (p.length = ci.dim → ∃ b, ci.checkInclusion p = .ok b) ∧
    (p.length ≠ cy.dim → cy.checkInclusion p = .err .invalidDimension) ∧
    (∀ d, p.length = cy.dim → cy.sysType = .continuousCylindrical d → d ≤ cy.dim →
      ∃ b, cy.checkInclusion p = .ok b) := by
  refine ⟨fun h => ?_, fun h => ?_, fun h => ?_, fun h => ?_, fun h => ?_, fun d h1 h2 h3 => ?_⟩
  · rcases cu.checkInclusion_cases p with ⟨_, e⟩ | ⟨h', _⟩
    · exact e
    · exact absurd h'.symm h
  · rcases cu.checkInclusion_cases p with ⟨h', _⟩ | ⟨_, e⟩
    · exact absurd h.symm h'
    · exact ⟨_, e⟩
  · rcases ci.checkInclusion_cases p with ⟨_, e⟩ | ⟨h', _⟩
    · exact e
    · exact absurd h'.symm h
  · rcases ci.checkInclusion_cases p with ⟨h', _⟩ | ⟨_, e⟩
    · exact absurd h.symm h'
    · exact ⟨_, e⟩
  · exact cy.checkInclusion_dim p (Ne.symm h)
  · exact ⟨_, cy.checkInclusion_eq p d h1.symm h2 (by omega)⟩

/-- Any arithmetic: moving a position of the wrong dimension by a displacement at least as long reports
InvalidDimension, and the position has already been displaced when it does; a displacement shorter than
the position makes `check_bc` panic; a longer one is used up to the position's length. -/
theorem C24_check_bc_dimension {F : Type} [Fl F] (cu : Cubic F) (ci : Circ F) (cy : Cyl F)
    (pos dp : Pos F) :
    (pos.length ≤ dp.length → pos.length ≠ cu.dim →
      cu.checkBc pos dp = (List.zipWith (· + ·) pos dp, .err .invalidDimension)) ∧
    (pos.length ≤ dp.length → pos.length ≠ ci.dim →
      ci.checkBc pos dp = (List.zipWith (· + ·) pos dp, .err .invalidDimension)) ∧
    (pos.length ≤ dp.length → pos.length ≠ cy.dim →
      cy.checkBc pos dp = (List.zipWith (· + ·) pos dp, .err .invalidDimension)) ∧
    (dp.length < pos.length → (cu.checkBc pos dp).2 = .panic ∧ (ci.checkBc pos dp).2 = .panic ∧
      (cy.checkBc pos dp).2 = .panic) ∧
    (pos.length ≤ dp.length → cu.checkBc pos dp = cu.checkBc pos (dp.take pos.length) ∧
      ci.checkBc pos dp = ci.checkBc pos (dp.take pos.length) ∧
      cy.checkBc pos dp = cy.checkBc pos (dp.take pos.length)) := by
  have hz : pos.length ≤ dp.length → (List.zipWith (· + ·) pos dp).length = pos.length := by
    intro h; simp [h]
  obtain ⟨a1, _, a2, _, a3, _⟩ := C24_inclusion_dimension cu ci cy (List.zipWith (· + ·) pos dp)
  have htake : pos.length ≤ dp.length → pos.mutAdd dp = pos.mutAdd (dp.take pos.length) := by
    intro h
    rw [mutAdd_eq h, mutAdd_eq (by simp [h])]
    congr 1
    have : ∀ (p d : List F), List.zipWith (· + ·) p (d.take p.length) = List.zipWith (· + ·) p d := by
      intro p
      induction p with
      | nil => simp
      | cons x p ih => intro d; cases d <;> simp [ih]
    exact (this pos dp).symm
  refine ⟨fun h h' => ?_, fun h h' => ?_, fun h h' => ?_, fun h => ?_, fun h => ?_⟩
  · rw [Cubic.checkBc_eq]; exact bcStep_err h (a1 (by rw [hz h]; exact h'))
  · rw [Circ.checkBc_eq]; exact bcStep_err h (a2 (by rw [hz h]; exact h'))
  · rw [Cyl.checkBc_eq]; exact bcStep_err h (a3 (by rw [hz h]; exact h'))
  · rw [Cubic.checkBc_eq, Circ.checkBc_eq, Cyl.checkBc_eq]
    exact ⟨bcStep_short h, bcStep_short h, bcStep_short h⟩
  · rw [Cubic.checkBc_eq, Circ.checkBc_eq, Cyl.checkBc_eq, Cubic.checkBc_eq, Circ.checkBc_eq, Cyl.checkBc_eq]
    unfold bcStep
    rw [htake h]
    exact ⟨rfl, rfl, rfl⟩

/-- Any arithmetic: the writers into a caller's vector report InvalidDimension for vectors of another
dimension, and then draw nothing and write nothing. -/
theorem C24_to_vec_dimension {F G : Type} [Fl F] (rng : RngOps G F) (g : G) (cu : Cubic F) (ci : Circ F)
    (cy : Cyl F) (d : Nat) (hty : cy.sysType = .continuousCylindrical d) (fuel : Nat) (vec : Pos F) :
    (vec.length ≠ cu.dim → cu.randomPosToVec rng g vec = ((vec, .err .invalidDimension), g) ∧
      cu.positionOutOfSystemToVec vec = (vec, .err .invalidDimension)) ∧
    (vec.length ≠ ci.dim → ci.randomPosToVec rng fuel g vec = some (.err .invalidDimension, g) ∧
      ci.positionOutOfSystemToVec vec = (vec, .err .invalidDimension)) ∧
    (vec.length ≠ cy.dim → cy.randomPosToVec rng fuel g vec = some (.err .invalidDimension, g) ∧
      cy.positionOutOfSystemToVec vec = (vec, .err .invalidDimension)) := by
  refine ⟨fun h => ⟨?_, ?_⟩, fun h => ⟨?_, ?_⟩, fun h => ⟨?_, ?_⟩⟩
  · simp [Cubic.randomPosToVec, Pos.dim, h]
  · simp [Cubic.positionOutOfSystemToVec, Pos.dim, Ne.symm h]
  · simp [Circ.randomPosToVec, Pos.dim, h]
  · simp [Circ.positionOutOfSystemToVec, Pos.dim, Ne.symm h]
  · simp [Cyl.randomPosToVec, Pos.dim, h, hty]
  · simp [Cyl.positionOutOfSystemToVec, Pos.dim, Ne.symm h]

/-! ## C25: rejected moves -/

/-- The claim "an error leaves the position unchanged" is false: in one dimension, with `L = R = 1`, a
particle at 0 pushed by 4 is left at -2, 2 resp. -2 although the call reports an error. -/
theorem C25_claim_false :
    (∃ s : Cubic ℝ, Cubic.new .reflection 1 1 = .ok s ∧
      s.checkBc [0] [4] = ([-2], .err .tooLargeTimeStep)) ∧
    (∃ s : Cubic ℝ, Cubic.new .periodic 1 1 = .ok s ∧
      s.checkBc [0] [4] = ([2], .err .tooLargeTimeStep)) ∧
    (∃ s : Circ ℝ, Circ.new 1 1 = .ok s ∧ s.checkBc [0] [4] = ([-2], .err .tooLargeTimeStep)) ∧
    (∃ s : Cyl ℝ, Cyl.new 1 1 1 1 = .ok s ∧ s.checkBc [0] [4] = ([-2], .err .tooLargeTimeStep)) := by
  have hn : ∀ x : ℝ, Pos.norm [x] = |x| := by
    intro x
    rw [Pos.norm_eq, Pos.sumSq_cons, Pos.sumSq_nil, add_zero, Real.sqrt_sq_eq_abs]
  refine ⟨⟨⟨.continuousRectangular, .reflection, 1, 1⟩, ?_, ?_⟩,
    ⟨⟨.continuousRectangular, .periodic, 1, 1⟩, ?_, ?_⟩,
    ⟨⟨.continuousCircular, .reflection, 1, 1⟩, ?_, ?_⟩,
    ⟨⟨.continuousCylindrical 1, .mixed 1, 1, 1, 1⟩, ?_, ?_⟩⟩
  · simp [Cubic.new]
  · simp [Cubic.checkBc, Pos.mutAdd, Pos.mutZip, Cubic.checkInclusion, Cubic.fold, Fold.reflect]
    norm_num
  · simp [Cubic.new]
  · simp [Cubic.checkBc, Pos.mutAdd, Pos.mutZip, Cubic.checkInclusion, Cubic.fold, Fold.wrap]
    norm_num
  · simp [Circ.new]
  · simp [Circ.checkBc, Pos.mutAdd, Pos.mutZip, Circ.checkInclusion, hn, Pos.mutScalarMul]
    norm_num
  · simp [Cyl.new]
  · simp [Cyl.checkBc, Pos.mutAdd, Pos.mutZip, Cyl.checkInclusion, Cyl.fold, hn]
    norm_num

private theorem cu_incl_ne {F : Type} [Fl F] (s : Cubic F) (p : Pos F) :
    s.checkInclusion p ≠ .err .tooLargeTimeStep := by
  rcases s.checkInclusion_cases p with ⟨_, e⟩ | ⟨_, e⟩ <;> rw [e] <;> simp

/-- Any arithmetic: after TooLargeTimeStep the position left behind is outside the system (it does not pass
`check_inclusion`), and the move `pos + dp` had left the system. -/
theorem C25_rejected_is_outside {F : Type} [Fl F] (cu : Cubic F) (ci : Circ F) (cy : Cyl F)
    (pos dp : Pos F) :
    ((cu.checkBc pos dp).2 = .err .tooLargeTimeStep →
      cu.checkInclusion (List.zipWith (· + ·) pos dp) = .ok false ∧
      cu.checkInclusion (cu.checkBc pos dp).1 = .ok false) ∧
    ((ci.checkBc pos dp).2 = .err .tooLargeTimeStep →
      ci.checkInclusion (List.zipWith (· + ·) pos dp) = .ok false ∧
      ci.checkInclusion (ci.checkBc pos dp).1 = .ok false) ∧
    ((cy.checkBc pos dp).2 = .err .tooLargeTimeStep →
      cy.checkInclusion (List.zipWith (· + ·) pos dp) = .ok false ∧
      cy.checkInclusion (cy.checkBc pos dp).1 = .ok false) := by
  refine ⟨fun h => ?_, fun h => ?_, fun h => ?_⟩
  · rw [Cubic.checkBc_eq] at h ⊢
    obtain ⟨a, _, b⟩ := bcStep_tooLarge (cu_incl_ne cu) (by
      intro p; unfold Cubic.fold; split <;> (try split) <;> simp) h
    exact ⟨a, b⟩
  · rw [Circ.checkBc_eq] at h ⊢
    obtain ⟨a, _, b⟩ := bcStep_tooLarge (by
      intro p; rcases ci.checkInclusion_cases p with ⟨_, e⟩ | ⟨_, e⟩ <;> rw [e] <;> simp) (by
      intro p; simp [Circ.fold]) h
    exact ⟨a, b⟩
  · rw [Cyl.checkBc_eq] at h ⊢
    obtain ⟨a, _, b⟩ := bcStep_tooLarge (by
      intro p; unfold Cyl.checkInclusion; split
      · simp
      · split
        · split
          · simp
          · split <;> simp
        · simp) (by
      intro p; unfold Cyl.fold; split
      · split <;> simp
      · simp) h
    exact ⟨a, b⟩

end Moledyn.Props
