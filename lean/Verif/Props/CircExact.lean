import Verif.Lemmas.System
import Verif.Props.System
/-
Property theorem C28 (src/system_mod/cont_circ.rs, check_bc_exact).
-/
namespace Moledyn.Props
open Pos

theorem sumSq_along (p v : List ℝ) (h : p.length = v.length) (u : ℝ) :
    sumSq (along p v u) = sumSq p + 2 * u * ip p v + u ^ 2 * sumSq v := by
  induction p generalizing v with
  | nil => cases v with
    | nil => simp [along]
    | cons _ _ => simp at h
  | cons x p ih => cases v with
    | nil => simp at h
    | cons y v =>
      have := ih v (by simpa using h)
      simp only [along] at this ⊢
      simp only [List.zipWith_cons_cons, sumSq_cons, ip_cons, this]; ring

theorem dot_self (p : List ℝ) : dot p p = sumSq p := by
  induction p with
  | nil => simp [dot]
  | cons x p ih =>
    simp only [dot, List.zipWith_cons_cons, List.sum_cons, sumSq_cons] at ih ⊢
    rw [ih]; ring

theorem dot_along (p v : List ℝ) (h : p.length = v.length) (t : ℝ) :
    dot (List.zipWith (· - ·) (along p v 1) (along p v t)) (along p v t) =
      (1 - t) * (ip p v + t * sumSq v) := by
  induction p generalizing v with
  | nil => cases v with
    | nil => simp [along, dot]
    | cons _ _ => simp at h
  | cons x p ih => cases v with
    | nil => simp at h
    | cons y v =>
      have := ih v (by simpa using h)
      simp only [along, dot] at this ⊢
      simp only [List.zipWith_cons_cons, List.sum_cons, this, sumSq_cons, ip_cons]; ring

theorem radius_eq (p : List ℝ) : radius p = Real.sqrt (sumSq p) := rfl

theorem addsub (p v : List ℝ) (h : p.length = v.length) :
    List.zipWith (fun a b : ℝ => a - b) (List.zipWith (fun a b : ℝ => a + b) p v) v = p := by
  induction p generalizing v with
  | nil => simp
  | cons x p ih => cases v with
    | nil => simp at h
    | cons y v => simp [ih v (by simpa using h)]

theorem mirror_along (p v : List ℝ) (h : p.length = v.length) (t k R : ℝ)
    (hk : k = (1 - t) * (ip p v + t * sumSq v) / R ^ 2) (hs : sumSq (along p v t) = R ^ 2) :
    List.zipWith (fun a b : ℝ => a + b) (p.map (· * (1 - 2 * k))) (v.map (· * (1 - 2 * k * t))) =
      mirrorAt (along p v t) (along p v 1) := by
  unfold mirrorAt
  rw [dot_along p v h, dot_self, hs, ← hk]
  clear hk hs
  induction p generalizing v with
  | nil => simp [along]
  | cons x p ih => cases v with
    | nil => simp at h
    | cons y v =>
      have := ih v (by simpa using h)
      simp only [along] at this ⊢
      simp only [List.map_cons, List.zipWith_cons_cons, this, List.cons.injEq, and_true]
      ring

/-- Exact arithmetic.  A particle of a sphere built by `new`, starting inside or on the sphere, whose move
`pos + dp` ends outside: there is a hit fraction `t` in `[0,1)` such that `pos + t dp` is on the sphere, the
path is inside up to `t` and outside after it, and `check_bc_exact` moves the particle to the mirror image
of `pos + dp` in the tangent plane at the hit point; it answers Ok exactly if that image is inside and
TooLargeTimeStep otherwise. -/
theorem C28_exact_reflection (R : ℝ) (n : Nat) (s : Circ ℝ) (hnew : Circ.new R n = .ok s) (pos dp : Pos ℝ)
    (hpos : pos.length = n) (hdp : dp.length = n) (hin : radius pos ≤ R) (hout : R < radius (along pos dp 1)) :
    ∃ t, 0 ≤ t ∧ t < 1 ∧ radius (along pos dp t) = R ∧
      (∀ u, 0 ≤ u → u ≤ t → radius (along pos dp u) ≤ R) ∧
      (∀ u, t < u → R < radius (along pos dp u)) ∧
      (s.checkBcExact pos dp).1.1 = mirrorAt (along pos dp t) (along pos dp 1) ∧
      ((s.checkBcExact pos dp).2 = .ok () ↔ radius (mirrorAt (along pos dp t) (along pos dp 1)) ≤ R) ∧
      ((s.checkBcExact pos dp).2 = .ok () ∨ (s.checkBcExact pos dp).2 = .err .tooLargeTimeStep) := by
  have hs : 0 < R ∧ s = ⟨.continuousCircular, .reflection, R, n⟩ := by
    unfold Circ.new at hnew
    split at hnew
    · simp at hnew
    · rename_i hc
      simp only [fl_le, fl_zero, Bool.or_eq_true, decide_eq_true_eq, not_or, not_le] at hc
      simp only [Res.ok.injEq] at hnew; exact ⟨hc.1, hnew.symm⟩
  obtain ⟨hR, rfl⟩ := hs
  have hl : pos.length = dp.length := by omega
  set A := sumSq dp with hA
  set B := ip pos dp with hB
  set r2 := sumSq pos with hr2
  have hr2R : r2 ≤ R ^ 2 := by
    have := (Real.sqrt_le_left hR.le).1 (show Real.sqrt r2 ≤ R from hin)
    exact this
  have hq1 : R ^ 2 < r2 + 2 * B + A := by
    have h1 := (Real.lt_sqrt hR.le).1 (show R < Real.sqrt (sumSq (along pos dp 1)) from hout)
    rw [sumSq_along pos dp hl] at h1
    linarith
  have hA0 : 0 ≤ A := sumSq_nonneg dp
  have hApos : 0 < A := by
    rcases hA0.lt_or_eq with h | h
    · exact h
    · exfalso
      have hz := (sumSq_eq_zero dp).1 (hA ▸ h.symm)
      have hcs := ip_sq_le pos dp
      rw [← hA, ← h, mul_zero] at hcs
      have hB0 : B = 0 := by
        have : B ^ 2 ≤ 0 := hcs
        nlinarith [sq_nonneg B, pow_eq_zero_iff (n := 2) (a := B) two_ne_zero]
      rw [hB0, ← h] at hq1; linarith
  set D := Real.sqrt (B * B + A * (R * R - r2)) with hD
  have hdisc : 0 ≤ B * B + A * (R * R - r2) := by nlinarith [mul_self_nonneg B]
  have hDsq : D ^ 2 = B * B + A * (R * R - r2) := Real.sq_sqrt hdisc
  have hD0 : 0 ≤ D := Real.sqrt_nonneg _
  have hDB : |B| ≤ D := by
    rw [← abs_of_nonneg hD0]
    apply sq_le_sq.1
    rw [hDsq]
    nlinarith
  obtain ⟨hDB1, hDB2⟩ := abs_le.1 hDB
  set t := (-B + D) / A with ht
  have htA : A * t = D - B := by rw [ht]; field_simp; ring
  have ht0 : 0 ≤ t := by rw [ht]; apply div_nonneg _ hA0; linarith
  have ht1 : t < 1 := by
    rw [ht, div_lt_one hApos]
    by_contra hc
    push Not at hc
    have : (A + B) ^ 2 ≤ D ^ 2 := by
      apply sq_le_sq'
      · linarith
      · linarith
    rw [hDsq] at this
    nlinarith
  have hq : ∀ u, A * (sumSq (along pos dp u) - R ^ 2) = (A * u + B) ^ 2 - D ^ 2 := by
    intro u; rw [sumSq_along pos dp hl, hDsq]; ring
  have hqt : sumSq (along pos dp t) = R ^ 2 := by
    have := hq t
    rw [htA] at this
    have h0 : A * (sumSq (along pos dp t) - R ^ 2) = 0 := by rw [this]; ring
    rcases mul_eq_zero.1 h0 with h | h
    · exact absurd h hApos.ne'
    · linarith
  refine ⟨t, ht0, ht1, ?_, ?_, ?_, ?_⟩
  · rw [radius_eq, hqt, Real.sqrt_sq hR.le]
  · intro u hu0 hut
    rw [radius_eq, Real.sqrt_le_left hR.le]
    have h1 : (A * u + B) ^ 2 ≤ D ^ 2 := by
      apply sq_le_sq'
      · nlinarith [mul_nonneg hA0 hu0]
      · have := mul_le_mul_of_nonneg_left hut hA0; rw [htA] at this; linarith
    have := hq u
    by_contra hc
    push Not at hc
    have := mul_pos hApos (sub_pos.2 hc)
    linarith
  · intro u htu
    rw [radius_eq, Real.lt_sqrt hR.le]
    have h1 : D < A * u + B := by
      have := mul_lt_mul_of_pos_left htu hApos; rw [htA] at this; linarith
    have h2 : D ^ 2 < (A * u + B) ^ 2 := by
      apply sq_lt_sq'
      · linarith
      · exact h1
    have h3 := hq u
    by_contra hc
    push Not at hc
    have := mul_nonneg hA0 (sub_nonneg.2 hc)
    nlinarith
  -- the code
  have hinc : ∀ p : Pos ℝ, p.length = n →
      (⟨.continuousCircular, .reflection, R, n⟩ : Circ ℝ).checkInclusion p = .ok (decide (radius p ≤ R)) := by
    intro p hp
    rcases Circ.checkInclusion_cases (⟨.continuousCircular, .reflection, R, n⟩ : Circ ℝ) p with ⟨h, _⟩ | ⟨_, e⟩
    · exact absurd hp.symm h
    · rw [e, norm_eq_radius]; simp [← not_lt]
  have halong1 : along pos dp 1 = List.zipWith (fun a b : ℝ => a + b) pos dp := by simp [along]
  set k := (1 - t) * (B + t * A) / R ^ 2 with hk
  have hmir := mirror_along pos dp hl t k R hk hqt
  set M := mirrorAt (along pos dp t) (along pos dp 1) with hM
  have hMl : M.length = n := by rw [← hmir]; simp [hpos, hdp]
  have hfin : (⟨.continuousCircular, .reflection, R, n⟩ : Circ ℝ).checkBcExact pos dp =
      ((M, dp.map (· * (1 - 2 * k * t))),
        if decide (radius M ≤ R) = true then .ok () else .err .tooLargeTimeStep) := by
    unfold Circ.checkBcExact
    rw [mutAdd_eq (by omega)]
    simp only
    rw [show List.zipWith (· + ·) pos dp = List.zipWith (fun a b : ℝ => a + b) pos dp from rfl, ← halong1,
      hinc _ (by rw [halong1]; simp [hpos, hdp])]
    rw [show decide (radius (along pos dp 1) ≤ R) = false by simpa using hout]
    simp only
    rw [show Pos.mutSub (along pos dp 1) dp = (pos, .ok ()) by
      unfold Pos.mutSub
      rw [mutZip_fst _ _ _ (by rw [halong1]; simp)]
      congr 1
      rw [halong1]
      exact addsub pos dp hl]
    simp only
    rw [innerProduct_eq pos dp hl]
    simp only
    have hnA : Pos.norm dp * Pos.norm dp = A := by rw [← sq, norm_sq]
    have hnr : Pos.norm pos * Pos.norm pos = r2 := by rw [← sq, norm_sq]
    have e1 : (-(ip pos dp) + Fl.sqrt (ip pos dp * ip pos dp + Pos.norm dp * Pos.norm dp *
        (R * R - Pos.norm pos * Pos.norm pos))) / (Pos.norm dp * Pos.norm dp) = t := by
      rw [hnA, hnr]; rfl
    have e2 : ((Fl.one : ℝ) - t) * (ip pos dp + t * Pos.norm dp * Pos.norm dp) / (R * R) = k := by
      rw [hk, show (Fl.one : ℝ) = 1 from fl_one, ← hB, mul_assoc t, hnA, sq]
    simp only [fl_add, fl_sub, fl_mul, fl_neg] at e1 e2 ⊢
    rw [e1, e2]
    unfold Circ.finish Pos.mutScalarMul
    rw [mutAdd_eq (by simp [hl])]
    simp only [fl_one, fl_two, fl_mul]
    rw [show List.zipWith (· + ·) (pos.map (· * (1 - 2 * k))) (dp.map (· * (1 - 2 * k * t))) = M from hmir,
      hinc M hMl]
    by_cases h : radius M ≤ R <;> simp [h]
  rw [hfin]
  refine ⟨rfl, ?_, ?_⟩
  · by_cases h : radius M ≤ R <;> simp [h]
  · by_cases h : radius M ≤ R <;> simp [h]

/-- the hypotheses are met: a unit step from the centre of the unit disk, twice as long. -/
example : ∃ s : Circ ℝ, Circ.new 1 1 = .ok s ∧ radius [0] ≤ 1 ∧ 1 < radius (along [0] [2] 1) := by
  refine ⟨⟨.continuousCircular, .reflection, 1, 1⟩, by simp [Circ.new], ?_, ?_⟩
  · simp [radius]
  · simp [radius, along]

end Moledyn.Props
