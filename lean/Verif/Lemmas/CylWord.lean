import Verif.Lemmas.CubeWord
/-
A sequence of pushes that brings every walker in a cylinder near a given point: first to the wall, in the direction of the
point, then straight back, and so fast along the cylinder that the line comes near every point.
-/
namespace Moledyn.BallSweep
set_option linter.unusedSectionVars false
variable {E : Type*} [NormedAddCommGroup E] [InnerProductSpace ℝ E]

/-- a push along the axis with some noise. -/
theorem push_near {e : E} (he : ‖e‖ = 1) {σ σ0 σ1 κ r s : ℝ} (hσ0 : 0 < σ0) (h0 : σ0 ≤ σ) (h1 : σ ≤ σ1) (hκ : 0 < κ) (hr : r ≤ κ / 2) (hs : |s| = 1)
    (hss : s * s = 1) {w : E} (hw : ‖w‖ ≤ r) : Push e (σ0 * κ / 2) (2 * σ1 * κ) (σ1 * r) s (σ • ((s * κ) • e + w)) := by
  have hs0 : 0 < σ := hσ0.trans_le h0
  have hs1 : 0 < σ1 := hs0.trans_le h1
  have hup : up e ((s * κ) • e + w) = s * κ + up e w := by
    rw [up_add, up_smul]
    simp [up, he]
  have hupw := (up_le he w).trans hw
  refine ⟨?_, ?_, ?_⟩
  · rw [up_smul, hup]
    have h1 : s * (σ * (s * κ + up e w)) = σ * (κ + s * up e w) := by linear_combination (σ * κ) * hss
    have h2 : -r ≤ s * up e w := by
      have : |s * up e w| ≤ r := by rw [abs_mul, hs, one_mul]; exact hupw
      exact (abs_le.1 this).1
    rw [h1]
    have h3 : κ / 2 ≤ κ + s * up e w := by linarith
    calc σ0 * κ / 2 = σ0 * (κ / 2) := by ring
      _ ≤ σ * (κ + s * up e w) := by gcongr
  · rw [norm_smul, Real.norm_eq_abs, abs_of_pos hs0]
    have h2 : ‖(s * κ) • e + w‖ ≤ 2 * κ := by
      refine (norm_add_le _ _).trans ?_
      rw [norm_smul, he, mul_one, Real.norm_eq_abs, abs_mul, hs, one_mul, abs_of_pos hκ]
      linarith
    calc σ * ‖(s * κ) • e + w‖ ≤ σ1 * (2 * κ) := by gcongr
      _ = _ := by ring
  · rw [off_smul _ _ hs0.le]
    have h2 : off e ((s * κ) • e + w) = off e w := by
      unfold off
      rw [hup, add_smul]
      congr 1
      abel
    rw [h2]
    exact mul_le_mul h1 ((off_le he w).trans hw) (off_nonneg e w) hs1.le

/-- a push upwards, close to the axis: higher, or at the top. -/
theorem climb_step {e : E} (he : ‖e‖ = 1) {R a b δ τ : ℝ} (hR : 0 < R) (hbR : b < R) (ha : 0 ≤ a) {x v : E} (hx : ‖x‖ ≤ R) (hv : Push e a b δ 1 v)
    (hoff : off e (mirror R (x + v)) + b ≤ τ) {h : ℝ} (hup : min (R - τ) h ≤ up e x) : min (R - τ) (h + a) ≤ up e (mirror R (x + v)) := by
  have h1 := hv.along
  rw [one_mul] at h1
  have h2 := hv.short
  have h3 := up_add e x v
  have h4 : ‖x + v‖ ≤ ‖x‖ + ‖v‖ := norm_add_le _ _
  have hgo : min (R - τ) (h + a) ≤ up e (x + v) := by
    rw [h3]
    rcases min_le_iff.1 hup with h | h
    · exact (min_le_left _ _).trans (by linarith)
    · exact (min_le_right _ _).trans (by linarith)
  obtain ⟨φ, p0, p1, hm, hn, -, -, -⟩ := mirror_step hR hx (hv.short.trans_lt hbR)
  by_cases hout : R < ‖x + v‖
  · by_cases hneg : up e (x + v) < 0
    · rw [hm, up_smul]
      exact hgo.trans (by nlinarith)
    · push Not at hneg
      refine (min_le_left _ _).trans ?_
      have h5 := norm_le_up_off he (mirror R (x + v))
      have h6 : ‖mirror R (x + v)‖ = 2 * R - ‖x + v‖ := by
        have hp : 0 < ‖x + v‖ := hR.trans hout
        rw [mirror, if_pos hout, norm_smul, Real.norm_eq_abs, abs_of_nonneg (div_nonneg (by linarith) hp.le), div_mul_cancel₀ _ hp.ne']
      have h7 : 0 ≤ up e (mirror R (x + v)) := by rw [hm, up_smul]; positivity
      rw [abs_of_nonneg h7, h6] at h5
      linarith
  · rw [mirror, if_neg hout]
    exact hgo

/-- A walker that is pushed up `2 J` times or more is at the top of the axis. -/
theorem reach_top {e : E} (he : ‖e‖ = 1) {R a b δ τ : ℝ} (hR : 0 < R) (hbR : b < R) (hδ : 0 ≤ δ) (ha : 0 < a) {J T : ℕ} (hJ : 2 * J ≤ T)
    (hJ1 : R * Real.exp (1 - a * J / (2 * R)) + δ * T + b ≤ τ) (hJ2 : 2 * R ≤ a * J) (x v : ℕ → E) (hx : ‖x 0‖ ≤ R)
    (hstep : ∀ t < T, x (t + 1) = mirror R (x t + v t)) (hv : ∀ t < T, Push e a b δ 1 (v t)) :
    R - τ ≤ up e (x T) ∧ off e (x T) ≤ τ ∧ ‖x T‖ ≤ R := by
  have hin : ∀ t ≤ T, ‖x t‖ ≤ R := by
    intro t ht
    induction t with
    | zero => exact hx
    | succ t ih =>
      obtain ⟨φ, -, -, -, -, h, -⟩ := mirror_step hR (ih (by omega)) ((hv t (by omega)).short.trans_lt hbR)
      rw [hstep t (by omega)]
      exact h
  have hrise : ∀ t ≤ T, Rising e R a δ t (x t) := by
    intro t ht
    induction t with
    | zero => exact rising_zero he hR hbR hδ hx
    | succ t ih =>
      rw [hstep t (by omega)]
      exact rising_step he hR hbR hδ (hin t (by omega)) (hv t (by omega)) (ih (by omega))
  have hb : 0 ≤ b := (norm_nonneg _).trans (hv 0 (by
    by_contra h
    have hJ0 : J = 0 := by omega
    rw [hJ0] at hJ2
    simp at hJ2
    linarith)).short
  have hoff : ∀ t ≤ T, J ≤ t → off e (x t) + b ≤ τ := by
    intro t ht hJt
    have h1 := rising_end he hR hbR hδ (hin t ht) (hrise t ht)
    have h2 : Real.exp (1 - a * t / (2 * R)) ≤ Real.exp (1 - a * J / (2 * R)) := by
      refine Real.exp_le_exp.2 ?_
      have : (J : ℝ) ≤ t := by exact_mod_cast hJt
      gcongr
    have h3 : δ * t ≤ δ * T := by
      have : (t : ℝ) ≤ T := by exact_mod_cast ht
      gcongr
    have h4 := mul_le_mul_of_nonneg_left h2 hR.le
    linarith
  have hclimb : ∀ j, J + j ≤ T → min (R - τ) (-R + a * j) ≤ up e (x (J + j)) := by
    intro j
    induction j with
    | zero =>
      intro hj
      refine (min_le_right _ _).trans ?_
      have := (abs_le.1 ((up_le he _).trans (hin (J + 0) hj))).1
      simpa using this
    | succ j ih =>
      intro hj
      have hj' : J + j < T := by omega
      have e1 : x (J + (j + 1)) = mirror R (x (J + j) + v (J + j)) := hstep (J + j) hj'
      have h1 := hoff (J + (j + 1)) hj (by omega)
      rw [e1] at h1 ⊢
      have := climb_step he hR hbR ha.le (hin (J + j) hj'.le) (hv _ hj') h1 (ih (by omega))
      refine le_trans (le_of_eq ?_) this
      push_cast
      congr 1
      ring
  refine ⟨?_, by linarith [hoff T le_rfl (by omega)], hin T le_rfl⟩
  have h1 := hclimb (T - J) (by omega)
  rw [show J + (T - J) = T by omega] at h1
  refine le_trans (le_min le_rfl ?_) h1
  have h2 : (J : ℝ) ≤ (T - J : ℕ) := by exact_mod_cast (by omega : J ≤ T - J)
  have h3 : a * J ≤ a * (T - J : ℕ) := by gcongr
  have h4 : 0 ≤ τ := le_trans (by positivity) hJ1
  linarith

/-- From the top straight down the axis, without touching the wall. -/
theorem straight_down {e : E} (he : ‖e‖ = 1) {R τ κ a σ1 r : ℝ} (hR : 0 < R) (_hτ : 0 ≤ τ) (hτR : 10 * τ ≤ R) (hκ0 : 0 < κ) (hκR : κ ≤ R)
    (ha : 0 < a) (hfast : σ1 * a * κ ≤ R / 16) (hr0 : 0 ≤ r) (hr : 8 * r ≤ a * κ) {T : ℕ} (hT : T * (σ1 * r) ≤ τ) (x w : ℕ → E) (σ : ℕ → ℝ)
    (hup : R - τ ≤ up e (x 0)) (hoff : off e (x 0) ≤ τ) (hx : ‖x 0‖ ≤ R) (hσ : ∀ t < T, 0 ≤ σ t ∧ σ t ≤ σ1) (hw : ∀ t < T, ‖w t‖ ≤ r)
    (hstep : ∀ t < T, x (t + 1) = mirror R (x t + σ t • (-(a * κ) • e + w t))) (hθ : ∀ t ≤ T, ∑ j ∈ Finset.range t, σ j * a ≤ 1) :
    ∀ t ≤ T, ‖x t - x 0 + ((∑ j ∈ Finset.range t, σ j * a) * κ) • e‖ ≤ t * (σ1 * r) ∧ ‖x t‖ ≤ R := by
  have htop : ‖x 0 - R • e‖ ≤ 2 * τ := by
    have h1 := near_axis he (x 0) R
    have h2 : up e (x 0) ≤ R := (le_abs_self _).trans ((up_le he _).trans hx)
    rw [abs_of_nonpos (by linarith)] at h1
    linarith
  intro t
  induction t with
  | zero => intro _; simpa using hx
  | succ t ih =>
    intro ht
    obtain ⟨k1, k2⟩ := ih (by omega)
    obtain ⟨s1, s2⟩ := hσ t (by omega)
    have hσ1 : 0 ≤ σ1 := s1.trans s2
    have hwt := hw t (by omega)
    set θ := ∑ j ∈ Finset.range t, σ j * a with hθd
    have hθ1 := hθ (t + 1) ht
    rw [Finset.sum_range_succ, ← hθd] at hθ1 ⊢
    have hθ0 : 0 ≤ θ := Finset.sum_nonneg fun j hj => mul_nonneg (hσ j (by have := Finset.mem_range.1 hj; omega)).1 ha.le
    set v := σ t • (-(a * κ) • e + w t) with hv
    have hsa : 0 ≤ σ t * a := mul_nonneg s1 ha.le
    have hfar : ‖x t + v - x 0 + ((θ + σ t * a) * κ) • e‖ ≤ (t + 1 : ℕ) * (σ1 * r) := by
      have e1 : x t + v - x 0 + ((θ + σ t * a) * κ) • e = (x t - x 0 + (θ * κ) • e) + σ t • w t := by
        rw [hv, smul_add, smul_smul, add_mul, add_smul]
        have : σ t * -(a * κ) = -(σ t * a * κ) := by ring
        rw [this, neg_smul]
        abel
      rw [e1]
      refine (norm_add_le _ _).trans ?_
      rw [norm_smul, Real.norm_eq_abs, abs_of_nonneg s1]
      have : σ t * ‖w t‖ ≤ σ1 * r := mul_le_mul s2 hwt (norm_nonneg _) hσ1
      push_cast
      linarith
    have hsr : 0 ≤ σ1 * r := mul_nonneg hσ1 hr0
    have hcount : ∀ s : ℕ, s ≤ T → s * (σ1 * r) ≤ τ := fun s hs =>
      (mul_le_mul_of_nonneg_right (by exact_mod_cast hs) hsr).trans hT
    have hclose : ‖x t - x 0 + (θ * κ) • e‖ ≤ τ := k1.trans (hcount t (by omega))
    have hfar' : ‖x t + v - x 0 + ((θ + σ t * a) * κ) • e‖ ≤ τ := hfar.trans (hcount _ ht)
    have hin : ‖x t + v‖ ≤ R := by
      by_cases hlow : 3 * τ ≤ θ * κ
      · have e2 : x t + v = (x t + v - x 0 + ((θ + σ t * a) * κ) • e) + (x 0 - R • e) + (R - (θ + σ t * a) * κ) • e := by
          rw [sub_smul]
          abel
        have h3 : (θ + σ t * a) * κ ≤ R := by
          calc (θ + σ t * a) * κ ≤ 1 * κ := by gcongr
            _ ≤ R := by linarith
        have h4 : θ * κ ≤ (θ + σ t * a) * κ := by gcongr; linarith
        rw [e2]
        refine (norm_add₃_le).trans ?_
        rw [norm_smul, he, mul_one, Real.norm_eq_abs, abs_of_nonneg (by linarith)]
        linarith
      · push Not at hlow
        have hux : R / 2 ≤ up e (x t) := by
          have h3 : up e (x t - x 0 + (θ * κ) • e) = up e (x t) - up e (x 0) + θ * κ := by
            rw [up_add, up_smul, sub_eq_add_neg, up_add]
            simp [up, he]
            ring
          have h4 := (abs_le.1 ((up_le he (x t - x 0 + (θ * κ) • e)).trans hclose)).1
          rw [h3] at h4
          linarith
        have hinner : inner ℝ (x t) v ≤ σ t * (-(a * κ) * (R / 2) + R * r) := by
          have h3 : inner ℝ (x t) v = σ t * (-(a * κ) * up e (x t) + inner ℝ (x t) (w t)) := by
            rw [hv, inner_smul_right, inner_add_right, inner_smul_right, real_inner_comm e (x t)]
            rfl
          have h4 : inner ℝ (x t) (w t) ≤ R * r := (real_inner_le_norm _ _).trans (mul_le_mul k2 hwt (norm_nonneg _) hR.le)
          have h5 : -(a * κ) * up e (x t) ≤ -(a * κ) * (R / 2) := by
            have := mul_le_mul_of_nonneg_left hux (mul_pos ha hκ0).le
            linarith
          rw [h3]
          exact mul_le_mul_of_nonneg_left (by linarith) s1
        have hvn : ‖v‖ ≤ σ t * (2 * (a * κ)) := by
          rw [hv, norm_smul, Real.norm_eq_abs, abs_of_nonneg s1]
          refine mul_le_mul_of_nonneg_left ((norm_add_le _ _).trans ?_) s1
          rw [norm_smul, he, mul_one, Real.norm_eq_abs, abs_neg, abs_of_pos (mul_pos ha hκ0)]
          linarith
        have hvn2 : ‖v‖ ^ 2 ≤ (σ t * (2 * (a * κ))) ^ 2 := by gcongr
        have hsq : ‖x t + v‖ ^ 2 = ‖x t‖ ^ 2 + 2 * inner ℝ (x t) v + ‖v‖ ^ 2 := norm_add_sq_real _ _
        have hx2 : ‖x t‖ ^ 2 ≤ R ^ 2 := by gcongr
        have hsm : σ t * (a * κ) ≤ R / 16 := by
          have : σ t * (a * κ) ≤ σ1 * (a * κ) := by gcongr
          linarith
        have h6 : 0 ≤ σ t * (a * κ) := mul_nonneg s1 (mul_pos ha hκ0).le
        have h7 : (σ t * (2 * (a * κ))) ^ 2 ≤ 4 * (σ t * (a * κ)) * (R / 16) := by
          have : (σ t * (2 * (a * κ))) ^ 2 = 4 * (σ t * (a * κ)) * (σ t * (a * κ)) := by ring
          rw [this]
          exact mul_le_mul_of_nonneg_left hsm (by positivity)
        have h8 : σ t * (R * r) ≤ σ t * (a * κ) * R / 8 := by
          have : σ t * (R * (8 * r)) ≤ σ t * (R * (a * κ)) := by gcongr
          linarith
        have h9 : 0 ≤ σ t * (a * κ) * R := mul_nonneg h6 hR.le
        have h10 : ‖x t + v‖ ^ 2 ≤ R ^ 2 := by
          have e3 : σ t * (-(a * κ) * (R / 2) + R * r) = -(σ t * (a * κ) * R) / 2 + σ t * (R * r) := by ring
          rw [e3] at hinner
          linarith
        exact abs_le_of_sq_le_sq' h10 hR.le |>.2
    have hnext : x (t + 1) = x t + v := by
      rw [hstep t (by omega), mirror, if_neg (not_lt.2 hin)]
    rw [hnext]
    exact ⟨hfar, hin⟩
end Moledyn.BallSweep

namespace Moledyn.CylSweep
open Moledyn.Props (cylSet)
open Moledyn.BallSweep Moledyn.CubeSweep
set_option linter.unusedSectionVars false
variable {d : Nat}

/-- the first `k` coordinates. -/
def head (k : ℕ) (x : Fin d → ℝ) : Fin d → ℝ := fun i => if i.1 < k then x i else 0

theorem head_add (k : ℕ) (x y : Fin d → ℝ) : head k (x + y) = head k x + head k y := by
  ext i; simp only [head, Pi.add_apply]; split_ifs <;> simp

theorem norm_head (k : ℕ) (y : Fin d → ℝ) : ‖pt (head k y)‖ = Real.sqrt (axisSq k y) := by
  rw [norm_pt]
  congr 1
  unfold axisSq
  refine Finset.sum_congr rfl fun i _ => ?_
  simp only [head]
  split_ifs <;> simp

theorem head_put (k : ℕ) (R L : ℝ) (y : Fin d → ℝ) : pt (head k (cylPut k R L y)) = mirror R (pt (head k y)) := by
  unfold mirror
  rw [norm_head]
  split
  · rename_i h
    ext i
    simp only [head, cylPut, if_pos h, PiLp.smul_apply, smul_eq_mul]
    split_ifs
    · ring
    · simp
  · rename_i h
    ext i
    simp only [head, cylPut, if_neg h]
    split_ifs <;> rfl

theorem coord_le (x : Fin d → ℝ) (i : Fin d) : |x i| ≤ ‖pt x‖ := by
  rw [norm_pt]
  refine Real.le_sqrt_of_sq_le ?_
  rw [sq_abs]
  exact Finset.single_le_sum (f := fun i => x i ^ 2) (fun i _ => sq_nonneg _) (Finset.mem_univ i)

theorem norm_head_le {k : ℕ} {x : Fin d → ℝ} {ρ : ℝ} (hρ : 0 ≤ ρ) (h : ∀ i, |x i| ≤ ρ) : ‖pt (head k x)‖ ≤ d * ρ :=
  norm_pt_le fun i => by
    simp only [head]
    split_ifs
    · exact h i
    · simpa using hρ

/-- the point of the target is inside the cylinder. -/
theorem inner_length {k : ℕ} {c : Fin d → ℝ} {ε R L : ℝ} (hε : 0 < ε) (hin : nearSet c ε ⊆ cylSet d k R L) (i : Fin d) (hi : k ≤ i.1) : |c i| ≤ L - ε / 2 := by
  have hadd : ∀ s : ℝ, |s| < ε → |c i + s| ≤ L := by
    intro s hs
    have h1 : (fun j => if j = i then c i + s else c j) ∈ nearSet c ε := by
      show Real.sqrt (∑ j, ((if j = i then c i + s else c j) - c j) ^ 2) < ε
      rw [Real.sqrt_lt' hε]
      have e1 : ∀ j, ((if j = i then c i + s else c j) - c j) ^ 2 = if j = i then s ^ 2 else 0 := by
        intro j
        split_ifs with h
        · subst h; ring
        · ring
      simp only [e1, Finset.sum_ite_eq', Finset.mem_univ, if_true]
      exact sq_lt_sq' (by linarith [(abs_lt.1 hs).1]) (abs_lt.1 hs).2
    simpa using (hin h1).2 i hi
  have h1 := (abs_le.1 (hadd (ε / 2) (by rw [abs_of_pos (by positivity)]; linarith))).2
  have h2 := (abs_le.1 (hadd (-(ε / 2)) (by rw [abs_neg, abs_of_pos (by positivity)]; linarith))).1
  rw [abs_le]
  constructor <;> linarith

/-- the axis through the point. -/
theorem inner_axis {k : ℕ} (hk0 : 0 < k) (hkd : k ≤ d) {c : Fin d → ℝ} {ε R L : ℝ} (hR : 0 < R) (hε : 0 < ε) (hin : nearSet c ε ⊆ cylSet d k R L) :
    ∃ q : Fin d → ℝ, ‖pt q‖ = 1 ∧ head k q = q ∧ pt (head k c) = ‖pt (head k c)‖ • pt q ∧ ‖pt (head k c)‖ + ε ≤ R := by
  obtain ⟨q, hq1, hq2, hq3⟩ : ∃ q : Fin d → ℝ, ‖pt q‖ = 1 ∧ head k q = q ∧ pt (head k c) = ‖pt (head k c)‖ • pt q := by
    by_cases hc : pt (head k c) = 0
    · refine ⟨fun i => if i = ⟨0, by omega⟩ then 1 else 0, ?_, ?_, by rw [hc]; simp⟩
      · rw [norm_pt]
        simp
      · ext i
        simp only [head]
        split_ifs with h1 h2 h2
        · rfl
        · rfl
        · subst h2; exact absurd hk0 h1
        · rfl
    · have hc' : ‖pt (head k c)‖ ≠ 0 := norm_ne_zero_iff.2 hc
      refine ⟨fun i => ‖pt (head k c)‖⁻¹ * head k c i, ?_, ?_, ?_⟩
      · have : (pt fun i => ‖pt (head k c)‖⁻¹ * head k c i) = ‖pt (head k c)‖⁻¹ • pt (head k c) := by ext i; simp
        rw [this, norm_smul, norm_inv, norm_norm, inv_mul_cancel₀ hc']
      · ext i
        simp only [head]
        split_ifs <;> simp
      · ext i
        simp only [PiLp.smul_apply, smul_eq_mul]
        rw [← mul_assoc, mul_inv_cancel₀ hc', one_mul]
  refine ⟨q, hq1, hq2, hq3, ?_⟩
  have hmem : ∀ x, x ∈ cylSet d k R L → ‖pt (head k x)‖ ≤ R := fun x hx => by
    rw [norm_head, Real.sqrt_le_left hR.le]
    exact hx.1
  by_contra hlt
  push Not at hlt
  have hc : c ∈ cylSet d k R L := hin (by rw [pt_near]; simpa using hε)
  have hcR := hmem c hc
  set r := (R - ‖pt (head k c)‖ + ε) / 2 with hr
  have hr0 : 0 ≤ r := by linarith
  have h2 : (c + fun i => r * q i) ∈ nearSet c ε := by
    rw [pt_near]
    have : pt (c + fun i => r * q i) - pt c = r • pt q := by
      ext i
      simp
    rw [this, norm_smul, hq1, mul_one, Real.norm_eq_abs, abs_of_nonneg hr0]
    linarith
  have h3 := hmem _ (hin h2)
  have h4 : pt (head k (c + fun i => r * q i)) = (‖pt (head k c)‖ + r) • pt q := by
    have e1 : head k (fun i => r * q i) = fun i => r * q i := by
      ext i
      have := congrFun hq2 i
      simp only [head] at this ⊢
      split_ifs with h
      · rfl
      · rw [if_neg h] at this
        rw [← this, mul_zero]
    rw [head_add, e1, add_smul]
    have e2 : pt (head k c + fun i => r * q i) = pt (head k c) + r • pt q := by ext i; simp
    rw [e2]
    exact congrArg (· + r • pt q) hq3
  rw [h4, norm_smul, hq1, mul_one, Real.norm_eq_abs, abs_of_nonneg (by positivity)] at h3
  linarith

set_option maxHeartbeats 1000000 in
/-- There is a sequence of draws `m 0, m 1, …` such that every walker in the cylinder, or beyond its ends, which uses numbers near
some of them, not too far apart, comes near the point `c`. -/
theorem cyl_word {k : ℕ} (hkd : k ≤ d) {R L : ℝ} (hR : 0 < R) (hL : 0 < L) {c : Fin d → ℝ} {ε : ℝ} (hε : 0 < ε) (hin : nearSet c ε ⊆ cylSet d k R L)
    {σ0 σ1 A : ℝ} (hσ0 : 0 < σ0) (hσ1 : σ0 ≤ σ1) (hA : 0 < A) {N : ℕ} (_hN : 0 < N) :
    ∃ (K : ℕ) (m : ℕ → Fin d → ℝ) (ρ : ℝ), 0 < K ∧ 0 < ρ ∧ (∀ j i, |m j i| ≤ A) ∧
      ∀ (x z : ℕ → Fin d → ℝ) (σ : ℕ → ℝ) (l : ℕ → ℕ), x 0 ∈ cylSet d k R (2 * L) → l 0 ≤ N → (∀ t, l t < l (t + 1) ∧ l (t + 1) ≤ l t + N) →
        (∀ t < K, σ0 ≤ σ t ∧ σ t ≤ σ1 ∧ x (t + 1) = cylPut k R L (x t + fun i => z t i * σ t)) →
        (∀ t, l t < K → ∀ i, |z t i - m (l t) i| < ρ) → ∃ t < K, x (t + 1) ∈ nearSet c ε := by
  have hs1 : 0 < σ1 := hσ0.trans_le hσ1
  have hcoord := inner_length hε hin
  have hd : (0 : ℝ) < d + 1 := by positivity
  obtain ⟨e, he, hed⟩ : ∃ e : ℝ, 0 < e ∧ (d + 1) * (5 * e) = ε / 4 := ⟨ε / (20 * (d + 1)), by positivity, by field_simp; norm_num⟩
  have heε : 20 * e ≤ ε := by
    have : (1 : ℝ) ≤ d + 1 := by linarith [(Nat.cast_nonneg d : (0 : ℝ) ≤ d)]
    have : 1 * (5 * e) ≤ (d + 1) * (5 * e) := mul_le_mul_of_nonneg_right this (by positivity)
    linarith
  -- the axis
  obtain ⟨q, cR, hq, hqi, hcR0⟩ : ∃ (q : Fin d → ℝ) (cR : ℝ), (0 < k → ‖pt q‖ = 1 ∧ head k q = q ∧ pt (head k c) = cR • pt q ∧ cR + ε ≤ R) ∧ (∀ i, |q i| ≤ 1) ∧
      0 ≤ cR := by
    by_cases hk : 0 < k
    · obtain ⟨q, h1, h2, h3, h4⟩ := inner_axis hk hkd hR hε hin
      exact ⟨q, _, fun _ => ⟨h1, h2, h3, h4⟩, fun i => h1 ▸ coord_le q i, norm_nonneg _⟩
    · exact ⟨fun _ => 0, 0, fun h => absurd h hk, fun i => by simp, le_rfl⟩
  set κ := R - cR with hκ
  obtain ⟨η, hη0, hη1, hηe, hηR⟩ : ∃ η : ℝ, 0 < η ∧ η ≤ 1 / 4 ∧ 2 * η * (2 * L) ≤ e ∧ 2 * η * R ≤ e := by
    refine ⟨min (1 / 4) (e / (4 * L + 2 * R)), by positivity, min_le_left _ _, ?_, ?_⟩
    · have h1 := min_le_right (1 / 4) (e / (4 * L + 2 * R))
      rw [le_div_iff₀ (by positivity)] at h1
      have h2 : 0 ≤ min (1 / 4) (e / (4 * L + 2 * R)) := by positivity
      nlinarith [mul_nonneg h2 hR.le]
    · have h1 := min_le_right (1 / 4) (e / (4 * L + 2 * R))
      rw [le_div_iff₀ (by positivity)] at h1
      have h2 : 0 ≤ min (1 / 4) (e / (4 * L + 2 * R)) := by positivity
      nlinarith [mul_nonneg h2 hL.le]
  obtain ⟨M, hM2, hMe⟩ : ∃ M : ℝ, 2 ≤ M ∧ 2 * L * (2 / M) ≤ e := by
    refine ⟨max 2 (4 * L / e), le_max_left _ _, ?_⟩
    have h1 : 0 < max 2 (4 * L / e) := by positivity
    have := le_max_right 2 (4 * L / e)
    rw [div_le_iff₀ he] at this
    rw [← mul_div_assoc, div_le_iff₀ h1]
    linarith
  have hM1 : 1 ≤ M := by linarith
  set v : Fin d → ℝ := fun i => if i.1 < k then -(κ * q i) else 2 * L / η * M ^ i.1 with hv
  set B := 2 * L / η * M ^ d + R with hB
  have hMd : 0 < 2 * L / η * M ^ d := by positivity
  have hB0 : 0 < B := by linarith
  have hvB : ∀ i, |v i| ≤ B := by
    intro i
    simp only [hv]
    split_ifs with h
    · obtain ⟨-, -, -, h4⟩ := hq (by omega)
      rw [abs_neg, abs_mul, abs_of_nonneg (by linarith : 0 ≤ κ)]
      have h5 : κ * |q i| ≤ R * 1 := mul_le_mul (by linarith) (hqi i) (abs_nonneg _) hR.le
      linarith
    · rw [abs_of_nonneg (by positivity)]
      have : M ^ i.1 ≤ M ^ d := pow_le_pow_right₀ hM1 i.2.le
      have : 2 * L / η * M ^ i.1 ≤ 2 * L / η * M ^ d := by gcongr
      linarith
  obtain ⟨a, ha0, haA, haB, haσ⟩ : ∃ a : ℝ, 0 < a ∧ a * B ≤ A ∧ σ1 * a * B ≤ e ∧ σ1 * a ≤ 1 / 4 := by
    refine ⟨min (A / B) (min (e / (σ1 * B)) (1 / (4 * σ1))), by positivity, ?_, ?_, ?_⟩
    · have := min_le_left (A / B) (min (e / (σ1 * B)) (1 / (4 * σ1)))
      exact (le_div_iff₀ hB0).1 this
    · have := (min_le_right (A / B) _).trans (min_le_left (e / (σ1 * B)) (1 / (4 * σ1)))
      rw [le_div_iff₀ (by positivity)] at this
      linarith
    · have := (min_le_right (A / B) _).trans (min_le_right (e / (σ1 * B)) (1 / (4 * σ1)))
      rw [le_div_iff₀ (by positivity)] at this
      linarith
  obtain ⟨a1, ha10, ha1A, ha1e⟩ : ∃ a1 : ℝ, 0 < a1 ∧ a1 ≤ A ∧ 2 * σ1 * a1 ≤ e / 4 := by
    refine ⟨min A (e / (8 * σ1)), by positivity, min_le_left _ _, ?_⟩
    have := min_le_right A (e / (8 * σ1))
    rw [le_div_iff₀ (by positivity)] at this
    linarith
  set up1 := σ0 * a1 / 2 with hup1
  have hup0 : 0 < up1 := by positivity
  obtain ⟨J, hJ1, hJ2⟩ : ∃ J : ℕ, R * Real.exp (1 - up1 * J / (2 * R)) ≤ e / 4 ∧ 2 * R < up1 * J := by
    have t1 : Filter.Tendsto (fun J : ℕ => up1 * (J : ℝ)) Filter.atTop Filter.atTop :=
      tendsto_natCast_atTop_atTop.const_mul_atTop hup0
    have t2 : Filter.Tendsto (fun J : ℕ => R * Real.exp (1 - up1 * J / (2 * R))) Filter.atTop (nhds (R * 0)) := by
      refine Filter.Tendsto.const_mul R (Real.tendsto_exp_atBot.comp ?_)
      have t3 : Filter.Tendsto (fun J : ℕ => up1 * (J : ℝ) / (2 * R)) Filter.atTop Filter.atTop := t1.atTop_div_const (by positivity)
      exact Filter.tendsto_atBot_add_const_left _ 1 (Filter.tendsto_neg_atTop_atBot.comp t3)
    rw [mul_zero] at t2
    exact ((t2.eventually_le_const (show (0 : ℝ) < e / 4 by positivity)).and (t1.eventually_gt_atTop (2 * R))).exists
  set T1 := 2 * J with hT1
  set m1 := N * T1 + 1 with hm1
  obtain ⟨T2, hT2⟩ : ∃ T2 : ℕ, 1 < T2 * (σ0 * a) := by
    obtain ⟨n, hn⟩ := exists_nat_gt (1 / (σ0 * a))
    exact ⟨n, by rwa [div_lt_iff₀ (by positivity)] at hn⟩
  obtain ⟨ρ, hρ0, hρ1, hρ2, hρ3, hρ4, hρ5⟩ : ∃ ρ : ℝ, 0 < ρ ∧ (d + 1) * ρ ≤ a1 / 2 ∧ 8 * ((d + 1) * ρ) ≤ a * ε ∧
      T2 * (σ1 * ((d + 1) * ρ)) ≤ e ∧ σ1 * ((d + 1) * ρ) * m1 ≤ e / 4 ∧ σ1 * ρ ≤ e := by
    have hT0 : (0 : ℝ) ≤ T2 := Nat.cast_nonneg _
    have hm0 : (0 : ℝ) ≤ m1 := Nat.cast_nonneg _
    obtain ⟨r, hr0, hr1, hr2, hr3, hr4⟩ : ∃ r : ℝ, 0 < r ∧ r ≤ a1 / 2 ∧ r ≤ a * ε / 8 ∧ r * (σ1 * (T2 + 1)) ≤ e ∧ r * (4 * σ1 * (m1 + 1)) ≤ e := by
      refine ⟨min (min (a1 / 2) (a * ε / 8)) (min (e / (σ1 * (T2 + 1))) (e / (4 * σ1 * (m1 + 1)))), by positivity,
        (min_le_left _ _).trans (min_le_left _ _), (min_le_left _ _).trans (min_le_right _ _), ?_, ?_⟩
      · exact (le_div_iff₀ (by positivity)).1 ((min_le_right _ _).trans (min_le_left _ _))
      · exact (le_div_iff₀ (by positivity)).1 ((min_le_right _ _).trans (min_le_right _ _))
    have er : (d + 1) * (r / (d + 1)) = r := by field_simp
    have hrs : 0 ≤ r * σ1 := by positivity
    refine ⟨r / (d + 1), by positivity, by rw [er]; exact hr1, by rw [er]; linarith, by rw [er]; nlinarith, by rw [er]; nlinarith, ?_⟩
    have h1 : r / (d + 1) ≤ r := div_le_self hr0.le (by linarith [(Nat.cast_nonneg d : (0 : ℝ) ≤ d)])
    have h2 : σ1 * (r / (d + 1)) ≤ σ1 * r := by gcongr
    nlinarith [mul_nonneg hrs hT0]
  have hdρ : (d : ℝ) * ρ ≤ (d + 1) * ρ := by linarith
  refine ⟨m1 + N * T2 + 1, fun j => if j < m1 then fun i => if i.1 < k then a1 * q i else 0 else fun i => a * v i, ρ, by omega, hρ0, fun j i => ?_, ?_⟩
  · beta_reduce
    split_ifs with h1
    · simp only
      split_ifs
      · rw [abs_mul, abs_of_pos ha10]
        calc a1 * |q i| ≤ a1 * 1 := by have := hqi i; gcongr
          _ ≤ A := by linarith
      · simpa using hA.le
    · simp only
      rw [abs_mul, abs_of_pos ha0]
      exact (mul_le_mul_of_nonneg_left (hvB i) ha0.le).trans haA
  intro x z σ l hx0 hl0 hl hstep hz
  have hkle : ∀ t, l t ≤ N * (t + 1) := by
    intro t
    induction t with
    | zero => simpa using hl0
    | succ t ih => have := (hl t).2; rw [Nat.mul_add] at ih ⊢; rw [Nat.mul_add]; omega
  have hkge : ∀ t, t ≤ l t := by
    intro t
    induction t with
    | zero => omega
    | succ t ih => have := (hl t).1; omega
  obtain ⟨t1, b1, b2, b3, b4⟩ := BallSweep.first_past hl0 hl m1
  have ht1 : T1 ≤ t1 := by
    by_contra hc
    push Not at hc
    have h1 := b2 t1 le_rfl
    have h2 := hkle t1
    have h3 : N * (t1 + 1) ≤ N * T1 := Nat.mul_le_mul_left N hc
    omega
  have hkle2 : ∀ u, l (t1 + u) ≤ m1 + N + N * u := by
    intro u
    induction u with
    | zero => simpa using b4
    | succ u ih => have := (hl (t1 + u)).2; rw [← Nat.add_assoc, Nat.mul_add]; omega
  have hlate : ∀ u < T2, l (t1 + u) < m1 + N * T2 + 1 := fun u hu => by
    have h1 := hkle2 u
    have h2 : N * (u + 1) ≤ N * T2 := Nat.mul_le_mul_left N hu
    rw [Nat.mul_add] at h2
    omega
  have hz1 : ∀ t < t1, ∀ i : Fin d, |z t i - if i.1 < k then a1 * q i else 0| ≤ ρ := fun t ht i => by
    have h1 := b1 t ht
    have h2 := hz t (by omega) i
    beta_reduce at h2
    rw [if_pos h1] at h2
    exact h2.le
  have hz2 : ∀ u < T2, ∀ i, |z (t1 + u) i - a * v i| ≤ ρ := fun u hu i => by
    have h2 := hz (t1 + u) (hlate u hu) i
    beta_reduce at h2
    rw [if_neg (by have := b2 (t1 + u) (by omega); omega)] at h2
    exact h2.le
  have hst2 : ∀ u < T2, σ0 ≤ σ (t1 + u) ∧ σ (t1 + u) ≤ σ1 ∧ x (t1 + (u + 1)) = cylPut k R L (x (t1 + u) + fun i => z (t1 + u) i * σ (t1 + u)) := fun u hu => by
    have := hlate u hu
    have := hkge (t1 + u)
    exact hstep (t1 + u) (by omega)
  have hσ2 : ∀ u < T2, 0 ≤ σ (t1 + u) ∧ σ (t1 + u) ≤ σ1 := fun u hu => ⟨by linarith [(hst2 u hu).1], (hst2 u hu).2.1⟩
  -- the first phase
  have htop : 0 < k → R - e ≤ up (pt q) (pt (head k (x t1))) ∧ off (pt q) (pt (head k (x t1))) ≤ e ∧ ‖pt (head k (x t1))‖ ≤ R := by
    intro hk
    obtain ⟨hq1, hq2, -, hcR⟩ := hq hk
    have heR : 10 * e ≤ R := by linarith
    refine reach_top hq1 (R := R) (a := up1) (b := 2 * σ1 * a1) (δ := σ1 * ((d + 1) * ρ)) (τ := e) hR (by linarith) (by positivity) hup0 (J := J) ht1 ?_ hJ2.le
      (fun t => pt (head k (x t))) (fun t => pt (head k fun i => z t i * σ t)) ?_ (fun t ht => ?_) fun t ht => ?_
    · have h1 : (t1 : ℝ) ≤ m1 := by exact_mod_cast b3
      have h2 : σ1 * ((d + 1) * ρ) * t1 ≤ σ1 * ((d + 1) * ρ) * m1 := by gcongr
      linarith
    · show ‖pt (head k (x 0))‖ ≤ R
      rw [norm_head, Real.sqrt_le_left hR.le]
      exact hx0.1
    · obtain ⟨-, -, s3⟩ := hstep t (by omega)
      show pt (head k (x (t + 1))) = _
      rw [s3, head_put, head_add]
      rfl
    · obtain ⟨s1, s2, -⟩ := hstep t (by omega)
      have hw : ‖pt (head k fun i => z t i - if i.1 < k then a1 * q i else 0)‖ ≤ (d + 1) * ρ := (norm_head_le hρ0.le (hz1 t ht)).trans hdρ
      have := push_near hq1 (s := 1) hσ0 s1 s2 ha10 hρ1 (by simp) (by norm_num) hw
      refine cast (congrArg _ ?_) this
      ext i
      have h5 := congrFun hq2 i
      simp only [head] at h5
      simp only [PiLp.smul_apply, PiLp.add_apply, smul_eq_mul, head, one_mul]
      split_ifs with h
      · ring
      · rw [if_neg h] at h5
        rw [← h5]
        ring
  -- the second phase
  obtain ⟨s, hs0, hs2, hwind⟩ := winds hM2 d (fun i => if h : i < d then x t1 ⟨i, h⟩ / (2 * L) + (1 - 2 * η) / η * M ^ i else 0)
    (fun i => if h : i < d then c ⟨i, h⟩ / (2 * L) else 0)
  set goal := 1 - 2 * η + η * s with hgoal
  have hηs := mul_nonneg hη0.le hs0
  have hηs2 : η * s ≤ η * 2 := mul_le_mul_of_nonneg_left hs2 hη0.le
  have hg1 : goal ≤ 1 := by linarith
  have hg0 : 1 / 2 ≤ goal := by linarith
  obtain ⟨u, hu0, hu, hug, huv⟩ := passes (θ := fun u => ∑ j ∈ Finset.range u, σ (t1 + j) * a) (lo := σ0 * a) (hi := σ1 * a) (goal := goal) (T := T2)
    (by simp) (fun u hu => by
      obtain ⟨s1, s2, -⟩ := hst2 u hu
      rw [Finset.sum_range_succ, add_sub_cancel_left]
      exact ⟨by gcongr, by gcongr⟩) (by linarith) (by linarith) (by linarith)
  have huT : (u : ℝ) ≤ T2 := by exact_mod_cast hu.le
  have hnoise : (u : ℝ) * (σ1 * ((d + 1) * ρ)) ≤ e := (mul_le_mul_of_nonneg_right huT (by positivity)).trans hρ3
  have hnoise' : (u : ℝ) * (σ1 * ρ) ≤ e := by
    refine le_trans ?_ hnoise
    have : ρ ≤ (d + 1) * ρ := by nlinarith [(Nat.cast_nonneg d : (0 : ℝ) ≤ d)]
    gcongr
  refine ⟨t1 + u - 1, by have := hlate u hu; have := hkge (t1 + u); omega, ?_⟩
  rw [show t1 + u - 1 + 1 = t1 + u by omega]
  refine near_of_coords (e := 5 * e) (by positivity) (by linarith) fun i => ?_
  set θ := ∑ j ∈ Finset.range u, σ (t1 + j) * a with hθ
  have hθ1 := huv u le_rfl
  have hθg : |θ - goal| * B ≤ e := by
    rw [abs_of_nonpos (by linarith)]
    calc -(θ - goal) * B ≤ σ1 * a * B := by gcongr; linarith
      _ ≤ e := haB
  by_cases hi : i.1 < k
  · have hk : 0 < k := by omega
    obtain ⟨hq1, hq2, hq3, hcR⟩ := hq hk
    obtain ⟨w1, w2, w3⟩ := htop hk
    have hκ0 : ε ≤ κ := by linarith
    have hκR : κ ≤ R := by linarith
    have hRB : R ≤ B := by linarith
    obtain ⟨k1, -⟩ := straight_down hq1 (R := R) (τ := e) (κ := κ) (a := a) (σ1 := σ1) (r := (d + 1) * ρ) hR he.le (by linarith) (by linarith) hκR ha0
      (by
        have : σ1 * a * κ ≤ σ1 * a * B := by gcongr; linarith
        linarith) (by positivity) (hρ2.trans (by gcongr)) (T := u) hnoise (fun u => pt (head k (x (t1 + u))))
      (fun u => pt (head k fun i => z (t1 + u) i - a * v i)) (fun u => σ (t1 + u)) w1 w2 w3 (fun t ht => hσ2 t (by omega))
      (fun t ht => (norm_head_le hρ0.le (hz2 t (by omega))).trans hdρ)
      (fun t ht => by
        obtain ⟨-, -, s3⟩ := hst2 t (by omega)
        show pt (head k (x (t1 + (t + 1)))) = _
        rw [s3, head_put, head_add]
        congr 1
        ext j
        have h5 := congrFun hq2 j
        simp only [head] at h5
        simp only [PiLp.smul_apply, PiLp.add_apply, smul_eq_mul, head, Pi.add_apply]
        split_ifs with h
        · simp only [hv, if_pos h]
          ring
        · rw [if_neg h] at h5
          rw [← h5]
          ring)
      (fun t ht => (huv t ht).trans hg1) u le_rfl
    simp only [Nat.add_zero, ← hθ] at k1
    have h0 : ‖pt (head k (x t1)) - R • pt q‖ ≤ 2 * e := by
      have h1 := near_axis hq1 (pt (head k (x t1))) R
      have h2 : up (pt q) (pt (head k (x t1))) ≤ R := (le_abs_self _).trans ((up_le hq1 _).trans w3)
      rw [abs_of_nonpos (by linarith)] at h1
      linarith
    have h6 : |1 - θ| * κ ≤ 2 * e := by
      have h7 : |1 - θ| ≤ |1 - goal| + |goal - θ| := abs_sub_le _ _ _
      have h8 : |1 - goal| ≤ 2 * η := by rw [abs_of_nonneg (by linarith)]; linarith
      have h9 : |goal - θ| * κ ≤ e := by
        rw [abs_sub_comm]
        exact (mul_le_mul_of_nonneg_left (by linarith) (abs_nonneg _)).trans hθg
      have h10 : |1 - goal| * κ ≤ 2 * η * R := mul_le_mul h8 hκR (by linarith) (by positivity)
      have h11 : |1 - θ| * κ ≤ (|1 - goal| + |goal - θ|) * κ := mul_le_mul_of_nonneg_right h7 (by linarith)
      linarith
    have hfin : ‖pt (head k (x (t1 + u))) - pt (head k c)‖ ≤ 5 * e := by
      have e1 : pt (head k (x (t1 + u))) - pt (head k c) = (pt (head k (x (t1 + u))) - pt (head k (x t1)) + (θ * κ) • pt q) + (pt (head k (x t1)) - R • pt q) +
          ((1 - θ) * κ) • pt q := by
        have e2 : R = cR + κ := by rw [hκ]; ring
        rw [sub_mul, one_mul, sub_smul, congrArg (fun r : ℝ => r • pt q) e2, add_smul]
        have e3 : pt (head k (x (t1 + u))) - pt (head k c) = pt (head k (x (t1 + u))) - cR • pt q := congrArg (pt (head k (x (t1 + u))) - ·) hq3
        rw [e3]
        abel
      rw [e1]
      refine (norm_add₃_le).trans ?_
      rw [norm_smul, hq1, mul_one, Real.norm_eq_abs, abs_mul, abs_of_nonneg (by linarith : 0 ≤ κ)]
      linarith
    have h12 := coord_le (head k (x (t1 + u)) - head k c) i
    have h13 : (head k (x (t1 + u)) - head k c) i = x (t1 + u) i - c i := by simp [head, hi]
    rw [h13] at h12
    exact h12.trans hfin
  · push Not at hi
    have hi' : ¬ i.1 < k := by omega
    have hvi : v i = 2 * L / η * M ^ i.1 := by simp only [hv, if_neg hi']
    have hcL : ε / 2 ≤ L := by linarith [hcoord i hi, abs_nonneg (c i)]
    obtain ⟨n, hn⟩ := straight_periodic (L := L) (v := v i) (a := a) (σ1 := σ1) (ρ := ρ) (x := fun u => x (t1 + u) i)
      (z := fun u => z (t1 + u) i) (σ := fun u => σ (t1 + u)) (T := u)
      (fun t ht => hσ2 t (by omega)) (fun t ht => hz2 t (by omega) i)
      (fun t ht => by simp only [(hst2 t (by omega)).2.2, cylPut, if_neg hi']; rfl) u le_rfl
    simp only [Nat.add_zero] at hn
    obtain ⟨n', hn'⟩ := hwind i.1 i.2
    simp only [i.2, dif_pos] at hn'
    have h6 : |(θ - goal) * v i| ≤ e := by
      rw [abs_mul]
      exact (mul_le_mul_of_nonneg_left (hvB i) (abs_nonneg _)).trans hθg
    have h7 : |x t1 i + goal * v i - c i - 2 * L * n'| ≤ e := by
      have e2 : x t1 i + goal * v i - c i - 2 * L * n' =
          2 * L * (x t1 i / (2 * L) + (1 - 2 * η) / η * M ^ i.1 + s * M ^ i.1 - c i / (2 * L) - n') := by
        rw [hvi, hgoal]
        field_simp
        ring
      rw [e2, abs_mul, abs_of_pos (by positivity : (0 : ℝ) < 2 * L)]
      exact (mul_le_mul_of_nonneg_left hn' (by positivity)).trans hMe
    have h8 : |x (t1 + u) i - c i - 2 * L * ((n + n' : ℤ) : ℝ)| ≤ 3 * e := by
      have e3 : x (t1 + u) i - c i - 2 * L * ((n + n' : ℤ) : ℝ) =
          (x (t1 + u) i - x t1 i - θ * v i - 2 * L * n) + (θ - goal) * v i + (x t1 i + goal * v i - c i - 2 * L * n') := by push_cast; ring
      rw [e3]
      rw [abs_le] at hn h6 h7 ⊢
      constructor <;> linarith [hn.1, hn.2, h6.1, h6.2, h7.1, h7.2]
    have hinside : |x (t1 + u) i| ≤ L := by
      have hmid : ∀ t ≤ t1, |x t i| ≤ 2 * L := by
        intro t
        induction t with
        | zero => exact fun _ => hx0.2 i hi
        | succ t ih =>
          intro ht
          obtain ⟨s1, s2, s3⟩ := hstep t (by omega)
          have h2 := hz1 t (by omega) i
          rw [if_neg hi', sub_zero] at h2
          rw [s3]
          simp only [cylPut, if_neg hi']
          refine (periodicPut_inside ((abs_add_le _ _).trans ?_)).trans (by linarith)
          have h3 : |z t i * σ t| ≤ ρ * σ1 := by
            rw [abs_mul, abs_of_nonneg (by linarith : 0 ≤ σ t)]
            exact mul_le_mul h2 s2 (by linarith) hρ0.le
          linarith [ih (by omega)]
      have hone : ∀ w < u, |x (t1 + w) i| ≤ 2 * L → |x (t1 + (w + 1)) i| ≤ L := by
        intro w hw hxw
        obtain ⟨s1, s2⟩ := hσ2 w (by omega)
        have h2 := hz2 w (by omega) i
        rw [(hst2 w (by omega)).2.2]
        simp only [cylPut, if_neg hi']
        refine periodicPut_inside ((abs_add_le _ _).trans ?_)
        have h3 : |z (t1 + w) i| ≤ a * B + ρ := by
          have : z (t1 + w) i = a * v i + (z (t1 + w) i - a * v i) := by ring
          rw [this]
          refine (abs_add_le _ _).trans (add_le_add ?_ h2)
          rw [abs_mul, abs_of_pos ha0]
          exact mul_le_mul_of_nonneg_left (hvB i) ha0.le
        have h5 : |z (t1 + w) i * σ (t1 + w)| ≤ 2 * e := by
          rw [abs_mul, abs_of_nonneg s1]
          calc |z (t1 + w) i| * σ (t1 + w) ≤ (a * B + ρ) * σ1 := mul_le_mul h3 s2 s1 (by positivity)
            _ ≤ 2 * e := by linarith
        linarith
      have hend : ∀ w ≤ u, |x (t1 + w) i| ≤ 2 * L := by
        intro w
        induction w with
        | zero => exact fun _ => hmid t1 le_rfl
        | succ w ih => exact fun hw => (hone w (by omega) (ih (by omega))).trans (by linarith)
      have := hone (u - 1) (by omega) (hend (u - 1) (by omega))
      rwa [show u - 1 + 1 = u by omega] at this
    have h9 := same_point hinside (y := x (t1 + u) i - 2 * L * ((n + n' : ℤ) : ℝ)) (by
      have hci := abs_le.1 (hcoord i hi)
      rw [abs_le] at h8
      rw [abs_lt]
      constructor <;> linarith [h8.1, h8.2, hci.1, hci.2]) (n + n') (by ring)
    rw [h9, show x (t1 + u) i - 2 * L * ((n + n' : ℤ) : ℝ) - c i = x (t1 + u) i - c i - 2 * L * ((n + n' : ℤ) : ℝ) by ring]
    linarith
end Moledyn.CylSweep
