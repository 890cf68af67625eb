import Verif.Lemmas.BallSweep
import Verif.Spec.SearchLaw
import Verif.Props.Laws
import Mathlib.Analysis.InnerProductSpace.PiL2
/-
A sequence of pushes that brings every walker in a ball near a given point.
-/
namespace Moledyn.BallSweep
open Moledyn.Props (ballSet)
set_option linter.unusedSectionVars false
variable {d : Nat}

/-- the point with these coordinates. -/
noncomputable abbrev pt (x : Fin d → ℝ) : EuclideanSpace ℝ (Fin d) := WithLp.toLp 2 x

theorem norm_pt (x : Fin d → ℝ) : ‖pt x‖ = Real.sqrt (∑ i, x i ^ 2) := by
  rw [EuclideanSpace.norm_eq]
  simp

theorem pt_ball {R : ℝ} (hR : 0 < R) (x : Fin d → ℝ) : x ∈ ballSet d R ↔ ‖pt x‖ ≤ R := by
  rw [norm_pt, Real.sqrt_le_left hR.le]; rfl

theorem pt_near (c x : Fin d → ℝ) (r : ℝ) : x ∈ nearSet c r ↔ ‖pt x - pt c‖ < r := by
  have : pt x - pt c = pt (x - c) := rfl
  rw [this, norm_pt]; rfl

theorem pt_put (R : ℝ) (y : Fin d → ℝ) : pt (ballPut R y) = mirror R (pt y) := by
  unfold mirror
  rw [norm_pt]
  split
  · rename_i h
    ext i
    simp only [ballPut, if_pos h, PiLp.smul_apply, smul_eq_mul]
    ring
  · rename_i h
    ext i
    simp only [ballPut, if_neg h]

theorem norm_pt_le {x : Fin d → ℝ} {ρ : ℝ} (h : ∀ i, |x i| ≤ ρ) : ‖pt x‖ ≤ d * ρ := by
  have : pt x = ∑ i, EuclideanSpace.single i (x i) := by
    ext j
    simp [Finset.sum_apply]
  rw [this]
  refine (norm_sum_le _ _).trans ?_
  calc ∑ i, ‖EuclideanSpace.single i (x i)‖ ≤ ∑ _i : Fin d, ρ := Finset.sum_le_sum fun i _ => by simpa using h i
    _ = d * ρ := by simp

/-- There is a sequence of draws `m 0, m 1, …` such that every walker in the ball which uses numbers near some of them, not
too far apart, comes near the point `c`. -/
theorem ball_word (hd : 0 < d) {R : ℝ} (hR : 0 < R) {c : Fin d → ℝ} {ε : ℝ} (hε : 0 < ε) (hin : nearSet c ε ⊆ ballSet d R)
    {σ0 σ1 A : ℝ} (hσ0 : 0 < σ0) (hσ1 : σ0 ≤ σ1) (hA : 0 < A) {N : ℕ} (hN : 0 < N) :
    ∃ (L : ℕ) (m : ℕ → Fin d → ℝ) (ρ : ℝ), 0 < L ∧ 0 < ρ ∧ (∀ k i, |m k i| ≤ A) ∧
      ∀ (x z : ℕ → Fin d → ℝ) (σ : ℕ → ℝ) (k : ℕ → ℕ), x 0 ∈ ballSet d R → k 0 ≤ N → (∀ t, k t < k (t + 1) ∧ k (t + 1) ≤ k t + N) →
        (∀ t < L, σ0 ≤ σ t ∧ σ t ≤ σ1 ∧ x (t + 1) = ballPut R (x t + fun i => z t i * σ t)) →
        (∀ t, k t < L → ∀ i, |z t i - m (k t) i| < ρ) → ∃ t < L, x (t + 1) ∈ nearSet c ε := by
  have hs1 : 0 < σ1 := hσ0.trans_le hσ1
  have hdR : (0 : ℝ) < d := by exact_mod_cast hd
  -- the axis
  obtain ⟨e, he, hce⟩ : ∃ e : EuclideanSpace ℝ (Fin d), ‖e‖ = 1 ∧ pt c = ‖pt c‖ • e := by
    by_cases hc : pt c = 0
    · exact ⟨EuclideanSpace.single ⟨0, hd⟩ 1, by simp, by rw [hc]; simp⟩
    · have hc' : ‖pt c‖ ≠ 0 := norm_ne_zero_iff.2 hc
      refine ⟨‖pt c‖⁻¹ • pt c, ?_, ?_⟩
      · rw [norm_smul, norm_inv, norm_norm, inv_mul_cancel₀ hc']
      · rw [smul_smul, mul_inv_cancel₀ hc', one_smul]
  have hei : ∀ i, |e i| ≤ 1 := fun i => by
    have := EuclideanSpace.norm_eq e ▸ he
    have h1 : (e i) ^ 2 ≤ ∑ i, ‖e i‖ ^ 2 := by
      have := Finset.single_le_sum (f := fun i => ‖e i‖ ^ 2) (fun i _ => by positivity) (Finset.mem_univ i)
      simpa using this
    rw [Real.sqrt_eq_one] at this
    rw [this] at h1
    exact abs_le_one_iff_mul_self_le_one.2 (by nlinarith)
  have hcR : ‖pt c‖ + ε ≤ R := by
    by_contra hlt
    push Not at hlt
    have hc : c ∈ ballSet d R := hin (by rw [pt_near]; simpa using hε)
    have hcR := (pt_ball hR c).1 hc
    set r := (R - ‖pt c‖ + ε) / 2 with hr
    have hr0 : 0 ≤ r := by linarith
    have h1 : ‖pt c + r • e‖ = ‖pt c‖ + r := by
      have hadd : ‖pt c‖ • e + r • e = (‖pt c‖ + r) • e := (add_smul _ _ _).symm
      have e1 : pt c + r • e = (‖pt c‖ + r) • e := by rw [← hadd]; exact congrArg (· + r • e) hce
      rw [e1, norm_smul, he, mul_one, Real.norm_eq_abs, abs_of_nonneg (by positivity)]
    have h2 : WithLp.ofLp (pt c + r • e) ∈ nearSet c ε := by
      rw [pt_near]
      have : pt (WithLp.ofLp (pt c + r • e)) - pt c = r • e := by
        show pt c + r • e - pt c = _
        abel
      rw [this, norm_smul, he, mul_one, Real.norm_eq_abs, abs_of_nonneg hr0]
      linarith
    have h3 := (pt_ball hR _).1 (hin h2)
    have h4 : ‖pt c + r • e‖ ≤ R := h3
    linarith
  -- the numbers
  obtain ⟨κ, hκ0, hκA, hκε⟩ : ∃ κ : ℝ, 0 < κ ∧ κ ≤ A ∧ 3 * (2 * σ1 * κ) ≤ ε := by
    refine ⟨min A (ε / (6 * σ1)), by positivity, min_le_left _ _, ?_⟩
    have h := min_le_right A (ε / (6 * σ1))
    rw [le_div_iff₀ (by positivity)] at h
    linarith
  set a := σ0 * κ / 2 with ha
  have ha0 : 0 < a := by positivity
  obtain ⟨J, hJ1, hJ2⟩ : ∃ J : ℕ, R * Real.exp (1 - a * J / (2 * R)) ≤ ε / 8 ∧ 2 * R < a * J := by
    have t1 : Filter.Tendsto (fun J : ℕ => a * (J : ℝ)) Filter.atTop Filter.atTop :=
      tendsto_natCast_atTop_atTop.const_mul_atTop ha0
    have t2 : Filter.Tendsto (fun J : ℕ => R * Real.exp (1 - a * J / (2 * R))) Filter.atTop (nhds (R * 0)) := by
      refine Filter.Tendsto.const_mul R (Real.tendsto_exp_atBot.comp ?_)
      have t3 : Filter.Tendsto (fun J : ℕ => a * (J : ℝ) / (2 * R)) Filter.atTop Filter.atTop := t1.atTop_div_const (by positivity)
      exact Filter.tendsto_atBot_add_const_left _ 1 (Filter.tendsto_neg_atTop_atBot.comp t3)
    rw [mul_zero] at t2
    exact ((t2.eventually_le_const (show (0 : ℝ) < ε / 8 by positivity)).and (t1.eventually_gt_atTop (2 * R))).exists
  set M := N * (J + 1) with hM
  have hM0 : 0 < M := Nat.mul_pos hN (by omega)
  obtain ⟨ρ, hρ0, hρκ, hρL⟩ : ∃ ρ : ℝ, 0 < ρ ∧ d * ρ ≤ κ / 2 ∧ σ1 * (d * ρ) * (3 * M : ℕ) ≤ ε / 8 := by
    have hML : (0 : ℝ) < (3 * M : ℕ) := by exact_mod_cast (by omega : 0 < 3 * M)
    refine ⟨min (κ / (2 * d)) (ε / (8 * σ1 * d * (3 * M : ℕ))), by positivity, ?_, ?_⟩
    · have h := min_le_left (κ / (2 * d)) (ε / (8 * σ1 * d * (3 * M : ℕ)))
      rw [le_div_iff₀ (by positivity)] at h
      linarith
    · have h := min_le_right (κ / (2 * d)) (ε / (8 * σ1 * d * (3 * M : ℕ)))
      rw [le_div_iff₀ (by positivity)] at h
      nlinarith
  have hturn : ∀ k, turnOf M k * turnOf M k = 1 ∧ |turnOf M k| = 1 := by
    intro k
    unfold turnOf
    split
    · simp
    · split <;> simp
  refine ⟨3 * M, fun k i => turnOf M k * κ * e i, ρ, by omega, hρ0, ?_, ?_⟩
  · intro k i
    rw [abs_mul, abs_mul, (hturn k).2, one_mul, abs_of_pos hκ0]
    calc κ * |e i| ≤ κ * 1 := by have := hei i; gcongr
      _ ≤ A := by linarith
  · intro x z σ k hx hk0 hk hst hz
    have hmono : StrictMono k := strictMono_nat_of_lt_succ fun t => (hk t).1
    have hpush : ∀ t, k t < 3 * M → Push e a (2 * σ1 * κ) (σ1 * (d * ρ)) (turnOf M (k t)) (pt fun i => z t i * σ t) := by
      intro t ht
      have hk' : t ≤ k t := hmono.le_apply
      obtain ⟨s1, s2, -⟩ := hst t (by omega)
      have hs0 : 0 < σ t := hσ0.trans_le s1
      set s := turnOf M (k t) with hs
      obtain ⟨hss, hsa⟩ := hturn (k t)
      rw [← hs] at hss hsa
      set w : EuclideanSpace ℝ (Fin d) := pt fun i => z t i - s * κ * e i with hw
      have hwn : ‖w‖ ≤ d * ρ := norm_pt_le fun i => (hz t ht i).le
      have hdec : (pt fun i => z t i * σ t) = σ t • ((s * κ) • e + w) := by
        ext i
        simp [hw]
        ring
      have hup : up e ((s * κ) • e + w) = s * κ + up e w := by
        rw [up_add, up_smul]
        simp [up, he]
      have hupw := (up_le he w).trans hwn
      rw [hdec]
      refine ⟨?_, ?_, ?_⟩
      · rw [up_smul, hup]
        have h1 : s * (σ t * (s * κ + up e w)) = σ t * (κ + s * up e w) := by
          linear_combination (σ t * κ) * hss
        have h2 : -(d * ρ) ≤ s * up e w := by
          have : |s * up e w| ≤ d * ρ := by rw [abs_mul, hsa, one_mul]; exact hupw
          exact (abs_le.1 this).1
        rw [h1, ha]
        have h3 : κ / 2 ≤ κ + s * up e w := by linarith
        calc σ0 * κ / 2 = σ0 * (κ / 2) := by ring
          _ ≤ σ t * (κ + s * up e w) := by gcongr
      · rw [norm_smul, Real.norm_eq_abs, abs_of_pos hs0]
        have h1 : ‖(s * κ) • e + w‖ ≤ 2 * κ := by
          refine (norm_add_le _ _).trans ?_
          rw [norm_smul, he, mul_one, Real.norm_eq_abs, abs_mul, hsa, one_mul, abs_of_pos hκ0]
          linarith
        calc σ t * ‖(s * κ) • e + w‖ ≤ σ1 * (2 * κ) := by gcongr
          _ = _ := by ring
      · rw [off_smul _ _ hs0.le]
        have h1 : off e ((s * κ) • e + w) = off e w := by
          unfold off
          rw [hup, add_smul]
          congr 1
          abel
        rw [h1]
        exact mul_le_mul s2 ((off_le he w).trans hwn) (off_nonneg e w) hs1.le
    obtain ⟨t, ht, hh⟩ := sweep_hits he (R := R) (a := a) (b := 2 * σ1 * κ) (δ := σ1 * (d * ρ)) (c := ‖pt c‖) (ε := ε) (by positivity) ha0 hε
      (norm_nonneg _) hcR hκε hN hJ1 hJ2 hρL (fun t => pt (x t)) (fun t => pt fun i => z t i * σ t) ((pt_ball hR _).1 hx) k hk0 hk
      (fun t ht => by
        show pt (x (t + 1)) = _
        rw [(hst t ht).2.2, pt_put]
        rfl) hpush
    refine ⟨t, ht, ?_⟩
    rw [pt_near]
    have : pt (x (t + 1)) - pt c = pt (x (t + 1)) - ‖pt c‖ • e := congrArg (pt (x (t + 1)) - ·) hce
    rw [this]
    exact hh
end Moledyn.BallSweep
