import Verif.Lemmas.BallWord
/-
A sequence of pushes that brings every walker in a cube near a given point: first into the corner, as far as there are mirrors,
then straight on, so fast in the periodic directions that the line comes near every point.
-/
namespace Moledyn.CubeSweep
open Moledyn.Props (cubeSet)
set_option linter.unusedSectionVars false
variable {d : Nat}

/-- A line with the speeds `1, M, M², …` in the periodic directions comes near every point. -/
theorem winds {M : ℝ} (hM : 2 ≤ M) : ∀ (d : ℕ) (y c : ℕ → ℝ), ∃ s, 0 ≤ s ∧ s ≤ 2 ∧ ∀ i < d, ∃ n : ℤ, |y i + s * M ^ i - c i - n| ≤ 2 / M := by
  have hM0 : 0 < M := by linarith
  intro d
  induction d with
  | zero => intro y c; exact ⟨0, le_rfl, by norm_num, fun i hi => absurd hi (by omega)⟩
  | succ d ih =>
    intro y c
    set s₀ := Int.fract (c 0 - y 0) with hs₀
    have h0 := Int.fract_nonneg (c 0 - y 0)
    have h1 := Int.fract_lt_one (c 0 - y 0)
    obtain ⟨r, r0, r2, hr⟩ := ih (fun i => y (i + 1) + s₀ * M ^ (i + 1)) (fun i => c (i + 1))
    have hrM : r / M ≤ 2 / M := by gcongr
    have hrM' : 2 / M ≤ 1 := by rw [div_le_one hM0]; exact hM
    have hrM0 : 0 ≤ r / M := by positivity
    refine ⟨s₀ + r / M, by linarith, by linarith, fun i hi => ?_⟩
    rcases i with _ | i
    · refine ⟨-⌊c 0 - y 0⌋, ?_⟩
      have e : y 0 + (s₀ + r / M) * M ^ 0 - c 0 - ((-⌊c 0 - y 0⌋ : ℤ) : ℝ) = r / M := by
        rw [hs₀, Int.fract]
        push_cast
        ring
      rw [e, abs_of_nonneg hrM0]
      exact hrM
    · obtain ⟨n, hn⟩ := hr i (by omega)
      refine ⟨n, ?_⟩
      have e : y (i + 1) + (s₀ + r / M) * M ^ (i + 1) - c (i + 1) - n = y (i + 1) + s₀ * M ^ (i + 1) + r * M ^ i - c (i + 1) - n := by
        rw [pow_succ]
        field_simp
        ring
      rw [e]
      exact hn

/-- A number that grows in small steps comes close below every goal. -/
theorem passes {θ : ℕ → ℝ} {lo hi goal : ℝ} (h0 : θ 0 = 0) {T : ℕ} (hstep : ∀ u < T, lo ≤ θ (u + 1) - θ u ∧ θ (u + 1) - θ u ≤ hi)
    (hgoal : 0 < goal) (hgoal' : hi ≤ goal) (hT : goal < T * lo) :
    ∃ u, 0 < u ∧ u < T ∧ goal - θ u ≤ hi ∧ ∀ v ≤ u, θ v ≤ goal := by
  classical
  have hge : ∀ u ≤ T, u * lo ≤ θ u := by
    intro u
    induction u with
    | zero => intro _; simp [h0]
    | succ u ih =>
      intro hu
      have := ih (by omega)
      have := (hstep u (by omega)).1
      push_cast
      linarith
  have hex : ∃ u, u ≤ T ∧ goal < θ u := ⟨T, le_rfl, hT.trans_le (hge T le_rfl)⟩
  obtain ⟨hu, hlt⟩ := Nat.find_spec hex
  have hmin : ∀ v < Nat.find hex, θ v ≤ goal := fun v hv => by
    have := Nat.find_min hex hv
    push Not at this
    exact this (by omega)
  generalize Nat.find hex = u at hu hlt hmin
  rcases u with _ | _ | u
  · rw [h0] at hlt; linarith
  · have := (hstep 0 (by omega)).2
    simp only [zero_add] at this hlt
    linarith
  · have := (hstep (u + 1) (by omega)).2
    exact ⟨u + 1, by omega, by omega, by linarith, fun v hv => hmin v (by omega)⟩

theorem near_of_coords {c x : Fin d → ℝ} {ε e : ℝ} (he : 0 ≤ e) (hed : (d + 1) * e < ε) (h : ∀ i, |x i - c i| ≤ e) : x ∈ nearSet c ε := by
  rw [BallSweep.pt_near]
  have : BallSweep.pt x - BallSweep.pt c = BallSweep.pt (x - c) := rfl
  rw [this]
  refine (BallSweep.norm_pt_le (ρ := e) h).trans_lt ?_
  nlinarith

theorem inner_coords {c : Fin d → ℝ} {ε L : ℝ} (hε : 0 < ε) (hin : nearSet c ε ⊆ cubeSet d L) (i : Fin d) : |c i| ≤ L - ε / 2 := by
  have key : ∀ s : ℝ, |s| < ε → |c i + s| ≤ L := by
    intro s hs
    have h1 : (fun j => if j = i then c j + s else c j) ∈ nearSet c ε := by
      rw [BallSweep.pt_near]
      have : BallSweep.pt (fun j => if j = i then c j + s else c j) - BallSweep.pt c = EuclideanSpace.single i s := by
        ext j
        by_cases hj : j = i <;> simp [hj]
      rw [this]
      simpa using hs
    have := hin h1 i
    simpa using this
  have e : |ε / 2| < ε := by rw [abs_of_pos (by positivity)]; linarith
  have h1 := key (ε / 2) e
  have h2 := key (-(ε / 2)) (by rw [abs_neg]; exact e)
  rw [abs_le] at h1 h2 ⊢
  constructor <;> linarith [h1.1, h1.2, h2.1, h2.2]

theorem periodicPut_shift (L x : ℝ) : ∃ n : ℤ, periodicPut L x = x + 2 * L * n := by
  unfold periodicPut
  split_ifs
  · exact ⟨-1, by push_cast; ring⟩
  · exact ⟨1, by push_cast; ring⟩
  · exact ⟨0, by push_cast; ring⟩

theorem periodicPut_inside {L x : ℝ} (h : |x| ≤ 3 * L) : |periodicPut L x| ≤ L := by
  rw [abs_le] at h
  unfold periodicPut
  rw [abs_le]
  split_ifs <;> constructor <;> linarith [h.1, h.2]

/-- a number strictly between the walls that is the same point as one between the walls is that one. -/
theorem same_point {L x y : ℝ} (hx : |x| ≤ L) (hy : |y| < L) (n : ℤ) (h : x = y + 2 * L * n) : x = y := by
  rw [abs_le] at hx
  rw [abs_lt] at hy
  have hL : 0 < L := by linarith [hy.1, hy.2]
  have h1 : (n : ℝ) < 1 := by
    by_contra hc
    push Not at hc
    nlinarith [hx.2, hy.1]
  have h2 : (-1 : ℝ) < n := by
    by_contra hc
    push Not at hc
    nlinarith [hx.1, hy.2]
  have h3 : n < 1 := by exact_mod_cast h1
  have h4 : -1 < n := by exact_mod_cast h2
  have : n = 0 := by omega
  rw [h, this]
  simp

/-- First phase: every push is up, and not far: a coordinate with mirrors goes up to the wall and stays there. -/
theorem to_wall {L lo hi : ℝ} {x s : ℕ → ℝ} {T : ℕ} (h0 : |x 0| ≤ L) (hlo : 0 ≤ lo) (hhi0 : 0 ≤ hi) (hs : ∀ t < T, lo ≤ s t ∧ s t ≤ hi) (hhi : hi ≤ 2 * L)
    (hx : ∀ t < T, x (t + 1) = mirrorPut L (x t + s t)) (hT : 2 * L ≤ T * lo) : L - hi ≤ x T ∧ x T ≤ L := by
  have key : ∀ t ≤ T, x t ≤ L ∧ -L ≤ x t ∧ (L - hi ≤ x t ∨ -L + t * lo ≤ x t) := by
    intro t
    induction t with
    | zero =>
      intro _
      rw [abs_le] at h0
      exact ⟨h0.2, h0.1, .inr (by simpa using h0.1)⟩
    | succ t ih =>
      intro ht
      obtain ⟨k1, k2, k3⟩ := ih (by omega)
      obtain ⟨s1, s2⟩ := hs t (by omega)
      rw [hx t (by omega)]
      unfold mirrorPut
      split_ifs with c1 c2
      · exact ⟨by linarith, by linarith, .inl (by linarith)⟩
      · linarith
      · refine ⟨by linarith, by linarith, ?_⟩
        rcases k3 with k3 | k3
        · exact .inl (by linarith)
        · refine .inr ?_
          push_cast
          linarith
  obtain ⟨k1, k2, k3⟩ := key T le_rfl
  refine ⟨?_, k1⟩
  rcases k3 with k3 | k3
  · exact k3
  · by_cases hT0 : T = 0
    · subst hT0
      simp at hT
      linarith
    · obtain ⟨s1, s2⟩ := hs 0 (by omega)
      linarith

/-- Second phase, directions with mirrors: without a wall in between. -/
theorem straight_mirror {L κ v a σ1 ρ b e : ℝ} {x z σ : ℕ → ℝ} {T : ℕ} (hb : b = L + v) (hκ : 0 < κ) (hv : v ≤ -κ) (hbL : -L + κ ≤ b)
    (hx0 : L - e ≤ x 0) (hx0' : x 0 ≤ L) (ha : 0 < a) (hρ : ρ ≤ a * κ) (hρ0 : 0 ≤ ρ)
    (hσ : ∀ t < T, 0 ≤ σ t ∧ σ t ≤ σ1) (hz : ∀ t < T, |z t - a * v| ≤ ρ) (hx : ∀ t < T, x (t + 1) = mirrorPut L (x t + z t * σ t))
    (hθ : ∀ t ≤ T, ∑ j ∈ Finset.range t, σ j * a ≤ 1) (hsmall : e + T * (σ1 * ρ) ≤ κ) :
    ∀ t ≤ T, |x t - x 0 - (∑ j ∈ Finset.range t, σ j * a) * v| ≤ t * (σ1 * ρ) ∧ x t ≤ L := by
  intro t
  induction t with
  | zero => intro _; simp [hx0']
  | succ t ih =>
    intro ht
    obtain ⟨k1, k2⟩ := ih (by omega)
    obtain ⟨s1, s2⟩ := hσ t (by omega)
    have hz' := hz t (by omega)
    have hz1 := abs_le.1 hz'
    have hθ1 := hθ (t + 1) ht
    rw [Finset.sum_range_succ] at hθ1
    have h1 : z t * σ t ≤ 0 := by
      have : a * v ≤ a * (-κ) := by gcongr
      have : z t ≤ 0 := by linarith [hz1.2]
      exact mul_nonpos_of_nonpos_of_nonneg this s1
    have h2 : |x t + z t * σ t - x 0 - (∑ j ∈ Finset.range (t + 1), σ j * a) * v| ≤ (t + 1 : ℕ) * (σ1 * ρ) := by
      rw [Finset.sum_range_succ]
      have e : x t + z t * σ t - x 0 - (∑ j ∈ Finset.range t, σ j * a + σ t * a) * v =
          (x t - x 0 - (∑ j ∈ Finset.range t, σ j * a) * v) + σ t * (z t - a * v) := by ring
      rw [e]
      refine (abs_add_le _ _).trans ?_
      rw [abs_mul, abs_of_nonneg s1]
      have : σ t * |z t - a * v| ≤ σ1 * ρ := mul_le_mul s2 hz' (abs_nonneg _) (s1.trans s2)
      push_cast
      linarith
    have h3 : -L ≤ x t + z t * σ t := by
      have := (abs_le.1 h2).1
      rw [Finset.sum_range_succ] at this
      have h4 : (∑ j ∈ Finset.range t, σ j * a + σ t * a) * (-v) ≤ 1 * (-v) := mul_le_mul_of_nonneg_right hθ1 (by linarith)
      have h5 : ((t + 1 : ℕ) : ℝ) * (σ1 * ρ) ≤ T * (σ1 * ρ) := by
        have : ((t + 1 : ℕ) : ℝ) ≤ T := by exact_mod_cast ht
        exact mul_le_mul_of_nonneg_right this (mul_nonneg (s1.trans s2) hρ0)
      linarith
    have h6 : x (t + 1) = x t + z t * σ t := by
      rw [hx t (by omega), mirrorPut, if_neg (by linarith), if_neg (by linarith)]
    rw [h6]
    exact ⟨h2, by linarith⟩

/-- Second phase, periodic directions. -/
theorem straight_periodic {L v a σ1 ρ : ℝ} {x z σ : ℕ → ℝ} {T : ℕ}
    (hσ : ∀ t < T, 0 ≤ σ t ∧ σ t ≤ σ1) (hz : ∀ t < T, |z t - a * v| ≤ ρ) (hx : ∀ t < T, x (t + 1) = periodicPut L (x t + z t * σ t)) :
    ∀ t ≤ T, ∃ n : ℤ, |x t - x 0 - (∑ j ∈ Finset.range t, σ j * a) * v - 2 * L * n| ≤ t * (σ1 * ρ) := by
  intro t
  induction t with
  | zero => intro _; exact ⟨0, by simp⟩
  | succ t ih =>
    intro ht
    obtain ⟨n, k1⟩ := ih (by omega)
    obtain ⟨s1, s2⟩ := hσ t (by omega)
    have hz' := hz t (by omega)
    obtain ⟨n', hn'⟩ := periodicPut_shift L (x t + z t * σ t)
    refine ⟨n + n', ?_⟩
    rw [hx t (by omega), hn', Finset.sum_range_succ]
    have e : x t + z t * σ t + 2 * L * n' - x 0 - (∑ j ∈ Finset.range t, σ j * a + σ t * a) * v - 2 * L * ((n + n' : ℤ) : ℝ) =
        (x t - x 0 - (∑ j ∈ Finset.range t, σ j * a) * v - 2 * L * n) + σ t * (z t - a * v) := by push_cast; ring
    rw [e]
    refine (abs_add_le _ _).trans ?_
    rw [abs_mul, abs_of_nonneg s1]
    have : σ t * |z t - a * v| ≤ σ1 * ρ := mul_le_mul s2 hz' (abs_nonneg _) (s1.trans s2)
    push_cast
    linarith

set_option maxHeartbeats 1000000 in
open Classical in
/-- There is a sequence of draws `m 0, m 1, …` such that every walker in the cube which uses numbers near some of them, not too
far apart, comes near the point `c`. -/
theorem cube_word (bc : BoundaryCond) {L : ℝ} (hL : 0 < L) {c : Fin d → ℝ} {ε : ℝ} (hε : 0 < ε) (hin : nearSet c ε ⊆ cubeSet d L)
    {σ0 σ1 A : ℝ} (hσ0 : 0 < σ0) (hσ1 : σ0 ≤ σ1) (hA : 0 < A) {N : ℕ} (_hN : 0 < N) :
    ∃ (K : ℕ) (m : ℕ → Fin d → ℝ) (ρ : ℝ), 0 < K ∧ 0 < ρ ∧ (∀ k i, |m k i| ≤ A) ∧
      ∀ (x z : ℕ → Fin d → ℝ) (σ : ℕ → ℝ) (k : ℕ → ℕ), x 0 ∈ cubeSet d L → k 0 ≤ N → (∀ t, k t < k (t + 1) ∧ k (t + 1) ≤ k t + N) →
        (∀ t < K, σ0 ≤ σ t ∧ σ t ≤ σ1 ∧ x (t + 1) = cubePut bc L (x t + fun i => z t i * σ t)) →
        (∀ t, k t < K → ∀ i, |z t i - m (k t) i| < ρ) → ∃ t < K, x (t + 1) ∈ nearSet c ε := by
  have hs1 : 0 < σ1 := hσ0.trans_le hσ1
  have hcoord := inner_coords hε hin
  have hd : (0 : ℝ) < d + 1 := by positivity
  obtain ⟨e, he, hed⟩ : ∃ e : ℝ, 0 < e ∧ (d + 1) * (4 * e) = ε / 2 := ⟨ε / (8 * (d + 1)), by positivity, by field_simp; norm_num⟩
  have heε : 4 * e ≤ ε / 2 := by
    rw [← hed]
    have : (1 : ℝ) ≤ d + 1 := by linarith [(Nat.cast_nonneg d : (0 : ℝ) ≤ d)]
    nlinarith
  obtain ⟨η, hη0, hη1, hηe⟩ : ∃ η : ℝ, 0 < η ∧ η ≤ 1 / 4 ∧ 2 * η * (2 * L) ≤ e := by
    refine ⟨min (1 / 4) (e / (4 * L)), by positivity, min_le_left _ _, ?_⟩
    have := min_le_right (1 / 4) (e / (4 * L))
    calc 2 * min (1 / 4) (e / (4 * L)) * (2 * L) ≤ 2 * (e / (4 * L)) * (2 * L) := by gcongr
      _ = e := by field_simp; ring
  obtain ⟨M, hM2, hMe⟩ : ∃ M : ℝ, 2 ≤ M ∧ 2 * L * (2 / M) ≤ e := by
    refine ⟨max 2 (4 * L / e), le_max_left _ _, ?_⟩
    have h1 : 0 < max 2 (4 * L / e) := by positivity
    have := le_max_right 2 (4 * L / e)
    rw [div_le_iff₀ he] at this
    rw [← mul_div_assoc, div_le_iff₀ h1]
    linarith
  have hM1 : 1 ≤ M := by linarith
  set v : Fin d → ℝ := fun i => if bc.mirrored i then -(L - c i) else 2 * L / η * M ^ i.1 with hv
  set B := 2 * L / η * M ^ d with hB
  have hBL : 2 * L ≤ B := by
    have h1 : 2 * L ≤ 2 * L / η := by rw [le_div_iff₀ hη0]; nlinarith
    have h2 : (1 : ℝ) ≤ M ^ d := one_le_pow₀ hM1
    calc 2 * L = 2 * L * 1 := by ring
      _ ≤ 2 * L / η * M ^ d := mul_le_mul h1 h2 (by norm_num) (by positivity)
  have hB0 : 0 < B := by linarith
  have hvB : ∀ i, |v i| ≤ B := by
    intro i
    simp only [hv]
    split_ifs with h
    · have := abs_le.1 (hcoord i)
      rw [abs_neg, abs_of_nonneg (by linarith [this.2])]
      linarith [this.1]
    · rw [abs_of_nonneg (by positivity)]
      have : M ^ i.1 ≤ M ^ d := pow_le_pow_right₀ hM1 i.2.le
      rw [hB]
      gcongr
  obtain ⟨a, ha0, haA, haB, haσ⟩ : ∃ a : ℝ, 0 < a ∧ a * B ≤ A ∧ σ1 * a * B ≤ e ∧ σ1 * a ≤ 1 / 4 := by
    refine ⟨min (A / B) (min (e / (σ1 * B)) (1 / (4 * σ1))), by positivity, ?_, ?_, ?_⟩
    · have := min_le_left (A / B) (min (e / (σ1 * B)) (1 / (4 * σ1)))
      exact (le_div_iff₀ hB0).1 this
    · have := (min_le_right (A / B) _).trans (min_le_left (e / (σ1 * B)) (1 / (4 * σ1)))
      rw [le_div_iff₀ (by positivity)] at this
      linarith
    · have := (min_le_right (A / B) _).trans (min_le_right (e / (σ1 * B)) (1 / (4 * σ1)))
      rw [le_div_iff₀ (by positivity)] at this
      linarith
  obtain ⟨a1, ha10, ha1A, ha1e⟩ : ∃ a1 : ℝ, 0 < a1 ∧ a1 ≤ A ∧ 2 * a1 * σ1 ≤ e := by
    refine ⟨min A (e / (2 * σ1)), by positivity, min_le_left _ _, ?_⟩
    have := min_le_right A (e / (2 * σ1))
    rw [le_div_iff₀ (by positivity)] at this
    linarith
  obtain ⟨T1, hT1⟩ : ∃ T1 : ℕ, 2 * L ≤ T1 * (a1 / 2 * σ0) := by
    refine ⟨⌈2 * L / (a1 / 2 * σ0)⌉₊, ?_⟩
    rw [← div_le_iff₀ (by positivity)]
    exact Nat.le_ceil _
  obtain ⟨T2, hT2⟩ : ∃ T2 : ℕ, 1 < T2 * (σ0 * a) := by
    obtain ⟨n, hn⟩ := exists_nat_gt (1 / (σ0 * a))
    exact ⟨n, by rwa [div_lt_iff₀ (by positivity)] at hn⟩
  obtain ⟨ρ, hρ0, hρ1, hρ2, hρ3⟩ : ∃ ρ : ℝ, 0 < ρ ∧ ρ ≤ a1 / 2 ∧ ρ ≤ a * (ε / 2) ∧ T2 * (σ1 * ρ) ≤ e := by
    refine ⟨min (a1 / 2) (min (a * (ε / 2)) (e / (σ1 * (T2 + 1)))), by positivity, min_le_left _ _,
      (min_le_right _ _).trans (min_le_left _ _), ?_⟩
    have := (min_le_right (a1 / 2) _).trans (min_le_right (a * (ε / 2)) (e / (σ1 * (T2 + 1))))
    rw [le_div_iff₀ (by positivity)] at this
    set r := min (a1 / 2) (min (a * (ε / 2)) (e / (σ1 * (T2 + 1))))
    have hr : 0 ≤ r := by positivity
    nlinarith [mul_nonneg hr hs1.le]
  set m1 := N * T1 + 1 with hm1
  refine ⟨m1 + N * T2 + 1, fun k => if k < m1 then fun _ => a1 else fun i => a * v i, ρ, by omega, hρ0, fun k i => ?_, ?_⟩
  · beta_reduce
    split_ifs
    · simp only
      rw [abs_of_pos ha10]
      exact ha1A
    · simp only
      rw [abs_mul, abs_of_pos ha0]
      exact (mul_le_mul_of_nonneg_left (hvB i) ha0.le).trans haA
  intro x z σ k hx0 hk0 hk hstep hz
  have hkle : ∀ t, k t ≤ N * (t + 1) := by
    intro t
    induction t with
    | zero => simpa using hk0
    | succ t ih => have := (hk t).2; rw [Nat.mul_add] at ih ⊢; rw [Nat.mul_add]; omega
  have hkge : ∀ t, t ≤ k t := by
    intro t
    induction t with
    | zero => omega
    | succ t ih => have := (hk t).1; omega
  obtain ⟨t1, b1, b2, b3, b4⟩ := BallSweep.first_past hk0 hk m1
  have ht1 : T1 ≤ t1 := by
    by_contra hc
    push Not at hc
    have h1 := b2 t1 le_rfl
    have h2 := hkle t1
    have h3 : N * (t1 + 1) ≤ N * T1 := Nat.mul_le_mul_left N hc
    omega
  have hkle2 : ∀ u, k (t1 + u) ≤ m1 + N + N * u := by
    intro u
    induction u with
    | zero => simpa using b4
    | succ u ih => have := (hk (t1 + u)).2; rw [← Nat.add_assoc, Nat.mul_add]; omega
  have hsmall : ∀ i : Fin d, ε / 2 ≤ L := fun i => by linarith [hcoord i, abs_nonneg (c i)]
  have hlate : ∀ u < T2, k (t1 + u) < m1 + N * T2 + 1 := fun u hu => by
    have h1 := hkle2 u
    have h2 : N * (u + 1) ≤ N * T2 := Nat.mul_le_mul_left N hu
    rw [Nat.mul_add] at h2
    omega
  -- the first phase
  have hwall : ∀ i : Fin d, bc.mirrored i → L - e ≤ x t1 i ∧ x t1 i ≤ L := by
    intro i hi
    have h := to_wall (L := L) (lo := a1 / 2 * σ0) (hi := 2 * a1 * σ1) (x := fun t => x t i) (s := fun t => z t i * σ t) (T := t1) (hx0 i) (by positivity)
      (by positivity) (fun t ht => ?_) (by linarith [hsmall i]) (fun t ht => ?_) (hT1.trans ?_)
    · exact ⟨by linarith [h.1], h.2⟩
    · obtain ⟨s1, s2, -⟩ := hstep t (by omega)
      have h1 := b1 t ht
      have h2 := hz t (by omega) i
      beta_reduce at h2
      rw [if_pos h1] at h2
      have h2 := abs_lt.1 h2
      exact ⟨mul_le_mul (by linarith [h2.1]) s1 hσ0.le (by linarith [h2.1]), mul_le_mul (by linarith [h2.2]) s2 (by linarith) (by positivity)⟩
    · obtain ⟨-, -, s3⟩ := hstep t (by omega)
      simp only [s3, cubePut, if_pos hi]
      rfl
    · have : (T1 : ℝ) ≤ t1 := by exact_mod_cast ht1
      gcongr
  -- the second phase
  have hσ2 : ∀ u < T2, 0 ≤ σ (t1 + u) ∧ σ (t1 + u) ≤ σ1 := fun u hu => by
    have := hlate u hu
    have := hkge (t1 + u)
    obtain ⟨s1, s2, -⟩ := hstep (t1 + u) (by omega)
    exact ⟨by linarith, s2⟩
  have hz2 : ∀ u < T2, ∀ i, |z (t1 + u) i - a * v i| ≤ ρ := fun u hu i => by
    have h2 := hz (t1 + u) (hlate u hu) i
    beta_reduce at h2
    rw [if_neg (by have := b2 (t1 + u) (by omega); omega)] at h2
    exact h2.le
  have hx2 : ∀ u < T2, x (t1 + (u + 1)) = cubePut bc L (x (t1 + u) + fun i => z (t1 + u) i * σ (t1 + u)) := fun u hu => by
    have := hlate u hu
    have := hkge (t1 + u)
    exact (hstep (t1 + u) (by omega)).2.2
  obtain ⟨s, hs0, hs2, hwind⟩ := winds hM2 d (fun i => if h : i < d then x t1 ⟨i, h⟩ / (2 * L) + (1 - 2 * η) / η * M ^ i else 0)
    (fun i => if h : i < d then c ⟨i, h⟩ / (2 * L) else 0)
  set goal := 1 - 2 * η + η * s with hgoal
  have hηs := mul_nonneg hη0.le hs0
  have hηs2 : η * s ≤ η * 2 := mul_le_mul_of_nonneg_left hs2 hη0.le
  have hg1 : goal ≤ 1 := by linarith
  have hg0 : 1 / 2 ≤ goal := by linarith
  obtain ⟨u, hu0, hu, hug, huv⟩ := passes (θ := fun u => ∑ j ∈ Finset.range u, σ (t1 + j) * a) (lo := σ0 * a) (hi := σ1 * a) (goal := goal) (T := T2)
    (by simp) (fun u hu => by
      have := hlate u hu
      have := hkge (t1 + u)
      obtain ⟨s1, s2, -⟩ := hstep (t1 + u) (by omega)
      rw [Finset.sum_range_succ, add_sub_cancel_left]
      exact ⟨by gcongr, by gcongr⟩) (by linarith) (by linarith) (by linarith)
  have huT : (u : ℝ) ≤ T2 := by exact_mod_cast hu.le
  have hnoise : (u : ℝ) * (σ1 * ρ) ≤ e := (mul_le_mul_of_nonneg_right huT (by positivity)).trans hρ3
  refine ⟨t1 + u - 1, by have := hlate u hu; have := hkge (t1 + u); omega, ?_⟩
  rw [show t1 + u - 1 + 1 = t1 + u by omega]
  refine near_of_coords (e := 4 * e) (by positivity) (by linarith) fun i => ?_
  set θ := ∑ j ∈ Finset.range u, σ (t1 + j) * a with hθ
  have hθg : |θ - goal| * |v i| ≤ e := by
    have h1 := huv u le_rfl
    rw [abs_of_nonpos (by linarith)]
    calc -(θ - goal) * |v i| ≤ σ1 * a * B := mul_le_mul (by linarith) (hvB i) (abs_nonneg _) (by positivity)
      _ ≤ e := haB
  by_cases hi : bc.mirrored i
  · obtain ⟨w1, w2⟩ := hwall i hi
    have hvi : v i = -(L - c i) := by simp only [hv, if_pos hi]
    have hci := abs_le.1 (hcoord i)
    obtain ⟨k1, -⟩ := straight_mirror (L := L) (κ := ε / 2) (v := v i) (a := a) (σ1 := σ1) (ρ := ρ) (b := c i) (e := e) (x := fun u => x (t1 + u) i)
      (z := fun u => z (t1 + u) i) (σ := fun u => σ (t1 + u)) (T := u) (by rw [hvi]; ring) (by positivity) (by rw [hvi]; linarith [hci.2]) (by linarith [hci.1]) w1 w2 ha0 hρ2 hρ0.le
      (fun t ht => hσ2 t (by omega)) (fun t ht => hz2 t (by omega) i)
      (fun t ht => by simp only [hx2 t (by omega), cubePut, if_pos hi]; rfl) (fun t ht => (huv t ht).trans hg1) (by linarith) u le_rfl
    simp only [Nat.add_zero] at k1
    have h3 : |(goal - 1) * v i| ≤ e := by
      rw [abs_mul]
      have h4 : |goal - 1| ≤ 2 * η := by rw [abs_of_nonpos (by linarith)]; linarith
      have h5 : |v i| ≤ 2 * L := by rw [hvi, abs_neg, abs_of_nonneg (by linarith [hci.2])]; linarith [hci.1]
      exact (mul_le_mul h4 h5 (abs_nonneg _) (by positivity)).trans hηe
    have h6 : |(θ - goal) * v i| ≤ e := by rw [abs_mul]; exact hθg
    have e1 : x (t1 + u) i - c i = (x (t1 + u) i - x t1 i - θ * v i) + (x t1 i - L) + (θ - goal) * v i + (goal - 1) * v i := by rw [hvi]; ring
    rw [e1]
    rw [abs_le] at k1 h3 h6 ⊢
    constructor <;> linarith [k1.1, k1.2, h3.1, h3.2, h6.1, h6.2]
  · have hvi : v i = 2 * L / η * M ^ i.1 := by simp only [hv, if_neg hi]
    obtain ⟨n, hn⟩ := straight_periodic (L := L) (v := v i) (a := a) (σ1 := σ1) (ρ := ρ) (x := fun u => x (t1 + u) i)
      (z := fun u => z (t1 + u) i) (σ := fun u => σ (t1 + u)) (T := u) 
      (fun t ht => hσ2 t (by omega)) (fun t ht => hz2 t (by omega) i)
      (fun t ht => by simp only [hx2 t (by omega), cubePut, if_neg hi]; rfl) u le_rfl
    simp only [Nat.add_zero] at hn
    obtain ⟨n', hn'⟩ := hwind i.1 i.2
    simp only [i.2, dif_pos] at hn'
    have h6 : |(θ - goal) * v i| ≤ e := by rw [abs_mul]; exact hθg
    have h7 : |x t1 i + goal * v i - c i - 2 * L * n'| ≤ e := by
      have e2 : x t1 i + goal * v i - c i - 2 * L * n' =
          2 * L * (x t1 i / (2 * L) + (1 - 2 * η) / η * M ^ i.1 + s * M ^ i.1 - c i / (2 * L) - n') := by
        rw [hvi, hgoal]
        field_simp
        ring
      rw [e2, abs_mul, abs_of_pos (by positivity : (0 : ℝ) < 2 * L)]
      exact (mul_le_mul_of_nonneg_left hn' (by positivity)).trans hMe
    have h8 : |x (t1 + u) i - c i - 2 * L * ((n + n' : ℤ) : ℝ)| ≤ 3 * e := by
      have e3 : x (t1 + u) i - c i - 2 * L * ((n + n' : ℤ) : ℝ) =
          (x (t1 + u) i - x t1 i - θ * v i - 2 * L * n) + (θ - goal) * v i + (x t1 i + goal * v i - c i - 2 * L * n') := by push_cast; ring
      rw [e3]
      rw [abs_le] at hn h6 h7 ⊢
      constructor <;> linarith [hn.1, hn.2, h6.1, h6.2, h7.1, h7.2]
    have hinside : |x (t1 + u) i| ≤ L := by
      have hmid : ∀ t ≤ t1, |x t i| ≤ L := by
        intro t
        induction t with
        | zero => exact fun _ => hx0 i
        | succ t ih =>
          intro ht
          obtain ⟨s1, s2, s3⟩ := hstep t (by omega)
          have h1 := b1 t (by omega)
          have h2 := hz t (by omega) i
          beta_reduce at h2
          rw [if_pos h1] at h2
          have h2 := abs_lt.1 h2
          rw [s3]
          simp only [cubePut, if_neg hi]
          refine periodicPut_inside ((abs_add_le _ _).trans ?_)
          have h3 : |z t i * σ t| ≤ 2 * a1 * σ1 := by
            rw [abs_mul, abs_of_nonneg (by linarith : 0 ≤ σ t), abs_of_nonneg (by linarith [h2.1])]
            exact mul_le_mul (by linarith [h2.2]) s2 (by linarith) (by positivity)
          linarith [ih (by omega), hsmall i]
      have hend : ∀ w ≤ u, |x (t1 + w) i| ≤ L := by
        intro w
        induction w with
        | zero => exact fun _ => hmid t1 le_rfl
        | succ w ih =>
          intro hw
          obtain ⟨s1, s2⟩ := hσ2 w (by omega)
          have h2 := hz2 w (by omega) i
          rw [hx2 w (by omega)]
          simp only [cubePut, if_neg hi]
          refine periodicPut_inside ((abs_add_le _ _).trans ?_)
          have h3 : |z (t1 + w) i| ≤ a * B + ρ := by
            have : z (t1 + w) i = a * v i + (z (t1 + w) i - a * v i) := by ring
            rw [this]
            refine (abs_add_le _ _).trans (add_le_add ?_ h2)
            rw [abs_mul, abs_of_pos ha0]
            exact mul_le_mul_of_nonneg_left (hvB i) ha0.le
          have h4 : σ1 * ρ ≤ e := by
            have : (1 : ℝ) ≤ T2 := by exact_mod_cast (by omega : 1 ≤ T2)
            calc σ1 * ρ = 1 * (σ1 * ρ) := by ring
              _ ≤ T2 * (σ1 * ρ) := mul_le_mul_of_nonneg_right this (by positivity)
              _ ≤ e := hρ3
          have h5 : |z (t1 + w) i * σ (t1 + w)| ≤ 2 * e := by
            rw [abs_mul, abs_of_nonneg s1]
            calc |z (t1 + w) i| * σ (t1 + w) ≤ (a * B + ρ) * σ1 := mul_le_mul h3 s2 s1 (by positivity)
              _ ≤ 2 * e := by linarith
          linarith [ih (by omega), hsmall i]
      exact hend u le_rfl
    have h9 := same_point hinside (y := x (t1 + u) i - 2 * L * ((n + n' : ℤ) : ℝ)) (by
      have hci := abs_le.1 (hcoord i)
      rw [abs_le] at h8
      rw [abs_lt]
      constructor <;> linarith [h8.1, h8.2, hci.1, hci.2]) (n + n') (by ring)
    rw [h9, show x (t1 + u) i - 2 * L * ((n + n' : ℤ) : ℝ) - c i = x (t1 + u) i - c i - 2 * L * ((n + n' : ℤ) : ℝ) by ring]
    linarith

end Moledyn.CubeSweep
