import Verif.Props.SideBySide
import Mathlib.Analysis.Normed.Group.Tannery
/-
C111: how the mean time of the first of `n` searchers depends on `n`.
-/
namespace Moledyn.Props
open Moledyn MeasureTheory ProbabilityTheory Filter Topology
open scoped ENNReal NNReal
set_option linter.unusedSectionVars false
variable {G : Type} [MeasurableSpace G]

/-- the mean number of steps is the sum of the probabilities that more are needed. -/
private theorem steps_sum (μ : Measure (ℕ × Bool)) : ∫⁻ y, (y.1 : ℝ≥0∞) ∂μ = ∑' k : ℕ, μ {y | k < y.1} := by
  have e : ∀ y : ℕ × Bool, (y.1 : ℝ≥0∞) = ∑' k : ℕ, Set.indicator {y : ℕ × Bool | k < y.1} 1 y := by
    intro y
    rw [tsum_eq_sum (s := Finset.range y.1)]
    · rw [Finset.sum_congr rfl (g := fun _ => (1 : ℝ≥0∞))]
      · simp
      · intro k hk
        simp only [Set.indicator, Set.mem_ofPred_eq, Finset.mem_range.1 hk, if_true, Pi.one_apply]
    · intro k hk
      simp only [Finset.mem_range, not_lt] at hk
      simp [Set.indicator, not_lt.2 hk]
  rw [lintegral_congr e, lintegral_tsum fun k => (measurable_one.indicator .of_discrete).aemeasurable]
  exact tsum_congr fun k => lintegral_indicator_one .of_discrete

theorem steps_mean_sum (μ : Measure (ℕ × Bool)) [IsProbabilityMeasure μ] (dt : ℝ) (hs : Summable fun k : ℕ => (μ {y | k < y.1}).toReal) :
    Integrable (fun y : ℕ × Bool => (y.1 : ℝ) * dt) μ ∧ ∫ y, (y.1 : ℝ) * dt ∂μ = (∑' k : ℕ, (μ {y | k < y.1}).toReal) * dt := by
  have hne : ∀ k : ℕ, μ {y | k < y.1} ≠ ∞ := fun k => measure_ne_top _ _
  have hfin : ∑' k : ℕ, μ {y | k < y.1} ≠ ∞ := by
    have := hs.tsum_ofReal_ne_top
    simpa [ENNReal.ofReal_toReal (hne _)] using this
  have hm : AEStronglyMeasurable (fun y : ℕ × Bool => (y.1 : ℝ)) μ := (Measurable.of_discrete).aestronglyMeasurable
  have hi : Integrable (fun y : ℕ × Bool => (y.1 : ℝ)) μ := by
    refine ⟨hm, ?_⟩
    show ∫⁻ y, ‖(y.1 : ℝ)‖ₑ ∂μ < ∞
    have e : ∀ y : ℕ × Bool, ‖(y.1 : ℝ)‖ₑ = (y.1 : ℝ≥0∞) := fun y => by simp
    simp only [e]
    rw [steps_sum]
    exact lt_top_iff_ne_top.2 hfin
  refine ⟨hi.mul_const dt, ?_⟩
  rw [integral_mul_const, integral_eq_lintegral_of_nonneg_ae (.of_forall fun y => by positivity) hm]
  congr 1
  have e : ∀ y : ℕ × Bool, ENNReal.ofReal (y.1 : ℝ) = (y.1 : ℝ≥0∞) := fun y => by simp
  simp only [e]
  rw [steps_sum, ENNReal.tsum_toReal_eq hne]

/-- the mean time of the first of `n` independent searches: the sum over `k` of the `n`-th powers of the probabilities that one
search takes more than `k` steps, in units of `dt`. -/
noncomputable def meanOfFirst (ρ : Measure (ℕ × Bool)) (dt : ℝ) (n : ℕ) : ℝ := (∑' k : ℕ, (ρ {y | k < y.1}).toReal ^ n) * dt

section
variable {ρ : Measure (ℕ × Bool)} [IsProbabilityMeasure ρ]

private theorem q_le (k : ℕ) : (ρ {y | k < y.1}).toReal ≤ 1 := by
  have := ENNReal.toReal_mono ENNReal.one_ne_top (prob_le_one (μ := ρ) (s := {y | k < y.1}))
  simpa using this

private theorem q_pow (hs : Summable fun k : ℕ => (ρ {y | k < y.1}).toReal) (n : ℕ) :
    Summable fun k : ℕ => (ρ {y | k < y.1}).toReal ^ (n + 1) := by
  refine hs.of_nonneg_of_le (fun k => by positivity) fun k => ?_
  calc (ρ {y | k < y.1}).toReal ^ (n + 1) ≤ (ρ {y | k < y.1}).toReal ^ 1 := pow_le_pow_of_le_one ENNReal.toReal_nonneg (q_le k) (by omega)
    _ = _ := pow_one _

/-- the smallest number of steps with which a search can end. -/
private theorem smallest : ∃ k₀ : ℕ, ρ {y | y.1 < k₀} = 0 ∧ ρ {y | y.1 = k₀} ≠ 0 := by
  classical
  have hex : ∃ k : ℕ, ρ {y | y.1 = k} ≠ 0 := by
    by_contra hc
    push Not at hc
    have : (Set.univ : Set (ℕ × Bool)) = ⋃ k : ℕ, {y | y.1 = k} := by ext y; simp
    have h0 : ρ Set.univ = 0 := by rw [this]; exact measure_iUnion_null hc
    simp at h0
  refine ⟨Nat.find hex, ?_, Nat.find_spec hex⟩
  have : {y : ℕ × Bool | y.1 < Nat.find hex} = ⋃ k : Fin (Nat.find hex), {y | y.1 = k.1} := by
    ext y
    simp only [Set.mem_ofPred_eq, Set.mem_iUnion]
    exact ⟨fun h => ⟨⟨y.1, h⟩, rfl⟩, fun ⟨k, hk⟩ => hk ▸ k.2⟩
  rw [this]
  exact measure_iUnion_null fun k => not_not.1 (Nat.find_min hex k.2)

private theorem q_one {k₀ : ℕ} (h : ρ {y | y.1 < k₀} = 0) (k : ℕ) (hk : k < k₀) : (ρ {y | k < y.1}).toReal = 1 := by
  have : ρ {y | k < y.1} = 1 := by
    rw [← prob_compl_eq_zero_iff .of_discrete]
    refine measure_mono_null (fun y hy => ?_) h
    have hy : ¬ k < y.1 := hy
    show y.1 < k₀
    omega
  simp [this]

private theorem q_lt {k₀ : ℕ} (h : ρ {y | y.1 = k₀} ≠ 0) (k : ℕ) (hk : k₀ ≤ k) : (ρ {y | k < y.1}).toReal < 1 := by
  have : ρ {y | k < y.1} < 1 := by
    refine lt_of_le_of_ne prob_le_one fun hc => h ?_
    rw [← prob_compl_eq_zero_iff .of_discrete] at hc
    refine measure_mono_null (fun y hy => ?_) hc
    have hy : y.1 = k₀ := hy
    show ¬ k < y.1
    omega
  have := (ENNReal.toReal_lt_toReal this.ne_top ENNReal.one_ne_top).2 this
  simpa using this

private theorem limit {k₀ : ℕ} (hs : Summable fun k : ℕ => (ρ {y | k < y.1}).toReal) (h1 : ρ {y | y.1 < k₀} = 0) (h2 : ρ {y | y.1 = k₀} ≠ 0)
    (dt : ℝ) : Tendsto (fun n => meanOfFirst ρ dt (n + 1)) atTop (𝓝 (k₀ * dt)) := by
  refine Tendsto.mul_const dt ?_
  have e : (k₀ : ℝ) = ∑' k : ℕ, if k < k₀ then (1 : ℝ) else 0 := by
    rw [tsum_eq_sum (s := Finset.range k₀)]
    · rw [Finset.sum_congr rfl (g := fun _ => (1 : ℝ)) fun k hk => if_pos (Finset.mem_range.1 hk)]
      simp
    · intro k hk
      exact if_neg (by simpa using hk)
  rw [e]
  refine tendsto_tsum_of_dominated_convergence (bound := fun k => (ρ {y | k < y.1}).toReal) hs (fun k => ?_) (.of_forall fun n k => ?_)
  · by_cases hk : k < k₀
    · simp only [q_one h1 k hk, one_pow, if_pos hk]
      exact tendsto_const_nhds
    · rw [if_neg hk]
      exact (tendsto_pow_atTop_nhds_zero_of_lt_one ENNReal.toReal_nonneg (q_lt h2 k (not_lt.1 hk))).comp (tendsto_add_atTop_nat 1)
  · rw [Real.norm_of_nonneg (by positivity)]
    calc (ρ {y | k < y.1}).toReal ^ (n + 1) ≤ (ρ {y | k < y.1}).toReal ^ 1 := pow_le_pow_of_le_one ENNReal.toReal_nonneg (q_le k) (by omega)
      _ = _ := pow_one _

private theorem below {k₀ : ℕ} (hs : Summable fun k : ℕ => (ρ {y | k < y.1}).toReal) (h1 : ρ {y | y.1 < k₀} = 0) {dt : ℝ} (hdt : 0 < dt) (n : ℕ) :
    k₀ * dt ≤ meanOfFirst ρ dt (n + 1) := by
  refine mul_le_mul_of_nonneg_right ?_ hdt.le
  have := (q_pow hs n).sum_le_tsum (Finset.range k₀) fun k _ => by positivity
  rw [Finset.sum_congr rfl (g := fun _ => (1 : ℝ)) fun k hk => by rw [q_one h1 k (Finset.mem_range.1 hk), one_pow]] at this
  simpa using this

private theorem gain_eq (hs : Summable fun k : ℕ => (ρ {y | k < y.1}).toReal) (dt : ℝ) (n : ℕ) :
    meanOfFirst ρ dt (n + 1) - meanOfFirst ρ dt (n + 2) =
      (∑' k : ℕ, (ρ {y | k < y.1}).toReal ^ (n + 1) * (1 - (ρ {y | k < y.1}).toReal)) * dt ∧
    Summable fun k : ℕ => (ρ {y | k < y.1}).toReal ^ (n + 1) * (1 - (ρ {y | k < y.1}).toReal) := by
  constructor
  · unfold meanOfFirst
    rw [← sub_mul, ← (q_pow hs n).tsum_sub (q_pow hs (n + 1))]
    congr 1
    exact tsum_congr fun k => by ring
  · exact ((q_pow hs n).sub (q_pow hs (n + 1))).congr fun k => by ring

private theorem gain_zero (hs : Summable fun k : ℕ => (ρ {y | k < y.1}).toReal) {dt : ℝ} (hdt : 0 < dt) (n : ℕ) :
    meanOfFirst ρ dt (n + 2) = meanOfFirst ρ dt (n + 1) ↔ ∃ k, ∀ᵐ y ∂ρ, y.1 = k := by
  obtain ⟨e, hsum⟩ := gain_eq hs dt n
  have hnn : ∀ k : ℕ, 0 ≤ (ρ {y | k < y.1}).toReal ^ (n + 1) * (1 - (ρ {y | k < y.1}).toReal) :=
    fun k => mul_nonneg (by positivity) (by linarith [q_le (ρ := ρ) k])
  obtain ⟨k₀, h1, h2⟩ := smallest (ρ := ρ)
  constructor
  · intro h
    rw [h, sub_self] at e
    have e0 := (mul_eq_zero.1 e.symm).resolve_right hdt.ne'
    have ek := (hsum.hasSum_iff.2 e0)
    have := (hasSum_zero_iff_of_nonneg hnn).1 ek
    have hk := congrFun this k₀
    simp only [Pi.zero_apply] at hk
    have hlt := q_lt h2 k₀ le_rfl
    have h0 : (ρ {y | k₀ < y.1}).toReal = 0 := pow_eq_zero_iff (n := n + 1) (by omega) |>.1 ((mul_eq_zero.1 hk).resolve_right (by linarith))
    have h0 : ρ {y | k₀ < y.1} = 0 := (ENNReal.toReal_eq_zero_iff _).1 h0 |>.resolve_right (measure_ne_top _ _)
    refine ⟨k₀, ?_⟩
    rw [ae_iff]
    refine measure_mono_null (fun y hy => ?_) (measure_union_null h0 h1)
    have hy : y.1 ≠ k₀ := hy
    rcases lt_or_gt_of_ne hy with hy | hy
    · exact .inr hy
    · exact .inl hy
  · rintro ⟨k, hk⟩
    have h0 : ∀ j : ℕ, (ρ {y | j < y.1}).toReal ^ (n + 1) * (1 - (ρ {y | j < y.1}).toReal) = 0 := by
      intro j
      by_cases hj : j < k
      · have : ρ {y | j < y.1} = 1 := by
          rw [← prob_compl_eq_zero_iff .of_discrete]
          refine measure_mono_null (fun y hy => ?_) (ae_iff.1 hk)
          have hy : ¬ j < y.1 := hy
          show y.1 ≠ k
          omega
        simp [this]
      · have : ρ {y | j < y.1} = 0 := by
          refine measure_mono_null (fun y hy => ?_) (ae_iff.1 hk)
          have hy : j < y.1 := hy
          show y.1 ≠ k
          omega
        simp [this]
    simp only [h0, tsum_zero, zero_mul] at e
    linarith

private theorem gain (hs : Summable fun k : ℕ => (ρ {y | k < y.1}).toReal) {dt : ℝ} (hdt : 0 < dt) (n : ℕ) :
    0 ≤ meanOfFirst ρ dt (n + 2) - meanOfFirst ρ dt (n + 3) ∧
    meanOfFirst ρ dt (n + 2) - meanOfFirst ρ dt (n + 3) ≤ meanOfFirst ρ dt (n + 1) - meanOfFirst ρ dt (n + 2) := by
  have e := fun n => (gain_eq hs dt n).1
  have hsum := fun n => (gain_eq hs dt n).2
  rw [e n, e (n + 1)]
  refine ⟨mul_nonneg (tsum_nonneg fun k => mul_nonneg (by positivity) (by linarith [q_le (ρ := ρ) k])) hdt.le, ?_⟩
  refine mul_le_mul_of_nonneg_right ((hsum (n + 1)).tsum_le_tsum (fun k => ?_) (hsum n)) hdt.le
  exact mul_le_mul_of_nonneg_right (pow_le_pow_of_le_one ENNReal.toReal_nonneg (q_le k) (by omega)) (by linarith [q_le (ρ := ρ) k])
end

section
variable (rng : RngOps G ℝ) (P : Measure G) (ν : Measure ℝ) (b : ℝ) (h : IndepRng rng P ν) (hν : BoundedSpread ν b)
  (sys : SysOps G ℝ) (d : Nat) (S₀ S : Set (Fin d → ℝ)) (room : Room P sys d S₀) (hconv : Convex ℝ S)
  (put : (Fin d → ℝ) → Fin d → ℝ) (w : Walls sys S put)
  (c : Fin d → ℝ) (t : BulkTarget ℝ) (ht : t.targetPos = List.ofFn c) (hpos : volume (S₀ \ nearSet c t.targetSize) ≠ 0)
  (hin : ∃ c' ε, 0 < ε ∧ nearSet c' ε ⊆ S ∩ nearSet c t.targetSize)
  (D dt : ℝ) (hD : 0 < D) (hdt : 0 < dt)
  (hsafe : ∀ x ∈ S₀ ∪ S, ∀ z : Fin d → ℝ, (∀ i, |z i| ≤ b * Real.sqrt (2 * D * dt)) → put (x + z) ∈ S)
  (ρ : Measure (ℕ × Bool))
  (hρ : ρ = searchLaw put S (nearSet c t.targetSize) (stepLaw d ν (Real.sqrt (2 * D * dt))) (uniformLaw (S₀ \ nearSet c t.targetSize)))
include h hν room hconv w ht hpos hin hD hdt hsafe hρ

/-- one search has a mean. -/
theorem first_tails : IsProbabilityMeasure ρ ∧ Summable (fun k : ℕ => (ρ {y | k < y.1}).toReal) ∧ ρ {y | y.1 < 1} = 0 := by
  have hprob := (C100_search rng P ν b h hν sys d S₀ S room hconv put w c t ht hpos hin D dt hD hdt hsafe ρ hρ).2.1
  have hi := (C100_moments rng P ν b h hν sys d S₀ S room hconv put w c t ht hpos hin D dt hD hdt hsafe ρ hρ).integrable (by norm_num)
  have hi' : Integrable (fun y : ℕ × Bool => (y.1 : ℝ)) ρ := (integrable_mul_const_iff (isUnit_iff_ne_zero.2 hdt.ne') _).1 hi
  refine ⟨hprob, ?_, ?_⟩
  · have := hi'.2
    have e : ∀ y : ℕ × Bool, ‖(y.1 : ℝ)‖ₑ = (y.1 : ℝ≥0∞) := fun y => by simp
    unfold HasFiniteIntegral at this
    simp only [e] at this
    rw [steps_sum] at this
    exact ENNReal.summable_toReal this.ne
  · rw [hρ, searchLaw, Measure.sum_apply _ .of_discrete, ENNReal.tsum_eq_zero]
    intro n
    simp

/-- tests/n_ptl_rts_iterator.rs with `n + 1` searchers: with probability one ensembles of all sizes succeed, and as they grow
their means approach the mean time of the first of `n + 1` independent searches. -/
theorem C111_mean (n : ℕ) : ∀ᵐ g ∂P, ∃ m : ℕ → ℝ, (∀ num, ∃ N, ∀ loops ≥ N, ∃ g',
      ensembleMean (indepRun rng sys t.ops loops loops loops loops (.brownian D) dt (n + 1)) num g = some (.ok (m num), g')) ∧
    Tendsto m atTop (𝓝 (meanOfFirst ρ dt (n + 1))) := by
  have := h.prob
  obtain ⟨hprob, hs, -⟩ := first_tails rng P ν b h hν sys d S₀ S room hconv put w c t ht hpos hin D dt hD hdt hsafe ρ hρ
  obtain ⟨b1, b2, b3⟩ := C104_bounded rng P ν b h hν sys d S₀ S room hconv put w c t ht hpos hin D dt hD hdt hsafe ρ hρ n
  have hfm : Measurable (firstOf n) := .of_discrete
  have : IsProbabilityMeasure ((Measure.pi fun _ : Fin (n + 1) => ρ).map (firstOf n)) := Measure.isProbabilityMeasure_map hfm.aemeasurable
  obtain ⟨hi, he⟩ := steps_mean_sum ((Measure.pi fun _ : Fin (n + 1) => ρ).map (firstOf n)) dt (by
    simp only [b3, ENNReal.toReal_pow]
    exact q_pow hs n)
  have e : meanOfFirst ρ dt (n + 1) = ∫ y, (y.1 : ℝ) * dt ∂((Measure.pi fun _ : Fin (n + 1) => ρ).map (firstOf n)) := by
    rw [he]
    simp only [b3, ENNReal.toReal_pow]
    rfl
  rw [e]
  exact means_of_runs b1 b2 hi

/-- For one searcher this is the mean time of a search. -/
theorem C111_one : meanOfFirst ρ dt 1 = ∫ y, (y.1 : ℝ) * dt ∂ρ := by
  obtain ⟨hprob, hs, -⟩ := first_tails rng P ν b h hν sys d S₀ S room hconv put w c t ht hpos hin D dt hD hdt hsafe ρ hρ
  rw [(steps_mean_sum ρ dt hs).2]
  simp [meanOfFirst]

/-- Every further searcher makes the mean shorter, unless all searches take the same time, but by no more than the one before. -/
theorem C111_gain (n : ℕ) (hn : 0 < n) :
    meanOfFirst ρ dt (n + 1) ≤ meanOfFirst ρ dt n ∧ (meanOfFirst ρ dt (n + 1) = meanOfFirst ρ dt n ↔ ∃ k, ∀ᵐ y ∂ρ, y.1 = k) ∧
    meanOfFirst ρ dt (n + 1) - meanOfFirst ρ dt (n + 2) ≤ meanOfFirst ρ dt n - meanOfFirst ρ dt (n + 1) := by
  obtain ⟨hprob, hs, -⟩ := first_tails rng P ν b h hν sys d S₀ S room hconv put w c t ht hpos hin D dt hD hdt hsafe ρ hρ
  obtain ⟨n, rfl⟩ : ∃ m, n = m + 1 := ⟨n - 1, by omega⟩
  have := gain hs hdt n
  exact ⟨by linarith [this.1, this.2], gain_zero hs hdt n, this.2⟩

/-- But it does not become arbitrarily short: with `k₀` the smallest number of steps with which a search can end (at least one),
the mean is never below `k₀ dt`, and comes as near to it as one likes when there are enough searchers.  Below the length of a
step the results say nothing about the search. -/
theorem C111_limit : ∃ k₀ : ℕ, 0 < k₀ ∧ ρ {y | y.1 < k₀} = 0 ∧ ρ {y | y.1 = k₀} ≠ 0 ∧
    (∀ n, 0 < n → k₀ * dt ≤ meanOfFirst ρ dt n) ∧ Tendsto (meanOfFirst ρ dt) atTop (𝓝 (k₀ * dt)) := by
  obtain ⟨hprob, hs, h0⟩ := first_tails rng P ν b h hν sys d S₀ S room hconv put w c t ht hpos hin D dt hD hdt hsafe ρ hρ
  obtain ⟨k₀, h1, h2⟩ := smallest (ρ := ρ)
  refine ⟨k₀, ?_, h1, h2, fun n hn => ?_, (tendsto_add_atTop_iff_nat 1).1 (limit hs h1 h2 dt)⟩
  · by_contra hc
    refine h2 (measure_mono_null (fun y hy => ?_) h0)
    have hy : y.1 = k₀ := hy
    show y.1 < 1
    omega
  · obtain ⟨n, rfl⟩ : ∃ m, n = m + 1 := ⟨n - 1, by omega⟩
    exact below hs h1 hdt n

/-- With more searchers it is never more probable that a run takes longer than a given time. -/
theorem C111_sooner (n n' k : ℕ) (hn : n ≤ n') :
    P {g | ∃ N, ∀ loops ≥ N, ∃ m g', indepRun rng sys t.ops loops loops loops loops (.brownian D) dt (n' + 1) g = some (.ok m, g') ∧ k * dt < m} ≤
    P {g | ∃ N, ∀ loops ≥ N, ∃ m g', indepRun rng sys t.ops loops loops loops loops (.brownian D) dt (n + 1) g = some (.ok m, g') ∧ k * dt < m} := by
  have hprob := (C100_search rng P ν b h hν sys d S₀ S room hconv put w c t ht hpos hin D dt hD hdt hsafe ρ hρ).2.1
  rw [C104_same_law rng P ν b h hν sys d S₀ S room hconv put w c t ht hpos hin D dt hD hdt hsafe ρ hρ n' k,
    C104_same_law rng P ν b h hν sys d S₀ S room hconv put w c t ht hpos hin D dt hD hdt hsafe ρ hρ n k]
  exact pow_le_pow_of_le_one bot_le prob_le_one (by omega)
end

/-! ### example -/

/-- With normal numbers cut at 10, in a square of half width 1 with mirrors, a target of radius 1/4 in its middle, `D = 1` and
`dt = 1/100`: the means of ensembles of three searchers approach a number that is at most the mean of one, and at least the
limit for infinitely many. -/
example : let s : Cubic ℝ := ⟨.continuousRectangular, .reflection, 1, 2⟩
    ∃ (τ : ℕ → ℝ) (k₀ : ℕ), 0 < k₀ ∧ k₀ * (1 / 100) ≤ τ 3 ∧ τ 3 ≤ τ 2 ∧ Tendsto τ atTop (𝓝 (k₀ * (1 / 100))) ∧
      ∀ᵐ g ∂tapeLaw, ∃ m : ℕ → ℝ, (∀ num, ∃ N, ∀ loops ≥ N, ∃ g',
        ensembleMean (indepRun (cutRng tapeRng 10) (s.ops (cutRng tapeRng 10)) (BulkTarget.new [0, 0] (1 / 4)).ops loops loops loops loops
          (.brownian 1) (1 / 100) 3) num g = some (.ok (m num), g')) ∧ Tendsto m atTop (𝓝 (τ 3)) := by
  intro s
  have hs : Cubic.new .reflection (1 : ℝ) 2 = .ok s := by
    unfold Cubic.new; rw [if_neg (by simp)]
  have w := (C77_walls (cutRng tapeRng 10)).1 .reflection 1 2 s hs
  have room := (C73_systems (cutRng tapeRng 10) tapeLaw (cut_indep tape_ideal 10)).1 s (by simp [s])
  have h1 : Real.sqrt (2 * 1 * (1 / 100)) ≤ 1 / 5 := by
    rw [Real.sqrt_le_left (by norm_num)]; norm_num
  have hsafe : ∀ x ∈ cubeSet 2 1 ∪ cubeSet 2 1, ∀ z : Fin 2 → ℝ, (∀ i, |z i| ≤ 10 * Real.sqrt (2 * 1 * (1 / 100))) →
      cubePut .reflection 1 (x + z) ∈ cubeSet 2 1 := fun x hx z hz =>
    (C77_safe_steps 2 x z).1 .reflection 1 one_pos hx fun i => (hz i).trans (by linarith)
  have hT : (BulkTarget.new [0, 0] (1 / 4) : BulkTarget ℝ).targetPos = List.ofFn fun _ : Fin 2 => (0 : ℝ) := by simp [BulkTarget.new]
  have hin : ∃ c' ε, 0 < ε ∧ nearSet c' ε ⊆ cubeSet 2 1 ∩ nearSet (fun _ => 0) (BulkTarget.new [0, 0] (1 / 4) : BulkTarget ℝ).targetSize :=
    ⟨fun _ => 0, 1 / 4, by norm_num, square_target⟩
  obtain ⟨k₀, l1, -, -, l2, l3⟩ := C111_limit _ tapeLaw _ 10 (cut_indep tape_ideal 10) (C100_cut_normal (by norm_num)) _ 2 _ _ room
    (cube_convex 2 1) _ w (fun _ => 0) _ hT square_example hin 1 (1 / 100) (by norm_num) (by norm_num) hsafe _ rfl
  exact ⟨_, k₀, l1, l2 3 (by norm_num), (C111_gain _ tapeLaw _ 10 (cut_indep tape_ideal 10) (C100_cut_normal (by norm_num)) _ 2 _ _ room
    (cube_convex 2 1) _ w (fun _ => 0) _ hT square_example hin 1 (1 / 100) (by norm_num) (by norm_num) hsafe _ rfl 2 (by norm_num)).1, l3,
    C111_mean _ tapeLaw _ 10 (cut_indep tape_ideal 10) (C100_cut_normal (by norm_num)) _ 2 _ _ room
    (cube_convex 2 1) _ w (fun _ => 0) _ hT square_example hin 1 (1 / 100) (by norm_num) (by norm_num) hsafe _ rfl 2⟩

end Moledyn.Props
