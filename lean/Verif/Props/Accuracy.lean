import Verif.Props.SearchLaw
import Mathlib.Probability.Moments.Variance
import Mathlib.Probability.ConditionalProbability
/-
C99: what the mean of an ensemble of searches estimates, and how well; the distribution of the time of the fastest of
n searchers.
-/
namespace Moledyn.Props
open Moledyn MeasureTheory ProbabilityTheory
open scoped ENNReal NNReal
set_option linter.unusedSimpArgs false
set_option linter.unusedSectionVars false
variable {G : Type} [MeasurableSpace G]

/-- a search that found the target. -/
def found : Set (ℕ × Bool) := {y | y.2 = true}

theorem found_meas : MeasurableSet found := measurable_snd (measurableSet_singleton true)

theorem square_mean (ρ : Measure (ℕ × Bool)) :
    ∫⁻ y, (y.1 : ℝ≥0∞) ^ 2 ∂ρ = ∑' n : ℕ, (2 * n + 1) * ρ {y | n < y.1} := by
  have e : ∀ y : ℕ × Bool, (y.1 : ℝ≥0∞) ^ 2 = ∑' n : ℕ, Set.indicator {y : ℕ × Bool | n < y.1} (fun _ => (2 * (n : ℝ≥0∞) + 1)) y := by
    intro y
    rw [tsum_eq_sum (s := Finset.range y.1) (fun n hn => by
      rw [Finset.mem_range] at hn
      exact Set.indicator_of_notMem (s := {y : ℕ × Bool | n < y.1}) (a := y) hn _)]
    rw [Finset.sum_congr rfl (g := fun n : ℕ => (2 * (n : ℝ≥0∞) + 1)) fun n hn => by
      rw [Finset.mem_range] at hn
      exact Set.indicator_of_mem (s := {y : ℕ × Bool | n < y.1}) (a := y) hn _]
    have h : ∀ k : ℕ, ∑ n ∈ Finset.range k, (2 * (n : ℝ≥0∞) + 1) = (k : ℝ≥0∞) ^ 2 := by
      intro k
      induction k with
      | zero => simp
      | succ k ih => rw [Finset.sum_range_succ, ih]; push_cast; ring
    rw [h]
  simp only [e]
  have hm : ∀ n : ℕ, MeasurableSet {y : ℕ × Bool | n < y.1} := fun n => measurableSet_lt measurable_const measurable_fst
  rw [lintegral_tsum fun n => (measurable_const.indicator (hm n)).aemeasurable]
  simp only [lintegral_indicator_const (hm _)]

/-- a geometric tail gives a second moment. -/
theorem second_moment (ρ : Measure (ℕ × Bool)) (r : ℝ≥0∞) (hr : r < 1) (htail : ∀ n, ρ {y | n < y.1} ≤ r ^ n) :
    ∫⁻ y, (y.1 : ℝ≥0∞) ^ 2 ∂ρ < ∞ := by
  rw [square_mean]
  lift r to ℝ≥0 using (hr.trans ENNReal.one_lt_top).ne
  have hr1 : r < 1 := by exact_mod_cast hr
  refine lt_of_le_of_lt (ENNReal.tsum_le_tsum fun n => mul_le_mul_right (htail n) _) ?_
  have hs : Summable fun n : ℕ => (2 * (n : ℝ≥0) + 1) * r ^ n := by
    rw [← NNReal.summable_coe]
    push_cast
    have h1 := summable_pow_mul_geometric_of_norm_lt_one (R := ℝ) 1 (r := (r : ℝ)) (by simpa using hr1)
    have h2 := summable_pow_mul_geometric_of_norm_lt_one (R := ℝ) 0 (r := (r : ℝ)) (by simpa using hr1)
    refine ((h1.mul_left 2).add h2).congr fun n => ?_
    ring
  have := ENNReal.tsum_coe_ne_top_iff_summable.2 hs
  refine lt_of_le_of_ne le_top ?_
  convert this using 2
  push_cast
  rfl

/-- the law of a successful search. -/
theorem restrict_eq (ρ : Measure (ℕ × Bool)) [IsProbabilityMeasure ρ] : ρ.restrict found = ρ found • ρ[|found] := by
  by_cases h0 : ρ found = 0
  · rw [h0, zero_smul]; exact Measure.restrict_eq_zero.2 h0
  · rw [ProbabilityTheory.cond, smul_smul, ENNReal.mul_inv_cancel h0 (measure_ne_top _ _), one_smul]

theorem pi_smul_measure {X : Type} [MeasurableSpace X] (n : Nat) (q : ℝ≥0∞) (hq : q ≠ ∞) (ν : Measure X) [IsFiniteMeasure ν] :
    (Measure.pi fun _ : Fin n => q • ν) = q ^ n • Measure.pi fun _ : Fin n => ν := by
  have : IsFiniteMeasure (q • ν) := ⟨by
    simp only [Measure.smul_apply, smul_eq_mul]
    exact ENNReal.mul_lt_top (lt_top_iff_ne_top.2 hq) (measure_lt_top _ _)⟩
  refine Measure.pi_eq fun s _ => ?_
  simp only [Measure.smul_apply, smul_eq_mul, Measure.pi_pi, Finset.prod_mul_distrib, Finset.prod_const, Finset.card_univ,
    Fintype.card_fin]

/-- independent successful searches: the mean of `n` of them is rarely far from the expected value. -/
theorem mean_of_successes (ν : Measure (ℕ × Bool)) [IsProbabilityMeasure ν] (X : ℕ × Bool → ℝ) (hX : MemLp X 2 ν)
    (n : Nat) (hn : 0 < n) (ε : ℝ) (hε : 0 < ε) :
    (Measure.pi fun _ : Fin n => ν) {y | ε ≤ |(∑ i, X (y i)) / n - ν[X]|} ≤
      ENNReal.ofReal (Var[X; ν] / (n * ε ^ 2)) := by
  have hn' : (n : ℝ) ≠ 0 := by positivity
  have hi : ∀ i : Fin n, MemLp (fun y : Fin n → ℕ × Bool => X (y i)) 2 (Measure.pi fun _ : Fin n => ν) := fun i =>
    hX.comp_measurePreserving (measurePreserving_eval (fun _ : Fin n => ν) i)
  have hS : MemLp (fun y : Fin n → ℕ × Bool => ∑ i, X (y i)) 2 (Measure.pi fun _ : Fin n => ν) := by
    have := memLp_finsetSum' Finset.univ fun i _ => hi i
    convert this using 1
    funext y
    simp
  have hM : MemLp (fun y : Fin n → ℕ × Bool => (∑ i, X (y i)) / n) 2 (Measure.pi fun _ : Fin n => ν) := by
    have := hS.const_mul ((n : ℝ)⁻¹)
    refine this.ae_eq (.of_forall fun y => ?_)
    exact (div_eq_inv_mul _ _).symm
  have hmean : ∫ y, (∑ i, X (y i)) / n ∂(Measure.pi fun _ : Fin n => ν) = ν[X] := by
    rw [integral_div, integral_finsetSum _ fun i _ => (hi i).integrable (by norm_num)]
    have : ∀ i : Fin n, ∫ y, X (y i) ∂(Measure.pi fun _ : Fin n => ν) = ν[X] := by
      intro i
      have hp := measurePreserving_eval (fun _ : Fin n => ν) i
      have := integral_map (μ := Measure.pi fun _ : Fin n => ν) hp.measurable.aemeasurable (f := X)
        (by rw [hp.map_eq]; exact hX.aestronglyMeasurable)
      rw [hp.map_eq] at this
      exact this.symm
    simp only [this, Finset.sum_const, Finset.card_univ, Fintype.card_fin, nsmul_eq_mul]
    field_simp
  have hvar : Var[fun y : Fin n → ℕ × Bool => (∑ i, X (y i)) / n; Measure.pi fun _ : Fin n => ν] = Var[X; ν] / n := by
    have h1 : (fun y : Fin n → ℕ × Bool => (∑ i, X (y i)) / n) = fun y => (n : ℝ)⁻¹ * (∑ i, fun ω : Fin n → ℕ × Bool => X (ω i)) y := by
      funext y
      rw [Finset.sum_apply, div_eq_inv_mul]
    rw [h1, variance_const_mul, variance_sum_pi (X := fun _ => X) fun _ => hX]
    simp only [Finset.sum_const, Finset.card_univ, Fintype.card_fin, nsmul_eq_mul]
    field_simp
  have := meas_ge_le_variance_div_sq hM hε
  rw [hmean, hvar] at this
  rwa [div_div] at this

theorem moments_of_steps (ρ : Measure (ℕ × Bool)) [IsProbabilityMeasure ρ] (dt : ℝ) (h : ∫⁻ y, (y.1 : ℝ≥0∞) ^ 2 ∂ρ < ∞) :
    MemLp (fun y : ℕ × Bool => (y.1 : ℝ) * dt) 2 ρ ∧ MemLp (fun y : ℕ × Bool => (y.1 : ℝ) * dt) 2 ρ[|found] := by
  have h1 : MemLp (fun y : ℕ × Bool => (y.1 : ℝ)) 2 ρ := by
    have hm : AEStronglyMeasurable (fun y : ℕ × Bool => (y.1 : ℝ)) ρ :=
      (measurable_from_nat.comp measurable_fst).aestronglyMeasurable
    rw [memLp_two_iff_integrable_sq hm]
    refine ⟨hm.pow 2, ?_⟩
    show ∫⁻ y, ‖(y.1 : ℝ) ^ 2‖ₑ ∂ρ < ∞
    have e : ∀ y : ℕ × Bool, ‖(y.1 : ℝ) ^ 2‖ₑ = (y.1 : ℝ≥0∞) ^ 2 := fun y => by simp
    simp only [e]
    exact h
  have h2 : MemLp (fun y : ℕ × Bool => (y.1 : ℝ) * dt) 2 ρ := by
    refine (h1.const_mul dt).ae_eq (.of_forall fun y => ?_)
    exact mul_comm _ _
  refine ⟨h2, ?_⟩
  by_cases h0 : ρ found = 0
  · have : ρ[|found] = 0 := by rw [ProbabilityTheory.cond, Measure.restrict_eq_zero.2 h0, smul_zero]
    rw [this]
    exact memLp_measure_zero
  · exact (h2.restrict _).smul_measure (ENNReal.inv_ne_top.2 h0)

/-- The mean of an ensemble, whatever the distribution of one search. -/
theorem accuracy_of_searches {P : Measure G} [IsProbabilityMeasure P] {ρ : Measure (ℕ × Bool)} [IsProbabilityMeasure ρ]
    {rng : RngOps G ℝ} {sys : SysOps G ℝ} {t : BulkTarget ℝ} {D dt : ℝ}
    (hy : Yields P (fun n g => oneSearcher rng sys t.ops n n n (.brownian D) dt g) (reported dt) ρ) 
    (hX : MemLp (fun y : ℕ × Bool => (y.1 : ℝ) * dt) 2 ρ[|found]) (n : Nat) (hn : 0 < n) (ε : ℝ) (hε : 0 < ε) (hq : ρ found ≠ 0) :
    P {g | ∃ N, ∀ loops ≥ N, ∃ m g', ensembleMean (oneSearcher rng sys t.ops loops loops loops (.brownian D) dt) n g = some (.ok m, g') ∧
        ε ≤ |m - ∫ y, (y.1 : ℝ) * dt ∂ρ[|found]|} ≤
      ρ found ^ n * ENNReal.ofReal (Var[fun y : ℕ × Bool => (y.1 : ℝ) * dt; ρ[|found]] / (n * ε ^ 2)) := by
  have hν : IsProbabilityMeasure ρ[|found] := cond_isProbabilityMeasure hq
  obtain ⟨x, hx, hae⟩ := ensemble_of_searches hy n
  set τ := ∫ y, (y.1 : ℝ) * dt ∂ρ[|found] with hτ
  have hmB : MeasurableSet {y : Fin n → ℕ × Bool | ε ≤ |(∑ i, ((y i).1 : ℝ) * dt) / n - τ|} := by
    have hmX : Measurable fun y : Fin n → ℕ × Bool => |(∑ i, ((y i).1 : ℝ) * dt) / n - τ| := by
      have : Measurable fun y : Fin n → ℕ × Bool => ∑ i, ((y i).1 : ℝ) * dt :=
        Finset.measurable_sum _ fun i _ => ((measurable_from_nat.comp measurable_fst).comp (measurable_pi_apply i)).mul_const dt
      exact ((this.div_const _).sub_const _).abs
    exact measurableSet_le measurable_const hmX
  have hmA : MeasurableSet (Set.univ.pi fun _ : Fin n => found) := MeasurableSet.univ_pi fun _ => found_meas
  have hle : P {g | ∃ N, ∀ loops ≥ N, ∃ m g', ensembleMean (oneSearcher rng sys t.ops loops loops loops (.brownian D) dt) n g = some (.ok m, g') ∧
        ε ≤ |m - τ|} ≤
      P (x ⁻¹' ({y : Fin n → ℕ × Bool | ε ≤ |(∑ i, ((y i).1 : ℝ) * dt) / n - τ|} ∩ Set.univ.pi fun _ => found)) := by
    refine measure_mono_ae ?_
    filter_upwards [hae] with g ⟨N, hN⟩ ⟨M, hM⟩
    obtain ⟨m, g', hm, hfar⟩ := hM (max N M) (le_max_right _ _)
    obtain ⟨k1, k2⟩ := hN (max N M) (le_max_left _ _)
    have hall : ∀ i, (x g i).2 = true := by
      intro i
      by_contra hc
      have := (k2 ⟨i, by simpa using hc⟩).1
      rw [hm] at this
      simp at this
    refine ⟨?_, fun i _ => hall i⟩
    have := (k1 hall).1
    rw [hm] at this
    simp only [Option.map_some, Option.some.injEq, Res.ok.injEq] at this
    rw [this] at hfar
    exact hfar
  refine hle.trans ?_
  rw [hx.measure_preimage (hmB.inter hmA).nullMeasurableSet, ← Measure.restrict_apply hmB, Measure.restrict_pi_pi]
  simp only [restrict_eq ρ]
  rw [pi_smul_measure n _ (measure_ne_top _ _), Measure.smul_apply, smul_eq_mul]
  exact mul_le_mul_right (mean_of_successes ρ[|found] (fun y => (y.1 : ℝ) * dt) hX n hn ε hε) _

/-- The fastest of `n`, whatever the distribution of one search. -/
theorem fastest_of_searches {P : Measure G} [IsProbabilityMeasure P] {ρ : Measure (ℕ × Bool)} [IsProbabilityMeasure ρ]
    {rng : RngOps G ℝ} {sys : SysOps G ℝ} {t : BulkTarget ℝ} {D dt : ℝ}
    (hy : Yields P (fun n g => oneSearcher rng sys t.ops n n n (.brownian D) dt g) (reported dt) ρ) (hdt : 0 < dt)
    (n k : Nat) (hk : (k : ℝ) * dt < Fl.maxVal) :
    P {g | ∃ N, ∀ loops ≥ N, ∃ m g', nSearchersFpt rng sys t.ops loops loops loops (.brownian D) dt n g = some (.ok m, g') ∧
        k * dt < m} = ρ {y | y.2 = true ∧ k < y.1} ^ n := by
  have hfm : MeasurableSet {y : ℕ × Bool | y.2 = true ∧ k < y.1} :=
    found_meas.inter (measurableSet_lt measurable_const measurable_fst)
  obtain ⟨x, hx, hae⟩ := ensemble_of_searches hy n
  have e : (Measure.pi fun _ : Fin n => ρ) (Set.univ.pi fun _ => {y | y.2 = true ∧ k < y.1}) = ρ {y | y.2 = true ∧ k < y.1} ^ n := by
    rw [Measure.pi_pi]; simp
  rw [← e, ← hx.measure_preimage (MeasurableSet.univ_pi fun _ => hfm).nullMeasurableSet]
  refine measure_congr ?_
  filter_upwards [hae] with g ⟨N, hN⟩
  refine propext ⟨fun ⟨M, hM⟩ i _ => ?_, fun hg => ⟨N, fun loops hl => ?_⟩⟩
  · obtain ⟨m, g', hm, hkm⟩ := hM (max N M) (le_max_right _ _)
    obtain ⟨k1, k2⟩ := hN (max N M) (le_max_left _ _)
    have hall : ∀ i, (x g i).2 = true := by
      intro i
      by_contra hc
      have := (k2 ⟨i, by simpa using hc⟩).2
      rw [hm] at this
      simp at this
    obtain ⟨m', hm', -, hmin, -⟩ := (k1 hall).2
    rw [hm] at hm'
    simp only [Option.map_some, Option.some.injEq, Res.ok.injEq] at hm'
    subst hm'
    have h1 : (k : ℝ) * dt < (x g i).1 * dt := hkm.trans_le (hmin i)
    have h2 : (k : ℝ) < (x g i).1 := lt_of_mul_lt_mul_right h1 hdt.le
    exact ⟨hall i, by exact_mod_cast h2⟩
  · obtain ⟨m, hm, -, -, hmin⟩ := ((hN loops hl).1 fun i => (hg i trivial).1).2
    rcases he : nSearchersFpt rng sys t.ops loops loops loops (.brownian D) dt n g with _ | ⟨r, g'⟩
    · rw [he] at hm; simp at hm
    · rw [he] at hm
      simp only [Option.map_some, Option.some.injEq] at hm
      refine ⟨m, g', by rw [hm], ?_⟩
      rcases hmin with rfl | ⟨i, rfl⟩
      · exact hk
      · have : k < (x g i).1 := (hg i trivial).2
        have : (k : ℝ) < (x g i).1 := by exact_mod_cast this
        exact mul_lt_mul_of_pos_right this hdt

section
variable (rng : RngOps G ℝ) (P : Measure G) (h : IdealRng rng P) (sys : SysOps G ℝ) (d : Nat) (S₀ S : Set (Fin d → ℝ))
  (room : Room P sys d S₀) (hbd : ∃ M, ∀ x ∈ S₀, ∀ i, |x i| ≤ M) (put : (Fin d → ℝ) → Fin d → ℝ) (w : Walls sys S put)
  (c : Fin d → ℝ) (t : BulkTarget ℝ) (ht : t.targetPos = List.ofFn c) (hpos : volume (S₀ \ nearSet c t.targetSize) ≠ 0)
  (D dt : ℝ) (hD : 0 < D) (hdt : 0 < dt) (ρ : Measure (ℕ × Bool))
  (hρ : ρ = searchLaw put S (nearSet c t.targetSize) (normalLaw _ (2 * D * dt)) (uniformLaw (S₀ \ nearSet c t.targetSize)))
include h room hbd w ht hpos hD hdt hρ

/-- The time of a successful search has a mean and a variance. -/
theorem C99_moments : MemLp (fun y : ℕ × Bool => (y.1 : ℝ) * dt) 2 ρ ∧ MemLp (fun y : ℕ × Bool => (y.1 : ℝ) * dt) 2 ρ[|found] := by
  obtain ⟨-, hprob, -, r, hr, htail⟩ := C77_search rng P h sys d S₀ S room hbd put w c t ht hpos D dt hD hdt
  rw [← hρ] at hprob htail
  exact moments_of_steps ρ dt (second_moment ρ r hr htail)

/-- How far the reported mean of an ensemble may be off.  With `q` the probability that a search finds the target, and `τ`
and `V` the mean and the variance of the time of a search that does: an ensemble of `n` searches succeeds and reports a
number that differs from `τ` by `ε` or more with probability at most `q ^ n V / (n ε²)`; as it succeeds with probability
`q ^ n` (`C77_success`), a reported number is that far off with probability at most `V / (n ε²)`. -/
theorem C99_mean_accuracy (n : Nat) (hn : 0 < n) (ε : ℝ) (hε : 0 < ε) (hq : ρ found ≠ 0) :
    P {g | ∃ N, ∀ loops ≥ N, ∃ m g', ensembleMean (oneSearcher rng sys t.ops loops loops loops (.brownian D) dt) n g = some (.ok m, g') ∧
        ε ≤ |m - ∫ y, (y.1 : ℝ) * dt ∂ρ[|found]|} ≤
      ρ found ^ n * ENNReal.ofReal (Var[fun y : ℕ × Bool => (y.1 : ℝ) * dt; ρ[|found]] / (n * ε ^ 2)) := by
  have := h.prob
  obtain ⟨hy, hprob, -⟩ := C77_search rng P h sys d S₀ S room hbd put w c t ht hpos D dt hD hdt
  rw [← hρ] at hy hprob
  exact accuracy_of_searches hy (C99_moments rng P h sys d S₀ S room hbd put w c t ht hpos D dt hD hdt ρ hρ).2 n hn ε hε hq

/-- The time of the fastest of `n` searchers: the probability that the run succeeds and reports more than `k dt` is the `n`-th
power of the probability that one search does. -/
theorem C99_fastest (n k : Nat) (hk : (k : ℝ) * dt < Fl.maxVal) :
    P {g | ∃ N, ∀ loops ≥ N, ∃ m g', nSearchersFpt rng sys t.ops loops loops loops (.brownian D) dt n g = some (.ok m, g') ∧
        k * dt < m} = ρ {y | y.2 = true ∧ k < y.1} ^ n := by
  have := h.prob
  obtain ⟨hy, hprob, -⟩ := C77_search rng P h sys d S₀ S room hbd put w c t ht hpos D dt hD hdt
  rw [← hρ] at hy hprob
  exact fastest_of_searches hy hdt n k hk
end

theorem one_le_maxVal : (1 : ℝ) ≤ Fl.maxVal := by
  show (1 : ℝ) ≤ (2 : ℝ) ^ (1024 : ℕ) - 2 ^ (971 : ℕ)
  have h1 : (2 : ℝ) ^ (1024 : ℕ) = 2 ^ (53 : ℕ) * 2 ^ (971 : ℕ) := by rw [← pow_add]
  have h2 : (1 : ℝ) ≤ 2 ^ (971 : ℕ) := one_le_pow₀ (by norm_num)
  rw [h1]
  clear h1
  generalize (2 : ℝ) ^ (971 : ℕ) = a at h2 ⊢
  have : (2 : ℝ) ^ (53 : ℕ) * a ≥ 2 * a := mul_le_mul_of_nonneg_right (by norm_num) (by linarith)
  linarith

/-- The hypotheses are met by an ideal generator, a square of half width 1 with mirrors, a target of radius 1/4 in its
middle, `D = 1` and `dt = 1/100`: the mean of a hundred searches, and the fastest of three searchers. -/
example : let s : Cubic ℝ := ⟨.continuousRectangular, .reflection, 1, 2⟩
    ∃ ρ : Measure (ℕ × Bool), ρ found ≠ 0 ∧
    tapeLaw {g | ∃ N, ∀ loops ≥ N, ∃ m g',
        ensembleMean (oneSearcher tapeRng (s.ops tapeRng) (BulkTarget.new [0, 0] (1 / 4)).ops loops loops loops (.brownian 1) (1 / 100)) 100 g =
          some (.ok m, g') ∧ 1 / 2 ≤ |m - ∫ y, (y.1 : ℝ) * (1 / 100) ∂ρ[|found]|} ≤
      ρ found ^ 100 * ENNReal.ofReal (Var[fun y : ℕ × Bool => (y.1 : ℝ) * (1 / 100); ρ[|found]] / ((100 : ℕ) * (1 / 2) ^ 2)) ∧
    tapeLaw {g | ∃ N, ∀ loops ≥ N, ∃ m g',
        nSearchersFpt tapeRng (s.ops tapeRng) (BulkTarget.new [0, 0] (1 / 4)).ops loops loops loops (.brownian 1) (1 / 100) 3 g =
          some (.ok m, g') ∧ ((1 : ℕ) : ℝ) * (1 / 100) < m} = ρ {y | y.2 = true ∧ 1 < y.1} ^ 3 := by
  intro s
  have hs : Cubic.new .reflection (1 : ℝ) 2 = .ok s := by
    unfold Cubic.new; rw [if_neg (by simp)]
  have w := (C77_walls tapeRng).1 .reflection 1 2 s hs
  have room := (C73_systems tapeRng tapeLaw tape_ideal).1 s (by simp [s])
  have h1 := (C77_outcomes tapeRng tapeLaw tape_ideal _ 2 _ _ room w.bounded _ w (fun _ => 0) (BulkTarget.new [0, 0] (1 / 4))
    (by simp [BulkTarget.new]) square_example 1 (1 / 100) (by norm_num) (by norm_num) _ rfl).2 ⟨fun _ => 0, 1 / 4, by norm_num, square_target⟩
  have hq : searchLaw (cubePut .reflection 1) (cubeSet 2 1) (nearSet (fun _ => 0) (1 / 4)) (normalLaw _ (2 * 1 * (1 / 100)))
      (uniformLaw (cubeSet 2 1 \ nearSet (fun _ => 0) (1 / 4))) found ≠ 0 := by
    intro h0
    refine h1 (measure_mono_null ?_ h0)
    rintro y rfl
    rfl
  refine ⟨_, hq, C99_mean_accuracy tapeRng tapeLaw tape_ideal _ 2 _ _ room w.bounded _ w (fun _ => 0) (BulkTarget.new [0, 0] (1 / 4))
    (by simp [BulkTarget.new]) square_example 1 (1 / 100) (by norm_num) (by norm_num) _ rfl 100 (by norm_num) (1 / 2) (by norm_num) hq,
    C99_fastest tapeRng tapeLaw tape_ideal _ 2 _ _ room w.bounded _ w (fun _ => 0) (BulkTarget.new [0, 0] (1 / 4))
    (by simp [BulkTarget.new]) square_example 1 (1 / 100) (by norm_num) (by norm_num) _ rfl 3 1 ?_⟩
  exact lt_of_lt_of_le (by norm_num : ((1 : ℕ) : ℝ) * (1 / 100) < 1) one_le_maxVal

end Moledyn.Props
