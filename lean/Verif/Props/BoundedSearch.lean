import Verif.Props.Accuracy
import Verif.Lemmas.BoundedSteps
/-
C100: with a generator whose normal numbers are bounded, every search finds the target, and the means of ensembles approach
the mean of the time of a search.
-/
namespace Moledyn.Props
open Moledyn MeasureTheory ProbabilityTheory Filter
open scoped ENNReal NNReal Topology
set_option linter.unusedSimpArgs false
set_option linter.unusedSectionVars false
variable {G : Type} [MeasurableSpace G]

theorem stepLaw_prob (d : Nat) {ν : Measure ℝ} [IsProbabilityMeasure ν] (σ : ℝ) : IsProbabilityMeasure (stepLaw d ν σ) := by
  have : IsProbabilityMeasure (ν.map (· * σ)) := Measure.isProbabilityMeasure_map (by fun_prop)
  unfold stepLaw; infer_instance

/-- the steps drawn by the program. -/
theorem step_mp {rng : RngOps G ℝ} {P : Measure G} {ν : Measure ℝ} (h : IndepRng rng P ν) [IsProbabilityMeasure ν] (d : Nat) (v : ℝ) :
    MeasurePreserving (stepDraw rng d v) P ((stepLaw d ν (Real.sqrt v)).prod P) := by
  have := h.prob
  have hm : Measurable fun x : ℝ => x * Real.sqrt v := by fun_prop
  have hp : IsProbabilityMeasure (ν.map (· * Real.sqrt v)) := Measure.isProbabilityMeasure_map hm.aemeasurable
  have hs : MeasurePreserving (fun (x : Fin d → ℝ) i => x i * Real.sqrt v) (Measure.pi fun _ : Fin d => ν) (stepLaw d ν (Real.sqrt v)) :=
    measurePreserving_pi _ _ fun _ => ⟨hm, rfl⟩
  exact (hs.prod (MeasurePreserving.id P)).comp (drawsN_mp h.gaussian d)

theorem step_bounded {ν : Measure ℝ} {b : ℝ} (hν : BoundedSpread ν b) (d : Nat) {σ : ℝ} (hσ : 0 ≤ σ) :
    ∀ᵐ z ∂stepLaw d ν σ, ∀ i, |z i| ≤ b * σ := by
  have := hν.prob
  have hm : Measurable fun x : ℝ => x * σ := by fun_prop
  have hp : IsProbabilityMeasure (ν.map (· * σ)) := Measure.isProbabilityMeasure_map hm.aemeasurable
  rw [ae_all_iff]
  intro i
  have h1 : ∀ᵐ x ∂ν.map (· * σ), |x| ≤ b * σ := by
    rw [ae_map_iff hm.aemeasurable (measurableSet_le (by fun_prop) measurable_const)]
    have : ∀ᵐ x ∂ν, ¬ b < |x| := by rw [ae_iff]; simpa using hν.bounded
    filter_upwards [this] with x hx
    rw [abs_mul, abs_of_nonneg hσ]
    exact mul_le_mul_of_nonneg_right (not_lt.1 hx) hσ
  exact (measurePreserving_eval (fun _ : Fin d => ν.map (· * σ)) i).quasiMeasurePreserving.ae h1

theorem step_spread {ν : Measure ℝ} {b : ℝ} (hν : BoundedSpread ν b) (d : Nat) {σ : ℝ} (hσ : 0 < σ) :
    ∃ a > 0, ∀ δ > 0, ∃ p > 0, ∀ m : Fin d → ℝ, ‖m‖ ≤ a → p ≤ stepLaw d ν σ {z | ‖z - m‖ < δ} := by
  have := hν.prob
  have hm : Measurable fun x : ℝ => x * σ := by fun_prop
  have hp : IsProbabilityMeasure (ν.map (· * σ)) := Measure.isProbabilityMeasure_map hm.aemeasurable
  obtain ⟨a, ha, hsp⟩ := hν.spread
  refine ⟨a * σ, by positivity, fun δ hδ => ?_⟩
  obtain ⟨p, hp0, hp⟩ := spread_uniform ha hsp (ε := δ / σ) (by positivity)
  refine ⟨p ^ d, ENNReal.pow_pos hp0 d, fun m hma => ?_⟩
  have hsub : (Set.univ.pi fun i : Fin d => {x : ℝ | |x - m i| < δ}) ⊆ {z | ‖z - m‖ < δ} := by
    intro z hz
    show ‖z - m‖ < δ
    rw [pi_norm_lt_iff hδ]
    exact fun i => hz i trivial
  refine le_trans ?_ (measure_mono hsub)
  rw [stepLaw, Measure.pi_pi]
  calc p ^ d = ∏ _i : Fin d, p := by simp
    _ ≤ _ := Finset.prod_le_prod' fun i _ => ?_
  rw [Measure.map_apply hm (measurableSet_lt (by fun_prop) measurable_const)]
  have hmi : |m i / σ| ≤ a := by
    rw [abs_div, abs_of_pos hσ, div_le_iff₀ hσ]
    exact (norm_le_pi_norm m i).trans hma
  refine (hp _ hmi).trans (measure_mono fun x hx => ?_)
  have hx : |x - m i / σ| < δ / σ := hx
  show |x * σ - m i| < δ
  have e : x * σ - m i = (x - m i / σ) * σ := by field_simp
  rw [e, abs_mul, abs_of_pos hσ]
  exact (lt_div_iff₀ hσ).1 hx

/-- a tail that is geometric in blocks of steps gives a second moment. -/
theorem second_moment_blocks (ρ : Measure (ℕ × Bool)) [IsProbabilityMeasure ρ] (M : ℕ) (hM : 0 < M) (r : ℝ≥0∞) (hr : r < 1)
    (htail : ∀ n, ρ {y | M * n + 1 < y.1} ≤ r ^ n) : ∫⁻ y, (y.1 : ℝ≥0∞) ^ 2 ∂ρ < ∞ := by
  have hm : Measurable fun y : ℕ × Bool => (y.1 / (M + 1), y.2) := .of_discrete
  have h1 := second_moment (ρ.map fun y => (y.1 / (M + 1), y.2)) r hr fun n => by
    rw [Measure.map_apply hm (measurableSet_lt measurable_const measurable_fst)]
    refine le_trans (measure_mono fun y hy => ?_) (htail n)
    have hy : n < y.1 / (M + 1) := hy
    have h2 : (n + 1) * (M + 1) ≤ y.1 := (Nat.le_div_iff_mul_le (by omega)).1 hy
    show M * n + 1 < y.1
    nlinarith
  rw [lintegral_map (by fun_prop) hm] at h1
  have hle : ∀ y : ℕ × Bool, (y.1 : ℝ≥0∞) ^ 2 ≤ (2 * (M + 1) ^ 2 : ℕ) * (((y.1 / (M + 1) : ℕ) : ℝ≥0∞) ^ 2 + 1) := by
    intro y
    have h2 : y.1 ^ 2 ≤ 2 * (M + 1) ^ 2 * ((y.1 / (M + 1)) ^ 2 + 1) := by
      have h3 : y.1 ≤ (M + 1) * (y.1 / (M + 1) + 1) := by
        have := Nat.div_add_mod y.1 (M + 1)
        have := Nat.mod_lt y.1 (show 0 < M + 1 by omega)
        nlinarith
      generalize y.1 / (M + 1) = q at h3 ⊢
      calc y.1 ^ 2 ≤ ((M + 1) * (q + 1)) ^ 2 := Nat.pow_le_pow_left h3 2
        _ = (M + 1) ^ 2 * (q + 1) ^ 2 := by ring
        _ ≤ (M + 1) ^ 2 * (2 * (q ^ 2 + 1)) := Nat.mul_le_mul_left _ (by
          zify; nlinarith [sq_nonneg ((q : ℤ) - 1)])
        _ = _ := by ring
    exact_mod_cast h2
  refine lt_of_le_of_lt (lintegral_mono hle) ?_
  rw [lintegral_const_mul _ (by fun_prop), lintegral_add_right _ measurable_const]
  refine ENNReal.mul_lt_top (ENNReal.natCast_lt_top _) (ENNReal.add_lt_top.2 ⟨h1, by simp⟩)

/-- if every search finds the target, the means of ensembles approach the mean of the time of a search. -/
theorem means_of_runs {P : Measure G} [IsProbabilityMeasure P] {ρ : Measure (ℕ × Bool)} [IsProbabilityMeasure ρ]
    {run : Nat → G → Option (Res ℝ × G)} {dt : ℝ} (hy : Yields P run (reported dt) ρ)
    (hfail : ρ {y | y.2 = false} = 0) (hi : Integrable (fun y : ℕ × Bool => (y.1 : ℝ) * dt) ρ) :
    ∀ᵐ g ∂P, ∃ m : ℕ → ℝ, (∀ n, ∃ N, ∀ loops ≥ N, ∃ g', ensembleMean (run loops) n g = some (.ok (m n), g')) ∧
      Tendsto m atTop (𝓝 (∫ y, (y.1 : ℝ) * dt ∂ρ)) := by
  obtain ⟨f, hf, hae⟩ := runs_of_yields hy
  have hok : ∀ᵐ g ∂P, ∀ m, (f (after f m g)).1.2 = true := by
    rw [ae_all_iff]
    intro m
    have h1 : ∀ᵐ y ∂ρ, y.2 = true := by rw [ae_iff]; simpa using hfail
    exact ((measurePreserving_fst.comp hf).comp (after_mp hf m)).quasiMeasurePreserving.ae h1
  have hlim := runs_law hf (φ := fun y : ℕ × Bool => (y.1 : ℝ) * dt) .of_discrete hi
  filter_upwards [hae, hok, hlim] with g hg hk hl
  refine ⟨fun n => (∑ j ∈ Finset.range n, ((f (after f j g)).1.1 : ℝ) * dt) / n, fun n => ?_, hl⟩
  obtain ⟨N, hN⟩ := sum_says (run := run) dt n g 0 fun m _ => hg m
  refine ⟨N, fun loops hloops => ?_⟩
  have j1 := ((hN loops hloops).1 fun m _ => hk m).1
  unfold ensembleMean
  rw [show (Fl.zero : ℝ) = 0 by simp [Fl.zero]]
  rcases he : ensembleSum (run loops) n g 0 with _ | ⟨r, g'⟩
  · rw [he] at j1; simp at j1
  · rw [he] at j1
    simp only [Option.map_some, Option.some.injEq] at j1
    exact ⟨g', by simp [j1, Res.map]⟩

/-- in particular for searches by one searcher. -/
theorem means_of_searches {P : Measure G} [IsProbabilityMeasure P] {ρ : Measure (ℕ × Bool)} [IsProbabilityMeasure ρ]
    {rng : RngOps G ℝ} {sys : SysOps G ℝ} {t : BulkTarget ℝ} {D dt : ℝ}
    (hy : Yields P (fun n g => oneSearcher rng sys t.ops n n n (.brownian D) dt g) (reported dt) ρ)
    (hfail : ρ {y | y.2 = false} = 0) (hi : Integrable (fun y : ℕ × Bool => (y.1 : ℝ) * dt) ρ) :
    ∀ᵐ g ∂P, ∃ m : ℕ → ℝ, (∀ n, ∃ N, ∀ loops ≥ N, ∃ g',
        ensembleMean (oneSearcher rng sys t.ops loops loops loops (.brownian D) dt) n g = some (.ok (m n), g')) ∧
      Tendsto m atTop (𝓝 (∫ y, (y.1 : ℝ) * dt ∂ρ)) := means_of_runs hy hfail hi

section
variable (rng : RngOps G ℝ) (P : Measure G) (ν : Measure ℝ) (b : ℝ) (h : IndepRng rng P ν) (hν : BoundedSpread ν b)
  (sys : SysOps G ℝ) (d : Nat) (S₀ S : Set (Fin d → ℝ)) (room : Room P sys d S₀) (hconv : Convex ℝ S)
  (put : (Fin d → ℝ) → Fin d → ℝ) (w : Walls sys S put)
  (c : Fin d → ℝ) (t : BulkTarget ℝ) (ht : t.targetPos = List.ofFn c) (hpos : volume (S₀ \ nearSet c t.targetSize) ≠ 0)
  (hin : ∃ c' ε, 0 < ε ∧ nearSet c' ε ⊆ S ∩ nearSet c t.targetSize)
  (D dt : ℝ) (hD : 0 < D) (hdt : 0 < dt)
  (hsafe : ∀ x ∈ S₀ ∪ S, ∀ z : Fin d → ℝ, (∀ i, |z i| ≤ b * Real.sqrt (2 * D * dt)) → put (x + z) ∈ S)
  (ρ : Measure (ℕ × Bool))
  (hρ : ρ = searchLaw put S (nearSet c t.targetSize) (stepLaw d ν (Real.sqrt (2 * D * dt))) (uniformLaw (S₀ \ nearSet c t.targetSize)))
include h hν room hconv w ht hpos hin hD hdt hsafe hρ

omit h hsafe hρ in
/-- long searches are rare. -/
theorem bounded_short : ∃ (M : ℕ) (r : ℝ≥0∞), 0 < M ∧ r < 1 ∧
    (∀ n, searching put S (nearSet c t.targetSize) (stepLaw d ν (Real.sqrt (2 * D * dt))) (uniformLaw (S₀ \ nearSet c t.targetSize))
      (M * n + 1) Set.univ ≤ r ^ n) ∧
    Tendsto (fun n => searching put S (nearSet c t.targetSize) (stepLaw d ν (Real.sqrt (2 * D * dt)))
      (uniformLaw (S₀ \ nearSet c t.targetSize)) n Set.univ) atTop (𝓝 0) := by
  have := hν.prob
  have hσ : 0 < Real.sqrt (2 * D * dt) := Real.sqrt_pos.2 (by positivity)
  set σ := Real.sqrt (2 * D * dt) with hσe
  have hμ := stepLaw_prob d (ν := ν) σ
  have hTm : MeasurableSet (nearSet c t.targetSize) := near_meas _ _
  have hfin : volume (S₀ \ nearSet c t.targetSize) ≠ ∞ := ne_top_of_le_ne_top room.volume_finite (measure_mono Set.sdiff_subset)
  have hprob := uniformLaw_prob hpos hfin
  obtain ⟨c', ε, hε, hsub⟩ := hin
  obtain ⟨M, r, hM, hr, htail⟩ := search_short w hconv hTm hε hsub (stepLaw d ν σ) (step_spread hν d hσ)
  have htail := htail (uniformLaw (S₀ \ nearSet c t.targetSize))
  have hdec : Tendsto (fun n => searching put S (nearSet c t.targetSize) (stepLaw d ν σ) (uniformLaw (S₀ \ nearSet c t.targetSize)) n Set.univ)
      atTop (𝓝 0) := by
    rw [ENNReal.tendsto_nhds_zero]
    intro e he
    have hg := (ENNReal.tendsto_nhds_zero.1 (ENNReal.tendsto_pow_atTop_nhds_zero_of_lt_one hr)) e he
    obtain ⟨n, hn⟩ := hg.exists
    filter_upwards [eventually_ge_atTop (M * n + 1)] with k hk
    exact (searching_anti _ w.measurable w.room_measurable hTm _ hk).trans ((htail n).trans hn)
  exact ⟨M, r, hM, hr, htail, hdec⟩

/-- Every search finds the target; the number of steps is distributed as in a random walk with independent steps, does not
depend on what was drawn before nor on what will be drawn after, and long searches are exponentially rare. -/
theorem C100_search :
    Yields P (fun n g => oneSearcher rng sys t.ops n n n (.brownian D) dt g) (reported dt) ρ ∧ IsProbabilityMeasure ρ ∧
    ρ {y | y.2 = false} = 0 ∧
    ∃ (M : ℕ) (r : ℝ≥0∞), 0 < M ∧ r < 1 ∧ ∀ n, ρ {y | M * n + 1 < y.1} ≤ r ^ n := by
  have := h.prob
  have := hν.prob
  have hσ : 0 < Real.sqrt (2 * D * dt) := Real.sqrt_pos.2 (by positivity)
  have hμ := stepLaw_prob d (ν := ν) (Real.sqrt (2 * D * dt))
  have hTm : MeasurableSet (nearSet c t.targetSize) := near_meas _ _
  have hfin : volume (S₀ \ nearSet c t.targetSize) ≠ ∞ := ne_top_of_le_ne_top room.volume_finite (measure_mono Set.sdiff_subset)
  have hprob := uniformLaw_prob hpos hfin
  obtain ⟨M, r, hM, hr, htail, hdec⟩ := bounded_short P ν b hν sys d S₀ S room hconv put w c t ht hpos hin D dt hD hdt
  set σ := Real.sqrt (2 * D * dt) with hσe
  obtain ⟨h1, h2, h3⟩ := search_yields rng P sys d S₀ S room put w c t ht hpos D dt (stepLaw d ν σ) (step_mp h d (2 * D * dt)) hdec
  rw [hρ]
  refine ⟨h1, h2, ?_, M, r, hM, hr, fun n => (h3 _).le.trans (htail n)⟩
  have hfm : MeasurableSet {y : ℕ × Bool | y.2 = false} := measurable_snd (measurableSet_singleton false)
  rw [searchLaw, Measure.sum_apply _ hfm, ENNReal.tsum_eq_zero]
  intro n
  have hsup : ∀ n, IsFiniteMeasure (searching put S (nearSet c t.targetSize) (stepLaw d ν σ) (uniformLaw (S₀ \ nearSet c t.targetSize)) n) ∧
      ∀ᵐ x ∂searching put S (nearSet c t.targetSize) (stepLaw d ν σ) (uniformLaw (S₀ \ nearSet c t.targetSize)) n, x ∈ S₀ ∪ S := by
    intro n
    induction n with
    | zero =>
      refine ⟨inferInstanceAs (IsFiniteMeasure (uniformLaw (S₀ \ nearSet c t.targetSize))), ?_⟩
      have hS : ∀ᵐ x ∂uniformLaw (S₀ \ nearSet c t.targetSize), x ∈ S₀ \ nearSet c t.targetSize :=
        Measure.ae_smul_measure (ae_restrict_mem (room.measurable.diff hTm)) _
      show ∀ᵐ x ∂uniformLaw (S₀ \ nearSet c t.targetSize), x ∈ S₀ ∪ S
      filter_upwards [hS] with x hx using .inl hx.1
    | succ n ih =>
      have := ih.1
      rw [searching, Function.iterate_succ_apply']
      refine ⟨inferInstanceAs (IsFiniteMeasure ((walked put (stepLaw d ν σ) (searching put S (nearSet c t.targetSize) (stepLaw d ν σ)
        (uniformLaw (S₀ \ nearSet c t.targetSize)) n)).restrict (S \ nearSet c t.targetSize))), ?_⟩
      filter_upwards [ae_restrict_mem (w.room_measurable.diff hTm)] with x hx using .inr hx.1
  obtain ⟨hf, hae⟩ := hsup n
  have e1 : walked put (stepLaw d ν σ) (searching put S (nearSet c t.targetSize) (stepLaw d ν σ)
      (uniformLaw (S₀ \ nearSet c t.targetSize)) n) Sᶜ = 0 := by
    rw [walked_apply w.measurable _ _ w.room_measurable.compl]
    refine le_antisymm ?_ bot_le
    rw [← lintegral_zero]
    refine lintegral_mono_ae ?_
    filter_upwards [hae] with x hx
    refine le_of_eq (measure_mono_null ?_ (ae_iff.1 (step_bounded hν d hσ.le)))
    intro z hz hz'
    exact hz (hsafe x hx z hz')
  simp [e1, Measure.dirac_apply' _ hfm]

/-- The program finds the target, with probability one. -/
theorem C100_found : ∀ᵐ g ∂P, ∃ k : ℕ, 0 < k ∧ ∃ N, ∀ loops ≥ N, ∃ g',
    oneSearcher rng sys t.ops loops loops loops (.brownian D) dt g = some (.ok (k * dt), g') := by
  obtain ⟨⟨f, hf, hae⟩, hprob, hfail, -⟩ := C100_search rng P ν b h hν sys d S₀ S room hconv put w c t ht hpos hin D dt hD hdt hsafe ρ hρ
  have := h.prob
  have h1 : ∀ᵐ y ∂ρ, y.2 = true := by rw [ae_iff]; simpa using hfail
  have h0 : ∀ᵐ y ∂ρ, 0 < y.1 := by
    rw [ae_iff, hρ, searchLaw, Measure.sum_apply _ .of_discrete, ENNReal.tsum_eq_zero]
    intro n
    simp
  filter_upwards [hae, (measurePreserving_fst.comp hf).quasiMeasurePreserving.ae h1,
    (measurePreserving_fst.comp hf).quasiMeasurePreserving.ae h0] with g ⟨N, hN⟩ hg1 hg0
  refine ⟨(f g).1.1, hg0, N, fun loops hl => ⟨(f g).2, ?_⟩⟩
  have hg1 : (f g).1.2 = true := hg1
  have := hN loops hl
  simp only [reported, hg1, if_true] at this
  exact this

/-- The time of a search has a mean and a variance. -/
theorem C100_moments : MemLp (fun y : ℕ × Bool => (y.1 : ℝ) * dt) 2 ρ := by
  obtain ⟨-, hprob, -, M, r, hM, hr, htail⟩ := C100_search rng P ν b h hν sys d S₀ S room hconv put w c t ht hpos hin D dt hD hdt hsafe ρ hρ
  exact (moments_of_steps ρ dt (second_moment_blocks ρ M hM r hr htail)).1

/-- With probability one, ensembles of all sizes succeed, and as they grow their means approach the mean of the time of a
search. -/
theorem C100_mean : ∀ᵐ g ∂P, ∃ m : ℕ → ℝ, (∀ n, ∃ N, ∀ loops ≥ N, ∃ g',
      ensembleMean (oneSearcher rng sys t.ops loops loops loops (.brownian D) dt) n g = some (.ok (m n), g')) ∧
    Tendsto m atTop (𝓝 (∫ y, (y.1 : ℝ) * dt ∂ρ)) := by
  have := h.prob
  obtain ⟨hy, hprob, hfail, -⟩ := C100_search rng P ν b h hν sys d S₀ S room hconv put w c t ht hpos hin D dt hD hdt hsafe ρ hρ
  exact means_of_searches hy hfail
    ((C100_moments rng P ν b h hν sys d S₀ S room hconv put w c t ht hpos hin D dt hD hdt hsafe ρ hρ).integrable (by norm_num))

/-- The mean of an ensemble of `n` differs from the mean `τ` of the time of a search by `ε` or more with probability at most
`V / (n ε²)`, `V` being the variance of that time. -/
theorem C100_accuracy (n : Nat) (hn : 0 < n) (ε : ℝ) (hε : 0 < ε) :
    P {g | ∃ N, ∀ loops ≥ N, ∃ m g', ensembleMean (oneSearcher rng sys t.ops loops loops loops (.brownian D) dt) n g = some (.ok m, g') ∧
        ε ≤ |m - ∫ y, (y.1 : ℝ) * dt ∂ρ|} ≤
      ENNReal.ofReal (Var[fun y : ℕ × Bool => (y.1 : ℝ) * dt; ρ] / (n * ε ^ 2)) := by
  have := h.prob
  obtain ⟨hy, hprob, hfail, -⟩ := C100_search rng P ν b h hν sys d S₀ S room hconv put w c t ht hpos hin D dt hD hdt hsafe ρ hρ
  have hX := C100_moments rng P ν b h hν sys d S₀ S room hconv put w c t ht hpos hin D dt hD hdt hsafe ρ hρ
  have hq : ρ found = 1 := by
    rw [prob_compl_eq_zero_iff found_meas |>.symm]
    refine measure_mono_null ?_ hfail
    intro y hy
    simpa [found] using hy
  have hc : ρ[|found] = ρ := by
    rw [ProbabilityTheory.cond, hq, inv_one, one_smul]
    exact Measure.restrict_eq_self_of_ae_mem ((prob_compl_eq_zero_iff found_meas).2 hq)
  have := accuracy_of_searches hy (hc.symm ▸ hX) n hn ε hε (by rw [hq]; exact one_ne_zero)
  rwa [hc, hq, one_pow, one_mul] at this

/-- The fastest of `n` searchers takes more than `k dt` with the `n`-th power of the probability that one searcher does. -/
theorem C100_fastest (n k : Nat) (hk : (k : ℝ) * dt < Fl.maxVal) :
    P {g | ∃ N, ∀ loops ≥ N, ∃ m g', nSearchersFpt rng sys t.ops loops loops loops (.brownian D) dt n g = some (.ok m, g') ∧
        k * dt < m} = ρ {y | k < y.1} ^ n := by
  have := h.prob
  obtain ⟨hy, hprob, hfail, -⟩ := C100_search rng P ν b h hν sys d S₀ S room hconv put w c t ht hpos hin D dt hD hdt hsafe ρ hρ
  rw [fastest_of_searches hy hdt n k hk]
  congr 1
  refine measure_congr ?_
  have h1 : ∀ᵐ y ∂ρ, y.2 = true := by rw [ae_iff]; simpa using hfail
  filter_upwards [h1] with y hy
  exact propext ⟨fun h => h.2, fun h => ⟨hy, h⟩⟩
end

/-- Every run `run loops`, with enough loops, ends with success; its time is `k dt` where `k` has the distribution given by `ρ`; and
with probability one the means of `n` runs after each other approach the mean of that time. -/
def FindsTarget (P : Measure G) (run : Nat → G → Option (Res ℝ × G)) (dt : ℝ) (ρ : Measure (ℕ × Bool)) : Prop :=
  Yields P run (reported dt) ρ ∧ ρ {y | y.2 = false} = 0 ∧
  ∀ᵐ g ∂P, ∃ m : ℕ → ℝ, (∀ n, ∃ N, ∀ loops ≥ N, ∃ g', ensembleMean (run loops) n g = some (.ok (m n), g')) ∧
    Tendsto m atTop (𝓝 (∫ y, (y.1 : ℝ) * dt ∂ρ))

theorem cube_convex (n : Nat) (L : ℝ) : Convex ℝ (cubeSet n L) := by
  intro x hx y hy p q hp hq hpq i
  calc |(p • x + q • y) i| ≤ |p * x i| + |q * y i| := abs_add_le _ _
    _ = p * |x i| + q * |y i| := by rw [abs_mul, abs_mul, abs_of_nonneg hp, abs_of_nonneg hq]
    _ ≤ p * L + q * L := add_le_add (mul_le_mul_of_nonneg_left (hx i) hp) (mul_le_mul_of_nonneg_left (hy i) hq)
    _ = L := by rw [← add_mul, hpq, one_mul]

theorem cyl_convex (n k : Nat) (R L : ℝ) : Convex ℝ (cylSet n k R L) := by
  intro x hx y hy p q hp hq hpq
  refine ⟨axis2_convex n k (R ^ 2) hx.1 hy.1 hp hq hpq, fun i hi => ?_⟩
  calc |(p • x + q • y) i| ≤ |p * x i| + |q * y i| := abs_add_le _ _
    _ = p * |x i| + q * |y i| := by rw [abs_mul, abs_mul, abs_of_nonneg hp, abs_of_nonneg hq]
    _ ≤ p * L + q * L := add_le_add (mul_le_mul_of_nonneg_left (hx.2 i hi) hp) (mul_le_mul_of_nonneg_left (hy.2 i hi) hq)
    _ = L := by rw [← add_mul, hpq, one_mul]

theorem ball_convex (n : Nat) (R : ℝ) : Convex ℝ (ballSet n R) := by
  have e : ballSet n R = {x | axis2 n n x ≤ R ^ 2} := by
    ext x
    simp [ballSet, axis2]
  rw [e]
  exact axis2_convex n n _

/-- The three systems, of any dimension.  Steps must be too small to be too large for the room: up to `2 L` in a cube, up to
`2 R / √d` in a ball, up to `L` and `2 R / √k` in a cylinder. -/
theorem C100_systems (rng : RngOps G ℝ) (P : Measure G) (ν : Measure ℝ) (b : ℝ) (h : IndepRng rng P ν) (hν : BoundedSpread ν b)
    (n : Nat) (c : Fin n → ℝ) (t : BulkTarget ℝ) (ht : t.targetPos = List.ofFn c) (D dt : ℝ) (hD : 0 < D) (hdt : 0 < dt) :
    (∀ (bc : BoundaryCond) (L : ℝ) (s : Cubic ℝ), Cubic.new bc L n = .ok s → volume (cubeSet n L \ nearSet c t.targetSize) ≠ 0 →
      (∃ c' ε, 0 < ε ∧ nearSet c' ε ⊆ cubeSet n L ∩ nearSet c t.targetSize) → b * Real.sqrt (2 * D * dt) ≤ 2 * L →
      FindsTarget P (fun loops g => oneSearcher rng (s.ops rng) t.ops loops loops loops (.brownian D) dt g) dt
        (searchLaw (cubePut bc L) (cubeSet n L) (nearSet c t.targetSize) (stepLaw n ν (Real.sqrt (2 * D * dt)))
          (uniformLaw (cubeSet n L \ nearSet c t.targetSize)))) ∧
    (∀ (R : ℝ) (s : Circ ℝ), Circ.new R n = .ok s → volume (ballSet n R \ nearSet c t.targetSize) ≠ 0 →
      (∃ c' ε, 0 < ε ∧ nearSet c' ε ⊆ ballSet n R ∩ nearSet c t.targetSize) → b * Real.sqrt (2 * D * dt) ≤ 2 * R / Real.sqrt n →
      FindsTarget P (fun loops g => oneSearcher rng (s.ops rng) t.ops loops loops loops (.brownian D) dt g) dt
        (searchLaw (ballPut R) (ballSet n R) (nearSet c t.targetSize) (stepLaw n ν (Real.sqrt (2 * D * dt)))
          (uniformLaw (ballSet n R \ nearSet c t.targetSize)))) ∧
    (∀ (k : Nat) (R L : ℝ) (s : Cyl ℝ), Cyl.new k R L n = .ok s → volume (cylSet n k R (2 * L) \ nearSet c t.targetSize) ≠ 0 →
      (∃ c' ε, 0 < ε ∧ nearSet c' ε ⊆ cylSet n k R L ∩ nearSet c t.targetSize) → b * Real.sqrt (2 * D * dt) ≤ L →
      b * Real.sqrt (2 * D * dt) * Real.sqrt k ≤ 2 * R →
      FindsTarget P (fun loops g => oneSearcher rng (s.ops rng) t.ops loops loops loops (.brownian D) dt g) dt
        (searchLaw (cylPut k R L) (cylSet n k R L) (nearSet c t.targetSize) (stepLaw n ν (Real.sqrt (2 * D * dt)))
          (uniformLaw (cylSet n k R (2 * L) \ nearSet c t.targetSize)))) := by
  obtain ⟨r1, r2, r3⟩ := C73_systems rng P h
  obtain ⟨w1, w2, w3⟩ := C77_walls rng
  have hb : 0 ≤ b := by
    by_contra hb
    have := hν.prob
    have h1 := hν.bounded
    have e : {z : ℝ | b < |z|} = Set.univ := by
      ext z; simp only [Set.mem_ofPred_eq, Set.mem_univ, iff_true]
      linarith [abs_nonneg z, not_le.1 hb]
    rw [e, measure_univ] at h1
    exact one_ne_zero h1
  refine ⟨fun bc L s hs hpos hin hstep => ?_, fun R s hs hpos hin hstep => ?_, fun k R L s hs hpos hin hstep hstep' => ?_⟩
  · have w := w1 bc L n s hs
    obtain ⟨hL, hn, rfl, -⟩ := new_cubic hs
    have hsafe : ∀ x ∈ cubeSet n L ∪ cubeSet n L, ∀ z : Fin n → ℝ, (∀ i, |z i| ≤ b * Real.sqrt (2 * D * dt)) → cubePut bc L (x + z) ∈ cubeSet n L :=
      fun x hx z hz => (C77_safe_steps n x z).1 bc L hL hx fun i => (hz i).trans hstep
    have a1 := C100_search rng P ν b h hν _ n _ _ (r1 _ hL) (cube_convex n L) _ w c t ht hpos hin D dt hD hdt hsafe _ rfl
    exact ⟨a1.1, a1.2.2.1, C100_mean rng P ν b h hν _ n _ _ (r1 _ hL) (cube_convex n L) _ w c t ht hpos hin D dt hD hdt hsafe _ rfl⟩
  · have w := w2 R n s hs
    have hR : 0 < R ∧ 0 < n ∧ s = ⟨.continuousCircular, .reflection, R, n⟩ := by
      unfold Circ.new at hs
      split at hs
      · simp at hs
      · rename_i hc
        simp only [fl_le, fl_zero, Bool.or_eq_true, decide_eq_true_eq, not_or, not_le, beq_iff_eq] at hc
        simp only [Res.ok.injEq] at hs
        exact ⟨hc.1, by omega, hs.symm⟩
    obtain ⟨hR, hn, rfl⟩ := hR
    have hsafe : ∀ x ∈ ballSet n R ∪ ballSet n R, ∀ z : Fin n → ℝ, (∀ i, |z i| ≤ b * Real.sqrt (2 * D * dt)) → ballPut R (x + z) ∈ ballSet n R :=
      fun x hx z hz => (C77_safe_steps n x z).2.1 R hR hn hx fun i => (hz i).trans hstep
    have a1 := C100_search rng P ν b h hν _ n _ _ (r2 _ hR) (ball_convex n R) _ w c t ht hpos hin D dt hD hdt hsafe _ rfl
    exact ⟨a1.1, a1.2.2.1, C100_mean rng P ν b h hν _ n _ _ (r2 _ hR) (ball_convex n R) _ w c t ht hpos hin D dt hD hdt hsafe _ rfl⟩
  · have w := w3 k R L n s hs
    obtain ⟨hR, hL, hk, hn, e⟩ := new_cyl hs
    subst e
    have hsafe : ∀ x ∈ cylSet n k R (2 * L) ∪ cylSet n k R L, ∀ z : Fin n → ℝ, (∀ i, |z i| ≤ b * Real.sqrt (2 * D * dt)) →
        cylPut k R L (x + z) ∈ cylSet n k R L :=
      fun x hx z hz => (C77_safe_steps n x z).2.2 k R L _ hR hL (by positivity) hstep hstep' hx hz
    have a1 := C100_search rng P ν b h hν _ n _ _ (r3 _ k rfl hk hR hL) (cyl_convex n k R L) _ w c t ht hpos hin D dt hD hdt hsafe _ rfl
    exact ⟨a1.1, a1.2.2.1, C100_mean rng P ν b h hν _ n _ _ (r3 _ k rfl hk hR hL) (cyl_convex n k R L) _ w c t ht hpos hin D dt hD hdt hsafe _ rfl⟩

/-! ### a generator with bounded numbers -/

/-- a generator that cuts the normal numbers of another one at `-b` and `b`. -/
def cutRng (rng : RngOps G ℝ) (b : ℝ) : RngOps G ℝ where
  uniform := rng.uniform
  gaussian g := (max (-b) (min b (rng.gaussian g).1), (rng.gaussian g).2)

theorem cut_indep {rng : RngOps G ℝ} {P : Measure G} {ν : Measure ℝ} [IsProbabilityMeasure ν] (h : IndepRng rng P ν) (b : ℝ) :
    IndepRng (cutRng rng b) P (ν.map fun z => max (-b) (min b z)) where
  prob := h.prob
  uniform := h.uniform
  gaussian := by
    have := h.prob
    have hm : Measurable fun z : ℝ => max (-b) (min b z) := by fun_prop
    have : MeasurePreserving (fun z : ℝ => max (-b) (min b z)) ν (ν.map fun z => max (-b) (min b z)) := ⟨hm, rfl⟩
    have hp : IsProbabilityMeasure (ν.map fun z => max (-b) (min b z)) := Measure.isProbabilityMeasure_map hm.aemeasurable
    exact (this.prod (MeasurePreserving.id P)).comp h.gaussian

/-- Standard normal numbers, cut at `b`, are bounded and may be anywhere near 0. -/
theorem C100_cut_normal {b : ℝ} (hb : 0 < b) : BoundedSpread ((gaussianReal 0 1).map fun z => max (-b) (min b z)) b where
  prob := Measure.isProbabilityMeasure_map (by fun_prop)
  bounded := by
    rw [Measure.map_apply (by fun_prop) (measurableSet_lt measurable_const (by fun_prop))]
    refine measure_mono_null ?_ (measure_empty (μ := gaussianReal 0 1))
    intro z hz
    have hz : b < |max (-b) (min b z)| := hz
    have : |max (-b) (min b z)| ≤ b := by
      rw [abs_le]
      exact ⟨le_max_left _ _, max_le (by linarith) (min_le_left _ _)⟩
    exact absurd hz (not_lt.2 this)
  spread := by
    refine ⟨b / 2, by positivity, fun m hm ε hε => ?_⟩
    rw [Measure.map_apply (by fun_prop) (measurableSet_lt (by fun_prop) measurable_const)]
    obtain ⟨p, hp, hh⟩ := gaussian_hits (v := 1) one_ne_zero (b / 2) (ε := min ε (b / 2)) (lt_min hε (by positivity))
    refine (lt_of_lt_of_le hp ((hh m hm).trans (measure_mono fun z hz => ?_))).ne'
    have hz : |z - m| < min ε (b / 2) := hz
    have h1 := abs_lt.1 (hz.trans_le (min_le_right _ _))
    have h2 := abs_le.1 hm
    show |max (-b) (min b z) - m| < ε
    rw [min_eq_right (by linarith), max_eq_right (by linarith)]
    exact hz.trans_le (min_le_left _ _)

/-- The hypotheses are met: normal numbers cut at 10, a square of half width 1 with mirrors, a target of radius 1/4 in its middle,
`D = 1` and `dt = 1/100`. -/
example : let s : Cubic ℝ := ⟨.continuousRectangular, .reflection, 1, 2⟩
    ∃ ρ : Measure (ℕ × Bool), FindsTarget tapeLaw (fun loops g => oneSearcher (cutRng tapeRng 10) (s.ops (cutRng tapeRng 10))
      (BulkTarget.new [0, 0] (1 / 4)).ops loops loops loops (.brownian 1) (1 / 100) g) (1 / 100) ρ := by
  intro s
  refine ⟨_, (C100_systems (cutRng tapeRng 10) tapeLaw _ 10 (cut_indep tape_ideal 10) (C100_cut_normal (by norm_num)) 2 (fun _ => 0)
    (BulkTarget.new [0, 0] (1 / 4)) (by simp [BulkTarget.new]) 1 (1 / 100) (by norm_num) (by norm_num)).1 .reflection 1 s
    (by unfold Cubic.new; rw [if_neg (by simp)]) square_example ⟨fun _ => 0, 1 / 4, by norm_num, square_target⟩ ?_⟩
  have h1 : Real.sqrt (2 * 1 * (1 / 100)) ≤ 1 / 5 := by
    rw [Real.sqrt_le_left (by norm_num)]; norm_num
  linarith

end Moledyn.Props
