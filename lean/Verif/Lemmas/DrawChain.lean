import Verif.Lemmas.Chain
import Verif.Spec.MergeLaw
/-
A random procedure whose state changes, round after round, with the numbers drawn, until it is no longer in `go`.
-/
set_option linter.unusedSectionVars false
namespace Moledyn
open MeasureTheory ProbabilityTheory Filter
open scoped ENNReal

variable {G X Z W : Type} [MeasurableSpace G] [MeasurableSpace X] [MeasurableSpace Z] [MeasurableSpace W] {P : Measure G} [IsProbabilityMeasure P]

/-- one round: the state is changed with the numbers drawn. -/
def drawStep (T : X → Z → X) (q : G → Z × G) (y : X × G) : X × G := (T y.1 (q y.2).1, (q y.2).2)

instance (T : X → Z → X) (μ : Measure Z) [IsProbabilityMeasure μ] (π : Measure X) [IsFiniteMeasure π] : IsFiniteMeasure (drawn T μ π) := by
  unfold drawn; infer_instance

variable {T : X → Z → X} (hT : Measurable fun p : X × Z => T p.1 p.2) {q : G → Z × G} {μ : Measure Z} [IsProbabilityMeasure μ]
  (hq : MeasurePreserving q P (μ.prod P))
include hT hq

theorem drawStep_meas : Measurable (drawStep T q) := by
  have h := hq.measurable
  exact (hT.comp (measurable_fst.prodMk (measurable_fst.comp (h.comp measurable_snd)))).prodMk (measurable_snd.comp (h.comp measurable_snd))

theorem drawStep_mp (π : Measure X) [IsFiniteMeasure π] : MeasurePreserving (drawStep T q) (π.prod P) ((drawn T μ π).prod P) := by
  have h1 := (MeasurePreserving.id π).prod hq
  have h2 := (measurePreserving_prodAssoc π μ P).symm
  have h3 : MeasurePreserving (fun p : X × Z => T p.1 p.2) (π.prod μ) (drawn T μ π) := ⟨hT, rfl⟩
  exact (h3.prod (MeasurePreserving.id P)).comp (h2.comp h1)

/-- The procedure in rounds. -/
theorem draw_rounds {go B : Set X} (hgo : MeasurableSet go) (hB : MeasurableSet B) (hgoB : go ⊆ B) {r : ℝ≥0∞}
    (hr : ∀ x ∈ B, μ {z | T x z ∈ go} ≤ r) {res : X → W} (hres : Measurable res) :
    Rounds P B (drawStep T q) (drawStep T q ⁻¹' (goᶜ ×ˢ Set.univ)) (fun y => (res (drawStep T q y).1, (drawStep T q y).2))
      (fun π => (drawn T μ π).restrict go) (fun π => ((drawn T μ π).restrict goᶜ).map res) r := by
  have hstep := drawStep_meas hT hq
  refine ⟨hstep, hstep (hgo.compl.prod .univ), (hres.comp (measurable_fst.comp hstep)).prodMk (measurable_snd.comp hstep), ?_, ?_⟩
  · intro π hπ hπB
    have hmp := drawStep_mp hT hq π
    refine ⟨inferInstance, ?_, ?_, ?_⟩
    · rw [Measure.restrict_apply hB.compl]
      refine measure_mono_null ?_ (measure_empty (μ := drawn T μ π))
      rintro x ⟨a, b⟩
      exact absurd (hgoB b) a
    · have e : (drawStep T q ⁻¹' (goᶜ ×ˢ Set.univ))ᶜ = drawStep T q ⁻¹' (go ×ˢ Set.univ) := by
        ext y; simp
      rw [e, ← Measure.restrict_map hstep (hgo.prod .univ), hmp.map_eq, ← Measure.prod_restrict, Measure.restrict_univ]
    · rw [Measure.restrict_apply .univ, Set.univ_inter, drawn, Measure.map_apply hT hgo, Measure.prod_apply (hT hgo)]
      calc ∫⁻ x, μ {z | T x z ∈ go} ∂π ≤ ∫⁻ _, r ∂π := by
            refine lintegral_mono_ae ?_
            have : ∀ᵐ x ∂π, x ∈ B := by rw [ae_iff]; exact hπB
            filter_upwards [this] with x hx using hr x hx
        _ = r * π Set.univ := by rw [lintegral_const]
  · intro π hπ hπB
    have hmp := drawStep_mp hT hq π
    refine ⟨inferInstance, ?_⟩
    have hc : (fun y => (res (drawStep T q y).1, (drawStep T q y).2)) = (Prod.map res id) ∘ drawStep T q := rfl
    rw [hc, ← Measure.map_map (hres.prodMap measurable_id) hstep, ← Measure.restrict_map hstep (hgo.compl.prod .univ), hmp.map_eq,
      ← Measure.prod_restrict, Measure.restrict_univ, ← Measure.map_prod_map _ _ hres measurable_id, Measure.map_id]

/-- If the procedure ends with probability one, the result and the number of rounds do not depend on the state the generator
is left in, which has its original distribution. -/
theorem draw_run {go : Set X} (hgo : MeasurableSet go) {res : X → W} (hres : Measurable res) (π : Measure X) [IsProbabilityMeasure π]
    (hend : ∀ᵐ y ∂(π.prod P), ∃ n, ((drawStep T q)^[n + 1] y).1 ∉ go) :
    ∃ (F : X × G → (ℕ × W) × G) (ρ : Measure (ℕ × W)), IsProbabilityMeasure ρ ∧
      ρ = (Measure.sum fun n => (((drawn T μ ((fun κ => (drawn T μ κ).restrict go)^[n] π)).restrict goᶜ).map res).map fun w => (n, w)) ∧
      MeasurePreserving F (π.prod P) (ρ.prod P) ∧
      ∀ᵐ y ∂(π.prod P), ∃ n, (∀ m < n, ((drawStep T q)^[m + 1] y).1 ∈ go) ∧ ((drawStep T q)^[n + 1] y).1 ∉ go ∧
        F y = ((n, res ((drawStep T q)^[n + 1] y).1), ((drawStep T q)^[n + 1] y).2) := by
  have R := draw_rounds hT hq hgo MeasurableSet.univ (Set.subset_univ go) (r := 1) (fun x _ => prob_le_one) hres
  set step := drawStep T q with hstp
  set stop := step ⁻¹' (goᶜ ×ˢ Set.univ) with hstop
  have hstopiff : ∀ m y, step^[m] y ∈ stop ↔ (step^[m + 1] y).1 ∉ go := by
    intro m y
    rw [Function.iterate_succ_apply']
    simp [hstop]
  have hdec : Tendsto (fun n => ((fun π => (drawn T μ π).restrict go)^[n] π) Set.univ) atTop (nhds 0) := by
    have hlaw := fun n => R.laws π inferInstance (by simp) n
    have hale : ∀ n, (π.prod P) (aliveUntil step stop n) = ((fun π => (drawn T μ π).restrict go)^[n] π) Set.univ := by
      intro n
      obtain ⟨hm, hf', hB', he', hr'⟩ := hlaw n
      have := congrArg (fun m => m Set.univ) he'
      simp only [Measure.map_apply (R.step_meas.iterate n) .univ, Set.preimage_univ, Measure.restrict_apply .univ, Set.univ_inter] at this
      rw [this, ← Set.univ_prod_univ, Measure.prod_prod, measure_univ (μ := P), mul_one]
    have hmono : Antitone (aliveUntil step stop) := by
      intro i j hij y hy m hm
      exact hy m (by omega)
    have h1 := tendsto_measure_iInter_atTop (μ := π.prod P) (fun n => (hlaw n).1.nullMeasurableSet) hmono ⟨0, measure_ne_top _ _⟩
    have h0 : (π.prod P) (⋂ n, aliveUntil step stop n) = 0 := by
      refine measure_mono_null ?_ (ae_iff.1 hend)
      intro y hy
      simp only [Set.mem_ofPred_eq, not_exists, not_not]
      intro n
      have := Set.mem_iInter.1 hy (n + 1) n (by omega)
      rw [hstopiff] at this
      simpa using this
    rw [h0] at h1
    refine h1.congr fun n => ?_
    exact hale n
  obtain ⟨F, ρ, h1, h1', h2, -, h3⟩ := R.run π (by simp) hdec
  refine ⟨F, ρ, h1, h1', h2, ?_⟩
  filter_upwards [h3] with y ⟨n, a1, a2, a3⟩
  refine ⟨n, fun m hm => ?_, (hstopiff n y).1 a2, ?_⟩
  · have := a1 m hm
    rw [hstopiff] at this
    simpa using this
  · rw [a3]
    simp only [Function.iterate_succ_apply']

/-- As `draw_run`, when every round may be the last with at least a certain probability. -/
theorem draw_run_fast {go B : Set X} (hgo : MeasurableSet go) (hB : MeasurableSet B) (hgoB : go ⊆ B) {r : ℝ≥0∞} (hr1 : r < 1)
    (hr : ∀ x ∈ B, μ {z | T x z ∈ go} ≤ r) {res : X → W} (hres : Measurable res) (π : Measure X) [IsProbabilityMeasure π] (hπ : π Bᶜ = 0) :
    ∃ (F : X × G → (ℕ × W) × G) (ρ : Measure (ℕ × W)), IsProbabilityMeasure ρ ∧ MeasurePreserving F (π.prod P) (ρ.prod P) ∧ (∀ n, ρ {y | n ≤ y.1} ≤ r ^ n) ∧
      ∀ᵐ y ∂(π.prod P), ∃ n, (∀ m < n, ((drawStep T q)^[m + 1] y).1 ∈ go) ∧ ((drawStep T q)^[n + 1] y).1 ∉ go ∧
        F y = ((n, res ((drawStep T q)^[n + 1] y).1), ((drawStep T q)^[n + 1] y).2) := by
  have R := draw_rounds hT hq hgo hB hgoB hr hres
  set step := drawStep T q with hstp
  set stop := step ⁻¹' (goᶜ ×ˢ Set.univ) with hstop
  have hstopiff : ∀ m y, step^[m] y ∈ stop ↔ (step^[m + 1] y).1 ∉ go := by
    intro m y
    rw [Function.iterate_succ_apply']
    simp [hstop]
  have hle : ∀ n, ((fun π => (drawn T μ π).restrict go)^[n] π) Set.univ ≤ r ^ n := fun n => by
    have := (R.laws π inferInstance hπ n).2.2.2.2
    rwa [measure_univ (μ := π), mul_one] at this
  obtain ⟨F, ρ, h1, -, h2, h4, h3⟩ := R.run π hπ (tendsto_of_tendsto_of_tendsto_of_le_of_le tendsto_const_nhds
    (ENNReal.tendsto_pow_atTop_nhds_zero_of_lt_one hr1) (fun _ => bot_le) hle)
  refine ⟨F, ρ, h1, h2, fun n => (h4 n).trans_le (hle n), ?_⟩
  filter_upwards [h3] with y ⟨n, a1, a2, a3⟩
  refine ⟨n, fun m hm => ?_, (hstopiff n y).1 a2, ?_⟩
  · have := a1 m hm
    rw [hstopiff] at this
    simpa using this
  · rw [a3]
    simp only [Function.iterate_succ_apply']

end Moledyn
