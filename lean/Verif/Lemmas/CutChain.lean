import Verif.Lemmas.Chain
/-
A random procedure that is given up after `m` steps: the outcome is that of the complete procedure, cut, and the state the
generator is left in has its original distribution.
-/
set_option linter.unusedSectionVars false
namespace Moledyn
open MeasureTheory ProbabilityTheory
open scoped ENNReal

variable {G : Type} [MeasurableSpace G]
variable {X W : Type} [MeasurableSpace X] [MeasurableSpace W] {P : Measure G} [IsProbabilityMeasure P]

open Classical in
/-- the procedure, given up after `m` steps with the result `w₀`. -/
noncomputable def cutRun (w₀ : W) (step : X × G → X × G) (stop : Set (X × G)) (fin : X × G → W × G) : ℕ → X × G → (ℕ × W) × G
  | 0, y => ((0, w₀), y.2)
  | m + 1, y =>
    if y ∈ stop then ((0, (fin y).1), (fin y).2)
    else (((cutRun w₀ step stop fin m (step y)).1.1 + 1, (cutRun w₀ step stop fin m (step y)).1.2),
      (cutRun w₀ step stop fin m (step y)).2)

theorem cutRun_says (w₀ : W) (step : X × G → X × G) (stop : Set (X × G)) (fin : X × G → W × G) (m : ℕ) (y : X × G) :
    (∃ n < m, (∀ j < n, step^[j] y ∉ stop) ∧ step^[n] y ∈ stop ∧
      cutRun w₀ step stop fin m y = ((n, (fin (step^[n] y)).1), (fin (step^[n] y)).2)) ∨
    ((∀ j < m, step^[j] y ∉ stop) ∧ cutRun w₀ step stop fin m y = ((m, w₀), (step^[m] y).2)) := by
  induction m generalizing y with
  | zero => exact .inr ⟨by simp, rfl⟩
  | succ m ih =>
    by_cases hy : y ∈ stop
    · refine .inl ⟨0, by omega, by simp, hy, ?_⟩
      simp [cutRun, hy]
    · rcases ih (step y) with ⟨n, hn, h1, h2, h3⟩ | ⟨h1, h2⟩
      · refine .inl ⟨n + 1, by omega, fun j hj => ?_, h2, by simp [cutRun, hy, h3]⟩
        cases j with
        | zero => exact hy
        | succ j => exact h1 j (by omega)
      · refine .inr ⟨fun j hj => ?_, by simp [cutRun, hy, h2]⟩
        cases j with
        | zero => exact hy
        | succ j => exact h1 j (by omega)

/-- the distribution of its outcome. -/
noncomputable def cutLaw (w₀ : W) (next : Measure X → Measure X) (last : Measure X → Measure W) : ℕ → Measure X → Measure (ℕ × W)
  | 0, π => π Set.univ • Measure.dirac (0, w₀)
  | m + 1, π => (last π).map (fun w => (0, w)) + (cutLaw w₀ next last m (next π)).map fun y => (y.1 + 1, y.2)

theorem cutRun_meas (w₀ : W) {step : X × G → X × G} {stop : Set (X × G)} {fin : X × G → W × G} (h1 : Measurable step)
    (h2 : MeasurableSet stop) (h3 : Measurable fin) (m : ℕ) : Measurable (cutRun w₀ step stop fin m) := by
  classical
  induction m with
  | zero => exact measurable_const.prodMk measurable_snd
  | succ m ih =>
    have e : cutRun w₀ step stop fin (m + 1) = fun y => if y ∈ stop then ((0, (fin y).1), (fin y).2)
      else (((cutRun w₀ step stop fin m (step y)).1.1 + 1, (cutRun w₀ step stop fin m (step y)).1.2),
        (cutRun w₀ step stop fin m (step y)).2) := by
      funext y; rw [cutRun]
    rw [e]
    have ih := ih.comp h1
    refine Measurable.ite h2 ?_ ?_
    · exact (measurable_const.prodMk (measurable_fst.comp h3)).prodMk (measurable_snd.comp h3)
    · exact (((measurable_fst.comp (measurable_fst.comp ih)).add_const 1).prodMk (measurable_snd.comp (measurable_fst.comp ih))).prodMk
        (measurable_snd.comp ih)

theorem Rounds.cut_law {B : Set X} {step : X × G → X × G} {stop : Set (X × G)} {fin : X × G → W × G}
    {next : Measure X → Measure X} {last : Measure X → Measure W} {r : ℝ≥0∞} (h : Rounds P B step stop fin next last r) (w₀ : W)
    (m : ℕ) (π : Measure X) (hπ : IsFiniteMeasure π) (hB : π Bᶜ = 0) :
    IsFiniteMeasure (cutLaw w₀ next last m π) ∧
      (π.prod P).map (cutRun w₀ step stop fin m) = (cutLaw w₀ next last m π).prod P := by
  induction m generalizing π with
  | zero =>
    refine ⟨by unfold cutLaw; exact Measure.smul_finite _ (measure_ne_top π _), ?_⟩
    have e : cutRun w₀ step stop fin 0 = Prod.map (fun _ : X => ((0 : ℕ), w₀)) id := rfl
    rw [e, ← Measure.map_prod_map _ _ measurable_const measurable_id, Measure.map_const, Measure.map_id]
    rfl
  | succ m ih =>
    obtain ⟨f1, b1, e1, -⟩ := h.goes π hπ hB
    obtain ⟨f2, e2⟩ := h.ends π hπ hB
    obtain ⟨f3, e3⟩ := ih (next π) f1 b1
    have hF := cutRun_meas w₀ h.step_meas h.stop_meas h.fin_meas (m + 1)
    have hFm := cutRun_meas w₀ h.step_meas h.stop_meas h.fin_meas m
    have hz : Measurable fun w : W => ((0 : ℕ), w) := measurable_const.prodMk measurable_id
    have hs : Measurable fun y : ℕ × W => (y.1 + 1, y.2) := (measurable_fst.add_const 1).prodMk measurable_snd
    have hf' : IsFiniteMeasure ((last π).map (fun w => ((0 : ℕ), w)) + (cutLaw w₀ next last m (next π)).map fun y => (y.1 + 1, y.2)) :=
      inferInstance
    refine ⟨hf', ?_⟩
    have split : π.prod P = (π.prod P).restrict stop + (π.prod P).restrict stopᶜ := (Measure.restrict_add_restrict_compl h.stop_meas).symm
    have p1 : ((π.prod P).restrict stop).map (cutRun w₀ step stop fin (m + 1)) = ((last π).map fun w => ((0 : ℕ), w)).prod P := by
      have : ((π.prod P).restrict stop).map (cutRun w₀ step stop fin (m + 1)) =
          ((π.prod P).restrict stop).map (Prod.map (fun w : W => ((0 : ℕ), w)) id ∘ fin) := by
        refine Measure.map_congr ?_
        filter_upwards [ae_restrict_mem h.stop_meas] with y hy
        rw [cutRun, if_pos hy]; rfl
      rw [this, ← Measure.map_map (hz.prodMap measurable_id) h.fin_meas, e2, ← Measure.map_prod_map _ _ hz measurable_id, Measure.map_id]
    have p2 : ((π.prod P).restrict stopᶜ).map (cutRun w₀ step stop fin (m + 1)) =
        ((cutLaw w₀ next last m (next π)).map fun y => (y.1 + 1, y.2)).prod P := by
      have : ((π.prod P).restrict stopᶜ).map (cutRun w₀ step stop fin (m + 1)) =
          ((π.prod P).restrict stopᶜ).map (Prod.map (fun y : ℕ × W => (y.1 + 1, y.2)) id ∘ cutRun w₀ step stop fin m ∘ step) := by
        refine Measure.map_congr ?_
        filter_upwards [ae_restrict_mem h.stop_meas.compl] with y hy
        have hy : y ∉ stop := hy
        rw [cutRun, if_neg hy]; rfl
      rw [this, ← Measure.map_map (hs.prodMap measurable_id) (hFm.comp h.step_meas), ← Measure.map_map hFm h.step_meas, e1, e3,
        ← Measure.map_prod_map _ _ hs measurable_id, Measure.map_id]
    rw [cutLaw, Measure.add_prod, ← p1, ← p2, ← Measure.map_add _ _ hF, ← split]

/-- cut after `m` steps. -/
def cutAt (w₀ : W) (m : ℕ) (y : ℕ × W) : ℕ × W := if y.1 < m then y else (m, w₀)

theorem cutAt_meas (w₀ : W) (m : ℕ) : Measurable (cutAt w₀ m) :=
  Measurable.ite (measurableSet_lt measurable_fst measurable_const) measurable_id measurable_const

private theorem cutLaw_sum (w₀ : W) (next : Measure X → Measure X) (last : Measure X → Measure W) (m : ℕ) (π : Measure X)
    {A : Set (ℕ × W)} (hA : MeasurableSet A) :
    cutLaw w₀ next last m π A = (∑ n ∈ Finset.range m, last (next^[n] π) {w | (n, w) ∈ A}) +
      (next^[m] π) Set.univ * Measure.dirac (m, w₀) A := by
  induction m generalizing π A with
  | zero => simp [cutLaw]
  | succ m ih =>
    have hz : Measurable fun w : W => ((0 : ℕ), w) := measurable_const.prodMk measurable_id
    have hs : Measurable fun y : ℕ × W => (y.1 + 1, y.2) := (measurable_fst.add_const 1).prodMk measurable_snd
    rw [cutLaw, Measure.add_apply, Measure.map_apply hz hA, Measure.map_apply hs hA, ih _ (hs hA), Finset.sum_range_succ']
    simp only [Function.iterate_succ_apply, Function.iterate_zero, id]
    rw [Measure.dirac_apply' _ (hs hA), Measure.dirac_apply' _ hA]
    rw [add_comm, add_assoc, add_assoc, add_comm (_ * _)]
    rfl

/-- The outcome of the cut procedure is distributed as the cut outcome of the complete one, and does not depend on the state
the generator is left in. -/
theorem Rounds.cut {B : Set X} {step : X × G → X × G} {stop : Set (X × G)} {fin : X × G → W × G}
    {next : Measure X → Measure X} {last : Measure X → Measure W} {r : ℝ≥0∞} (h : Rounds P B step stop fin next last r) (w₀ : W)
    (π : Measure X) [IsProbabilityMeasure π] (hB : π Bᶜ = 0)
    (hdec : Filter.Tendsto (fun n => (next^[n] π) Set.univ) Filter.atTop (nhds 0)) (m : ℕ) :
    MeasurePreserving (cutRun w₀ step stop fin m) (π.prod P)
      (((Measure.sum fun n => (last (next^[n] π)).map fun w => (n, w)).map (cutAt w₀ m)).prod P) := by
  obtain ⟨F, ρ, hρ, hρe, -, htail, -⟩ := h.run π hB hdec
  rw [← hρe]
  refine ⟨cutRun_meas w₀ h.step_meas h.stop_meas h.fin_meas m, ?_⟩
  rw [(h.cut_law w₀ m π inferInstance hB).2]
  congr 1
  ext A hA
  have hmk : ∀ n : ℕ, Measurable fun w : W => (n, w) := fun n => measurable_const.prodMk measurable_id
  rw [cutLaw_sum _ _ _ _ _ hA, Measure.map_apply (cutAt_meas w₀ m) hA]
  have ht := htail m
  have hge : MeasurableSet {y : ℕ × W | m ≤ y.1} := measurableSet_le measurable_const measurable_fst
  rw [hρe, Measure.sum_apply _ hge] at ht
  rw [hρe, Measure.sum_apply _ (cutAt_meas w₀ m hA), ← Summable.sum_add_tsum_nat_add' (k := m) ENNReal.summable]
  rw [← Summable.sum_add_tsum_nat_add' (k := m) ENNReal.summable] at ht
  have z : ∑ n ∈ Finset.range m, (Measure.map (fun w => (n, w)) (last (next^[n] π))) {y : ℕ × W | m ≤ y.1} = 0 := by
    refine Finset.sum_eq_zero fun n hn => ?_
    have hn := Finset.mem_range.1 hn
    rw [Measure.map_apply (hmk n) hge]
    have : (fun w : W => (n, w)) ⁻¹' {y : ℕ × W | m ≤ y.1} = ∅ := by
      ext w; simp [hn]
    rw [this, measure_empty]
  rw [z, zero_add] at ht
  congr 1
  · refine Finset.sum_congr rfl fun n hn => ?_
    have hn := Finset.mem_range.1 hn
    rw [Measure.map_apply (hmk n) (cutAt_meas w₀ m hA)]
    congr 1
    ext w
    simp [cutAt, hn]
  · rw [← ht, ← ENNReal.tsum_mul_right]
    refine tsum_congr fun n => ?_
    rw [Measure.map_apply (hmk _) hge, Measure.map_apply (hmk _) (cutAt_meas w₀ m hA)]
    have e1 : (fun w : W => (n + m, w)) ⁻¹' {y : ℕ × W | m ≤ y.1} = Set.univ := by ext w; simp
    rw [e1]
    by_cases hm : (m, w₀) ∈ A
    · have e2 : (fun w : W => (n + m, w)) ⁻¹' (cutAt w₀ m ⁻¹' A) = Set.univ := by ext w; simp [cutAt, hm]
      rw [e2, Measure.dirac_apply' _ hA]; simp [hm]
    · have e2 : (fun w : W => (n + m, w)) ⁻¹' (cutAt w₀ m ⁻¹' A) = ∅ := by ext w; simp [cutAt, hm]
      rw [e2, Measure.dirac_apply' _ hA]; simp [hm]

end Moledyn
