import Verif.Lemmas.Law
/-
A random procedure that goes on step by step until it stops: the result does not depend on the state the generator is left
in, which has its original distribution (strong Markov property), and long runs are exponentially rare.
-/
set_option linter.unusedSectionVars false
namespace Moledyn
open MeasureTheory ProbabilityTheory
open scoped ENNReal

variable {G : Type} [MeasurableSpace G]

section
variable {X W : Type} [MeasurableSpace X] [MeasurableSpace W] {P : Measure G} [IsProbabilityMeasure P]

/-- A procedure with the state `(x, g)`: it stops on the set `stop` with the result `fin`, and otherwise makes the step
`step`.  Whatever the distribution of `x` (on `B`), if `g` is independent with distribution `P`, so it is after a step or at
the end; a step is survived with probability at most `r`. -/
structure Rounds (P : Measure G) (B : Set X) (step : X × G → X × G) (stop : Set (X × G)) (fin : X × G → W × G)
    (next : Measure X → Measure X) (last : Measure X → Measure W) (r : ℝ≥0∞) : Prop where
  step_meas : Measurable step
  stop_meas : MeasurableSet stop
  fin_meas : Measurable fin
  goes : ∀ π : Measure X, IsFiniteMeasure π → π Bᶜ = 0 → IsFiniteMeasure (next π) ∧ next π Bᶜ = 0 ∧
    ((π.prod P).restrict stopᶜ).map step = (next π).prod P ∧ next π Set.univ ≤ r * π Set.univ
  ends : ∀ π : Measure X, IsFiniteMeasure π → π Bᶜ = 0 → IsFiniteMeasure (last π) ∧
    ((π.prod P).restrict stop).map fin = (last π).prod P

/-- not stopped before step `n`. -/
def aliveUntil (step : X × G → X × G) (stop : Set (X × G)) (n : Nat) : Set (X × G) := {y | ∀ m < n, step^[m] y ∉ stop}

theorem aliveUntil_succ (step : X × G → X × G) (stop : Set (X × G)) (n : Nat) :
    aliveUntil step stop (n + 1) = step^[n] ⁻¹' stopᶜ ∩ aliveUntil step stop n := by
  ext y
  simp only [aliveUntil, Set.mem_ofPred_eq, Set.mem_inter_iff, Set.mem_preimage, Set.mem_compl_iff]
  constructor
  · intro h; exact ⟨h n (by omega), fun m hm => h m (by omega)⟩
  · rintro ⟨h1, h2⟩ m hm
    rcases Nat.lt_succ_iff_lt_or_eq.1 hm with h | rfl
    · exact h2 m h
    · exact h1

theorem Rounds.laws {B : Set X} {step : X × G → X × G} {stop : Set (X × G)} {fin : X × G → W × G}
    {next : Measure X → Measure X} {last : Measure X → Measure W} {r : ℝ≥0∞} (h : Rounds P B step stop fin next last r) (π : Measure X) (hπ : IsFiniteMeasure π) (hB : π Bᶜ = 0) (n : Nat) :
    MeasurableSet (aliveUntil step stop n) ∧ IsFiniteMeasure (next^[n] π) ∧ (next^[n] π) Bᶜ = 0 ∧
      ((π.prod P).restrict (aliveUntil step stop n)).map step^[n] = (next^[n] π).prod P ∧
      (next^[n] π) Set.univ ≤ r ^ n * π Set.univ := by
  induction n with
  | zero =>
    have : aliveUntil step stop 0 = Set.univ := by ext y; simp [aliveUntil]
    rw [this]
    refine ⟨.univ, hπ, hB, ?_, by simp⟩
    rw [Measure.restrict_univ, Function.iterate_zero, Measure.map_id]
    rfl
  | succ n ih =>
    obtain ⟨hm, hf1, hB1, he1, hr1⟩ := ih
    have hsn : Measurable step^[n] := h.step_meas.iterate n
    refine ⟨by rw [aliveUntil_succ]; exact (hsn h.stop_meas.compl).inter hm, ?_⟩
    obtain ⟨hf2, hB2, he2, hr2⟩ := h.goes _ hf1 hB1
    rw [← Function.iterate_succ_apply' next n π] at hf2 hB2 he2 hr2
    refine ⟨hf2, hB2, ?_, ?_⟩
    · rw [aliveUntil_succ, ← Measure.restrict_restrict (hsn h.stop_meas.compl), Function.iterate_succ',
        ← Measure.map_map h.step_meas hsn, ← Measure.restrict_map hsn h.stop_meas.compl, he1, he2]
    · calc (next^[n + 1] π) Set.univ ≤ r * (next^[n] π) Set.univ := hr2
        _ ≤ r * (r ^ n * π Set.univ) := by gcongr
        _ = r ^ (n + 1) * π Set.univ := by rw [pow_succ]; ring

/-- If long runs are ever rarer, the procedure ends with probability one; number of steps and result do not depend on the
state the generator is left in. -/
theorem Rounds.run {B : Set X} {step : X × G → X × G} {stop : Set (X × G)} {fin : X × G → W × G}
    {next : Measure X → Measure X} {last : Measure X → Measure W} {r : ℝ≥0∞} (h : Rounds P B step stop fin next last r) (π : Measure X) [IsProbabilityMeasure π] (hB : π Bᶜ = 0)
    (hdec : Filter.Tendsto (fun n => (next^[n] π) Set.univ) Filter.atTop (nhds 0)) :
    ∃ (F : X × G → (ℕ × W) × G) (ρ : Measure (ℕ × W)), IsProbabilityMeasure ρ ∧
      ρ = (Measure.sum fun n => (last (next^[n] π)).map fun w => (n, w)) ∧ MeasurePreserving F (π.prod P) (ρ.prod P) ∧ (∀ n, ρ {y | n ≤ y.1} = (next^[n] π) Set.univ) ∧
      ∀ᵐ y ∂(π.prod P), ∃ n, (∀ m < n, step^[m] y ∉ stop) ∧ step^[n] y ∈ stop ∧
        F y = ((n, (fin (step^[n] y)).1), (fin (step^[n] y)).2) := by
  classical
  set M := π.prod P with hM
  have hsn : ∀ n, Measurable step^[n] := fun n => h.step_meas.iterate n
  have hlaw := fun n => h.laws π inferInstance hB n
  have hale : ∀ n, M (aliveUntil step stop n) = (next^[n] π) Set.univ := by
    intro n
    obtain ⟨hm, hf', hB', he', hr'⟩ := hlaw n
    have := congrArg (fun m => m Set.univ) he'
    simp only [Measure.map_apply (hsn n) .univ, Set.preimage_univ, Measure.restrict_apply .univ, Set.univ_inter] at this
    rw [hM, this, ← Set.univ_prod_univ, Measure.prod_prod, measure_univ (μ := P), mul_one]
  let E : ℕ → Set (X × G) := fun n => step^[n] ⁻¹' stop ∩ aliveUntil step stop n
  have hEm : ∀ n, MeasurableSet (E n) := fun n => (hsn n h.stop_meas).inter (hlaw n).1
  have hEd : Pairwise (Function.onFun Disjoint E) := by
    intro i j hij
    rw [Function.onFun, Set.disjoint_left]
    rintro y ⟨a1, a2⟩ ⟨b1, b2⟩
    rcases lt_or_gt_of_ne hij with hh | hh
    · exact b2 i hh a1
    · exact a2 j hh b1
  have hend : ∀ᵐ y ∂M, ∃ n, step^[n] y ∈ stop := by
    have h0 : M (⋂ n, aliveUntil step stop n) = 0 := by
      refine le_antisymm (ge_of_tendsto' hdec fun n => ?_) bot_le
      exact (measure_mono (Set.iInter_subset _ n)).trans (hale n).le
    rw [ae_iff]
    refine measure_mono_null ?_ h0
    intro y hy
    rw [Set.mem_iInter]
    intro n m _ hm
    exact hy ⟨m, hm⟩
  have hex : ∀ y, ∃ n, step^[n] y ∈ stop ∨ ∀ m, step^[m] y ∉ stop := by
    intro y
    by_cases hh : ∃ n, step^[n] y ∈ stop
    · obtain ⟨n, hn⟩ := hh; exact ⟨n, .inl hn⟩
    · push Not at hh; exact ⟨0, .inr hh⟩
  let K : ℕ → X × G → (ℕ × W) × G := fun n y => ((n, (fin (step^[n] y)).1), (fin (step^[n] y)).2)
  have hKm : ∀ n, Measurable (K n) := fun n =>
    ((measurable_const.prodMk (measurable_fst.comp (h.fin_meas.comp (hsn n)))).prodMk
      (measurable_snd.comp (h.fin_meas.comp (hsn n))))
  let F : X × G → (ℕ × W) × G := fun y => K (Nat.find (hex y)) y
  have hFm : Measurable F := by
    refine Measurable.find (f := K) hKm ?_ hex
    intro n
    have : {y | ∀ m, step^[m] y ∉ stop} = ⋂ m, (step^[m] ⁻¹' stop)ᶜ := by ext g; simp
    have h2 : MeasurableSet {y | ∀ m, step^[m] y ∉ stop} := by
      rw [this]
      exact .iInter fun m => (hsn m h.stop_meas).compl
    exact (hsn n h.stop_meas).union h2
  have hfind : ∀ y, (∃ n, step^[n] y ∈ stop) → (∀ m < Nat.find (hex y), step^[m] y ∉ stop) ∧
      step^[Nat.find (hex y)] y ∈ stop := by
    intro y hh
    refine ⟨fun m hm => ?_, ?_⟩
    · have := Nat.find_min (hex y) hm
      push Not at this
      exact this.1
    · rcases Nat.find_spec (hex y) with h1 | h1
      · exact h1
      · obtain ⟨n, hn⟩ := hh; exact absurd hn (h1 n)
  have hFE : ∀ n, ∀ y ∈ E n, F y = K n y := by
    rintro n y ⟨a1, a2⟩
    obtain ⟨b1, b2⟩ := hfind y ⟨n, a1⟩
    have : n = Nat.find (hex y) := by
      rcases lt_trichotomy n (Nat.find (hex y)) with hh | hh | hh
      · exact absurd a1 (b1 n hh)
      · exact hh
      · exact absurd b2 (a2 _ hh)
    show K (Nat.find (hex y)) y = K n y
    rw [← this]
  -- the law of the end at step `n`
  have hβe : ∀ n, IsFiniteMeasure (last (next^[n] π)) ∧
      (M.restrict (E n)).map (fin ∘ step^[n]) = (last (next^[n] π)).prod P := by
    intro n
    obtain ⟨hm, hf', hB', he', hr'⟩ := hlaw n
    obtain ⟨hβ, hbe⟩ := h.ends _ hf' hB'
    refine ⟨hβ, ?_⟩
    rw [← Measure.map_map h.fin_meas (hsn n), show E n = step^[n] ⁻¹' stop ∩ aliveUntil step stop n from rfl,
      ← Measure.restrict_restrict (hsn n h.stop_meas), ← Measure.restrict_map (hsn n) h.stop_meas, he', hbe]
  let ρ : Measure (ℕ × W) := Measure.sum fun n => (last (next^[n] π)).map fun w => (n, w)
  have hmk : ∀ n : ℕ, Measurable fun w : W => (n, w) := fun n => measurable_const.prodMk measurable_id
  have hprod : ∀ A C, MeasurableSet A → MeasurableSet C → M.map F (A ×ˢ C) = ρ A * P C := by
    intro A C hA hC
    have hAC : MeasurableSet (A ×ˢ C) := hA.prod hC
    rw [Measure.map_apply hFm hAC]
    have e1 : M (F ⁻¹' A ×ˢ C) = ∑' n, M (F ⁻¹' A ×ˢ C ∩ E n) := by
      rw [← measure_iUnion (fun i j hij => ((hEd hij).mono Set.inter_subset_right Set.inter_subset_right))
        (fun n => (hFm hAC).inter (hEm n)), ← Set.inter_iUnion]
      refine measure_congr ?_
      filter_upwards [hend] with y hy
      refine propext ⟨fun hh => ⟨hh, ?_⟩, fun hh => hh.1⟩
      rw [Set.mem_iUnion]
      obtain ⟨b1, b2⟩ := hfind y hy
      exact ⟨_, b2, b1⟩
    rw [e1, Measure.sum_apply _ hA, ← ENNReal.tsum_mul_right]
    refine tsum_congr fun n => ?_
    have := (hβe n).1
    have e2 : F ⁻¹' A ×ˢ C ∩ E n = (fin ∘ step^[n]) ⁻¹' (((fun w => (n, w)) ⁻¹' A) ×ˢ C) ∩ E n := by
      ext y
      simp only [Set.mem_inter_iff, Set.mem_preimage]
      refine and_congr_left fun hy => ?_
      rw [hFE n y hy]
      rfl
    rw [e2, ← Measure.restrict_apply ((h.fin_meas.comp (hsn n)) ((hmk n hA).prod hC)),
      ← Measure.map_apply (h.fin_meas.comp (hsn n)) ((hmk n hA).prod hC), (hβe n).2, Measure.prod_prod,
      Measure.map_apply (hmk n) hA]
  have hρ : IsProbabilityMeasure ρ := by
    refine ⟨?_⟩
    have := hprod Set.univ Set.univ .univ .univ
    rw [Set.univ_prod_univ, Measure.map_apply hFm .univ, Set.preimage_univ, measure_univ, measure_univ (μ := P), mul_one] at this
    exact this.symm
  have hMP : MeasurePreserving F M (ρ.prod P) := ⟨hFm, (Measure.prod_eq hprod).symm⟩
  have htail : ∀ n, ρ {y | n ≤ y.1} = (next^[n] π) Set.univ := by
    intro n
    have hmn : MeasurableSet {y : ℕ × W | n ≤ y.1} := measurable_fst (measurableSet_le measurable_const measurable_id)
    have e : (ρ.prod P) ({y | n ≤ y.1} ×ˢ Set.univ) = ρ {y | n ≤ y.1} := by
      rw [Measure.prod_prod, measure_univ, mul_one]
    rw [← e, ← hMP.measure_preimage (hmn.prod .univ).nullMeasurableSet, ← hale]
    refine measure_congr ?_
    filter_upwards [hend] with y hy
    refine propext ⟨fun hh => ?_, fun hh => ⟨?_, trivial⟩⟩
    · have hh : n ≤ Nat.find (hex y) := hh.1
      exact fun m hm => (hfind y hy).1 m (by omega)
    · show n ≤ Nat.find (hex y)
      by_contra hc
      exact hh _ (by omega) (hfind y hy).2
  refine ⟨F, ρ, hρ, rfl, hMP, htail, ?_⟩
  · filter_upwards [hend] with y hy
    exact ⟨_, (hfind y hy).1, (hfind y hy).2, rfl⟩
end
end Moledyn
