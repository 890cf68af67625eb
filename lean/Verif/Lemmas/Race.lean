import Verif.Spec.Race
import Verif.Spec.SearchLaw
import Mathlib.Probability.Kernel.Composition.MeasureComp
import Mathlib.MeasureTheory.Constructions.Pi
/-
Several random procedures after each other of which each is told the outcome of the one before.
-/
namespace Moledyn
open MeasureTheory ProbabilityTheory
open scoped ENNReal

variable {G : Type} [MeasurableSpace G]

/-- a search that is given up when it cannot be the fastest any more. -/
def cutSteps (m : ℕ) (y : ℕ × Bool) : ℕ × Bool := if y.1 ≤ m then y else (m, true)

theorem race_cons (m : ℕ) (y : ℕ × Bool) (ys : List (ℕ × Bool)) :
    race m (y :: ys) = if (cutSteps m y).2 then race (cutSteps m y).1 ys else cutSteps m y := by
  obtain ⟨k, b⟩ := y
  unfold cutSteps
  by_cases h : k ≤ m
  · cases b <;> simp [race, h]
  · simp [race, h]

/-- when a race without failures ends. -/
theorem race_gt {k m : ℕ} (hk : k < m) (ys : List (ℕ × Bool)) (h : ∀ y ∈ ys, y.2 = true) : k < (race m ys).1 ↔ ∀ y ∈ ys, k < y.1 := by
  have hle : ∀ (ys : List (ℕ × Bool)) (m : ℕ), (race m ys).1 ≤ m := by
    intro ys
    induction ys with
    | nil => intro m; exact le_rfl
    | cons y ys ih =>
      intro m
      obtain ⟨j, b⟩ := y
      unfold race
      split_ifs with h1 h2
      · exact (ih j).trans h1
      · exact h1
      · exact ih m
  induction ys generalizing m with
  | nil => simpa [race] using hk
  | cons y ys ih =>
    obtain ⟨j, b⟩ := y
    have hb : b = true := h (j, b) (by simp)
    subst hb
    have ih := fun {m} (hk : k < m) => ih hk fun y hy => h y (by simp [hy])
    simp only [List.mem_cons, forall_eq_or_imp]
    unfold race
    split_ifs with h1 h2
    · by_cases hj : k < j
      · simp [ih hj, hj]
      · have := hle ys j
        simp only [hj, false_and, iff_false]
        omega
    · exact absurd rfl h2
    · refine (ih hk).trans ⟨fun h => ⟨by omega, h⟩, fun h => h.2⟩

/-- if no search fails, the race does not. -/
theorem race_ok (m : ℕ) (ys : List (ℕ × Bool)) (h : ∀ y ∈ ys, y.2 = true) : (race m ys).2 = true := by
  induction ys generalizing m with
  | nil => rfl
  | cons y ys ih =>
    obtain ⟨j, b⟩ := y
    have hb : b = true := h (j, b) (by simp)
    subst hb
    have ih := fun m => ih m fun y hy => h y (by simp [hy])
    unfold race
    split_ifs with h1 h2
    · exact ih j
    · exact absurd rfl h2
    · exact ih m

/-- the second procedure goes on with what the first one has left of the generator. -/
theorem bind_mp {Y : Type} [MeasurableSpace Y] [DiscreteMeasurableSpace Y] [Countable Y] {P : Measure G} [IsProbabilityMeasure P]
    {ρ : Measure Y} [IsProbabilityMeasure ρ] {f : G → Y × G} (hf : MeasurePreserving f P (ρ.prod P))
    {c : Y → G → Y × G} {ν : Y → Measure Y} [∀ y, IsProbabilityMeasure (ν y)]
    (hc : ∀ y, MeasurePreserving (c y) P ((ν y).prod P)) :
    IsProbabilityMeasure (ρ.bind ν) ∧ MeasurePreserving (fun g => c (f g).1 (f g).2) P ((ρ.bind ν).prod P) := by
  have hν : Measurable ν := .of_discrete
  have hp : IsProbabilityMeasure (ρ.bind ν) := by
    constructor
    rw [Measure.bind_apply .univ hν.aemeasurable]
    simp
  refine ⟨hp, ?_⟩
  have hm : Measurable fun y : Y × G => c y.1 y.2 := measurable_from_prod_countable_right fun y => (hc y).measurable
  refine MeasurePreserving.comp (g := fun y : Y × G => c y.1 y.2) ⟨hm, ?_⟩ hf
  ext A hA
  rw [Measure.map_apply hm hA, Measure.prod_apply (hm hA), Measure.prod_apply hA, Measure.lintegral_bind hν.aemeasurable
    (measurable_measure_prodMk_left hA).aemeasurable]
  refine lintegral_congr fun y => ?_
  rw [← Measure.prod_apply hA, ← (hc y).map_eq, Measure.map_apply (hc y).measurable hA]
  rfl

theorem raceLaw_zero (ρ : Measure (ℕ × Bool)) [IsProbabilityMeasure ρ] (m : ℕ) : raceLaw ρ m 0 = Measure.dirac (m, true) := by
  unfold raceLaw
  simp only [List.ofFn_zero, race]
  rw [Measure.map_const]
  simp

theorem race_meas (m n : ℕ) : Measurable fun x : Fin n → ℕ × Bool => race m (List.ofFn x) := .of_discrete

instance (ρ : Measure (ℕ × Bool)) [IsProbabilityMeasure ρ] (m n : ℕ) : IsProbabilityMeasure (raceLaw ρ m n) :=
  Measure.isProbabilityMeasure_map (race_meas m n).aemeasurable

theorem raceLaw_succ (ρ : Measure (ℕ × Bool)) [IsProbabilityMeasure ρ] (m n : ℕ) :
    raceLaw ρ m (n + 1) = (ρ.map (cutSteps m)).bind fun y => if y.2 then raceLaw ρ y.1 n else Measure.dirac y := by
  ext A hA
  have hc : Measurable (cutSteps m) := .of_discrete
  have hν : Measurable fun y : ℕ × Bool => if y.2 then raceLaw ρ y.1 n else Measure.dirac y := .of_discrete
  rw [Measure.bind_apply hA hν.aemeasurable, lintegral_map .of_discrete hc]
  unfold raceLaw
  rw [Measure.map_apply (race_meas m (n + 1)) hA]
  have e := (measurePreserving_piFinSuccAbove (fun _ : Fin (n + 1) => ρ) 0).symm
  rw [← e.measure_preimage (race_meas m (n + 1) hA).nullMeasurableSet, Measure.prod_apply (e.measurable (race_meas m (n + 1) hA))]
  refine lintegral_congr fun y => ?_
  have hx : ∀ x : Fin n → ℕ × Bool, List.ofFn ((MeasurableEquiv.piFinSuccAbove (fun _ : Fin (n + 1) => ℕ × Bool) 0).symm (y, x)) = y :: List.ofFn x := by
    intro x
    rw [List.ofFn_succ]
    simp [MeasurableEquiv.piFinSuccAbove]
  by_cases hy : (cutSteps m y).2 = true
  · rw [if_pos hy, Measure.map_apply (race_meas _ n) hA]
    congr 1
    ext x
    simp only [Set.mem_preimage, hx, race_cons, hy, if_true]
  · rw [if_neg hy, Measure.dirac_apply' _ hA]
    have hy : (cutSteps m y).2 = false := by simpa using hy
    by_cases hA' : cutSteps m y ∈ A
    · rw [Set.indicator_of_mem hA', Pi.one_apply, ← measure_univ (μ := Measure.pi fun _ : Fin n => ρ)]
      congr 1
      ext x
      simp [race_cons, hy, hA']
    · rw [Set.indicator_of_notMem hA', ← measure_empty (μ := Measure.pi fun _ : Fin n => ρ)]
      congr 1
      ext x
      simp [race_cons, hy, hA']

end Moledyn
