import Verif.Lemmas.Law
import Mathlib.Probability.ProductMeasure
/-
An ideal random number generator exists, so that theorems about one are not empty.
-/
namespace Moledyn
open MeasureTheory ProbabilityTheory
open scoped ENNReal

section
variable {X : Type} [MeasurableSpace X] (μ : Measure X) [IsProbabilityMeasure μ]

private def consSeq (p : X × (ℕ → X)) : ℕ → X := fun n => Nat.casesOn n p.1 p.2

private theorem consSeq_mp : MeasurePreserving (consSeq (X := X)) (μ.prod (Measure.infinitePi fun _ : ℕ => μ))
    (Measure.infinitePi fun _ : ℕ => μ) := by
  have hm : Measurable (consSeq (X := X)) := measurable_pi_lambda _ fun n => by
    cases n with
    | zero => exact measurable_fst
    | succ n => exact (measurable_pi_apply n).comp measurable_snd
  refine ⟨hm, Measure.eq_infinitePi _ fun s t ht => ?_⟩
  classical
  obtain ⟨n, hn⟩ : ∃ n, s ⊆ Finset.range (n + 1) := by
    obtain ⟨n, hn⟩ := s.exists_nat_subset_range
    exact ⟨n, hn.trans (Finset.range_subset_range.2 (by omega))⟩
  let t' : ℕ → Set X := fun i => if i ∈ s then t i else Set.univ
  have ht' : ∀ i, MeasurableSet (t' i) := fun i => by
    simp only [t']; split
    · exact ht i
    · exact .univ
  have e1 : Set.pi (↑s) t = Set.pi (↑(Finset.range (n + 1))) t' := by
    ext x
    simp only [Set.mem_pi, Finset.mem_coe, t']
    constructor
    · intro h i _
      split
      · exact h i ‹_›
      · trivial
    · intro h i hi
      have := h i (hn hi)
      rwa [if_pos hi] at this
  have e2 : ∏ i ∈ s, μ (t i) = ∏ i ∈ Finset.range (n + 1), μ (t' i) := by
    rw [← Finset.prod_subset hn (f := fun i => μ (t' i)) fun i _ hi => by simp [t', hi]]
    exact Finset.prod_congr rfl fun i hi => by simp [t', hi]
  have e3 : consSeq ⁻¹' (Set.pi (↑(Finset.range (n + 1))) t') = t' 0 ×ˢ Set.pi (↑(Finset.range n)) fun i => t' (i + 1) := by
    ext ⟨x, g⟩
    simp only [Set.mem_preimage, Set.mem_pi, Finset.coe_range, Set.mem_Iio, Set.mem_prod]
    constructor
    · intro h
      exact ⟨h 0 (by omega), fun i hi => h (i + 1) (by omega)⟩
    · rintro ⟨h0, h1⟩ i hi
      cases i with
      | zero => exact h0
      | succ i => exact h1 i (by omega)
  rw [e1, Measure.map_apply hm (.pi (Finset.countable_toSet _) fun i _ => ht' i), e3, Measure.prod_prod,
    Measure.infinitePi_pi _ fun i _ => ht' (i + 1), e2, Finset.prod_range_succ', mul_comm]

private theorem unconsSeq_mp : MeasurePreserving (fun g : ℕ → X => (g 0, fun n => g (n + 1)))
    (Measure.infinitePi fun _ : ℕ => μ) (μ.prod (Measure.infinitePi fun _ : ℕ => μ)) := by
  have hm : Measurable (fun g : ℕ → X => (g 0, fun n => g (n + 1))) :=
    (measurable_pi_apply 0).prodMk (measurable_pi_lambda _ fun n => measurable_pi_apply (n + 1))
  refine ⟨hm, ?_⟩
  have h := consSeq_mp μ
  conv_lhs => rw [← h.map_eq]
  rw [Measure.map_map hm h.measurable]
  exact Measure.map_id
end

/-- A generator whose state is the sequence of the pairs (uniform, normal) it has not used yet. -/
def tapeRng : RngOps (ℕ → ℝ × ℝ) ℝ where
  uniform g := ((g 0).1, fun n => g (n + 1))
  gaussian g := ((g 0).2, fun n => g (n + 1))

/-- all numbers independent. -/
noncomputable def tapeLaw : Measure (ℕ → ℝ × ℝ) := Measure.infinitePi fun _ => unitLaw.prod (gaussianReal 0 1)

theorem tape_ideal : IdealRng tapeRng tapeLaw where
  prob := by unfold tapeLaw; infer_instance
  uniform := (measurePreserving_fst.prod (MeasurePreserving.id _)).comp (unconsSeq_mp (unitLaw.prod (gaussianReal 0 1)))
  gaussian := (measurePreserving_snd.prod (MeasurePreserving.id _)).comp (unconsSeq_mp (unitLaw.prod (gaussianReal 0 1)))

end Moledyn
