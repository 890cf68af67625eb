import Verif.Lemmas.Queue
import Verif.Props.SearchLaw
/-
The outcome of walkers in a queue is that of a race of independent walkers.
-/
set_option linter.unusedSectionVars false
namespace Moledyn
open MeasureTheory ProbabilityTheory
open scoped ENNReal

variable {d n : ℕ}

/-- the outcomes of the last step: found, or too large. -/
def endSet (S T : Set (Fin d → ℝ)) (b : Bool) : Set (Fin d → ℝ) := if b then S ∩ T else Sᶜ

theorem searchLaw_at (put : (Fin d → ℝ) → Fin d → ℝ) (S T : Set (Fin d → ℝ)) (μ π : Measure (Fin d → ℝ)) (k : ℕ) (b : Bool) :
    searchLaw put S T μ π {(k + 1, b)} = walked put μ (searching put S T μ π k) (endSet S T b) := by
  rw [searchLaw, Measure.sum_apply _ (measurableSet_singleton _), tsum_eq_single k]
  · cases b <;> simp [endSet]
  · intro j hj
    cases b <;> simp [hj]

theorem searchLaw_zero (put : (Fin d → ℝ) → Fin d → ℝ) (S T : Set (Fin d → ℝ)) (μ π : Measure (Fin d → ℝ)) (b : Bool) :
    searchLaw put S T μ π {(0, b)} = 0 := by
  rw [searchLaw, Measure.sum_apply _ (measurableSet_singleton _)]
  simp

theorem turn_product (M : ℕ → ℝ≥0∞) (k j n : ℕ) (hj : j ≤ n) :
    ∏ i : Fin n, M ((k * (n + 1) + j + (i.1 + 1)) / (n + 1)) = M (k + 1) ^ j * M k ^ (n - j) := by
  rw [Fin.prod_univ_eq_prod_range fun i => M ((k * (n + 1) + j + (i + 1)) / (n + 1))]
  obtain ⟨p, rfl⟩ : ∃ p, n = p + j := ⟨n - j, by omega⟩
  rw [Finset.prod_range_add, mul_comm, Nat.add_sub_cancel]
  congr 1
  · rw [Finset.prod_congr rfl (g := fun _ => M (k + 1))]
    · simp
    · intro i hi
      rw [Finset.mem_range] at hi
      congr 1
      rw [show k * (p + j + 1) + j + (p + i + 1) = (k + 1) * (p + j + 1) + i by ring]
      rw [Nat.mul_comm, Nat.mul_add_div (by omega), Nat.div_eq_of_lt (by omega)]
  · rw [Finset.prod_congr rfl (g := fun _ => M k)]
    · simp
    · intro i hi
      rw [Finset.mem_range] at hi
      congr 1
      rw [add_assoc, Nat.mul_comm, Nat.mul_add_div (by omega), Nat.div_eq_of_lt (by omega)]
      rfl

theorem queue_law {put : (Fin d → ℝ) → Fin d → ℝ} (hput : Measurable put) {S T : Set (Fin d → ℝ)} (hS : MeasurableSet S)
    [DecidablePred (· ∈ S)] (μ : Measure (Fin d → ℝ)) [IsProbabilityMeasure μ] (π : Measure (Fin d → ℝ)) [IsProbabilityMeasure π]
    (ρ : Measure (ℕ × Bool)) [IsProbabilityMeasure ρ] (hρ : ρ = searchLaw put S T μ π)
    (htail : ∀ k, ρ {z | k < z.1} = searching put S T μ π k Set.univ) :
    (Measure.sum fun m => (((queueWalked put μ ((fun κ : Measure (Fin (n + 1) → Fin d → ℝ) => (queueWalked put μ κ).restrict (lastIn n (S \ T)))^[m]
      (Measure.pi fun _ => π))).restrict (lastIn n (S \ T))ᶜ).map fun x => decide (x (Fin.last n) ∈ S)).map fun b => (m, b)).map
        (fun y : ℕ × Bool => (y.1 / (n + 1) + 1, y.2)) =
    (Measure.pi fun _ : Fin (n + 1) => ρ).map (firstOf n) := by
  have hf := searching_finite put S T μ π
  have hdec : Measurable fun x : Fin (n + 1) → Fin d → ℝ => decide (x (Fin.last n) ∈ S) := measurable_to_bool (by
    have : (fun x : Fin (n + 1) → Fin d → ℝ => decide (x (Fin.last n) ∈ S)) ⁻¹' {true} = lastIn n S := by ext x; simp [lastIn]
    rw [this]; exact lastIn_meas hS)
  have hend : ∀ m b, (((queueWalked put μ ((fun κ : Measure (Fin (n + 1) → Fin d → ℝ) => (queueWalked put μ κ).restrict (lastIn n (S \ T)))^[m]
      (Measure.pi fun _ => π))).restrict (lastIn n (S \ T))ᶜ).map fun x => decide (x (Fin.last n) ∈ S)) {b} =
      walked put μ (searching put S T μ π (m / (n + 1))) (endSet S T b) * ∏ i : Fin n, searching put S T μ π ((m + (i.1 + 1)) / (n + 1)) Set.univ := by
    intro m b
    rw [Measure.map_apply hdec (measurableSet_singleton b), Measure.restrict_apply (hdec (measurableSet_singleton b)), queue_iterate hput]
    have : (fun x : Fin (n + 1) → Fin d → ℝ => decide (x (Fin.last n) ∈ S)) ⁻¹' {b} ∩ (lastIn n (S \ T))ᶜ = lastIn n (endSet S T b) := by
      ext x
      cases b <;> simp [lastIn, endSet] <;> tauto
    rw [this, queueWalked_last hput μ (fun i : Fin (n + 1) => searching put S T μ π ((m + i) / (n + 1)))]
    simp
  have hfm : Measurable (firstOf n) := .of_discrete
  refine Measure.ext_of_singleton fun y => ?_
  rw [Measure.map_apply hfm (measurableSet_singleton _), Measure.map_apply .of_discrete (measurableSet_singleton _),
    Measure.sum_apply _ .of_discrete]
  have hR : (Measure.pi fun _ : Fin (n + 1) => ρ) (firstOf n ⁻¹' {y}) = _ := firstOf_mass ρ y n
  rw [hR]
  obtain ⟨a, b⟩ := y
  cases a with
  | zero =>
    rw [show ρ {(0, b)} = 0 by rw [hρ]; exact searchLaw_zero put S T μ π b, zero_mul]
    rw [ENNReal.tsum_eq_zero]
    intro m
    rw [Measure.map_apply .of_discrete .of_discrete]
    have : (fun b => (m, b)) ⁻¹' ((fun y : ℕ × Bool => (y.1 / (n + 1) + 1, y.2)) ⁻¹' {(0, b)}) = ∅ := by ext c; simp
    rw [this, measure_empty]
  | succ k =>
    have hz : ∀ m, ((((queueWalked put μ ((fun κ : Measure (Fin (n + 1) → Fin d → ℝ) => (queueWalked put μ κ).restrict (lastIn n (S \ T)))^[m]
      (Measure.pi fun _ => π))).restrict (lastIn n (S \ T))ᶜ).map fun x => decide (x (Fin.last n) ∈ S)).map fun b => (m, b))
        ((fun y : ℕ × Bool => (y.1 / (n + 1) + 1, y.2)) ⁻¹' {(k + 1, b)}) = if m / (n + 1) = k then
          walked put μ (searching put S T μ π (m / (n + 1))) (endSet S T b) * ∏ i : Fin n, searching put S T μ π ((m + (i.1 + 1)) / (n + 1)) Set.univ else 0 := by
      intro m
      rw [Measure.map_apply .of_discrete .of_discrete]
      split_ifs with h
      · rw [← hend]
        congr 1
        ext c
        simp [h]
      · have : (fun b => (m, b)) ⁻¹' ((fun y : ℕ × Bool => (y.1 / (n + 1) + 1, y.2)) ⁻¹' {(k + 1, b)}) = ∅ := by ext c; simp [h]
        rw [this, measure_empty]
    simp only [hz]
    have hdiv : ∀ m, m / (n + 1) = k ↔ m ∈ Finset.Ico (k * (n + 1)) (k * (n + 1) + (n + 1)) := by
      intro m
      rw [Finset.mem_Ico, Nat.div_eq_iff (by omega)]
      constructor
      · rintro ⟨h1, h2⟩; omega
      · rintro ⟨h1, h2⟩; omega
    rw [tsum_eq_sum (s := Finset.Ico (k * (n + 1)) (k * (n + 1) + (n + 1))) fun m hm => if_neg fun h => hm ((hdiv m).1 h),
      Finset.sum_Ico_eq_sum_range, Nat.add_sub_cancel_left, Finset.mul_sum]
    refine Finset.sum_congr rfl fun j hj => ?_
    have hj' : j ≤ n := by rw [Finset.mem_range] at hj; omega
    have hd : (k * (n + 1) + j) / (n + 1) = k := (hdiv _).2 (by rw [Finset.mem_Ico]; omega)
    rw [if_pos hd, hd, turn_product (fun k => searching put S T μ π k Set.univ) k j n hj', htail (k + 1)]
    have e2 : ρ {z | k + 1 ≤ z.1} = searching put S T μ π k Set.univ := htail k
    rw [e2, hρ, searchLaw_at]

end Moledyn
