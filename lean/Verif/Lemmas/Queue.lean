import Verif.Lemmas.SearchLaw
import Verif.Lemmas.Chain
import Verif.Spec.SideBySide
/-
Walkers that make their steps one after the other, as a queue: the first one makes a step and goes to the end.
-/
set_option linter.unusedSectionVars false
namespace Moledyn
open MeasureTheory ProbabilityTheory
open scoped ENNReal

variable {G : Type} [MeasurableSpace G] {P : Measure G} [IsProbabilityMeasure P] {d n : ℕ}

/-- the first one leaves, `a` comes in at the end. -/
def rotated {A : Type*} (x : Fin (n + 1) → A) (a : A) : Fin (n + 1) → A := Fin.snoc (α := fun _ => A) (fun i => x i.succ) a

@[simp] theorem rotated_last {A : Type*} (x : Fin (n + 1) → A) (a : A) : rotated x a (Fin.last n) = a := by simp [rotated]
@[simp] theorem rotated_castSucc {A : Type*} (x : Fin (n + 1) → A) (a : A) (i : Fin n) : rotated x a i.castSucc = x i.succ := by
  simp [rotated]

/-- the first walker makes a step. -/
def queueStep (put : (Fin d → ℝ) → Fin d → ℝ) (q : G → (Fin d → ℝ) × G) (y : (Fin (n + 1) → Fin d → ℝ) × G) :
    (Fin (n + 1) → Fin d → ℝ) × G :=
  (rotated y.1 (put (y.1 0 + (q y.2).1)), (q y.2).2)

/-- the distribution of the queue after a step. -/
noncomputable def queueWalked (put : (Fin d → ℝ) → Fin d → ℝ) (μ : Measure (Fin d → ℝ)) (π : Measure (Fin (n + 1) → Fin d → ℝ)) :
    Measure (Fin (n + 1) → Fin d → ℝ) :=
  (π.prod μ).map fun p => rotated p.1 (put (p.1 0 + p.2))

theorem rotated_meas {Y : Type*} [MeasurableSpace Y] {f : Y → Fin (n + 1) → Fin d → ℝ} {g : Y → Fin d → ℝ} (hf : Measurable f) (hg : Measurable g) :
    Measurable fun y => rotated (f y) (g y) := by
  refine measurable_pi_iff.2 fun i => ?_
  refine Fin.lastCases ?_ (fun i => ?_) i
  · simpa using hg
  · simp only [rotated_castSucc]
    exact (measurable_pi_apply i.succ).comp hf

theorem act_meas {put : (Fin d → ℝ) → Fin d → ℝ} (hput : Measurable put) :
    Measurable fun p : (Fin (n + 1) → Fin d → ℝ) × (Fin d → ℝ) => rotated p.1 (put (p.1 0 + p.2)) :=
  rotated_meas measurable_fst (hput.comp (((measurable_pi_apply 0).comp measurable_fst).add measurable_snd))

instance (put : (Fin d → ℝ) → Fin d → ℝ) (μ : Measure (Fin d → ℝ)) [IsProbabilityMeasure μ] (π : Measure (Fin (n + 1) → Fin d → ℝ))
    [IsFiniteMeasure π] : IsFiniteMeasure (queueWalked put μ π) := by
  unfold queueWalked; infer_instance

theorem queueStep_mp {put : (Fin d → ℝ) → Fin d → ℝ} (hput : Measurable put) {q : G → (Fin d → ℝ) × G} {μ : Measure (Fin d → ℝ)}
    [IsProbabilityMeasure μ] (hq : MeasurePreserving q P (μ.prod P)) (π : Measure (Fin (n + 1) → Fin d → ℝ)) [IsFiniteMeasure π] :
    MeasurePreserving (queueStep put q) (π.prod P) ((queueWalked put μ π).prod P) := by
  have h1 := (MeasurePreserving.id π).prod hq
  have h2 := (measurePreserving_prodAssoc π μ P).symm
  have h3 : MeasurePreserving (fun p : (Fin (n + 1) → Fin d → ℝ) × (Fin d → ℝ) => rotated p.1 (put (p.1 0 + p.2))) (π.prod μ) (queueWalked put μ π) :=
    ⟨act_meas hput, rfl⟩
  exact (h3.prod (MeasurePreserving.id P)).comp (h2.comp h1)

/-- the queues whose last one is still searching. -/
def lastIn (n : ℕ) (A : Set (Fin d → ℝ)) : Set (Fin (n + 1) → Fin d → ℝ) := {x | x (Fin.last n) ∈ A}

theorem lastIn_meas {A : Set (Fin d → ℝ)} (hA : MeasurableSet A) : MeasurableSet (lastIn n A) := measurable_pi_apply _ hA

/-- The queue as a procedure in rounds. -/
theorem queue_rounds {put : (Fin d → ℝ) → Fin d → ℝ} (hput : Measurable put) {q : G → (Fin d → ℝ) × G} {μ : Measure (Fin d → ℝ)} [IsProbabilityMeasure μ]
    (hq : MeasurePreserving q P (μ.prod P)) {S T : Set (Fin d → ℝ)} (hS : MeasurableSet S) (hT : MeasurableSet T) [DecidablePred (· ∈ S)] :
    Rounds P (Set.univ : Set (Fin (n + 1) → Fin d → ℝ)) (queueStep put q) (queueStep put q ⁻¹' ((lastIn n (S \ T))ᶜ ×ˢ Set.univ))
      (fun y => (decide ((queueStep put q y).1 (Fin.last n) ∈ S), (queueStep put q y).2))
      (fun π => (queueWalked put μ π).restrict (lastIn n (S \ T)))
      (fun π => ((queueWalked put μ π).restrict (lastIn n (S \ T))ᶜ).map fun x => decide (x (Fin.last n) ∈ S)) 1 := by
  have hstep : Measurable (queueStep (n := n) put q) := by
    have h := hq.measurable
    refine (rotated_meas measurable_fst (hput.comp ?_)).prodMk (measurable_snd.comp (h.comp measurable_snd))
    exact ((measurable_pi_apply 0).comp measurable_fst).add (measurable_fst.comp (h.comp measurable_snd))
  have hdec : Measurable fun x : Fin (n + 1) → Fin d → ℝ => decide (x (Fin.last n) ∈ S) := measurable_to_bool (by
    have : (fun x : Fin (n + 1) → Fin d → ℝ => decide (x (Fin.last n) ∈ S)) ⁻¹' {true} = lastIn n S := by ext x; simp [lastIn]
    rw [this]; exact lastIn_meas hS)
  have hST := lastIn_meas (n := n) (hS.diff hT)
  refine ⟨hstep, hstep (hST.compl.prod .univ), (hdec.comp (measurable_fst.comp hstep)).prodMk (measurable_snd.comp hstep), ?_, ?_⟩
  · intro π hπ hπB
    have hmp := queueStep_mp hput hq π
    refine ⟨inferInstance, by simp, ?_, ?_⟩
    · have e : (queueStep put q ⁻¹' ((lastIn n (S \ T))ᶜ ×ˢ Set.univ))ᶜ = queueStep put q ⁻¹' (lastIn n (S \ T) ×ˢ Set.univ) := by
        ext y; simp
      rw [e, ← Measure.restrict_map hstep (hST.prod .univ), hmp.map_eq, ← Measure.prod_restrict, Measure.restrict_univ]
    · rw [Measure.restrict_apply .univ, Set.univ_inter, one_mul]
      refine (measure_mono (Set.subset_univ _)).trans ?_
      rw [queueWalked, Measure.map_apply (act_meas hput) .univ, Set.preimage_univ, ← Set.univ_prod_univ, Measure.prod_prod, measure_univ (μ := μ), mul_one]
  · intro π hπ hπB
    have hmp := queueStep_mp hput hq π
    refine ⟨inferInstance, ?_⟩
    have hc : (fun y => (decide ((queueStep put q y).1 (Fin.last n) ∈ S), (queueStep put q y).2)) =
        (Prod.map (fun x : Fin (n + 1) → Fin d → ℝ => decide (x (Fin.last n) ∈ S)) id) ∘ queueStep put q := rfl
    rw [hc, ← Measure.map_map (hdec.prodMap measurable_id) hstep, ← Measure.restrict_map hstep (hST.compl.prod .univ), hmp.map_eq,
      ← Measure.prod_restrict, Measure.restrict_univ, ← Measure.map_prod_map _ _ hdec measurable_id, Measure.map_id]

/-! ### independent walkers -/

/-- If the walkers are independent, they are after a step. -/
theorem queueWalked_pi {put : (Fin d → ℝ) → Fin d → ℝ} (hput : Measurable put) (μ : Measure (Fin d → ℝ)) [IsProbabilityMeasure μ]
    (ν : Fin (n + 1) → Measure (Fin d → ℝ)) [∀ i, IsFiniteMeasure (ν i)] :
    queueWalked put μ (Measure.pi ν) = Measure.pi (rotated ν (walked put μ (ν 0))) := by
  have hfin : ∀ i, IsFiniteMeasure (rotated ν (walked put μ (ν 0)) i) := by
    intro i
    refine Fin.lastCases ?_ (fun i => ?_) i
    · simp only [rotated_last]; infer_instance
    · simp only [rotated_castSucc]; infer_instance
  symm
  refine Measure.pi_eq fun s hs => ?_
  have hs' := MeasurableSet.univ_pi hs
  rw [queueWalked, Measure.map_apply (act_meas hput) hs']
  have h1 : MeasurePreserving (MeasurableEquiv.piFinSuccAbove (fun _ : Fin (n + 1) => Fin d → ℝ) 0) (Measure.pi ν)
    ((ν 0).prod (Measure.pi fun i => ν i.succ)) := by
      simpa using measurePreserving_piFinSuccAbove ν 0
  have h2 := h1.prod (MeasurePreserving.id μ)
  have h3 := measurePreserving_prodAssoc (ν 0) (Measure.pi fun i : Fin n => ν i.succ) μ
  have h4 := (MeasurePreserving.id (ν 0)).prod (Measure.measurePreserving_swap (μ := Measure.pi fun i : Fin n => ν i.succ) (ν := μ))
  have h5 := (measurePreserving_prodAssoc (ν 0) μ (Measure.pi fun i : Fin n => ν i.succ)).symm
  have h := h5.comp (h4.comp (h3.comp h2))
  have hA : MeasurableSet {p : (Fin d → ℝ) × (Fin d → ℝ) | put (p.1 + p.2) ∈ s (Fin.last n)} :=
    (hput.comp (measurable_fst.add measurable_snd)) (hs _)
  have hB : MeasurableSet (Set.univ.pi fun i : Fin n => s i.castSucc) := MeasurableSet.univ_pi fun i => hs _
  have := h.measure_preimage (hA.prod hB).nullMeasurableSet
  rw [Measure.prod_prod, Measure.pi_pi] at this
  rw [Fin.prod_univ_castSucc]
  simp only [rotated_last, rotated_castSucc]
  have hm : Measurable fun p : (Fin d → ℝ) × (Fin d → ℝ) => put (p.1 + p.2) := hput.comp (measurable_fst.add measurable_snd)
  rw [walked, Measure.map_apply hm (hs _), mul_comm]
  refine Eq.trans ?_ this
  congr 1
  ext p
  simp only [Set.mem_preimage, Set.mem_pi, Set.mem_univ, true_implies, Function.comp_apply, Set.mem_prod]
  rw [Fin.forall_fin_succ']
  simp only [rotated_last, rotated_castSucc]
  rw [and_comm]
  rfl

/-- ... also if the one that made it is only followed if it is still searching. -/
theorem next_pi {put : (Fin d → ℝ) → Fin d → ℝ} (hput : Measurable put) (μ : Measure (Fin d → ℝ)) [IsProbabilityMeasure μ]
    (ν : Fin (n + 1) → Measure (Fin d → ℝ)) [∀ i, IsFiniteMeasure (ν i)] (A : Set (Fin d → ℝ)) :
    (queueWalked put μ (Measure.pi ν)).restrict (lastIn n A) = Measure.pi (rotated ν ((walked put μ (ν 0)).restrict A)) := by
  rw [queueWalked_pi hput]
  have hfin : ∀ i, IsFiniteMeasure (rotated ν (walked put μ (ν 0)) i) := by
    intro i
    refine Fin.lastCases ?_ (fun i => ?_) i
    · simp only [rotated_last]; infer_instance
    · simp only [rotated_castSucc]; infer_instance
  have e : lastIn n A = Set.univ.pi (rotated (fun _ : Fin (n + 1) => (Set.univ : Set (Fin d → ℝ))) A) := by
    ext x
    simp only [lastIn, Set.mem_ofPred_eq, Set.mem_pi, Set.mem_univ, true_implies]
    rw [Fin.forall_fin_succ']
    simp
  rw [e, Measure.restrict_pi_pi]
  congr 1
  funext i
  refine Fin.lastCases ?_ (fun i => ?_) i
  · simp
  · simp

theorem searching_finite (put : (Fin d → ℝ) → Fin d → ℝ) (S T : Set (Fin d → ℝ)) (μ : Measure (Fin d → ℝ)) [IsProbabilityMeasure μ]
    (π : Measure (Fin d → ℝ)) [IsFiniteMeasure π] (k : ℕ) : IsFiniteMeasure (searching put S T μ π k) := by
  induction k with
  | zero => exact inferInstanceAs (IsFiniteMeasure π)
  | succ k ih =>
    rw [searching, Function.iterate_succ_apply']
    exact inferInstanceAs (IsFiniteMeasure ((walked put μ (searching put S T μ π k)).restrict (S \ T)))

/-- After `m` steps of the queue the walker in place `i` has made `(m + i) / (n + 1)` steps. -/
theorem queue_iterate {put : (Fin d → ℝ) → Fin d → ℝ} (hput : Measurable put) (S T : Set (Fin d → ℝ)) (μ : Measure (Fin d → ℝ)) [IsProbabilityMeasure μ]
    (π : Measure (Fin d → ℝ)) [IsFiniteMeasure π] (m : ℕ) :
    (fun κ : Measure (Fin (n + 1) → Fin d → ℝ) => (queueWalked put μ κ).restrict (lastIn n (S \ T)))^[m] (Measure.pi fun _ => π) =
      Measure.pi fun i : Fin (n + 1) => searching put S T μ π ((m + i) / (n + 1)) := by
  have hf := searching_finite put S T μ π
  induction m with
  | zero =>
    simp only [Function.iterate_zero, id]
    congr 1
    funext i
    rw [Nat.zero_add, Nat.div_eq_of_lt i.2]
    rfl
  | succ m ih =>
    rw [Function.iterate_succ_apply', ih]
    rw [next_pi hput μ (fun i : Fin (n + 1) => searching put S T μ π ((m + i) / (n + 1)))]
    congr 1
    funext i
    refine Fin.lastCases ?_ (fun i => ?_) i
    · simp only [rotated_last, Fin.val_zero, Nat.add_zero, Fin.val_last]
      rw [show m + 1 + n = m + (n + 1) by omega, Nat.add_div_right _ (by omega), searching, searching, Function.iterate_succ_apply']
    · simp only [rotated_castSucc, Fin.val_succ, Fin.val_castSucc]
      rw [show m + (i.1 + 1) = m + 1 + i.1 by omega]

/-- the chance that the step just made ends in `A`. -/
theorem queueWalked_last {put : (Fin d → ℝ) → Fin d → ℝ} (hput : Measurable put) (μ : Measure (Fin d → ℝ)) [IsProbabilityMeasure μ]
    (ν : Fin (n + 1) → Measure (Fin d → ℝ)) [∀ i, IsFiniteMeasure (ν i)] (A : Set (Fin d → ℝ)) :
    queueWalked put μ (Measure.pi ν) (lastIn n A) = walked put μ (ν 0) A * ∏ i : Fin n, ν i.succ Set.univ := by
  have := congrArg (fun κ => κ Set.univ) (next_pi hput μ ν A)
  simp only [Measure.restrict_apply MeasurableSet.univ, Set.univ_inter] at this
  rw [this]
  have hfin : ∀ i, IsFiniteMeasure (rotated ν ((walked put μ (ν 0)).restrict A) i) := by
    intro i
    refine Fin.lastCases ?_ (fun i => ?_) i
    · simp only [rotated_last]; infer_instance
    · simp only [rotated_castSucc]; infer_instance
  rw [← Set.pi_univ Set.univ, Measure.pi_pi, Fin.prod_univ_castSucc, mul_comm]
  simp

/-- A race of independent searches. -/
theorem firstOf_mass (ρ : Measure (ℕ × Bool)) [IsProbabilityMeasure ρ] (y : ℕ × Bool) (n : ℕ) :
    (Measure.pi fun _ : Fin (n + 1) => ρ) {ys | firstOf n ys = y} =
      ρ {y} * ∑ j ∈ Finset.range (n + 1), ρ {z | y.1 < z.1} ^ j * ρ {z | y.1 ≤ z.1} ^ (n - j) := by
  have hle : ∀ (n : ℕ) (ys : Fin (n + 1) → ℕ × Bool) (a : ℕ), a ≤ (firstOf n ys).1 ↔ ∀ i, a ≤ (ys i).1 := by
    intro n
    induction n with
    | zero => intro ys a; simp [firstOf]
    | succ n ih =>
      intro ys a
      rw [Fin.forall_fin_succ, ← ih (fun i => ys i.succ), firstOf]
      split_ifs with h <;> omega
  induction n with
  | zero =>
    have : {ys : Fin 1 → ℕ × Bool | firstOf 0 ys = y} = Set.univ.pi fun _ => {y} := by
      ext ys
      simp [firstOf]
    rw [this, Measure.pi_pi]
    simp
  | succ n ih =>
    have h1 : MeasurePreserving (MeasurableEquiv.piFinSuccAbove (fun _ : Fin (n + 2) => ℕ × Bool) 0) (Measure.pi fun _ => ρ)
      (ρ.prod (Measure.pi fun _ : Fin (n + 1) => ρ)) := by
        simpa using measurePreserving_piFinSuccAbove (fun _ : Fin (n + 2) => ρ) 0
    have e : {ys : Fin (n + 2) → ℕ × Bool | firstOf (n + 1) ys = y} = MeasurableEquiv.piFinSuccAbove (fun _ : Fin (n + 2) => ℕ × Bool) 0 ⁻¹'
        (({y} ×ˢ (Set.univ.pi fun _ : Fin (n + 1) => {z : ℕ × Bool | y.1 ≤ z.1})) ∪ ({z | y.1 < z.1} ×ˢ {ys | firstOf n ys = y})) := by
      ext ys
      have hr : (MeasurableEquiv.piFinSuccAbove (fun _ : Fin (n + 2) => ℕ × Bool) 0) ys = (ys 0, fun i => ys i.succ) := rfl
      simp only [Set.mem_ofPred_eq, Set.mem_preimage, hr, Set.mem_union, Set.mem_prod, Set.mem_singleton_iff, Set.mem_pi, Set.mem_univ, true_implies]
      rw [← hle n (fun i => ys i.succ), firstOf]
      split_ifs with h
      · constructor
        · rintro rfl; exact .inl ⟨rfl, h⟩
        · rintro (⟨h1, -⟩ | ⟨h1, h2⟩)
          · exact h1
          · rw [h2] at h; omega
      · constructor
        · intro h1; exact .inr ⟨by rw [h1] at h; omega, h1⟩
        · rintro (⟨h1, h2⟩ | ⟨-, h2⟩)
          · rw [h1] at h; omega
          · exact h2
    have hd : Disjoint ({y} ×ˢ (Set.univ.pi fun _ : Fin (n + 1) => {z : ℕ × Bool | y.1 ≤ z.1})) ({z : ℕ × Bool | y.1 < z.1} ×ˢ {ys | firstOf n ys = y}) := by
      rw [Set.disjoint_left]
      rintro ⟨a, b⟩ ⟨h1, -⟩ ⟨h2, -⟩
      rw [Set.mem_singleton_iff.1 h1] at h2
      exact lt_irrefl y.1 h2
    have hm : MeasurableSet ({z : ℕ × Bool | y.1 < z.1} ×ˢ {ys : Fin (n + 1) → ℕ × Bool | firstOf n ys = y}) := .of_discrete
    have hm' : MeasurableSet ({y} ×ˢ (Set.univ.pi fun _ : Fin (n + 1) => {z : ℕ × Bool | y.1 ≤ z.1})) := .of_discrete
    rw [e, h1.measure_preimage (hm'.union hm).nullMeasurableSet, measure_union hd hm, Measure.prod_prod, Measure.prod_prod, Measure.pi_pi, ih,
      Finset.sum_range_succ' _ (n + 1)]
    simp only [Finset.prod_const, Finset.card_univ, Fintype.card_fin, pow_zero, one_mul, Nat.sub_zero, Nat.add_sub_add_right]
    rw [mul_add, add_comm]
    congr 1
    rw [Finset.mul_sum, Finset.mul_sum, Finset.mul_sum]
    refine Finset.sum_congr rfl fun j _ => ?_
    rw [pow_succ]
    ring

end Moledyn
