import Verif.Lemmas.PushChain
import Verif.Lemmas.QueueLaw
import Verif.Lemmas.MergeChain
import Verif.Spec.TurnRace
/-
Walkers that do not notice each other and take turns with steps that may depend on the turn: the outcome is that of a race of
independent walkers.
-/
set_option linter.unusedSectionVars false
namespace Moledyn
open MeasureTheory ProbabilityTheory
open scoped ENNReal

/-! ### images of processes -/

section
variable {X X' Y Z V : Type} [MeasurableSpace X] [MeasurableSpace X'] [MeasurableSpace Y] [MeasurableSpace Z] [MeasurableSpace V]

theorem drawn_image {T : X → Z → X} {T' : X' → Z → X'} (hT : Measurable fun p : X × Z => T p.1 p.2) (hT' : Measurable fun p : X' × Z => T' p.1 p.2)
    {p : X → X'} (hp : Measurable p) (h : ∀ x z, p (T x z) = T' (p x) z) (μ : Measure Z) [IsProbabilityMeasure μ] (κ : Measure X) [IsFiniteMeasure κ] :
    (drawn T μ κ).map p = drawn T' μ (κ.map p) := by
  unfold drawn
  have : (κ.map p).prod μ = (κ.prod μ).map (Prod.map p id) := by
    rw [← Measure.map_prod_map _ _ hp measurable_id, Measure.map_id]
  rw [this, Measure.map_map hp hT, Measure.map_map hT' (hp.prodMap measurable_id)]
  congr 1
  funext q
  exact h q.1 q.2

theorem drawn_finite {T : X → Z → X} (μ : Measure Z) [IsProbabilityMeasure μ] (κ : Measure X) [IsFiniteMeasure κ] : IsFiniteMeasure (drawn T μ κ) := by
  unfold drawn
  infer_instance

/-- The outcome of a process is that of its image. -/
theorem endLaw_image {T : X → Z → X} {T' : X' → Z → X'} (hT : Measurable fun p : X × Z => T p.1 p.2) (hT' : Measurable fun p : X' × Z => T' p.1 p.2)
    {p : X → X'} (hp : Measurable p) (h : ∀ x z, p (T x z) = T' (p x) z) {start : Y → X} (hs : Measurable start) {on : Set X} {on' : Set X'}
    (hon : MeasurableSet on') (ho : on = p ⁻¹' on') {res : X → V} {res' : X' → V} (hr : Measurable res') (hre : ∀ x, res x = res' (p x))
    (μ : Measure Z) [IsProbabilityMeasure μ] (π : Measure Y) [IsFiniteMeasure π] :
    endLaw start T on res μ π = endLaw (fun y => p (start y)) T' on' res' μ π := by
  subst ho
  have hit : ∀ k, IsFiniteMeasure ((fun κ => (drawn T μ κ).restrict (p ⁻¹' on'))^[k] (π.map start)) ∧
      ((fun κ => (drawn T μ κ).restrict (p ⁻¹' on'))^[k] (π.map start)).map p = (fun κ => (drawn T' μ κ).restrict on')^[k] (π.map fun y => p (start y)) := by
    intro k
    induction k with
    | zero => exact ⟨by simp only [Function.iterate_zero, id]; infer_instance, by simp only [Function.iterate_zero, id]; rw [Measure.map_map hp hs]; rfl⟩
    | succ k ih =>
      obtain ⟨i1, i2⟩ := ih
      have := drawn_finite (T := T) μ ((fun κ => (drawn T μ κ).restrict (p ⁻¹' on'))^[k] (π.map start))
      rw [Function.iterate_succ_apply', Function.iterate_succ_apply', ← i2]
      exact ⟨inferInstance, by rw [← drawn_image hT hT' hp h, Measure.restrict_map hp hon]⟩
  unfold endLaw
  congr 1
  funext k
  obtain ⟨i1, i2⟩ := hit k
  rw [← i2, ← drawn_image hT hT' hp h, Measure.restrict_map hp hon.compl, Measure.map_map hr hp]
  congr 1
  funext x
  exact hre x
end

/-! ### walkers that take turns -/

section
variable {E Z : Type} {n : ℕ}

open Classical in
/-- the state of the search after the walker whose turn it is has come to `p`. -/
noncomputable def turnCtl (S T : Set E) (K n : ℕ) (c : PushCtl) (p : E) : PushCtl :=
  if p ∉ S then { c with over := some .tooFar }
  else if p ∈ T then { c with over := some .found }
  else if c.next + 1 = n then ⟨c.turns + 1, 0, if K ≤ c.turns + 1 then some .clock else none⟩
  else { c with next := c.next + 1 }

/-- One walker makes a step. -/
noncomputable def turnMove (stp : ℕ → E → Z → E) (S T : Set E) (K : ℕ) (x : PushCtl × (Fin n → E)) (z : Z) : PushCtl × (Fin n → E) :=
  if h : x.1.next < n then
    (turnCtl S T K n x.1 (stp x.1.turns (x.2 ⟨x.1.next, h⟩) z), Function.update x.2 ⟨x.1.next, h⟩ (stp x.1.turns (x.2 ⟨x.1.next, h⟩) z))
  else x

/-- the outcome. -/
def turnOutcome (x : PushCtl × (Fin n → E)) : ℕ × Ending := (if x.1.over = some .clock then x.1.turns else x.1.turns + 1, x.1.over.getD .clock)

variable [MeasurableSpace E] [MeasurableSpace Z]

/-- the walkers that are under way after `k` turns. -/
noncomputable def under (stp : ℕ → E → Z → E) (S T : Set E) (μ : Measure Z) (π : Measure E) : ℕ → Measure E
  | 0 => π
  | k + 1 => (drawn (stp k) μ (under stp S T μ π k)).restrict (S \ T)

instance under_finite (stp : ℕ → E → Z → E) (S T : Set E) (μ : Measure Z) [IsProbabilityMeasure μ] (π : Measure E) [IsFiniteMeasure π] (k : ℕ) :
    IsFiniteMeasure (under stp S T μ π k) := by
  induction k with
  | zero => unfold under; infer_instance
  | succ k ih =>
    unfold under
    have := drawn_finite (T := stp k) μ (under stp S T μ π k)
    infer_instance

/-- one of independent walkers makes a step: they stay independent. -/
theorem pi_step {f : E → Z → E} (hf : Measurable fun p : E × Z => f p.1 p.2) (μ : Measure Z) [IsProbabilityMeasure μ] (τ : Fin n → Measure E)
    [∀ i, IsFiniteMeasure (τ i)] (j : Fin n) :
    ((Measure.pi τ).prod μ).map (fun q => Function.update q.1 j (f (q.1 j) q.2)) = Measure.pi (Function.update τ j (drawn f μ (τ j))) := by
  have hfin : ∀ i, IsFiniteMeasure (Function.update τ j (drawn f μ (τ j)) i) := by
    intro i
    by_cases h : i = j
    · subst h; simp only [Function.update_self]; exact drawn_finite μ _
    · simp only [Function.update_of_ne h]; infer_instance
  have hm : Measurable fun q : (Fin n → E) × Z => Function.update q.1 j (f (q.1 j) q.2) := by
    refine measurable_pi_iff.2 fun i => ?_
    by_cases h : i = j
    · subst h
      simp only [Function.update_self]
      have e : Measurable fun q : (Fin n → E) × Z => (q.1 i, q.2) := ((measurable_pi_apply i).comp measurable_fst).prodMk measurable_snd
      exact hf.comp e
    · simp only [Function.update_of_ne h]
      exact (measurable_pi_apply i).comp measurable_fst
  refine (Measure.pi_eq fun s hs => ?_).symm
  have hbox : MeasurableSet (Set.univ.pi s) := MeasurableSet.univ_pi hs
  rw [Measure.map_apply hm hbox, Measure.prod_apply_symm (hm hbox)]
  have hsec : ∀ z : Z, (fun x : Fin n → E => (x, z)) ⁻¹' ((fun q : (Fin n → E) × Z => Function.update q.1 j (f (q.1 j) q.2)) ⁻¹' Set.univ.pi s) =
      Set.univ.pi (Function.update s j {y | f y z ∈ s j}) := by
    intro z
    ext x
    simp only [Set.mem_preimage, Set.mem_pi, Set.mem_univ, true_implies]
    refine forall_congr' fun i => ?_
    by_cases h : i = j
    · subst h; simp
    · simp [Function.update_of_ne h]
  simp only [hsec, Measure.pi_pi]
  have hprod : ∀ z, ∏ i, τ i (Function.update s j {y | f y z ∈ s j} i) = (∏ i ∈ Finset.univ.erase j, τ i (s i)) * τ j {y | f y z ∈ s j} := by
    intro z
    rw [← Finset.mul_prod_erase Finset.univ _ (Finset.mem_univ j), mul_comm]
    simp only [Function.update_self]
    congr 1
    refine Finset.prod_congr rfl fun i hi => ?_
    rw [Function.update_of_ne (Finset.ne_of_mem_erase hi)]
  simp only [hprod]
  have hsm : Measurable fun z => τ j {y | f y z ∈ s j} := measurable_measure_prodMk_right (hf (hs j))
  rw [lintegral_const_mul _ hsm, ← Finset.mul_prod_erase Finset.univ _ (Finset.mem_univ j), mul_comm]
  simp only [Function.update_self]
  congr 1
  · rw [drawn, Measure.map_apply hf (hs j), Measure.prod_apply_symm (hf (hs j))]
    rfl
  · refine Finset.prod_congr rfl fun i hi => ?_
    rw [Function.update_of_ne (Finset.ne_of_mem_erase hi)]

variable {stp : ℕ → E → Z → E} (hstp : ∀ k, Measurable fun p : E × Z => stp k p.1 p.2) {S T : Set E} (hS : MeasurableSet S) (hT : MeasurableSet T)
include hS hT

theorem turnCtl_meas (K : ℕ) (c : PushCtl) : Measurable (turnCtl S T K n c) := by
  unfold turnCtl
  refine Measurable.ite hS.compl measurable_const (Measurable.ite hT measurable_const ?_)
  split_ifs <;> exact measurable_const

include hstp
theorem turnMove_meas (K : ℕ) : Measurable fun p : (PushCtl × (Fin n → E)) × Z => turnMove stp S T K p.1 p.2 := by
  have key : ∀ c : PushCtl, Measurable fun q : (Fin n → E) × Z => turnMove stp S T K (c, q.1) q.2 := by
    intro c
    unfold turnMove
    by_cases h : c.next < n
    · simp only [h, dif_pos]
      have e : Measurable fun q : (Fin n → E) × Z => (q.1 ⟨c.next, h⟩, q.2) := ((measurable_pi_apply _).comp measurable_fst).prodMk measurable_snd
      have hp : Measurable fun q : (Fin n → E) × Z => stp c.turns (q.1 ⟨c.next, h⟩) q.2 := (hstp c.turns).comp e
      refine ((turnCtl_meas hS hT K c).comp hp).prodMk ?_
      refine measurable_pi_iff.2 fun i => ?_
      by_cases hi : i = ⟨c.next, h⟩
      · subst hi; simp only [Function.update_self]; exact hp
      · simp only [Function.update_of_ne hi]; exact (measurable_pi_apply i).comp measurable_fst
    · simp only [h, dif_neg, not_false_eq_true]
      exact measurable_const.prodMk measurable_fst
  have : Measurable fun p : PushCtl × ((Fin n → E) × Z) => turnMove stp S T K (p.1, p.2.1) p.2.2 :=
    measurable_from_prod_countable_right key
  exact this.comp (MeasurableEquiv.prodAssoc.measurable)

/-! ### the distribution after some steps -/

/-- the state of the search after `m` steps of `n + 1` walkers, if it is not over. -/
def ctlAt (n m : ℕ) : PushCtl := ⟨m / (n + 1), m % (n + 1), none⟩

/-- the walkers after `m` steps: walker `i` has made `(m + n - i) / (n + 1)` steps. -/
noncomputable def walkersAt (stp : ℕ → E → Z → E) (S T : Set E) (μ : Measure Z) (π : Measure E) (n m : ℕ) (i : Fin (n + 1)) : Measure E :=
  under stp S T μ π ((m + (n - i)) / (n + 1))

omit [MeasurableSpace E] [MeasurableSpace Z] hstp hS hT in
theorem turn_of (n m : ℕ) (i : Fin (n + 1)) : (m + (n - i)) / (n + 1) = m / (n + 1) + if i < m % (n + 1) then 1 else 0 := by
  have h1 := Nat.div_add_mod m (n + 1)
  have h2 := Nat.mod_lt m (Nat.succ_pos n)
  have h3 := i.2
  generalize m / (n + 1) = q at *
  generalize m % (n + 1) = r at *
  subst h1
  rw [add_assoc, Nat.mul_add_div (by omega)]
  congr 1
  split_ifs with h
  · rw [Nat.div_eq_iff (by omega)]; omega
  · exact Nat.div_eq_of_lt (by omega)

variable (μ : Measure Z) [IsProbabilityMeasure μ] (π : Measure E) [IsFiniteMeasure π] (K : ℕ)

/-- a step of walkers that are under way. -/
theorem turn_step (m : ℕ) : drawn (turnMove stp S T K) μ ((Measure.pi (walkersAt stp S T μ π n m)).map fun x => (ctlAt n m, x)) =
    (Measure.pi (Function.update (walkersAt stp S T μ π n m) ⟨m % (n + 1), Nat.mod_lt _ (Nat.succ_pos n)⟩
      (drawn (stp (m / (n + 1))) μ (under stp S T μ π (m / (n + 1)))))).map
        fun y => (turnCtl S T K (n + 1) (ctlAt n m) (y ⟨m % (n + 1), Nat.mod_lt _ (Nat.succ_pos n)⟩), y) := by
  have hlt : m % (n + 1) < n + 1 := Nat.mod_lt m (Nat.succ_pos n)
  have hw : walkersAt stp S T μ π n m ⟨m % (n + 1), hlt⟩ = under stp S T μ π (m / (n + 1)) := by
    unfold walkersAt
    rw [turn_of]
    simp
  have hfin : ∀ i, IsFiniteMeasure (walkersAt stp S T μ π n m i) := fun i => by unfold walkersAt; infer_instance
  have hp := pi_step (hstp (m / (n + 1))) μ (walkersAt stp S T μ π n m) ⟨m % (n + 1), hlt⟩
  rw [hw] at hp
  rw [← hp]
  have hcm : Measurable fun x : Fin (n + 1) → E => (ctlAt n m, x) := measurable_const.prodMk measurable_id
  have hstep : Measurable fun q : (Fin (n + 1) → E) × Z => Function.update q.1 ⟨m % (n + 1), hlt⟩ (stp (m / (n + 1)) (q.1 ⟨m % (n + 1), hlt⟩) q.2) := by
    have e : Measurable fun q : (Fin (n + 1) → E) × Z => (q.1 ⟨m % (n + 1), hlt⟩, q.2) := ((measurable_pi_apply _).comp measurable_fst).prodMk measurable_snd
    have hp : Measurable fun q : (Fin (n + 1) → E) × Z => stp (m / (n + 1)) (q.1 ⟨m % (n + 1), hlt⟩) q.2 := (hstp (m / (n + 1))).comp e
    refine measurable_pi_iff.2 fun i => ?_
    by_cases hi : i = ⟨m % (n + 1), hlt⟩
    · subst hi; simp only [Function.update_self]; exact hp
    · simp only [Function.update_of_ne hi]; exact (measurable_pi_apply i).comp measurable_fst
  have hctl : Measurable fun y : Fin (n + 1) → E => (turnCtl S T K (n + 1) (ctlAt n m) (y ⟨m % (n + 1), hlt⟩), y) :=
    ((turnCtl_meas hS hT K _).comp (measurable_pi_apply _)).prodMk measurable_id
  rw [Measure.map_map hctl hstep, drawn]
  have : ((Measure.pi (walkersAt stp S T μ π n m)).map fun x => (ctlAt n m, x)).prod μ =
      ((Measure.pi (walkersAt stp S T μ π n m)).prod μ).map (Prod.map (fun x => (ctlAt n m, x)) id) := by
    rw [← Measure.map_prod_map _ _ hcm measurable_id, Measure.map_id]
  rw [this, Measure.map_map (turnMove_meas hstp hS hT K) (hcm.prodMap measurable_id)]
  congr 1
  funext q
  show turnMove stp S T K (ctlAt n m, q.1) q.2 = _
  unfold turnMove
  rw [dif_pos (show (ctlAt n m).next < n + 1 from hlt)]
  simp only [Function.comp, ctlAt, Function.update_self]

omit [MeasurableSpace Z] hstp hS hT in
theorem turn_on (τ : Fin (n + 1) → Measure E) [∀ i, SigmaFinite (τ i)] (j : Fin (n + 1)) (A : Set E) :
    (Measure.pi τ).restrict {y | y j ∈ A} = Measure.pi (Function.update τ j ((τ j).restrict A)) := by
  have : {y : Fin (n + 1) → E | y j ∈ A} = Set.univ.pi (Function.update (fun _ => Set.univ) j A) := by
    ext y
    simp only [Set.mem_ofPred_eq, Set.mem_pi, Set.mem_univ, true_implies]
    constructor
    · intro h i
      by_cases hi : i = j
      · subst hi; simpa using h
      · simp [Function.update_of_ne hi]
    · intro h
      simpa using h j
  rw [this, Measure.restrict_pi_pi]
  congr 1
  funext i
  by_cases hi : i = j
  · subst hi; simp
  · simp [Function.update_of_ne hi]

omit [MeasurableSpace E] [MeasurableSpace Z] hstp hS hT in
theorem ctl_next (m : ℕ) {p : E} (hpS : p ∈ S) (hpT : p ∉ T) : turnCtl S T K (n + 1) (ctlAt n m) p =
    if m + 1 < K * (n + 1) then ctlAt n (m + 1) else if m % (n + 1) = n then ⟨(m + 1) / (n + 1), 0, some .clock⟩ else ctlAt n (m + 1) := by
  have hlt : m % (n + 1) < n + 1 := Nat.mod_lt m (Nat.succ_pos n)
  have hdm := Nat.div_add_mod m (n + 1)
  unfold turnCtl ctlAt
  rw [if_neg (by simpa using hpS), if_neg hpT]
  by_cases hn : m % (n + 1) = n
  · have e : m + 1 = (m / (n + 1) + 1) * (n + 1) := by rw [hn] at hdm; nlinarith
    have hq : (m + 1) / (n + 1) = m / (n + 1) + 1 := by rw [e]; exact Nat.mul_div_cancel _ (by omega)
    have hr : (m + 1) % (n + 1) = 0 := by rw [e]; exact Nat.mul_mod_left _ _
    have hi : m + 1 < K * (n + 1) ↔ ¬ K ≤ m / (n + 1) + 1 := by
      rw [not_le, e]
      exact Nat.mul_lt_mul_right (by omega)
    by_cases hK : K ≤ m / (n + 1) + 1
    · have h1 : ¬ m + 1 < K * (n + 1) := fun hh => hi.1 hh hK
      simp only [hn, hq, hr, hK, h1, if_true, if_false]
    · have h1 : m + 1 < K * (n + 1) := hi.2 hK
      simp only [hn, hq, hr, hK, h1, if_true, if_false]
  · have hq : (m + 1) / (n + 1) = m / (n + 1) := by
      rw [Nat.div_eq_iff (by omega)]
      have : m / (n + 1) * (n + 1) = (n + 1) * (m / (n + 1)) := Nat.mul_comm _ _
      omega
    have hr : (m + 1) % (n + 1) = m % (n + 1) + 1 := by
      have h2 := Nat.div_add_mod (m + 1) (n + 1)
      rw [hq] at h2
      omega
    rw [if_neg (by simpa using hn)]
    simp only [hq, hr, hn, if_false, ite_self]

omit [MeasurableSpace E] [MeasurableSpace Z] hstp hS hT in
theorem last_of {K n m : ℕ} (h : m < K * (n + 1)) (hlast : ¬ m + 1 < K * (n + 1)) : m % (n + 1) = n := by
  have e : m + 1 = K * (n + 1) := by omega
  obtain ⟨K', rfl⟩ : ∃ K', K = K' + 1 := ⟨K - 1, by cases K <;> omega⟩
  have e2 : m = n + K' * (n + 1) := by
    have : (K' + 1) * (n + 1) = K' * (n + 1) + (n + 1) := by ring
    omega
  rw [e2, Nat.add_mul_mod_self_right]
  exact Nat.mod_eq_of_lt (by omega)

open Classical in
omit [MeasurableSpace E] [MeasurableSpace Z] hstp hS hT in
theorem ctl_over (c : PushCtl) {p : E} (h : ¬ (p ∈ S ∧ p ∉ T)) : turnCtl S T K (n + 1) c p = { c with over := some (if p ∈ S then .found else .tooFar) } := by
  unfold turnCtl
  by_cases hpS : p ∈ S
  · have hpT : p ∈ T := by by_contra hT; exact h ⟨hpS, hT⟩
    simp [hpS, hpT]
  · simp [hpS]

/-- the walkers after `m` steps and the step of the walker whose turn it is, wherever it leads. -/
noncomputable def stepped (stp : ℕ → E → Z → E) (S T : Set E) (μ : Measure Z) (π : Measure E) (n m : ℕ) (i : Fin (n + 1)) : Measure E :=
  Function.update (walkersAt stp S T μ π n m) ⟨m % (n + 1), Nat.mod_lt _ (Nat.succ_pos n)⟩ (drawn (stp (m / (n + 1))) μ (under stp S T μ π (m / (n + 1)))) i

omit hstp hS hT in
instance stepped_finite (m : ℕ) (i : Fin (n + 1)) : IsFiniteMeasure (stepped stp S T μ π n m i) := by
  unfold stepped
  by_cases h : i = ⟨m % (n + 1), Nat.mod_lt _ (Nat.succ_pos n)⟩
  · subst h; simp only [Function.update_self]; exact drawn_finite μ _
  · simp only [Function.update_of_ne h]; unfold walkersAt; infer_instance

omit hstp hS hT [IsProbabilityMeasure μ] [IsFiniteMeasure π] in
theorem walkers_next (m : ℕ) : Function.update (stepped stp S T μ π n m) ⟨m % (n + 1), Nat.mod_lt _ (Nat.succ_pos n)⟩
    ((stepped stp S T μ π n m ⟨m % (n + 1), Nat.mod_lt _ (Nat.succ_pos n)⟩).restrict (S \ T)) = walkersAt stp S T μ π n (m + 1) := by
  have hlt : m % (n + 1) < n + 1 := Nat.mod_lt m (Nat.succ_pos n)
  have hdm := Nat.div_add_mod m (n + 1)
  funext i
  by_cases h : i = ⟨m % (n + 1), Nat.mod_lt _ (Nat.succ_pos n)⟩
  · have hi : (m + 1 + (n - i)) / (n + 1) = m / (n + 1) + 1 := by
      have hv : i.1 = m % (n + 1) := by rw [h]
      rw [Nat.div_eq_iff (by omega), hv]
      have : (m / (n + 1) + 1) * (n + 1) = (n + 1) * (m / (n + 1)) + (n + 1) := by ring
      omega
    subst h
    simp only [Function.update_self, stepped]
    unfold walkersAt
    rw [hi]
    rfl
  · have hv : i.1 ≠ m % (n + 1) := fun hh => h (Fin.ext hh)
    simp only [Function.update_of_ne h, stepped]
    unfold walkersAt
    congr 1
    have h3 := i.2
    have e1 := turn_of n m i
    rw [e1]
    symm
    rw [Nat.div_eq_iff (by omega)]
    split_ifs with hh
    · have : (m / (n + 1) + 1) * (n + 1) = (n + 1) * (m / (n + 1)) + (n + 1) := by ring
      have : i.1 < m % (n + 1) := hh
      omega
    · have : (m / (n + 1) + 0) * (n + 1) = (n + 1) * (m / (n + 1)) := by ring
      have : ¬ i.1 < m % (n + 1) := hh
      omega

/-- the walkers that are under way after `m` steps. -/
theorem turn_iterate (hK : 1 ≤ K) (m : ℕ) :
    (fun κ => (drawn (turnMove stp S T K) μ κ).restrict {x : PushCtl × (Fin (n + 1) → E) | x.1.over = none})^[m]
      ((Measure.pi fun _ => π).map fun y => ((⟨0, 0, none⟩ : PushCtl), y)) =
    if m < K * (n + 1) then (Measure.pi (walkersAt stp S T μ π n m)).map fun x => (ctlAt n m, x) else 0 := by
  induction m with
  | zero =>
    rw [if_pos (by positivity)]
    simp only [Function.iterate_zero, id]
    congr 1
    · funext x; simp [ctlAt]
    · congr 1
      funext i
      unfold walkersAt
      rw [turn_of]
      simp [under]
  | succ m ih =>
    rw [Function.iterate_succ_apply', ih]
    have hon : MeasurableSet {x : PushCtl × (Fin (n + 1) → E) | x.1.over = none} := measurable_fst (MeasurableSet.of_discrete (s := {c : PushCtl | c.over = none}))
    by_cases h : m < K * (n + 1)
    · rw [if_pos h, turn_step hstp hS hT]
      have hlt : m % (n + 1) < n + 1 := Nat.mod_lt m (Nat.succ_pos n)
      have hctl : Measurable fun y : Fin (n + 1) → E => (turnCtl S T K (n + 1) (ctlAt n m) (y ⟨m % (n + 1), hlt⟩), y) :=
        ((turnCtl_meas hS hT K _).comp (measurable_pi_apply _)).prodMk measurable_id
      rw [Measure.restrict_map hctl hon]
      have hdm := Nat.div_add_mod m (n + 1)
      by_cases hlast : m + 1 < K * (n + 1)
      · rw [if_pos hlast]
        have hpre : (fun y : Fin (n + 1) → E => (turnCtl S T K (n + 1) (ctlAt n m) (y ⟨m % (n + 1), hlt⟩), y)) ⁻¹' {x | x.1.over = none} =
            {y | y ⟨m % (n + 1), hlt⟩ ∈ S \ T} := by
          ext y
          simp only [Set.mem_preimage, Set.mem_ofPred_eq, Set.mem_sdiff]
          by_cases hy : y ⟨m % (n + 1), hlt⟩ ∈ S ∧ y ⟨m % (n + 1), hlt⟩ ∉ T
          · rw [ctl_next K m hy.1 hy.2, if_pos hlast]
            simp [ctlAt, hy]
          · rw [ctl_over K _ hy]
            simp [hy]
        have hms : MeasurableSet {y : Fin (n + 1) → E | y ⟨m % (n + 1), hlt⟩ ∈ S \ T} := measurable_pi_apply _ (hS.diff hT)
        rw [hpre]
        have hr := turn_on (stepped stp S T μ π n m) ⟨m % (n + 1), hlt⟩ (S \ T)
        have hw := walkers_next (stp := stp) (S := S) (T := T) (n := n) μ π m
        rw [hw] at hr
        show ((Measure.pi (stepped stp S T μ π n m)).restrict {y | y ⟨m % (n + 1), hlt⟩ ∈ S \ T}).map _ = _
        rw [← hr]
        refine Measure.map_congr ?_
        filter_upwards [ae_restrict_mem hms] with y hy
        rw [ctl_next K m hy.1 hy.2, if_pos hlast]
      · rw [if_neg hlast]
        have hpre : (fun y : Fin (n + 1) → E => (turnCtl S T K (n + 1) (ctlAt n m) (y ⟨m % (n + 1), hlt⟩), y)) ⁻¹' {x | x.1.over = none} = ∅ := by
          ext y
          simp only [Set.mem_preimage, Set.mem_ofPred_eq, Set.mem_empty_iff_false, iff_false]
          by_cases hy : y ⟨m % (n + 1), hlt⟩ ∈ S ∧ y ⟨m % (n + 1), hlt⟩ ∉ T
          · have hmn : m % (n + 1) = n := last_of h hlast
            rw [ctl_next K m hy.1 hy.2, if_neg hlast, if_pos hmn]
            simp
          · rw [ctl_over K _ hy]
            simp
        rw [hpre]
        simp
    · rw [if_neg h, if_neg (by omega)]
      simp [drawn]

omit hstp hS hT in
theorem steps_ahead (a b : ℝ≥0∞) (n r : ℕ) (hr : r ≤ n) : ∏ i : Fin n, (if i.1 < r then a else b) = a ^ r * b ^ (n - r) := by
  rw [Fin.prod_univ_eq_prod_range (fun i => if i < r then a else b) n, ← Nat.add_sub_cancel' hr, Finset.prod_range_add]
  congr 1
  · rw [Finset.prod_congr rfl (g := fun _ => a) fun i hi => if_pos (Finset.mem_range.1 hi)]; simp
  · rw [Finset.prod_congr rfl (g := fun _ => b) fun i _ => if_neg (by omega)]; simp

/-- the chance that the step just made leads to `A`. -/
theorem stepped_mass (m : ℕ) (A : Set E) :
    Measure.pi (stepped stp S T μ π n m) {y | y ⟨m % (n + 1), Nat.mod_lt _ (Nat.succ_pos n)⟩ ∈ A} =
      drawn (stp (m / (n + 1))) μ (under stp S T μ π (m / (n + 1))) A *
        (under stp S T μ π (m / (n + 1) + 1) Set.univ ^ (m % (n + 1)) * under stp S T μ π (m / (n + 1)) Set.univ ^ (n - m % (n + 1))) := by
  have hlt : m % (n + 1) < n + 1 := Nat.mod_lt m (Nat.succ_pos n)
  have hset : {y : Fin (n + 1) → E | y ⟨m % (n + 1), hlt⟩ ∈ A} = Set.univ.pi (Function.update (fun _ => Set.univ) ⟨m % (n + 1), hlt⟩ A) := by
    ext y
    simp only [Set.mem_ofPred_eq, Set.mem_pi, Set.mem_univ, true_implies]
    constructor
    · intro h i
      by_cases hi : i = ⟨m % (n + 1), hlt⟩
      · subst hi; simpa using h
      · simp [Function.update_of_ne hi]
    · intro h
      simpa using h ⟨m % (n + 1), hlt⟩
  rw [hset, Measure.pi_pi, Fin.prod_univ_succAbove _ ⟨m % (n + 1), hlt⟩]
  congr 1
  · simp [stepped]
  · rw [← steps_ahead _ _ n _ (by omega)]
    refine Finset.prod_congr rfl fun i _ => ?_
    have hne : (⟨m % (n + 1), hlt⟩ : Fin (n + 1)).succAbove i ≠ ⟨m % (n + 1), hlt⟩ := Fin.succAbove_ne _ _
    simp only [stepped, Function.update_of_ne hne]
    unfold walkersAt
    rw [turn_of]
    have hiff : ((⟨m % (n + 1), hlt⟩ : Fin (n + 1)).succAbove i).1 < m % (n + 1) ↔ i.1 < m % (n + 1) := by
      unfold Fin.succAbove
      split_ifs with hc
      · rfl
      · simp only [Fin.lt_def, Fin.val_castSucc, not_lt] at hc
        simp only [Fin.val_succ]
        omega
    split_ifs with h1 h2 h2
    · rfl
    · exact absurd (hiff.1 h1) h2
    · exact absurd (hiff.2 h2) h1
    · rfl

/-- where a search ends. -/
def endsAt (S T : Set E) : Ending → Set E
  | .found => S ∩ T
  | .tooFar => Sᶜ
  | .clock => S \ T

/-- whether the search can have the outcome `z` after `m + 1` steps. -/
def endsWith (K n m : ℕ) (z : ℕ × Ending) : Prop := z.2 ≠ .clock ∧ z.1 = m / (n + 1) + 1 ∨ z.2 = .clock ∧ z.1 = K ∧ m + 1 = K * (n + 1)

omit [MeasurableSpace E] [MeasurableSpace Z] hstp hS hT in
theorem ends_iff {m : ℕ} (hm : m < K * (n + 1)) (z : ℕ × Ending) (y : Fin (n + 1) → E) (j : Fin (n + 1)) :
    ((turnCtl S T K (n + 1) (ctlAt n m) (y j)).over ≠ none ∧ turnOutcome (turnCtl S T K (n + 1) (ctlAt n m) (y j), y) = z) ↔
      endsWith K n m z ∧ y j ∈ endsAt S T z.2 := by
  classical
  obtain ⟨t, e⟩ := z
  unfold endsWith
  by_cases hy : y j ∈ S ∧ y j ∉ T
  · rw [ctl_next K m hy.1 hy.2]
    by_cases hlast : m + 1 < K * (n + 1)
    · rw [if_pos hlast]
      simp only [ctlAt, ne_eq, not_true_eq_false, false_and, false_iff, not_and]
      rintro (⟨h1, -⟩ | ⟨-, -, h2⟩)
      · cases e
        · intro h; exact hy.2 h.2
        · intro h; exact h hy.1
        · exact absurd rfl h1
      · omega
    · have hmn := last_of hm hlast
      rw [if_neg hlast, if_pos hmn]
      have he : (m + 1) / (n + 1) = K := by
        have : m + 1 = K * (n + 1) := by omega
        rw [this]; exact Nat.mul_div_cancel _ (by omega)
      have he' : m + 1 = K * (n + 1) := by omega
      simp only [turnOutcome, he', Option.getD_some, if_true, Prod.mk.injEq, and_true]
      cases e <;> simp [endsAt, hy]
      tauto
  · rw [ctl_over K _ hy]
    by_cases hpS : y j ∈ S
    · have hpT : y j ∈ T := by by_contra hT; exact hy ⟨hpS, hT⟩
      cases e <;> simp [endsAt, hpS, hpT, turnOutcome, ctlAt, eq_comm]
    · cases e <;> simp [endsAt, hpS, turnOutcome, ctlAt, eq_comm]

/-- the distribution of the outcome of walkers that take turns. -/
noncomputable def turnLaw (stp : ℕ → E → Z → E) (S T : Set E) (K n : ℕ) (μ : Measure Z) (ψ : Measure (Fin n → E)) : Measure (ℕ × Ending) :=
  endLaw (fun y => ((⟨0, 0, none⟩ : PushCtl), y)) (turnMove stp S T K) {x : PushCtl × (Fin n → E) | x.1.over = none} turnOutcome μ ψ

omit [MeasurableSpace Z] hstp hS hT in
theorem turnOutcome_meas : Measurable (turnOutcome : PushCtl × (Fin n → E) → ℕ × Ending) :=
  (measurable_from_top (f := fun c : PushCtl => (if c.over = some .clock then c.turns else c.turns + 1, c.over.getD .clock))).comp measurable_fst

open Classical in
theorem turn_masses (hK : 1 ≤ K) (z : ℕ × Ending) : turnLaw stp S T K (n + 1) μ (Measure.pi fun _ => π) {z} =
    ∑' m, if m < K * (n + 1) ∧ endsWith K n m z then drawn (stp (m / (n + 1))) μ (under stp S T μ π (m / (n + 1))) (endsAt S T z.2) *
        (under stp S T μ π (m / (n + 1) + 1) Set.univ ^ (m % (n + 1)) * under stp S T μ π (m / (n + 1)) Set.univ ^ (n - m % (n + 1))) else 0 := by
  have hon : MeasurableSet {x : PushCtl × (Fin (n + 1) → E) | x.1.over = none} := measurable_fst (MeasurableSet.of_discrete (s := {c : PushCtl | c.over = none}))
  unfold turnLaw endLaw
  rw [Measure.sum_apply _ (.singleton z)]
  congr 1
  funext m
  rw [turn_iterate hstp hS hT μ π K hK m]
  by_cases hm : m < K * (n + 1)
  · rw [if_pos hm, turn_step hstp hS hT]
    have hlt : m % (n + 1) < n + 1 := Nat.mod_lt m (Nat.succ_pos n)
    have hctl : Measurable fun y : Fin (n + 1) → E => (turnCtl S T K (n + 1) (ctlAt n m) (y ⟨m % (n + 1), hlt⟩), y) :=
      ((turnCtl_meas hS hT K _).comp (measurable_pi_apply _)).prodMk measurable_id
    rw [Measure.map_apply turnOutcome_meas (.singleton z), Measure.restrict_apply (turnOutcome_meas (.singleton z)), Measure.map_apply hctl
      ((turnOutcome_meas (.singleton z)).inter hon.compl)]
    have hset : (fun y : Fin (n + 1) → E => (turnCtl S T K (n + 1) (ctlAt n m) (y ⟨m % (n + 1), hlt⟩), y)) ⁻¹'
        (turnOutcome ⁻¹' {z} ∩ {x : PushCtl × (Fin (n + 1) → E) | x.1.over = none}ᶜ) =
        if endsWith K n m z then {y | y ⟨m % (n + 1), hlt⟩ ∈ endsAt S T z.2} else ∅ := by
      ext y
      have h := ends_iff (S := S) (T := T) K hm z y ⟨m % (n + 1), hlt⟩
      by_cases he : endsWith K n m z
      · rw [if_pos he]
        simp only [he, true_and] at h
        exact ⟨fun hh => h.1 ⟨hh.2, hh.1⟩, fun hh => ⟨(h.2 hh).2, (h.2 hh).1⟩⟩
      · rw [if_neg he]
        simp only [he, false_and, iff_false] at h
        exact ⟨fun hh => h ⟨hh.2, hh.1⟩, fun hh => hh.elim⟩
    rw [hset]
    by_cases he : endsWith K n m z
    · rw [if_pos he, if_pos ⟨hm, he⟩]
      exact stepped_mass hstp hS hT μ π m _
    · rw [if_neg he, if_neg fun hh => he hh.2]
      simp
  · rw [if_neg hm, if_neg fun hh => hm hh.1]
    simp [drawn]

/-- a search of several walkers is found or left in turn `k`. -/
theorem turn_ends (hK : 1 ≤ K) {k : ℕ} (hk : k < K) {e : Ending} (he : e ≠ .clock) :
    turnLaw stp S T K (n + 1) μ (Measure.pi fun _ => π) {(k + 1, e)} = drawn (stp k) μ (under stp S T μ π k) (endsAt S T e) *
      ∑ j ∈ Finset.range (n + 1), under stp S T μ π (k + 1) Set.univ ^ j * under stp S T μ π k Set.univ ^ (n - j) := by
  classical
  rw [turn_masses hstp hS hT μ π K hK, tsum_eq_sum (s := (Finset.range (n + 1)).map (addLeftEmbedding (k * (n + 1))))]
  · rw [Finset.sum_map, Finset.mul_sum]
    refine Finset.sum_congr rfl fun j hj => ?_
    have hj' : j < n + 1 := Finset.mem_range.1 hj
    have hd : (k * (n + 1) + j) / (n + 1) = k := by
      rw [Nat.add_comm, Nat.add_mul_div_right _ _ (by omega), Nat.div_eq_of_lt hj', Nat.zero_add]
    have hr : (k * (n + 1) + j) % (n + 1) = j := by rw [Nat.add_comm, Nat.add_mul_mod_self_right, Nat.mod_eq_of_lt hj']
    have hle : (k + 1) * (n + 1) ≤ K * (n + 1) := Nat.mul_le_mul_right _ hk
    have hexp : (k + 1) * (n + 1) = k * (n + 1) + (n + 1) := by ring
    have hc : k * (n + 1) + j < K * (n + 1) ∧ endsWith K n (k * (n + 1) + j) (k + 1, e) := ⟨by omega, .inl ⟨he, by rw [hd]⟩⟩
    simp only [addLeftEmbedding_apply]
    rw [if_pos hc, hd, hr]
  · intro m hm
    refine if_neg ?_
    rintro ⟨-, ⟨-, h⟩ | ⟨h, -⟩⟩
    · refine hm (Finset.mem_map.2 ⟨m % (n + 1), Finset.mem_range.2 (Nat.mod_lt _ (Nat.succ_pos n)), ?_⟩)
      have : k = m / (n + 1) := by simpa using h
      rw [addLeftEmbedding_apply, this, Nat.mul_comm]
      exact Nat.div_add_mod m (n + 1)
    · exact he h

/-- a search of several walkers is given up. -/
theorem turn_given_up (hK : 1 ≤ K) : turnLaw stp S T K (n + 1) μ (Measure.pi fun _ => π) {(K, .clock)} = under stp S T μ π K Set.univ ^ (n + 1) := by
  classical
  obtain ⟨K, rfl⟩ : ∃ K', K = K' + 1 := ⟨K - 1, by omega⟩
  have hexp : (K + 1) * (n + 1) = K * (n + 1) + (n + 1) := by ring
  have hd : (K * (n + 1) + n) / (n + 1) = K := by
    rw [Nat.add_comm, Nat.add_mul_div_right _ _ (by omega), Nat.div_eq_of_lt (by omega), Nat.zero_add]
  have hr : (K * (n + 1) + n) % (n + 1) = n := by rw [Nat.add_comm, Nat.add_mul_mod_self_right, Nat.mod_eq_of_lt (by omega)]
  rw [turn_masses hstp hS hT μ π _ hK, tsum_eq_single (K * (n + 1) + n)]
  · rw [if_pos ⟨by omega, .inr ⟨rfl, rfl, by omega⟩⟩, hd, hr, Nat.sub_self, pow_zero, mul_one, pow_succ, mul_comm]
    congr 1
    rw [under, Measure.restrict_apply MeasurableSet.univ, Set.univ_inter]
    rfl
  · intro m hm
    refine if_neg ?_
    rintro ⟨-, ⟨h, -⟩ | ⟨-, -, h⟩⟩
    · exact h rfl
    · omega

/-- nothing else can happen. -/
theorem turn_else (hK : 1 ≤ K) {z : ℕ × Ending} (h1 : z ≠ (K, .clock)) (h2 : z.2 = .clock ∨ z.1 = 0 ∨ K < z.1) :
    turnLaw stp S T K (n + 1) μ (Measure.pi fun _ => π) {z} = 0 := by
  classical
  rw [turn_masses hstp hS hT μ π K hK, ENNReal.tsum_eq_zero]
  intro m
  refine if_neg ?_
  rintro ⟨hm, ⟨h3, h4⟩ | ⟨h3, h4, -⟩⟩
  · have hdm := Nat.div_lt_of_lt_mul (show m < (n + 1) * K by rwa [Nat.mul_comm])
    rcases h2 with h2 | h2 | h2
    · exact h3 h2
    · rw [h4] at h2
      exact absurd h2 (Nat.succ_ne_zero _)
    · rw [h4] at h2
      exact absurd h2 (by omega)
  · exact h1 (Prod.ext h4 h3)

theorem under_splits (k : ℕ) : under stp S T μ π k Set.univ = drawn (stp k) μ (under stp S T μ π k) (endsAt S T .found) +
    drawn (stp k) μ (under stp S T μ π k) (endsAt S T .tooFar) + under stp S T μ π (k + 1) Set.univ := by
  have hu : drawn (stp k) μ (under stp S T μ π k) Set.univ = under stp S T μ π k Set.univ := by
    rw [drawn, Measure.map_apply (hstp k) MeasurableSet.univ, Set.preimage_univ, ← Set.univ_prod_univ, Measure.prod_prod, measure_univ (μ := μ), mul_one]
  have h1 : under stp S T μ π (k + 1) Set.univ = drawn (stp k) μ (under stp S T μ π k) (S \ T) := by
    rw [under, Measure.restrict_apply MeasurableSet.univ, Set.univ_inter]
  rw [h1, ← hu, ← measure_add_measure_compl hS, ← measure_inter_add_sdiff S hT]
  simp only [endsAt]
  ring
end

/-! ### the race -/

theorem null_of {ρ : Measure (ℕ × Ending)} {s : Set (ℕ × Ending)} (h : ∀ z ∈ s, ρ {z} = 0) : ρ s = 0 := by
  rw [← Set.biUnion_of_singleton s]
  exact (measure_biUnion_null_iff s.to_countable).2 h

/-- A race of independent searches. -/
theorem firstEnd_mass (ρ : Measure (ℕ × Ending)) [IsFiniteMeasure ρ] (y : ℕ × Ending) (n : ℕ) :
    (Measure.pi fun _ : Fin (n + 1) => ρ) {ys | firstEnd n ys = y} =
      ρ {y} * ∑ j ∈ Finset.range (n + 1), ρ {z | ¬ notAfter z y} ^ j * ρ {z | notAfter y z} ^ (n - j) := by
  have htr : ∀ a b c : ℕ × Ending, notAfter a b → notAfter b c → notAfter a c := by
    intro a b c h1 h2
    unfold notAfter at *
    rcases h1 with h1 | ⟨h1, h1'⟩ <;> rcases h2 with h2 | ⟨h2, h2'⟩
    · exact .inl (by omega)
    · exact .inl (by omega)
    · exact .inl (by omega)
    · exact .inr ⟨by omega, fun h => h2' (h1' h)⟩
  have htot : ∀ a b : ℕ × Ending, ¬ notAfter a b → notAfter b a := by
    intro a b h
    unfold notAfter at *
    push Not at h
    obtain ⟨h1, h2⟩ := h
    rcases Nat.lt_or_ge b.1 a.1 with h3 | h3
    · exact .inl h3
    · have := h2 (by omega)
      exact .inr ⟨by omega, fun _ => this.1⟩
  have hle : ∀ (n : ℕ) (ys : Fin (n + 1) → ℕ × Ending) (a : ℕ × Ending), notAfter a (firstEnd n ys) ↔ ∀ i, notAfter a (ys i) := by
    intro n
    induction n with
    | zero => intro ys a; simp [firstEnd]
    | succ n ih =>
      intro ys a
      rw [Fin.forall_fin_succ, ← ih (fun i => ys i.succ), firstEnd]
      split_ifs with h
      · exact ⟨fun h1 => ⟨h1, htr _ _ _ h1 h⟩, fun h1 => h1.1⟩
      · exact ⟨fun h1 => ⟨htr _ _ _ h1 (htot _ _ h), h1⟩, fun h1 => h1.2⟩
  induction n with
  | zero =>
    have : {ys : Fin 1 → ℕ × Ending | firstEnd 0 ys = y} = Set.univ.pi fun _ => {y} := by
      ext ys
      simp [firstEnd]
    rw [this, Measure.pi_pi]
    simp
  | succ n ih =>
    have h1 : MeasurePreserving (MeasurableEquiv.piFinSuccAbove (fun _ : Fin (n + 2) => ℕ × Ending) 0) (Measure.pi fun _ => ρ)
      (ρ.prod (Measure.pi fun _ : Fin (n + 1) => ρ)) := by
        simpa using measurePreserving_piFinSuccAbove (fun _ : Fin (n + 2) => ρ) 0
    have e : {ys : Fin (n + 2) → ℕ × Ending | firstEnd (n + 1) ys = y} = MeasurableEquiv.piFinSuccAbove (fun _ : Fin (n + 2) => ℕ × Ending) 0 ⁻¹'
        (({y} ×ˢ (Set.univ.pi fun _ : Fin (n + 1) => {z : ℕ × Ending | notAfter y z})) ∪ ({z | ¬ notAfter z y} ×ˢ {ys | firstEnd n ys = y})) := by
      ext ys
      have hr : (MeasurableEquiv.piFinSuccAbove (fun _ : Fin (n + 2) => ℕ × Ending) 0) ys = (ys 0, fun i => ys i.succ) := rfl
      simp only [Set.mem_ofPred_eq, Set.mem_preimage, hr, Set.mem_union, Set.mem_prod, Set.mem_singleton_iff, Set.mem_pi, Set.mem_univ, true_implies]
      rw [← hle n (fun i => ys i.succ), firstEnd]
      split_ifs with h
      · constructor
        · rintro rfl; exact .inl ⟨rfl, h⟩
        · rintro (⟨h1, -⟩ | ⟨h1, h2⟩)
          · exact h1
          · rw [h2] at h; exact absurd h h1
      · constructor
        · intro h1; exact .inr ⟨by rw [h1] at h; exact h, h1⟩
        · rintro (⟨h1, h2⟩ | ⟨-, h2⟩)
          · rw [h1] at h; exact absurd h2 h
          · exact h2
    have hd : Disjoint ({y} ×ˢ (Set.univ.pi fun _ : Fin (n + 1) => {z : ℕ × Ending | notAfter y z})) ({z : ℕ × Ending | ¬ notAfter z y} ×ˢ {ys | firstEnd n ys = y}) := by
      rw [Set.disjoint_left]
      rintro ⟨a, b⟩ ⟨h1, -⟩ ⟨h2, -⟩
      rw [Set.mem_singleton_iff.1 h1] at h2
      exact h2 (.inr ⟨rfl, fun h => h⟩)
    have hm : MeasurableSet ({z : ℕ × Ending | ¬ notAfter z y} ×ˢ {ys : Fin (n + 1) → ℕ × Ending | firstEnd n ys = y}) := .of_discrete
    have hm' : MeasurableSet ({y} ×ˢ (Set.univ.pi fun _ : Fin (n + 1) => {z : ℕ × Ending | notAfter y z})) := .of_discrete
    rw [e, h1.measure_preimage (hm'.union hm).nullMeasurableSet, measure_union hd hm, Measure.prod_prod, Measure.prod_prod, Measure.pi_pi, ih,
      Finset.sum_range_succ' _ (n + 1)]
    simp only [Finset.prod_const, Finset.card_univ, Fintype.card_fin, pow_zero, one_mul, Nat.sub_zero, Nat.add_sub_add_right]
    rw [mul_add, add_comm]
    congr 1
    rw [Finset.mul_sum, Finset.mul_sum, Finset.mul_sum]
    refine Finset.sum_congr rfl fun j _ => ?_
    rw [pow_succ]
    ring

section
variable {E Z : Type} [MeasurableSpace E] [MeasurableSpace Z] {stp : ℕ → E → Z → E} (hstp : ∀ k, Measurable fun p : E × Z => stp k p.1 p.2) {S T : Set E}
  (hS : MeasurableSet S) (hT : MeasurableSet T) (μ : Measure Z) [IsProbabilityMeasure μ] (π : Measure E) [IsFiniteMeasure π] (K : ℕ)
include hstp hS hT

/-- one walker is under way after `k` turns. -/
theorem one_after (hK : 1 ≤ K) {k : ℕ} (hk : k ≤ K) :
    turnLaw stp S T K 1 μ (Measure.pi fun _ => π) {z | k < z.1 ∨ k = z.1 ∧ z.2 = .clock} = under stp S T μ π k Set.univ := by
  set ρ := turnLaw stp S T K 1 μ (Measure.pi fun _ => π) with hρ
  induction hk using Nat.decreasingInduction with
  | self =>
    have h0 : ρ {z : ℕ × Ending | K < z.1} = 0 := null_of fun z hz => turn_else hstp hS hT μ π K hK (n := 0) (fun h => by rw [h] at hz; exact lt_irrefl K hz) (.inr (.inr hz))
    have hset : {z : ℕ × Ending | K < z.1 ∨ K = z.1 ∧ z.2 = .clock} = {z | K < z.1} ∪ {(K, .clock)} := by
      ext z
      simp only [Set.mem_ofPred_eq, Set.mem_union, Set.mem_singleton_iff, Prod.ext_iff]
      constructor
      · rintro (h | ⟨h1, h2⟩)
        · exact .inl h
        · exact .inr ⟨h1.symm, h2⟩
      · rintro (h | ⟨h1, h2⟩)
        · exact .inl h
        · exact .inr ⟨h1.symm, h2⟩
    rw [hset, measure_union (by rw [Set.disjoint_singleton_right]; exact lt_irrefl K) .of_discrete, h0, zero_add, hρ,
      turn_given_up hstp hS hT μ π K hK (n := 0), Nat.zero_add, pow_one]
  | of_succ k hk ih =>
    have h0 : ρ {((k : ℕ), Ending.clock)} = 0 := turn_else hstp hS hT μ π K hK (n := 0) (fun h => by have := congrArg Prod.fst h; simp only at this; omega) (.inl rfl)
    have hset : {z : ℕ × Ending | k < z.1 ∨ k = z.1 ∧ z.2 = .clock} =
        {(k, .clock)} ∪ ({(k + 1, .found)} ∪ ({(k + 1, .tooFar)} ∪ {z | k + 1 < z.1 ∨ k + 1 = z.1 ∧ z.2 = .clock})) := by
      ext ⟨t, e⟩
      simp only [Set.mem_ofPred_eq, Set.mem_union, Set.mem_singleton_iff, Prod.mk.injEq]
      cases e <;> simp <;> omega
    rw [hset, measure_union (by simp) .of_discrete, measure_union (by simp) .of_discrete, measure_union (by simp) .of_discrete, ih, h0, zero_add, hρ,
      turn_ends hstp hS hT μ π K hK (n := 0) hk (by simp), turn_ends hstp hS hT μ π K hK (n := 0) hk (by simp), under_splits hstp hS hT μ π k]
    simp [add_assoc]

theorem one_total (hK : 1 ≤ K) : turnLaw stp S T K 1 μ (Measure.pi fun _ => π) Set.univ = π Set.univ := by
  have h := one_after hstp hS hT μ π K hK (Nat.zero_le K)
  have h0 : turnLaw stp S T K 1 μ (Measure.pi fun _ => π) {z : ℕ × Ending | 0 < z.1 ∨ 0 = z.1 ∧ z.2 = .clock}ᶜ = 0 := by
    refine null_of fun z hz => turn_else hstp hS hT μ π K hK (n := 0) (fun h => ?_) (.inr (.inl ?_))
    · subst h
      exact hz (.inl (by show 0 < K; omega))
    · by_contra hne
      exact hz (.inl (by omega))
  rw [← measure_add_measure_compl (s := {z : ℕ × Ending | 0 < z.1 ∨ 0 = z.1 ∧ z.2 = .clock}) .of_discrete, h0, add_zero, h]
  rfl

/-- Walkers that take turns have the outcome of the one of independent walkers that ends first. -/
theorem turn_race (hK : 1 ≤ K) (n : ℕ) : turnLaw stp S T K (n + 1) μ (Measure.pi fun _ => π) =
    (Measure.pi fun _ : Fin (n + 1) => turnLaw stp S T K 1 μ (Measure.pi fun _ => π)).map (firstEnd n) := by
  have hfin : IsFiniteMeasure (turnLaw stp S T K 1 μ (Measure.pi fun _ => π)) := ⟨by rw [one_total hstp hS hT μ π K hK]; exact measure_lt_top π _⟩
  refine Measure.ext_of_singleton fun z => ?_
  rw [Measure.map_apply .of_discrete (.singleton z)]
  show _ = (Measure.pi fun _ : Fin (n + 1) => turnLaw stp S T K 1 μ (Measure.pi fun _ => π)) {ys | firstEnd n ys = z}
  rw [firstEnd_mass]
  have hz : z = (K, .clock) ∨ (z.2 = .clock ∨ z.1 = 0 ∨ K < z.1) ∧ z ≠ (K, .clock) ∨ ∃ k e, k < K ∧ e ≠ Ending.clock ∧ z = (k + 1, e) := by
    by_cases h1 : z = (K, .clock)
    · exact .inl h1
    · by_cases h2 : z.2 = .clock ∨ z.1 = 0 ∨ K < z.1
      · exact .inr (.inl ⟨h2, h1⟩)
      · push Not at h2
        exact .inr (.inr ⟨z.1 - 1, z.2, by omega, h2.1, Prod.ext (by show z.1 = z.1 - 1 + 1; omega) rfl⟩)
  rcases hz with rfl | ⟨h2, h1⟩ | ⟨k, e, hk, he, rfl⟩
  · have h0 : turnLaw stp S T K 1 μ (Measure.pi fun _ => π) {z : ℕ × Ending | ¬ notAfter z (K, .clock)} = 0 := by
      refine null_of fun z hz => turn_else hstp hS hT μ π K hK (n := 0) (fun h => ?_) (.inr (.inr ?_))
      · rw [h] at hz; exact hz (.inr ⟨rfl, fun h => h⟩)
      · by_contra hc
        refine hz ?_
        rcases Nat.lt_or_ge z.1 K with h | h
        · exact .inl h
        · exact .inr ⟨by simp only at *; omega, fun _ => rfl⟩
    have h1 : {z : ℕ × Ending | notAfter (K, .clock) z} = {z | K < z.1 ∨ K = z.1 ∧ z.2 = .clock} := by
      ext z
      simp [notAfter]
    rw [h0, h1, one_after hstp hS hT μ π K hK le_rfl, turn_given_up hstp hS hT μ π K hK (n := 0), turn_given_up hstp hS hT μ π K hK (n := n),
      Finset.sum_range_succ']
    simp [pow_succ, mul_comm]
  · rw [turn_else hstp hS hT μ π K hK h1 h2, turn_else hstp hS hT μ π K hK (n := 0) h1 h2, zero_mul]
  · have h0 : {z : ℕ × Ending | ¬ notAfter z (k + 1, e)} = {z | k + 1 < z.1 ∨ k + 1 = z.1 ∧ z.2 = .clock} := by
      ext ⟨t, e'⟩
      simp only [notAfter, Set.mem_ofPred_eq]
      cases e' <;> cases e <;> simp at he ⊢ <;> omega
    have h1 : {z : ℕ × Ending | k < z.1 ∨ k = z.1 ∧ z.2 = .clock} = {((k : ℕ), Ending.clock)} ∪ {z | notAfter (k + 1, e) z} := by
      ext ⟨t, e'⟩
      simp only [notAfter, Set.mem_ofPred_eq, Set.mem_union, Set.mem_singleton_iff, Prod.mk.injEq]
      cases e' <;> cases e <;> simp at he ⊢ <;> omega
    have h2 : turnLaw stp S T K 1 μ (Measure.pi fun _ => π) {z | notAfter (k + 1, e) z} = under stp S T μ π k Set.univ := by
      rw [← one_after hstp hS hT μ π K hK hk.le, h1, measure_union (by simp [notAfter]) .of_discrete,
        turn_else hstp hS hT μ π K hK (n := 0) (z := (k, .clock)) (fun h => by have := congrArg Prod.fst h; simp only at this; omega) (.inl rfl), zero_add]
    rw [h0, h2, one_after hstp hS hT μ π K hK hk, turn_ends hstp hS hT μ π K hK hk he, turn_ends hstp hS hT μ π K hK (n := 0) hk he]
    simp
end

/-! ### searchers that push each other away, and merging searchers -/

section
variable {n d : ℕ}

/-- where a searcher that feels no force comes. -/
noncomputable def freeTo (W : PushWorld d) (k : ℕ) (p : Fin d → ℝ) (z : Fin d → ℝ) : Fin d → ℝ :=
  W.put (p + shortened W.limit fun j => z j * Real.sqrt (2 * W.dif * (W.clk k).getD 0))

theorem freeTo_meas {W : PushWorld d} (hput : Measurable W.put) (k : ℕ) : Measurable fun p : (Fin d → ℝ) × (Fin d → ℝ) => freeTo W k p.1 p.2 := by
  unfold freeTo
  refine hput.comp (measurable_fst.add ((shortened_meas _).comp ?_))
  fun_prop

/-- a step of the walker whose turn it is. -/
theorem turn_cases {E Z : Type} {stp : ℕ → E → Z → E} {S T : Set E} {K turns m : ℕ} {over : Option Ending} {x : Fin n → E} {z : Z} (hm : m < n) {p : E}
    (hp : stp turns (x ⟨m, hm⟩) z = p) :
    (p ∉ S → turnMove stp S T K (⟨turns, m, over⟩, x) z = (⟨turns, m, some .tooFar⟩, Function.update x ⟨m, hm⟩ p)) ∧
    (p ∈ S → p ∈ T → turnMove stp S T K (⟨turns, m, over⟩, x) z = (⟨turns, m, some .found⟩, Function.update x ⟨m, hm⟩ p)) ∧
    (p ∈ S → p ∉ T → m + 1 = n → turnMove stp S T K (⟨turns, m, over⟩, x) z =
      (⟨turns + 1, 0, if K ≤ turns + 1 then some .clock else none⟩, Function.update x ⟨m, hm⟩ p)) ∧
    (p ∈ S → p ∉ T → m + 1 ≠ n → turnMove stp S T K (⟨turns, m, over⟩, x) z = (⟨turns, m + 1, over⟩, Function.update x ⟨m, hm⟩ p)) := by
  have e : turnMove stp S T K (⟨turns, m, over⟩, x) z = (turnCtl S T K n ⟨turns, m, over⟩ p, Function.update x ⟨m, hm⟩ p) := by
    rw [← hp]
    unfold turnMove
    exact dif_pos hm
  rw [e]
  unfold turnCtl
  refine ⟨fun h => ?_, fun h h2 => ?_, fun h h2 h3 => ?_, fun h h2 h3 => ?_⟩
  · simp [h]
  · simp [h, h2]
  · simp [h, h2, h3]
  · simp [h, h2, h3]

theorem push_step_turn (W : PushWorld d) {K : ℕ} (hclk : ∀ k, (W.clk k).isNone ↔ K ≤ k) (h0 : ∀ (x : Fin n → Fin d → ℝ) i k, forceOn W.force x i k = 0)
    (x : PushState n d) (z : Fin d → ℝ) :
    ((pushMove W x z).1, (pushMove W x z).2.2) = turnMove (freeTo W) W.room W.target K (x.1, x.2.2) z := by
  obtain ⟨⟨turns, m, over⟩, x0, x⟩ := x
  by_cases hm : m < n
  · have hto : pushTo W turns x0 x ⟨m, hm⟩ z = freeTo W turns (x ⟨m, hm⟩) z := by
      unfold pushTo freeTo
      simp only [h0, zero_mul, zero_add]
    obtain ⟨t1, t2, t3, t4⟩ := turn_cases (stp := freeTo W) (S := W.room) (T := W.target) (K := K) (over := over) hm hto.symm
    by_cases h1 : pushTo W turns x0 x ⟨m, hm⟩ z ∈ W.room
    · by_cases h2 : pushTo W turns x0 x ⟨m, hm⟩ z ∈ W.target
      · rw [push_found hm h1 h2]; exact (t2 h1 h2).symm
      · by_cases h3 : m + 1 = n
        · rw [push_last hm h1 h2 h3]
          refine Eq.trans ?_ (t3 h1 h2 h3).symm
          simp only [hclk]
        · rw [push_next hm h1 h2 h3]; exact (t4 h1 h2 h3).symm
    · rw [push_tooFar hm h1]; exact (t1 h1).symm
  · unfold pushMove turnMove
    simp only [hm, dif_neg, not_false_eq_true]

theorem push_turnLaw (W : PushWorld d) (hput : Measurable W.put) (hf : Measurable W.force) (hroom : MeasurableSet W.room) (htarget : MeasurableSet W.target)
    {K : ℕ} (hclk : ∀ k, (W.clk k).isNone ↔ K ≤ k) (h0 : ∀ (x : Fin n → Fin d → ℝ) i k, forceOn W.force x i k = 0) (μ : Measure (Fin d → ℝ)) [IsProbabilityMeasure μ]
    (ψ : Measure (Fin n → Fin d → ℝ)) [IsFiniteMeasure ψ] : pushLaw W μ ψ = turnLaw (freeTo W) W.room W.target K n μ ψ := by
  have hT := pushMove_meas (n := n) hput hf hroom htarget
  have hT' := turnMove_meas (n := n) (freeTo_meas hput) hroom htarget K
  have hp : Measurable fun x : PushState n d => (x.1, x.2.2) := measurable_fst.prodMk (measurable_snd.comp measurable_snd)
  have hon : MeasurableSet {x : PushCtl × (Fin n → Fin d → ℝ) | x.1.over = none} := measurable_fst (MeasurableSet.of_discrete (s := {c : PushCtl | c.over = none}))
  exact endLaw_image hT hT' hp (push_step_turn W hclk h0) pushStart_meas hon rfl turnOutcome_meas (fun _ => rfl) μ ψ

/-- where a searcher that has not merged comes. -/
noncomputable def aloneTo (W : MergeWorld d) (k : ℕ) (p : Fin d → ℝ) (z : Fin d → ℝ) : Fin d → ℝ :=
  W.put (p + fun j => z j * Real.sqrt (2 * W.dif 1 * (W.clk k).getD 0))

theorem aloneTo_meas {W : MergeWorld d} (hput : Measurable W.put) (k : ℕ) : Measurable fun p : (Fin d → ℝ) × (Fin d → ℝ) => aloneTo W k p.1 p.2 := by
  unfold aloneTo
  refine hput.comp (measurable_fst.add ?_)
  fun_prop

theorem absorb_none {close : Fin n → Fin n → Bool} : ∀ l : Crowd n, l.Pairwise (fun a b => close a.1 b.1 = false) → absorb close l = l
  | [], _ => by rw [absorb]
  | (i, m) :: rest, h => by
    obtain ⟨h1, h2⟩ := List.pairwise_cons.1 h
    rw [absorb]
    have e1 : rest.filter (fun a => close i a.1) = [] := by
      rw [List.filter_eq_nil_iff]
      intro a ha
      simp [h1 a ha]
    have e2 : rest.filter (fun a => !close i a.1) = rest := by
      rw [List.filter_eq_self]
      intro a ha
      simp [h1 a ha]
    rw [e1, e2, absorb_none rest h2]
    simp

/-- the merging searchers of which `m` have made their step in this turn, if none have merged. -/
def crowdAt (n : ℕ) (c : PushCtl) : MergeCtl n :=
  ⟨c.turns, (List.ofFn fun i : Fin n => (i, 1)).take c.next, (List.ofFn fun i : Fin n => (i, 1)).drop c.next, c.over⟩

theorem merge_step_turn (W : MergeWorld d) {K : ℕ} (hclk : ∀ k, (W.clk k).isNone ↔ K ≤ k) (h0 : W.reach ≤ 0 ∨ n = 1) (x : PushCtl × (Fin n → Fin d → ℝ))
    (z : Fin d → ℝ) : (crowdAt n (turnMove (aloneTo W) W.room W.target K x z).1, (turnMove (aloneTo W) W.room W.target K x z).2) = mergeMove W (crowdAt n x.1, x.2) z := by
  obtain ⟨⟨turns, m, over⟩, x⟩ := x
  by_cases hm : m < n
  · have hdrop : (List.ofFn fun i : Fin n => (i, 1)).drop m = ((⟨m, hm⟩ : Fin n), 1) :: (List.ofFn fun i : Fin n => (i, 1)).drop (m + 1) := by
      rw [List.drop_eq_getElem_cons (by simpa using hm)]
      simp
    have htake : (List.ofFn fun i : Fin n => (i, 1)).take (m + 1) = (List.ofFn fun i : Fin n => (i, 1)).take m ++ [((⟨m, hm⟩ : Fin n), 1)] := by
      rw [List.take_succ_eq_append_getElem (by simpa using hm)]
      simp
    have hrest : (List.ofFn fun i : Fin n => (i, 1)).drop (m + 1) = [] ↔ m + 1 = n := by
      rw [List.drop_eq_nil_iff, List.length_ofFn]
      omega
    obtain ⟨t1, t2, t3, t4⟩ := turn_cases (stp := aloneTo W) (S := W.room) (T := W.target) (K := K) (over := over) (x := x) (z := z) (turns := turns) hm
      (p := movedTo W turns x ⟨m, hm⟩ 1 z) rfl
    simp only [crowdAt, hdrop]
    by_cases h1 : movedTo W turns x ⟨m, hm⟩ 1 z ∈ W.room
    · by_cases h2 : movedTo W turns x ⟨m, hm⟩ 1 z ∈ W.target
      · rw [move_found _ h1 h2, t2 h1 h2]
        simp only [hdrop]
      · by_cases h3 : m + 1 = n
        · have hall : (List.ofFn fun i : Fin n => (i, 1)).take (m + 1) = List.ofFn fun i : Fin n => (i, 1) := by
            rw [List.take_of_length_le]; simp [h3]
          rw [hrest.2 h3, move_last _ h1 h2, t3 h1 h2 h3, ← htake, hall, absorb_none]
          · simp only [hclk, List.take_zero, List.drop_zero]
          · rcases h0 with h0 | h0
            · refine List.pairwise_of_forall ?_
              intro a b
              exact @decide_eq_false _ (Classical.propDecidable _) (not_lt.2 (h0.trans (Real.sqrt_nonneg _)))
            · subst h0
              simp
        · rw [move_next _ h1 h2 (fun hh => h3 (hrest.1 hh)), t4 h1 h2 h3, htake]
    · rw [move_tooFar _ h1, t1 h1]
      simp only [hdrop]
  · unfold turnMove mergeMove
    have : (List.ofFn fun i : Fin n => (i, 1)).drop m = [] := by
      rw [List.drop_eq_nil_iff, List.length_ofFn]
      omega
    simp only [hm, dif_neg, not_false_eq_true, crowdAt, this]

theorem merge_turnLaw (W : MergeWorld d) (hput : Measurable W.put) (hroom : MeasurableSet W.room) (htarget : MeasurableSet W.target)
    {K : ℕ} (hclk : ∀ k, (W.clk k).isNone ↔ K ≤ k) (h0 : W.reach ≤ 0 ∨ n = 1) (μ : Measure (Fin d → ℝ)) [IsProbabilityMeasure μ]
    (ψ : Measure (Fin n → Fin d → ℝ)) [IsFiniteMeasure ψ] : mergeLaw W μ ψ = turnLaw (aloneTo W) W.room W.target K n μ ψ := by
  have hT := mergeMove_meas (n := n) hput hroom htarget
  have hT' := turnMove_meas (n := n) (aloneTo_meas hput) hroom htarget K
  have hp : Measurable fun x : PushCtl × (Fin n → Fin d → ℝ) => (crowdAt n x.1, x.2) := by
    have : Measurable (crowdAt n) := measurable_from_top
    exact (this.comp measurable_fst).prodMk measurable_snd
  have hs : Measurable fun y : Fin n → Fin d → ℝ => ((⟨0, 0, none⟩ : PushCtl), y) := measurable_const.prodMk measurable_id
  exact (endLaw_image hT' hT hp (merge_step_turn W hclk h0) hs searchesOn_meas rfl mergeOutcome_meas (fun _ => rfl) μ ψ).symm

theorem clock_end {clk : ℕ → Option ℝ} (h0 : (clk 0).isSome) (hend : ∃ k, clk k = none) (hlater : ∀ k, clk k = none → clk (k + 1) = none) :
    ∃ K, 1 ≤ K ∧ ∀ k, (clk k).isNone ↔ K ≤ k := by
  classical
  have hm : ∀ k m, clk k = none → clk (k + m) = none := by
    intro k m hk
    induction m with
    | zero => exact hk
    | succ m ih => exact hlater _ ih
  refine ⟨Nat.find hend, ?_, fun k => ?_⟩
  · rcases Nat.eq_zero_or_pos (Nat.find hend) with h | h
    · have := Nat.find_spec hend
      rw [h] at this
      rw [this] at h0
      simp at h0
    · exact h
  · rw [Option.isNone_iff_eq_none]
    constructor
    · exact fun h => Nat.find_min' hend h
    · intro h
      obtain ⟨m, rfl⟩ := Nat.exists_eq_add_of_le h
      exact hm _ _ (Nat.find_spec hend)

variable (μ : Measure (Fin d → ℝ)) [IsProbabilityMeasure μ] (π : Measure (Fin d → ℝ)) [IsProbabilityMeasure π]

theorem turnLaw_prob {stp : ℕ → (Fin d → ℝ) → (Fin d → ℝ) → Fin d → ℝ} (hstp : ∀ k, Measurable fun p : (Fin d → ℝ) × (Fin d → ℝ) => stp k p.1 p.2)
    {S T : Set (Fin d → ℝ)} (hS : MeasurableSet S) (hT : MeasurableSet T) {K : ℕ} (hK : 1 ≤ K) :
    IsProbabilityMeasure (turnLaw stp S T K 1 μ (Measure.pi fun _ => π)) := ⟨by rw [one_total hstp hS hT μ π K hK, measure_univ]⟩

/-- after the turn `k`, of the one that ends first. -/
theorem first_after (ρ : Measure (ℕ × Ending)) [IsProbabilityMeasure ρ] (n k : ℕ) :
    (Measure.pi fun _ : Fin (n + 1) => ρ) {ys | k < (firstEnd n ys).1 ∨ k = (firstEnd n ys).1 ∧ (firstEnd n ys).2 = .clock} =
      ρ {z | k < z.1 ∨ k = z.1 ∧ z.2 = .clock} ^ (n + 1) := by
  have h : ∀ (n : ℕ) (ys : Fin (n + 1) → ℕ × Ending), (k < (firstEnd n ys).1 ∨ k = (firstEnd n ys).1 ∧ (firstEnd n ys).2 = .clock) ↔
      ∀ i, k < (ys i).1 ∨ k = (ys i).1 ∧ (ys i).2 = .clock := by
    intro n
    induction n with
    | zero => intro ys; simp [firstEnd]
    | succ n ih =>
      intro ys
      rw [Fin.forall_fin_succ, ← ih fun i => ys i.succ, firstEnd]
      split_ifs with hc
      · unfold notAfter at hc
        refine ⟨fun h => ⟨h, ?_⟩, fun h => h.1⟩
        rcases hc with hc | ⟨hc, hc'⟩ <;> rcases h with h | ⟨h, h'⟩
        · exact .inl (by omega)
        · exact .inl (by omega)
        · exact .inl (by omega)
        · exact .inr ⟨by omega, hc' h'⟩
      · unfold notAfter at hc
        push Not at hc
        refine ⟨fun h => ⟨?_, h⟩, fun h => h.2⟩
        obtain ⟨h1, h2⟩ := hc
        rcases Nat.lt_or_ge (firstEnd n fun i => ys i.succ).1 (ys 0).1 with h3 | h3
        · rcases h with h | ⟨h, -⟩
          · exact .inl (by omega)
          · exact .inl (by omega)
        · have h4 := h2 (by omega)
          rcases h with h | ⟨h, h'⟩
          · exact .inl (by omega)
          · exact absurd h' h4.2
  have e : {ys : Fin (n + 1) → ℕ × Ending | k < (firstEnd n ys).1 ∨ k = (firstEnd n ys).1 ∧ (firstEnd n ys).2 = .clock} =
      Set.univ.pi fun _ => {z | k < z.1 ∨ k = z.1 ∧ z.2 = .clock} := by
    ext ys
    simp only [Set.mem_ofPred_eq, Set.mem_pi, Set.mem_univ, true_implies]
    exact h n ys
  rw [e, Measure.pi_pi, Finset.prod_const, Finset.card_univ, Fintype.card_fin]

/-- if no search ends later than it is given up, the first is given up if all are. -/
theorem first_given_up (ρ : Measure (ℕ × Ending)) [IsProbabilityMeasure ρ] {K : ℕ} (h : ∀ᵐ z ∂ρ, z.2 = .clock ↔ K < z.1 ∨ K = z.1 ∧ z.2 = .clock) (n : ℕ) :
    (Measure.pi fun _ : Fin (n + 1) => ρ) {ys | (firstEnd n ys).2 = .clock} = ρ {z | z.2 = .clock} ^ (n + 1) := by
  have h1 : ρ {z | z.2 = .clock} = ρ {z | K < z.1 ∨ K = z.1 ∧ z.2 = .clock} := by
    refine measure_congr ?_
    filter_upwards [h] with z hz
    exact propext hz
  rw [h1, ← first_after ρ n K]
  refine measure_congr ?_
  have hall : ∀ᵐ ys ∂(Measure.pi fun _ : Fin (n + 1) => ρ), ∀ i, ((ys i).2 = .clock ↔ K < (ys i).1 ∨ K = (ys i).1 ∧ (ys i).2 = .clock) := by
    rw [ae_all_iff]
    intro i
    exact (measurePreserving_eval (fun _ : Fin (n + 1) => ρ) i).quasiMeasurePreserving.ae h
  have hmem : ∀ (n : ℕ) (ys : Fin (n + 1) → ℕ × Ending), ∃ i, firstEnd n ys = ys i := by
    intro n
    induction n with
    | zero => intro ys; exact ⟨0, rfl⟩
    | succ n ih =>
      intro ys
      obtain ⟨i, hi⟩ := ih fun i => ys i.succ
      rw [firstEnd]
      split_ifs
      · exact ⟨0, rfl⟩
      · exact ⟨i.succ, hi⟩
  filter_upwards [hall] with ys hys
  obtain ⟨i, hi⟩ := hmem n ys
  refine propext ?_
  show (firstEnd n ys).2 = .clock ↔ (K < (firstEnd n ys).1 ∨ K = (firstEnd n ys).1 ∧ (firstEnd n ys).2 = .clock)
  rw [hi]
  exact hys i

theorem one_given_up {stp : ℕ → (Fin d → ℝ) → (Fin d → ℝ) → Fin d → ℝ} (hstp : ∀ k, Measurable fun p : (Fin d → ℝ) × (Fin d → ℝ) => stp k p.1 p.2)
    {S T : Set (Fin d → ℝ)} (hS : MeasurableSet S) (hT : MeasurableSet T) {K : ℕ} (hK : 1 ≤ K) :
    ∀ᵐ z ∂(turnLaw stp S T K 1 μ (Measure.pi fun _ => π)), z.2 = .clock ↔ K < z.1 ∨ K = z.1 ∧ z.2 = .clock := by
  rw [ae_iff]
  refine null_of fun z hz => ?_
  have hz : ¬ (z.2 = .clock ↔ K < z.1 ∨ K = z.1 ∧ z.2 = .clock) := hz
  by_cases hc : z.2 = .clock
  · refine turn_else hstp hS hT μ π K hK (n := 0) ?_ (.inl hc)
    rintro rfl
    simp at hz
  · refine turn_else hstp hS hT μ π K hK (n := 0) ?_ (.inr (.inr ?_))
    · rintro rfl
      exact hc rfl
    · by_contra hh
      simp [hc, hh] at hz
end
end Moledyn
