import Verif.Lemmas.Symmetry
import Verif.Lemmas.Shift
import Verif.Lemmas.TurnRace
import Verif.Spec.SymmetryCrowds
/-
Lemmas about searchers that merge or push each other away in two rooms, one of which is an image of the other.
-/
namespace Moledyn
open MeasureTheory ProbabilityTheory
open scoped ENNReal
variable {d n : Nat}

/-- The outcome of a process is that of its image, if the image of the numbers has the same distribution. -/
theorem endLaw_symm {X Y Z V : Type} [MeasurableSpace X] [MeasurableSpace Y] [MeasurableSpace Z] [MeasurableSpace V]
    {T T' : X → Z → X} (hT : Measurable fun p : X × Z => T p.1 p.2) (hT' : Measurable fun p : X × Z => T' p.1 p.2)
    {τ : X → X} (hτ : Measurable τ) {L : Z → Z} (hL : Measurable L) {σ : Y → Y} (hσ : Measurable σ) {start : Y → X} (hs : Measurable start)
    {on : Set X} (hon : MeasurableSet on) (ho : ∀ x, τ x ∈ on ↔ x ∈ on) {res : X → V} (hr : Measurable res) (hre : ∀ x, res (τ x) = res x)
    (h : ∀ x z, T' (τ x) (L z) = τ (T x z)) (hst : ∀ y, start (σ y) = τ (start y))
    (μ : Measure Z) [IsProbabilityMeasure μ] (hμ : μ.map L = μ) (π : Measure Y) [IsFiniteMeasure π] :
    endLaw start T' on res μ (π.map σ) = endLaw start T on res μ π := by
  have hL2 : Measurable fun p : X × Z => T' p.1 (L p.2) := hT'.comp (measurable_fst.prodMk (hL.comp measurable_snd))
  rw [endLaw_image (T' := fun x z => T' x (L z)) hT hL2 hτ (fun x z => (h x z).symm) hs hon (Set.ext fun x => (ho x).symm) hr (fun x => (hre x).symm) μ π]
  have hd : ∀ κ : Measure X, IsFiniteMeasure κ → drawn T' μ κ = drawn (fun x z => T' x (L z)) μ κ := by
    intro κ hκ
    unfold drawn
    have e : κ.prod μ = (κ.prod μ).map (Prod.map id L) := by
      conv_lhs => rw [← hμ]
      have := Measure.map_prod_map κ μ measurable_id hL
      rw [Measure.map_id] at this
      exact this
    conv_lhs => rw [e]
    rw [Measure.map_map hT' (measurable_id.prodMap hL)]
    rfl
  have e0 : (π.map σ).map start = π.map fun y => τ (start y) := by
    rw [Measure.map_map hs hσ]
    congr 1
    funext y
    exact hst y
  have hit : ∀ k, IsFiniteMeasure ((fun κ => (drawn (fun x z => T' x (L z)) μ κ).restrict on)^[k] (π.map fun y => τ (start y))) ∧
      (fun κ => (drawn T' μ κ).restrict on)^[k] ((π.map σ).map start) =
        (fun κ => (drawn (fun x z => T' x (L z)) μ κ).restrict on)^[k] (π.map fun y => τ (start y)) := by
    intro k
    induction k with
    | zero => exact ⟨by simp only [Function.iterate_zero, id]; infer_instance, by simp only [Function.iterate_zero, id]; exact e0⟩
    | succ k ih =>
      obtain ⟨i1, i2⟩ := ih
      have := drawn_finite (T := fun x z => T' x (L z)) μ ((fun κ => (drawn (fun x z => T' x (L z)) μ κ).restrict on)^[k] (π.map fun y => τ (start y)))
      rw [Function.iterate_succ_apply', Function.iterate_succ_apply', i2]
      exact ⟨inferInstance, by rw [hd _ i1]⟩
  unfold endLaw
  congr 1
  funext k
  obtain ⟨i1, i2⟩ := hit k
  rw [i2, hd _ i1]

/-- Linear maps that keep lengths, volumes, normal numbers, the walls and the rooms. -/
structure RoomMap (put : (Fin d → ℝ) → Fin d → ℝ) (S S₀ : Set (Fin d → ℝ)) (φ : (Fin d → ℝ) → Fin d → ℝ) : Prop where
  volume : MeasurePreserving φ volume volume
  normal : ∀ v, (normalLaw d v).map φ = normalLaw d v
  add : ∀ x z, φ (x + z) = φ x + φ z
  smul : ∀ (a : ℝ) x, φ (a • x) = a • φ x
  dist : ∀ x y, ∑ i, (φ x i - φ y i) ^ 2 = ∑ i, (x i - y i) ^ 2
  put : ∀ y, put (φ y) = φ (put y)
  room : ∀ x, φ x ∈ S ↔ x ∈ S
  start : ∀ x, φ x ∈ S₀ ↔ x ∈ S₀

theorem RoomMap.comp {put : (Fin d → ℝ) → Fin d → ℝ} {S S₀ : Set (Fin d → ℝ)} {φ ψ : (Fin d → ℝ) → Fin d → ℝ}
    (h : RoomMap put S S₀ φ) (k : RoomMap put S S₀ ψ) : RoomMap put S S₀ (φ ∘ ψ) where
  volume := h.volume.comp k.volume
  normal v := by rw [← Measure.map_map h.volume.measurable k.volume.measurable, k.normal, h.normal]
  add x z := by simp only [Function.comp, k.add, h.add]
  smul a x := by simp only [Function.comp, k.smul, h.smul]
  dist x y := by simp only [Function.comp, h.dist, k.dist]
  put y := by simp only [Function.comp, h.put, k.put]
  room x := by simp only [Function.comp, h.room, k.room]
  start x := by simp only [Function.comp, h.start, k.start]

section
variable {put : (Fin d → ℝ) → Fin d → ℝ} {S S₀ : Set (Fin d → ℝ)} {φ : (Fin d → ℝ) → Fin d → ℝ} (h : RoomMap put S S₀ φ)
include h

theorem RoomMap.sub (x z : Fin d → ℝ) : φ (x - z) = φ x - φ z := by
  have e : x - z = x + (-1 : ℝ) • z := by funext i; simp; ring
  rw [e, h.add, h.smul]
  funext i; simp; ring

theorem RoomMap.zero : φ 0 = 0 := by
  have := h.smul 0 0
  simpa using this

theorem RoomMap.length (x : Fin d → ℝ) : lengthOf (φ x) = lengthOf x := by
  have := h.dist x 0
  rw [h.zero] at this
  unfold lengthOf
  congr 1
  simpa using this

theorem RoomMap.near (x y : Fin d → ℝ) (r : ℝ) : φ x ∈ nearSet (φ y) r ↔ x ∈ nearSet y r := near_iso rfl h.dist r x

theorem RoomMap.mul (a : ℝ) (x : Fin d → ℝ) : (φ fun k => x k * a) = fun k => φ x k * a := by
  have e : (fun k => x k * a) = a • x := by funext k; simp [mul_comm]
  rw [e, h.smul]
  funext k; simp [mul_comm]

theorem RoomMap.sum {ι : Type} (s : Finset ι) (f : ι → Fin d → ℝ) : φ (∑ j ∈ s, f j) = ∑ j ∈ s, φ (f j) := by
  classical
  induction s using Finset.induction_on with
  | empty => simpa using h.zero
  | insert a s ha ih => rw [Finset.sum_insert ha, Finset.sum_insert ha, h.add, ih]

theorem RoomMap.force (force : ℝ → ℝ) (x : Fin n → Fin d → ℝ) (i : Fin n) : forceOn force (fun j => φ (x j)) i = φ (forceOn force x i) := by
  have e : ∀ y : Fin n → Fin d → ℝ, forceOn force y i = ∑ j, if j = i then 0 else (force (lengthOf (y i - y j)) / lengthOf (y i - y j)) • (y i - y j) := by
    intro y
    funext k
    rw [Finset.sum_apply]
    refine Finset.sum_congr rfl fun j _ => ?_
    split_ifs
    · rfl
    · simp only [Pi.smul_apply, Pi.sub_apply, smul_eq_mul]; ring
  rw [e, e, h.sum]
  refine Finset.sum_congr rfl fun j _ => ?_
  split_ifs
  · exact h.zero.symm
  · rw [h.smul, ← h.sub, h.length]

theorem RoomMap.shorten (limit : ℝ) (v : Fin d → ℝ) : shortened limit (φ v) = φ (shortened limit v) := by
  unfold shortened
  rw [h.length]
  split_ifs
  · exact (h.mul _ v).symm
  · rfl

/-- the places of the searchers at the start. -/
theorem RoomMap.places (hS₀ : MeasurableSet S₀) {c : Fin d → ℝ} {r : ℝ} (hfin : MeasureTheory.volume S₀ ≠ ⊤)
    (hpos : MeasureTheory.volume (S₀ \ nearSet c r) ≠ 0) (n : ℕ) :
    (Measure.pi fun _ : Fin n => uniformLaw (S₀ \ nearSet (φ c) r)) =
      (Measure.pi fun _ : Fin n => uniformLaw (S₀ \ nearSet c r)).map (fun y j => φ (y j)) ∧
    MeasureTheory.volume (S₀ \ nearSet (φ c) r) = MeasureTheory.volume (S₀ \ nearSet c r) := by
  obtain ⟨u1, u2⟩ := uniformLaw_image (S := S₀) (A := nearSet c r) (A' := nearSet (φ c) r) h.volume.measurable
    (by
      conv_rhs => rw [← h.volume.map_eq, Measure.restrict_map h.volume.measurable hS₀]
      congr 2
      ext x; exact (h.start x).symm) (near_meas _ _) (near_meas _ _) (Filter.Eventually.of_forall fun x => propext (h.near x c r))
  refine ⟨?_, u2⟩
  have hf : MeasureTheory.volume (S₀ \ nearSet c r) ≠ ⊤ := ne_top_of_le_ne_top hfin (measure_mono Set.sdiff_subset)
  have := uniformLaw_prob hpos hf
  have := uniformLaw_prob (u2 ▸ hpos) (u2 ▸ hf)
  have m : MeasurePreserving φ (uniformLaw (S₀ \ nearSet c r)) (uniformLaw (S₀ \ nearSet (φ c) r)) := ⟨h.volume.measurable, u1.symm⟩
  exact (measurePreserving_pi (fun _ : Fin n => uniformLaw (S₀ \ nearSet c r)) (fun _ : Fin n => uniformLaw (S₀ \ nearSet (φ c) r)) fun _ => m).map_eq.symm

theorem RoomMap.measurable_all : Measurable fun (y : Fin n → Fin d → ℝ) j => φ (y j) :=
  measurable_pi_iff.2 fun j => h.volume.measurable.comp (measurable_pi_apply j)

omit h in
private theorem update_map (x : Fin n → Fin d → ℝ) (i : Fin n) (p : Fin d → ℝ) :
    Function.update (fun j => φ (x j)) i (φ p) = fun j => φ (Function.update x i p j) := by
  funext j
  by_cases hj : j = i
  · subst hj; simp
  · simp [Function.update_of_ne hj]

open Classical in
/-- what becomes of the search when searcher `i` comes to `p`. -/
private noncomputable def mergeAt (W : MergeWorld d) (turns : ℕ) (done rest : Crowd n) (i : Fin n) (m : ℕ) (over : Option Ending)
    (x : Fin n → Fin d → ℝ) (p : Fin d → ℝ) : MergeState n d :=
  if p ∉ W.room then (⟨turns, done, (i, m) :: rest, some .tooFar⟩, Function.update x i p)
  else if p ∈ W.target then (⟨turns, done, (i, m) :: rest, some .found⟩, Function.update x i p)
  else if rest = [] then
    (⟨turns + 1, [], absorb (fun a b => decide (Function.update x i p a ∈ nearSet (Function.update x i p b) W.reach)) (done ++ [(i, m)]),
      if (W.clk (turns + 1)).isNone then some .clock else none⟩, Function.update x i p)
  else (⟨turns, done ++ [(i, m)], rest, over⟩, Function.update x i p)

open Classical in
/-- what becomes of the search when searcher number `m` comes to `p`. -/
private noncomputable def pushAt (W : PushWorld d) (turns m : ℕ) (hm : m < n) (over : Option Ending)
    (x0 x : Fin n → Fin d → ℝ) (p : Fin d → ℝ) : PushState n d :=
  if p ∉ W.room then (⟨turns, m, some .tooFar⟩, x0, Function.update x ⟨m, hm⟩ p)
  else if p ∈ W.target then (⟨turns, m, some .found⟩, x0, Function.update x ⟨m, hm⟩ p)
  else if m + 1 = n then (⟨turns + 1, 0, if (W.clk (turns + 1)).isNone then some .clock else none⟩, Function.update x ⟨m, hm⟩ p, Function.update x ⟨m, hm⟩ p)
  else (⟨turns, m + 1, over⟩, x0, Function.update x ⟨m, hm⟩ p)

/-- Searchers that merge. -/
theorem RoomMap.merge (hput : Measurable put) (hS : MeasurableSet S) (hS₀ : MeasurableSet S₀) {c : Fin d → ℝ} {r : ℝ}
    (hfin : MeasureTheory.volume S₀ ≠ ⊤) (hpos : MeasureTheory.volume (S₀ \ nearSet c r) ≠ 0) (D alpha radius : ℝ) (clk : ℕ → Option ℝ) (n : ℕ) :
    mergeLaw (worldOf put S (nearSet (φ c) r) D alpha radius clk) (normalLaw d 1) (Measure.pi fun _ : Fin n => uniformLaw (S₀ \ nearSet (φ c) r)) =
      mergeLaw (worldOf put S (nearSet c r) D alpha radius clk) (normalLaw d 1) (Measure.pi fun _ : Fin n => uniformLaw (S₀ \ nearSet c r)) := by
  have hf : MeasureTheory.volume (S₀ \ nearSet c r) ≠ ⊤ := ne_top_of_le_ne_top hfin (measure_mono Set.sdiff_subset)
  have := uniformLaw_prob hpos hf
  have : IsProbabilityMeasure (normalLaw d 1) := by unfold normalLaw; infer_instance
  rw [(h.places hS₀ hfin hpos n).1]
  refine endLaw_symm (X := MergeState n d) (start := mergeStart) (on := searchesOn n d) (res := mergeOutcome)
    (τ := fun x => (x.1, fun j => φ (x.2 j))) (L := φ)
    (mergeMove_meas hput hS (near_meas c r)) (mergeMove_meas hput hS (near_meas (φ c) r))
    (measurable_fst.prodMk (h.measurable_all.comp measurable_snd)) h.volume.measurable h.measurable_all mergeStart_meas searchesOn_meas (fun _ => Iff.rfl)
    mergeOutcome_meas (fun _ => rfl) (fun x z => ?_) (fun y => rfl) (normalLaw d 1) (h.normal 1) _
  obtain ⟨⟨turns, done, _ | ⟨⟨i, m⟩, rest⟩, over⟩, x⟩ := x
  · rfl
  · have e : put (φ (x i) + fun j => φ z j * Real.sqrt (2 * slowedTo D alpha m * (clk turns).getD 0)) =
        φ (put (x i + fun j => z j * Real.sqrt (2 * slowedTo D alpha m * (clk turns).getD 0))) := by
      rw [← h.mul, ← h.add, h.put]
    have key : ∀ (W : MergeWorld d) (x : Fin n → Fin d → ℝ) (z : Fin d → ℝ), mergeMove W (⟨turns, done, (i, m) :: rest, over⟩, x) z =
        mergeAt W turns done rest i m over x (W.put (x i + fun j => z j * Real.sqrt (2 * W.dif m * (W.clk turns).getD 0))) := fun _ _ _ => rfl
    simp only
    rw [key, key]
    simp only
    rw [e]
    generalize put (x i + fun j => z j * Real.sqrt (2 * slowedTo D alpha m * (clk turns).getD 0)) = p
    have e1 : ∀ a b, φ (Function.update x i p a) ∈ nearSet (φ (Function.update x i p b)) (2 * radius) ↔
      Function.update x i p a ∈ nearSet (Function.update x i p b) (2 * radius) := fun a b => h.near _ _ _
    unfold mergeAt
    rw [update_map x i p]
    by_cases h1 : p ∈ S
    · by_cases h2 : p ∈ nearSet c r
      · rw [if_neg (not_not.2 ((h.room p).2 h1)), if_pos ((h.near p c r).2 h2), if_neg (not_not.2 h1), if_pos h2]
      · rw [if_neg (not_not.2 ((h.room p).2 h1)), if_neg (fun hh => h2 ((h.near p c r).1 hh)), if_neg (not_not.2 h1), if_neg h2]
        by_cases h3 : rest = []
        · rw [if_pos h3, if_pos h3]
          refine Prod.ext (congrArg (fun l => (⟨turns + 1, [], l, _⟩ : MergeCtl n)) (congrArg (fun f => absorb f _) ?_)) rfl
          funext a b
          exact decide_eq_decide.2 (e1 a b)
        · rw [if_neg h3, if_neg h3]
    · rw [if_pos (fun hh => h1 ((h.room p).1 hh)), if_pos h1]

/-- Searchers that push each other away. -/
theorem RoomMap.push (hput : Measurable put) (hS : MeasurableSet S) (hS₀ : MeasurableSet S₀) {c : Fin d → ℝ} {r : ℝ}
    (hfin : MeasureTheory.volume S₀ ≠ ⊤) (hpos : MeasureTheory.volume (S₀ \ nearSet c r) ≠ 0) (D limit : ℝ) (force : ℝ → ℝ) (hforce : Measurable force)
    (clk : ℕ → Option ℝ) (n : ℕ) :
    pushLaw ⟨put, S, nearSet (φ c) r, D, force, limit, clk⟩ (normalLaw d 1) (Measure.pi fun _ : Fin n => uniformLaw (S₀ \ nearSet (φ c) r)) =
      pushLaw ⟨put, S, nearSet c r, D, force, limit, clk⟩ (normalLaw d 1) (Measure.pi fun _ : Fin n => uniformLaw (S₀ \ nearSet c r)) := by
  have hf : MeasureTheory.volume (S₀ \ nearSet c r) ≠ ⊤ := ne_top_of_le_ne_top hfin (measure_mono Set.sdiff_subset)
  have := uniformLaw_prob hpos hf
  have : IsProbabilityMeasure (normalLaw d 1) := by unfold normalLaw; infer_instance
  rw [(h.places hS₀ hfin hpos n).1]
  refine endLaw_symm (X := PushState n d) (start := pushStart) (on := {x | x.1.over = none}) (res := pushOutcome)
    (τ := fun x => (x.1, (fun j => φ (x.2.1 j)), fun j => φ (x.2.2 j))) (L := φ)
    (pushMove_meas hput hforce hS (near_meas c r)) (pushMove_meas hput hforce hS (near_meas (φ c) r))
    (measurable_fst.prodMk ((h.measurable_all.comp (measurable_fst.comp measurable_snd)).prodMk (h.measurable_all.comp (measurable_snd.comp measurable_snd))))
    h.volume.measurable h.measurable_all pushStart_meas pushesOn_meas (fun _ => Iff.rfl)
    pushOutcome_meas (fun _ => rfl) (fun x z => ?_) (fun y => rfl) (normalLaw d 1) (h.normal 1) _
  obtain ⟨⟨turns, next, over⟩, x0, x⟩ := x
  have e : ∀ i : Fin n, pushTo ⟨put, S, nearSet (φ c) r, D, force, limit, clk⟩ turns (fun j => φ (x0 j)) (fun j => φ (x j)) i (φ z) =
      φ (pushTo ⟨put, S, nearSet c r, D, force, limit, clk⟩ turns x0 x i z) := by
    intro i
    unfold pushTo
    simp only
    rw [← h.put, h.add, ← h.shorten]
    congr 3
    have e1 : (fun k => forceOn force x0 i k * (clk turns).getD 0 + z k * Real.sqrt (2 * D * (clk turns).getD 0)) =
      (fun k => forceOn force x0 i k * (clk turns).getD 0) + fun k => z k * Real.sqrt (2 * D * (clk turns).getD 0) := rfl
    rw [e1, h.add, h.mul, h.mul, h.force]
    rfl
  by_cases hn : next < n
  · have key : ∀ (W : PushWorld d) (x0 x : Fin n → Fin d → ℝ) (z : Fin d → ℝ), pushMove W (⟨turns, next, over⟩, x0, x) z =
        pushAt W turns next hn over x0 x (pushTo W turns x0 x ⟨next, hn⟩ z) := by
      intro W x0 x z
      unfold pushMove pushAt
      simp only [hn, dif_pos]
    simp only
    rw [key, key, e]
    generalize pushTo ⟨put, S, nearSet c r, D, force, limit, clk⟩ turns x0 x ⟨next, hn⟩ z = p
    unfold pushAt
    simp only [update_map x ⟨next, hn⟩ p]
    by_cases h1 : p ∈ S
    · by_cases h2 : p ∈ nearSet c r
      · rw [if_neg (not_not.2 ((h.room p).2 h1)), if_pos ((h.near p c r).2 h2), if_neg (not_not.2 h1), if_pos h2]
      · rw [if_neg (not_not.2 ((h.room p).2 h1)), if_neg (fun hh => h2 ((h.near p c r).1 hh)), if_neg (not_not.2 h1), if_neg h2]
        split_ifs <;> rfl
    · rw [if_pos (fun hh => h1 ((h.room p).1 hh)), if_pos h1]
  · unfold pushMove
    simp only [hn, dif_neg, not_false_eq_true]
end

/-! ### the maps -/

theorem normal_signed (v : ℝ) (p : Equiv.Perm (Fin d)) {e : Fin d → ℝ} (he : ∀ i, e i = 1 ∨ e i = -1) :
    (normalLaw d v).map (signedPerm p e) = normalLaw d v := by
  unfold normalLaw
  refine signedPerm_pi ?_ p e he
  rw [gaussianReal_map_neg, neg_zero]

/-- signed permutations. -/
theorem axes_map {put : (Fin d → ℝ) → Fin d → ℝ} {S S₀ : Set (Fin d → ℝ)} {p : Equiv.Perm (Fin d)} {e : Fin d → ℝ} (he : ∀ i, e i = 1 ∨ e i = -1)
    (hc : ∀ y, put (signedPerm p e y) = signedPerm p e (put y)) (hS : ∀ x, signedPerm p e x ∈ S ↔ x ∈ S) (hS₀ : ∀ x, signedPerm p e x ∈ S₀ ↔ x ∈ S₀) :
    RoomMap put S S₀ (signedPerm p e) where
  volume := signedPerm_volume p e he
  normal v := normal_signed v p he
  add x z := by funext i; simp only [signedPerm, Pi.add_apply]; ring
  smul a x := by funext i; simp only [signedPerm, Pi.smul_apply, smul_eq_mul]; ring
  dist := signedPerm_iso p he
  put := hc
  room := hS
  start := hS₀

/-- Two points of a cylinder that are images of each other. -/
theorem cyl_map {k : Nat} {c c' : Fin d → ℝ} (h : SameInCyl k c c') (R L L₀ : ℝ) (hL : 0 < L) :
    ∃ φ, RoomMap (cylPut k R L) (Props.cylSet d k R L) (Props.cylSet d k R L₀) φ ∧ φ c = c' := by
  obtain ⟨h1, p, hp, h2⟩ := h
  obtain ⟨e, he, e1, e2⟩ := sign_of (q := fun i : Fin d => k ≤ i.1) h2
  have m1 := axes_map he (cylPut_signed k R L hL p he hp) (cyl_signed k R L p he hp) (cyl_signed k R L₀ p he hp)
  obtain ⟨φ, f1, f2, f3, f4, f5, f6, f7, f8⟩ := mirror_across (k := k) (c := signedPerm p e c) (c' := c') (by rw [signedPerm_axis k p he hp, h1])
    (fun i hi => e1 i hi)
  obtain ⟨y1, y2⟩ := cyl_across f6 f7 f8 R L
  refine ⟨φ ∘ signedPerm p e, RoomMap.comp ⟨f1, f2, f3, fun a x => ?_, f5, y1, y2, (cyl_across f6 f7 f8 R L₀).2⟩ m1, f4⟩
  funext i
  by_cases hi : i.1 < k
  · exact f8 a x (a • x) (fun _ _ => rfl) i hi
  · rw [f6 _ i (by omega), Pi.smul_apply, Pi.smul_apply, f6 _ i (by omega)]

/-- Two points of a cube that are images of each other. -/
theorem cube_map {bc : BoundaryCond} {c c' : Fin d → ℝ} (h : SameInCube bc c c') (L : ℝ) (hL : 0 < L) :
    ∃ φ, RoomMap (cubePut bc L) (Props.cubeSet d L) (Props.cubeSet d L) φ ∧ φ c = c' := by
  obtain ⟨p, hp, hc⟩ := h
  obtain ⟨e, he, e1, -⟩ := sign_of (q := fun _ => True) (fun i _ => hc i)
  exact ⟨signedPerm p e, axes_map he (cubePut_signed bc L hL p he hp) (cube_signed L p he) (cube_signed L p he), by funext i; exact (e1 i trivial).symm⟩

/-- Two points of a ball at the same distance from the centre. -/
theorem ball_map {c c' : Fin d → ℝ} (h : SameInBall c c') (R : ℝ) :
    ∃ φ, RoomMap (ballPut R) (Props.ballSet d R) (Props.ballSet d R) φ ∧ φ c = c' := by
  have hcyl : SameInCyl d c c' := by
    refine ⟨?_, 1, fun _ => Iff.rfl, fun i hi => absurd i.2 (by omega)⟩
    rw [← sumSq_axis, ← sumSq_axis]; exact h
  obtain ⟨φ, h1, h2⟩ := cyl_map hcyl R 1 1 one_pos
  have eput : ballPut R = cylPut (d := d) d R 1 := by funext x; exact ballPut_cyl R 1 x
  rw [eput, ballSet_cyl R 1]
  exact ⟨φ, h1, h2⟩

end Moledyn
