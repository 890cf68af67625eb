import Verif.Lemmas.DrawChain
import Verif.Lemmas.SearchLaw
/-
The process of Spec/MergeLaw: it is measurable, and the sizes add up.
-/
set_option linter.unusedSectionVars false
namespace Moledyn
open MeasureTheory ProbabilityTheory Filter
open scoped ENNReal

variable {n d : Nat}

instance : DiscreteMeasurableSpace (MergeCtl n) := ⟨fun _ => trivial⟩
instance : DiscreteMeasurableSpace Ending := ⟨fun _ => trivial⟩

instance : Finite Ending := Finite.of_injective (β := Fin 3) (fun e => match e with | .found => 0 | .tooFar => 1 | .clock => 2) (by
  intro a b h; cases a <;> cases b <;> simp_all)

instance : Countable (MergeCtl n) :=
  Function.Injective.countable (f := fun c : MergeCtl n => (c.turns, c.done, c.todo, c.over)) (by
    rintro ⟨a, b, c, e⟩ ⟨a', b', c', e'⟩ h
    simp only [Prod.mk.injEq] at h
    obtain ⟨rfl, rfl, rfl, rfl⟩ := h
    rfl)

/-! ### measurability -/

theorem close_meas (r : ℝ) [∀ y : Fin n → Fin d → ℝ, ∀ i j, Decidable (y i ∈ nearSet (y j) r)] :
    Measurable fun y : Fin n → Fin d → ℝ => fun i j => decide (y i ∈ nearSet (y j) r) := by
  refine measurable_pi_iff.2 fun i => measurable_pi_iff.2 fun j => measurable_to_bool ?_
  have e : (fun y : Fin n → Fin d → ℝ => decide (y i ∈ nearSet (y j) r)) ⁻¹' {true} = {y | Real.sqrt (∑ k, (y i k - y j k) ^ 2) < r} := by
    ext y
    simp only [Set.mem_preimage, Set.mem_singleton_iff, decide_eq_true_eq]
    rfl
  rw [e]
  refine measurableSet_lt ?_ measurable_const
  fun_prop

theorem mergeMove_meas {W : MergeWorld d} (hput : Measurable W.put) (hroom : MeasurableSet W.room) (htarget : MeasurableSet W.target) :
    Measurable fun p : MergeState n d × (Fin d → ℝ) => mergeMove W p.1 p.2 := by
  classical
  have key : ∀ c : MergeCtl n, Measurable fun q : (Fin n → Fin d → ℝ) × (Fin d → ℝ) => mergeMove W (c, q.1) q.2 := by
    intro c
    unfold mergeMove
    rcases c with ⟨turns, done, _ | ⟨⟨i, m⟩, rest⟩, over⟩
    · simp only
      exact measurable_const.prodMk measurable_fst
    · simp only
      have hp : Measurable fun q : (Fin n → Fin d → ℝ) × (Fin d → ℝ) => W.put (q.1 i + fun j => q.2 j * Real.sqrt (2 * W.dif m * (W.clk turns).getD 0)) := by
        refine hput.comp (((measurable_pi_apply i).comp measurable_fst).add ?_)
        exact measurable_pi_iff.2 fun j => ((measurable_pi_apply j).comp measurable_snd).mul measurable_const
      have hy : Measurable fun q : (Fin n → Fin d → ℝ) × (Fin d → ℝ) => Function.update q.1 i (W.put (q.1 i + fun j => q.2 j * Real.sqrt (2 * W.dif m * (W.clk turns).getD 0))) := by
        refine measurable_pi_iff.2 fun j => ?_
        by_cases h : j = i
        · subst h; simpa using hp
        · simp only [Function.update_of_ne h]
          exact (measurable_pi_apply j).comp measurable_fst
      refine Measurable.ite (hp hroom.compl) (measurable_const.prodMk hy) ?_
      refine Measurable.ite (hp htarget) (measurable_const.prodMk hy) ?_
      refine Measurable.ite (MeasurableSet.const _) ?_ (measurable_const.prodMk hy)
      refine Measurable.prodMk ?_ hy
      have h1 : Measurable fun M : Fin n → Fin n → Bool => (⟨turns + 1, [], absorb M (done ++ [(i, m)]),
        if (W.clk (turns + 1)).isNone then some .clock else none⟩ : MergeCtl n) := .of_discrete
      exact h1.comp ((close_meas W.reach).comp hy)
  have e : (fun p : MergeState n d × (Fin d → ℝ) => mergeMove W p.1 p.2) =
      (fun q : MergeCtl n × ((Fin n → Fin d → ℝ) × (Fin d → ℝ)) => mergeMove W (q.1, q.2.1) q.2.2) ∘ MeasurableEquiv.prodAssoc := rfl
  rw [e]
  exact (measurable_from_prod_countable_right key).comp MeasurableEquiv.prodAssoc.measurable

theorem searchesOn_meas : MeasurableSet (searchesOn n d) := by
  have : searchesOn n d = Prod.fst ⁻¹' {c : MergeCtl n | c.over = none} := rfl
  rw [this]
  exact measurable_fst .of_discrete

theorem mergeOutcome_meas : Measurable (mergeOutcome : MergeState n d → ℕ × Ending) := by
  have h : Measurable fun c : MergeCtl n => ((if c.over = some .clock then c.turns else c.turns + 1, c.over.getD .clock) : ℕ × Ending) := .of_discrete
  exact h.comp measurable_fst

theorem mergeStart_meas : Measurable (mergeStart : (Fin n → Fin d → ℝ) → MergeState n d) := measurable_const.prodMk measurable_id

/-! ### sizes -/

theorem absorb_nil (close : Fin n → Fin n → Bool) : absorb close [] = [] := by rw [absorb]

theorem absorb_cons (close : Fin n → Fin n → Bool) (i : Fin n) (m : ℕ) (rest : Crowd n) : absorb close ((i, m) :: rest) =
    (i, m + ((rest.filter fun a => close i a.1).map (·.2)).sum) :: absorb close (rest.filter fun a => !close i a.1) := by rw [absorb]

theorem absorb_total (close : Fin n → Fin n → Bool) : ∀ (k : ℕ) (l : Crowd n), l.length ≤ k → ((absorb close l).map (·.2)).sum = (l.map (·.2)).sum := by
  intro k
  induction k with
  | zero =>
    intro l hl
    obtain rfl : l = [] := List.length_eq_zero_iff.1 (by omega)
    rw [absorb_nil]
  | succ k ih =>
    rintro (_ | ⟨⟨i, m⟩, rest⟩) hl
    · rw [absorb_nil]
    · rw [absorb_cons, List.map_cons, List.sum_cons, ih _ ((List.length_filter_le _ _).trans (by simpa using hl))]
      simp only [List.map_cons, List.sum_cons]
      have : ∀ l : Crowd n, (l.map (·.2)).sum = ((l.filter fun a => close i a.1).map (·.2)).sum + ((l.filter fun a => !close i a.1).map (·.2)).sum := by
        intro l
        induction l with
        | nil => rfl
        | cons a l ih2 =>
          simp only [List.map_cons, List.sum_cons, List.filter_cons, ih2]
          cases close i a.1 <;> simp <;> omega
      rw [this rest]
      omega

theorem absorb_ge (close : Fin n → Fin n → Bool) : ∀ (k : ℕ) (l : Crowd n), l.length ≤ k → (∀ a ∈ l, 1 ≤ a.2) → ∀ a ∈ absorb close l, 1 ≤ a.2 := by
  intro k
  induction k with
  | zero =>
    intro l hl _ a ha
    obtain rfl : l = [] := List.length_eq_zero_iff.1 (by omega)
    rw [absorb_nil] at ha
    simp at ha
  | succ k ih =>
    rintro (_ | ⟨⟨i, m⟩, rest⟩) hl h a ha
    · rw [absorb_nil] at ha; simp at ha
    · rw [absorb_cons] at ha
      rcases List.mem_cons.1 ha with rfl | ha
      · have := h (i, m) (by simp)
        simp only at this ⊢
        omega
      · refine ih _ ((List.length_filter_le _ _).trans (by simpa using hl)) (fun b hb => h b ?_) a ha
        exact List.mem_cons_of_mem _ (List.mem_of_mem_filter hb)

/-- `n` searchers, some of which have merged; the turn is not over. -/
structure CtlOk (c : MergeCtl n) : Prop where
  total : ((c.done ++ c.todo).map (·.2)).sum = n
  size : ∀ a ∈ c.done ++ c.todo, 1 ≤ a.2

theorem CtlOk.size_le {c : MergeCtl n} (h : CtlOk c) {a : Fin n × ℕ} (ha : a ∈ c.todo) : a.2 ≤ n := by
  conv_rhs => rw [← h.total]
  exact List.single_le_sum (by simp) _ (List.mem_map.2 ⟨a, by simp [ha], rfl⟩)

theorem start_ok (y : Fin n → Fin d → ℝ) : CtlOk (mergeStart y).1 := by
  constructor
  · show ((([] : Crowd n) ++ List.ofFn fun i : Fin n => (i, 1)).map fun a : Fin n × ℕ => a.2).sum = n
    rw [List.nil_append, List.map_ofFn, List.sum_ofFn]
    simp
  · intro a ha
    simp only [mergeStart, List.nil_append, List.mem_ofFn] at ha
    obtain ⟨i, rfl⟩ := ha
    exact le_rfl

/-- where searcher `i`, which has merged from `m`, comes to. -/
noncomputable def movedTo (W : MergeWorld d) (turns : ℕ) (y : Fin n → Fin d → ℝ) (i : Fin n) (m : ℕ) (z : Fin d → ℝ) : Fin d → ℝ :=
  W.put (y i + fun j => z j * Real.sqrt (2 * W.dif m * (W.clk turns).getD 0))

open Classical in
/-- who is close to whom. -/
noncomputable def closeAt (r : ℝ) (y : Fin n → Fin d → ℝ) (i j : Fin n) : Bool := decide (y i ∈ nearSet (y j) r)

section
variable (W : MergeWorld d) {turns : ℕ} {done rest : Crowd n} {i : Fin n} {m : ℕ} {over : Option Ending} {y : Fin n → Fin d → ℝ} {z : Fin d → ℝ}

theorem move_tooFar (h : movedTo W turns y i m z ∉ W.room) : mergeMove W (⟨turns, done, (i, m) :: rest, over⟩, y) z =
    (⟨turns, done, (i, m) :: rest, some .tooFar⟩, Function.update y i (movedTo W turns y i m z)) := by
  unfold mergeMove
  simp only
  exact if_pos h

theorem move_found (h : movedTo W turns y i m z ∈ W.room) (h2 : movedTo W turns y i m z ∈ W.target) :
    mergeMove W (⟨turns, done, (i, m) :: rest, over⟩, y) z =
    (⟨turns, done, (i, m) :: rest, some .found⟩, Function.update y i (movedTo W turns y i m z)) := by
  unfold mergeMove
  simp only
  exact (if_neg (not_not.2 h)).trans (if_pos h2)

theorem move_last (h : movedTo W turns y i m z ∈ W.room) (h2 : movedTo W turns y i m z ∉ W.target) :
    mergeMove W (⟨turns, done, [(i, m)], over⟩, y) z =
    (⟨turns + 1, [], absorb (closeAt W.reach (Function.update y i (movedTo W turns y i m z))) (done ++ [(i, m)]),
      if (W.clk (turns + 1)).isNone then some .clock else none⟩, Function.update y i (movedTo W turns y i m z)) := by
  unfold mergeMove
  simp only
  exact (if_neg (not_not.2 h)).trans ((if_neg h2).trans (if_pos trivial))

theorem move_next (h : movedTo W turns y i m z ∈ W.room) (h2 : movedTo W turns y i m z ∉ W.target) (h3 : rest ≠ []) :
    mergeMove W (⟨turns, done, (i, m) :: rest, over⟩, y) z =
    (⟨turns, done ++ [(i, m)], rest, over⟩, Function.update y i (movedTo W turns y i m z)) := by
  unfold mergeMove
  simp only
  exact (if_neg (not_not.2 h)).trans ((if_neg h2).trans (if_neg h3))
end

/-- the invariant: while the search is on, someone is to move. -/
theorem move_ok (hn : 0 < n) (W : MergeWorld d) (x : MergeState n d) (z : Fin d → ℝ) (h : CtlOk x.1) (ht : x.1.todo ≠ []) :
    CtlOk (mergeMove W x z).1 ∧ (mergeMove W x z).1.todo ≠ [] := by
  rcases x with ⟨⟨turns, done, _ | ⟨⟨i, m⟩, rest⟩, over⟩, y⟩
  · simp at ht
  · by_cases h1 : movedTo W turns y i m z ∈ W.room
    · by_cases h2 : movedTo W turns y i m z ∈ W.target
      · rw [move_found W h1 h2]
        exact ⟨⟨h.total, h.size⟩, by simp⟩
      · by_cases h3 : rest = []
        · subst h3
          rw [move_last W h1 h2]
          generalize closeAt W.reach (Function.update y i (movedTo W turns y i m z)) = cl
          have e1 : (([] ++ absorb cl (done ++ [(i, m)])).map fun a : Fin n × ℕ => a.2).sum = n := by
            rw [List.nil_append, absorb_total _ _ _ le_rfl]; exact h.total
          refine ⟨⟨e1, ?_⟩, fun hnil => ?_⟩
          · rw [List.nil_append]; exact absorb_ge _ _ _ le_rfl h.size
          · simp only at hnil
            rw [hnil] at e1
            simp at e1
            omega
        · rw [move_next W h1 h2 h3]
          exact ⟨⟨by have := h.total; simpa using this, fun a ha => h.size a (by simpa using ha)⟩, h3⟩
    · rw [move_tooFar W h1]
      exact ⟨⟨h.total, h.size⟩, by simp⟩

/-- a move is in one turn. -/
theorem move_turns (W : MergeWorld d) (x : MergeState n d) (z : Fin d → ℝ) : (mergeMove W x z).1.turns ≤ x.1.turns + 1 ∧
    (x.1.over = none → (mergeOutcome (mergeMove W x z)).1 ≤ x.1.turns + 1 ∨ (mergeMove W x z).1.over = none) := by
  rcases x with ⟨⟨turns, done, _ | ⟨⟨i, m⟩, rest⟩, over⟩, y⟩
  · unfold mergeMove
    simp +contextual
  · by_cases h1 : movedTo W turns y i m z ∈ W.room
    · by_cases h2 : movedTo W turns y i m z ∈ W.target
      · rw [move_found W h1 h2]
        simp [mergeOutcome]
      · by_cases h3 : rest = []
        · subst h3
          rw [move_last W h1 h2]
          cases h : (W.clk (turns + 1)).isNone <;> simp [mergeOutcome]
        · rw [move_next W h1 h2 h3]
          simp +contextual
    · rw [move_tooFar W h1]
      simp [mergeOutcome]

end Moledyn
