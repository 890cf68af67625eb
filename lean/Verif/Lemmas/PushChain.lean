import Verif.Lemmas.MergeChain
import Verif.Spec.PushLaw
/-
The process of Spec/PushLaw: it is measurable; it ends with its clock; its law.
-/
set_option linter.unusedSectionVars false
namespace Moledyn
open MeasureTheory ProbabilityTheory Filter
open scoped ENNReal

variable {n d : Nat}

instance : DiscreteMeasurableSpace PushCtl := ⟨fun _ => trivial⟩

instance : Countable PushCtl :=
  Function.Injective.countable (f := fun c : PushCtl => (c.turns, c.next, c.over)) (by
    rintro ⟨a, b, c⟩ ⟨a', b', c'⟩ h
    simp only [Prod.mk.injEq] at h
    obtain ⟨rfl, rfl, rfl⟩ := h
    rfl)

theorem lengthOf_meas : Measurable (lengthOf : (Fin d → ℝ) → ℝ) := by
  unfold lengthOf
  fun_prop

theorem forceOn_meas {force : ℝ → ℝ} (hf : Measurable force) (i : Fin n) : Measurable fun x : Fin n → Fin d → ℝ => forceOn force x i := by
  refine measurable_pi_iff.2 fun k => ?_
  unfold forceOn
  refine Finset.measurable_sum _ fun j _ => ?_
  split_ifs
  · exact measurable_const
  · have h : Measurable fun x : Fin n → Fin d → ℝ => lengthOf (x i - x j) := lengthOf_meas.comp ((measurable_pi_apply i).sub (measurable_pi_apply j))
    refine (hf.comp h).mul (Measurable.div ?_ h)
    fun_prop

theorem shortened_meas (limit : ℝ) : Measurable (shortened limit : (Fin d → ℝ) → Fin d → ℝ) := by
  unfold shortened
  refine Measurable.ite (measurableSet_lt measurable_const lengthOf_meas) ?_ measurable_id
  refine measurable_pi_iff.2 fun k => (measurable_pi_apply k).mul (measurable_const.div lengthOf_meas)

theorem pushTo_meas {W : PushWorld d} (hput : Measurable W.put) (hf : Measurable W.force) (turns : ℕ) (i : Fin n) :
    Measurable fun q : ((Fin n → Fin d → ℝ) × (Fin n → Fin d → ℝ)) × (Fin d → ℝ) => pushTo W turns q.1.1 q.1.2 i q.2 := by
  unfold pushTo
  refine hput.comp (((measurable_pi_apply i).comp (measurable_snd.comp measurable_fst)).add ((shortened_meas _).comp ?_))
  refine measurable_pi_iff.2 fun k => Measurable.add ?_ (((measurable_pi_apply k).comp measurable_snd).mul measurable_const)
  exact ((measurable_pi_apply k).comp ((forceOn_meas hf i).comp (measurable_fst.comp measurable_fst))).mul measurable_const

theorem pushMove_meas {W : PushWorld d} (hput : Measurable W.put) (hf : Measurable W.force) (hroom : MeasurableSet W.room) (htarget : MeasurableSet W.target) :
    Measurable fun p : PushState n d × (Fin d → ℝ) => pushMove W p.1 p.2 := by
  classical
  have key : ∀ c : PushCtl, Measurable fun q : ((Fin n → Fin d → ℝ) × (Fin n → Fin d → ℝ)) × (Fin d → ℝ) => pushMove W (c, q.1) q.2 := by
    intro c
    unfold pushMove
    by_cases h : c.next < n
    · simp only [h, dif_pos]
      have hp := pushTo_meas hput hf c.turns (⟨c.next, h⟩ : Fin n)
      have hy : Measurable fun q : ((Fin n → Fin d → ℝ) × (Fin n → Fin d → ℝ)) × (Fin d → ℝ) =>
          Function.update q.1.2 ⟨c.next, h⟩ (pushTo W c.turns q.1.1 q.1.2 ⟨c.next, h⟩ q.2) := by
        refine measurable_pi_iff.2 fun j => ?_
        by_cases hj : j = ⟨c.next, h⟩
        · subst hj; simpa using hp
        · simp only [Function.update_of_ne hj]
          exact (measurable_pi_apply j).comp (measurable_snd.comp measurable_fst)
      have h0 : Measurable fun q : ((Fin n → Fin d → ℝ) × (Fin n → Fin d → ℝ)) × (Fin d → ℝ) => q.1.1 := measurable_fst.comp measurable_fst
      refine Measurable.ite (hp hroom.compl) (measurable_const.prodMk (h0.prodMk hy)) ?_
      refine Measurable.ite (hp htarget) (measurable_const.prodMk (h0.prodMk hy)) ?_
      refine Measurable.ite (MeasurableSet.const _) ?_ (measurable_const.prodMk (h0.prodMk hy))
      exact Measurable.prodMk (measurable_const (a := (⟨c.turns + 1, 0, if (W.clk (c.turns + 1)).isNone then some .clock else none⟩ : PushCtl))) (hy.prodMk hy)
    · simp only [h, not_false_eq_true, dif_neg]
      exact measurable_const.prodMk measurable_fst
  have e : (fun p : PushState n d × (Fin d → ℝ) => pushMove W p.1 p.2) =
      (fun q : PushCtl × (((Fin n → Fin d → ℝ) × (Fin n → Fin d → ℝ)) × (Fin d → ℝ)) => pushMove W (q.1, q.2.1) q.2.2) ∘ MeasurableEquiv.prodAssoc := rfl
  rw [e]
  exact (measurable_from_prod_countable_right key).comp MeasurableEquiv.prodAssoc.measurable

theorem pushesOn_meas : MeasurableSet {x : PushState n d | x.1.over = none} :=
  measurable_fst (MeasurableSet.of_discrete (s := {c : PushCtl | c.over = none}))

theorem pushOutcome_meas : Measurable (pushOutcome : PushState n d → ℕ × Ending) := by
  have h : Measurable fun c : PushCtl => ((if c.over = some .clock then c.turns else c.turns + 1, c.over.getD .clock) : ℕ × Ending) := .of_discrete
  exact h.comp measurable_fst

theorem pushStart_meas : Measurable (pushStart : (Fin n → Fin d → ℝ) → PushState n d) := measurable_const.prodMk (measurable_id.prodMk measurable_id)

/-! ### one step -/

section
variable {W : PushWorld d} {turns m : ℕ} {over : Option Ending} {x0 x : Fin n → Fin d → ℝ} {z : Fin d → ℝ} (hm : m < n)

theorem push_tooFar (h : pushTo W turns x0 x ⟨m, hm⟩ z ∉ W.room) :
    pushMove W (⟨turns, m, over⟩, x0, x) z = (⟨turns, m, some .tooFar⟩, x0, Function.update x ⟨m, hm⟩ (pushTo W turns x0 x ⟨m, hm⟩ z)) := by
  unfold pushMove
  simp only [hm, dif_pos, h, not_false_eq_true, if_true]

theorem push_found (h : pushTo W turns x0 x ⟨m, hm⟩ z ∈ W.room) (h2 : pushTo W turns x0 x ⟨m, hm⟩ z ∈ W.target) :
    pushMove W (⟨turns, m, over⟩, x0, x) z = (⟨turns, m, some .found⟩, x0, Function.update x ⟨m, hm⟩ (pushTo W turns x0 x ⟨m, hm⟩ z)) := by
  unfold pushMove
  simp only [hm, dif_pos, h, h2, not_true_eq_false, if_true, if_false]

theorem push_last (h : pushTo W turns x0 x ⟨m, hm⟩ z ∈ W.room) (h2 : pushTo W turns x0 x ⟨m, hm⟩ z ∉ W.target) (h3 : m + 1 = n) :
    pushMove W (⟨turns, m, over⟩, x0, x) z = (⟨turns + 1, 0, if (W.clk (turns + 1)).isNone then some .clock else none⟩,
      Function.update x ⟨m, hm⟩ (pushTo W turns x0 x ⟨m, hm⟩ z), Function.update x ⟨m, hm⟩ (pushTo W turns x0 x ⟨m, hm⟩ z)) := by
  unfold pushMove
  simp only [hm, dif_pos, h, h2, h3, not_true_eq_false, if_true, if_false]

theorem push_next (h : pushTo W turns x0 x ⟨m, hm⟩ z ∈ W.room) (h2 : pushTo W turns x0 x ⟨m, hm⟩ z ∉ W.target) (h3 : m + 1 ≠ n) :
    pushMove W (⟨turns, m, over⟩, x0, x) z = (⟨turns, m + 1, over⟩, x0, Function.update x ⟨m, hm⟩ (pushTo W turns x0 x ⟨m, hm⟩ z)) := by
  unfold pushMove
  simp only [hm, dif_pos, h, h2, h3, not_true_eq_false, if_false]
end

/-! ### the clock ends -/

/-- what a search that is on knows. -/
structure PushOn (n : ℕ) (clk : ℕ → Option ℝ) (c : PushCtl) : Prop where
  next : c.next < n
  on : c.over = none
  clock : (clk c.turns).isSome

theorem push_count (W : PushWorld d) {x : PushState n d} (h : PushOn n W.clk x.1) (z : Fin d → ℝ) :
    (PushOn n W.clk (pushMove W x z).1 ∧ ((pushMove W x z).1.turns = x.1.turns ∧ (pushMove W x z).1.next = x.1.next + 1 ∨
      (pushMove W x z).1.turns = x.1.turns + 1)) ∨
    ((pushMove W x z).1.over ≠ none ∧ (pushOutcome (pushMove W x z)).1 = x.1.turns + 1 ∧
      ((pushOutcome (pushMove W x z)).2 = .clock → W.clk (x.1.turns + 1) = none)) := by
  rcases x with ⟨⟨turns, m, over⟩, x0, y⟩
  have hm : m < n := h.next
  have hon : over = none := h.on
  subst hon
  by_cases h1 : pushTo W turns x0 y ⟨m, hm⟩ z ∈ W.room
  · by_cases h2 : pushTo W turns x0 y ⟨m, hm⟩ z ∈ W.target
    · rw [push_found hm h1 h2]
      exact .inr ⟨by simp, by simp [pushOutcome], by simp [pushOutcome]⟩
    · by_cases h3 : m + 1 = n
      · rw [push_last hm h1 h2 h3]
        cases hc : W.clk (turns + 1) with
        | none => exact .inr ⟨by simp, by simp [pushOutcome], fun _ => rfl⟩
        | some dt => exact .inl ⟨⟨by simp only; omega, by simp, by simp [hc]⟩, .inr rfl⟩
      · rw [push_next hm h1 h2 h3]
        exact .inl ⟨⟨by simp only; omega, rfl, h.clock⟩, .inl ⟨rfl, rfl⟩⟩
  · rw [push_tooFar hm h1]
    exact .inr ⟨by simp, by simp [pushOutcome], by simp [pushOutcome]⟩

variable {G : Type} [MeasurableSpace G]

theorem push_ends (W : PushWorld d) {q : G → (Fin d → ℝ) × G} {K : ℕ} (hK : W.clk K = none) :
    ∀ (M : ℕ) (x : PushState n d) (g : G), PushOn n W.clk x.1 → x.1.turns < K → (K - x.1.turns) * (n + 1) ≤ M + x.1.next →
      ∃ N, ((drawStep (pushMove W) q)^[N + 1] (x, g)).1.1.over ≠ none := by
  intro M
  induction M with
  | zero =>
    intro x g h hlt hM
    have h1 := h.next
    have h2 : (n + 1) ≤ (K - x.1.turns) * (n + 1) := Nat.le_mul_of_pos_left _ (by omega)
    omega
  | succ M ih =>
    intro x g h hlt hM
    rcases push_count W h (q g).1 with ⟨a1, a2⟩ | ⟨a1, -⟩
    · obtain ⟨N, hN⟩ := ih (pushMove W x (q g).1) (q g).2 a1 (by
        rcases a2 with ⟨a2, -⟩ | a2
        · rw [a2]; exact hlt
        · rw [a2]
          refine lt_of_le_of_ne (by omega) fun e => ?_
          have := a1.clock
          rw [a2, e, hK] at this
          simp at this) (by
        rcases a2 with ⟨a2, a3⟩ | a2
        · rw [a2, a3]; omega
        · rw [a2]
          have h2 : (K - x.1.turns) * (n + 1) = (K - (x.1.turns + 1)) * (n + 1) + (n + 1) := by
            rw [← Nat.succ_mul]; congr 1; omega
          have := h.next
          omega)
      exact ⟨N + 1, by rw [Function.iterate_succ_apply]; exact hN⟩
    · exact ⟨0, a1⟩

theorem push_end_clock (W : PushWorld d) {q : G → (Fin d → ℝ) × G} (y : PushState n d × G) (h : PushOn n W.clk y.1.1) (N : ℕ)
    (h1 : ∀ m < N, ((drawStep (pushMove W) q)^[m + 1] y).1.1.over = none) (h2 : ((drawStep (pushMove W) q)^[N + 1] y).1.1.over ≠ none) :
    ∃ T, (pushOutcome ((drawStep (pushMove W) q)^[N + 1] y).1).1 = T + 1 ∧ (W.clk T).isSome ∧
      ((pushOutcome ((drawStep (pushMove W) q)^[N + 1] y).1).2 = .clock → W.clk (T + 1) = none) := by
  have hon : ∀ m ≤ N, PushOn n W.clk ((drawStep (pushMove W) q)^[m] y).1.1 := by
    intro m
    induction m with
    | zero => exact fun _ => h
    | succ m ih =>
      intro hm
      have h3 := h1 m (by omega)
      rw [Function.iterate_succ_apply'] at h3 ⊢
      rcases push_count W (ih (by omega)) (q ((drawStep (pushMove W) q)^[m] y).2).1 with ⟨a1, -⟩ | ⟨a1, -⟩
      · exact a1
      · exact absurd h3 a1
  rw [Function.iterate_succ_apply'] at h2 ⊢
  rcases push_count W (hon N le_rfl) (q ((drawStep (pushMove W) q)^[N] y).2).1 with ⟨a1, -⟩ | ⟨a1, a2, a3⟩
  · exact absurd a1.on h2
  · exact ⟨_, a2, (hon N le_rfl).clock, a3⟩

/-! ### the law -/

/-- The process with a random source: if it ends with probability one, the outcome has the distribution `endLaw`, and does
not depend on the state the source is left in. -/
theorem end_process {X Y Z V : Type} [MeasurableSpace X] [MeasurableSpace Y] [MeasurableSpace Z] [MeasurableSpace V] {P : Measure G} [IsProbabilityMeasure P]
    {start : Y → X} (hst : Measurable start) {T : X → Z → X} (hT : Measurable fun p : X × Z => T p.1 p.2) {q : G → Z × G} {μ : Measure Z} [IsProbabilityMeasure μ]
    (hq : MeasurePreserving q P (μ.prod P)) {on : Set X} (hon : MeasurableSet on) {res : X → V} (hres : Measurable res) (π : Measure Y) [IsProbabilityMeasure π]
    (hend : ∀ᵐ y ∂(π.prod P), ∃ N, ((drawStep T q)^[N + 1] (start y.1, y.2)).1 ∉ on) :
    IsProbabilityMeasure (endLaw start T on res μ π) ∧ ∃ F : Y × G → V × G,
      MeasurePreserving F (π.prod P) ((endLaw start T on res μ π).prod P) ∧
      ∀ᵐ y ∂(π.prod P), ∃ N, (∀ m < N, ((drawStep T q)^[m + 1] (start y.1, y.2)).1 ∈ on) ∧
        ((drawStep T q)^[N + 1] (start y.1, y.2)).1 ∉ on ∧
        F y = (res ((drawStep T q)^[N + 1] (start y.1, y.2)).1, ((drawStep T q)^[N + 1] (start y.1, y.2)).2) := by
  have hms : MeasurePreserving start π (π.map start) := ⟨hst, rfl⟩
  have hprob' : IsProbabilityMeasure (π.map start) := Measure.isProbabilityMeasure_map hst.aemeasurable
  have h1 : MeasurePreserving (fun y : Y × G => (start y.1, y.2)) (π.prod P) ((π.map start).prod P) := hms.prod (.id P)
  have hmeas : ∀ N, MeasurableSet {y : X × G | ((drawStep T q)^[N + 1] y).1 ∉ on} := fun N =>
    (measurable_fst.comp ((drawStep_meas hT hq).iterate _)) hon.compl
  have hend' : ∀ᵐ y ∂((π.map start).prod P), ∃ N, ((drawStep T q)^[N + 1] y).1 ∉ on := by
    rw [← h1.map_eq, ae_map_iff h1.measurable.aemeasurable (by
      rw [show {y : X × G | ∃ N, ((drawStep T q)^[N + 1] y).1 ∉ on} = ⋃ N, {y | ((drawStep T q)^[N + 1] y).1 ∉ on} by ext y; simp]
      exact .iUnion hmeas)]
    exact hend
  obtain ⟨F, ρ, hρ, hρe, hF, hFae⟩ := draw_run hT hq hon hres (π.map start) hend'
  have hlaw : ρ.map Prod.snd = endLaw start T on res μ π := by
    rw [hρe, Measure.map_sum measurable_snd.aemeasurable, endLaw]
    congr 1
    funext k
    rw [Measure.map_map measurable_snd (by fun_prop)]
    exact Measure.map_id
  have hlp : IsProbabilityMeasure (endLaw start T on res μ π) := by
    rw [← hlaw]; exact Measure.isProbabilityMeasure_map measurable_snd.aemeasurable
  have h2 : MeasurePreserving (Prod.map Prod.snd id : (ℕ × V) × G → V × G) (ρ.prod P) ((endLaw start T on res μ π).prod P) := by
    have : MeasurePreserving (Prod.snd : ℕ × V → V) ρ (endLaw start T on res μ π) := ⟨measurable_snd, hlaw⟩
    exact this.prod (.id P)
  refine ⟨hlp, fun y => Prod.map Prod.snd id (F (start y.1, y.2)), h2.comp (hF.comp h1), ?_⟩
  filter_upwards [h1.quasiMeasurePreserving.ae hFae] with y ⟨N, hN1, hN2, hN3⟩
  exact ⟨N, hN1, hN2, by rw [hN3]; rfl⟩

end Moledyn
