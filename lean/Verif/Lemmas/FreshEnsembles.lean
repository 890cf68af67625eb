import Verif.Spec.SingleSearch
import Verif.Spec.Agent
import Verif.Lemmas.SimulationRuns
import Verif.Props.Agents
/-
Helper lemmas: a reused list of agents behaves like a new one.
-/
namespace Moledyn
open LList
set_option linter.unusedSimpArgs false
variable {G F S C α : Type}

/-! ### cursors do not matter -/

/-- the same list with other cursors. -/
def LList.withCursors (l : LList α) (x y : Option Nat) : LList α := { l with c0 := x, c1 := y }

theorem enumerateMut_c1 (l : LList α) (y : Option Nat) (f : α → α) :
    ({ l with c1 := y } : LList α).enumerateMut f =
      ({ (l.enumerateMut f).1 with c1 := y }, (l.enumerateMut f).2) := by
  obtain ⟨links, contents, hd, tl, c0, c1, c2⟩ := l
  cases c0 with
  | none => rfl
  | some i =>
    cases hl : links[i]? with
    | none => simp [LList.enumerateMut, hl]
    | some nd =>
      cases hc : contents[i]? with
      | none => simp [LList.enumerateMut, hl, hc]
      | some a => simp [LList.enumerateMut, hl, hc]

theorem agentSweep_c1 (act : Nat → S → α → (α × Res Bool) × S) (n : Nat) (l : LList α) (y : Option Nat) (s : S) :
    agentSweep act n { l with c1 := y } s =
      (({ (agentSweep act n l s).1.1 with c1 := y }, (agentSweep act n l s).1.2), (agentSweep act n l s).2) := by
  induction n generalizing l s with
  | zero => rfl
  | succ n ih =>
    unfold agentSweep
    rw [enumerateMut_c1]
    rcases l.enumerateMut (fun a => (act (l.c0.getD 0) s a).1.1) with ⟨l1, r⟩
    match r with
    | .ok none => rfl
    | .err e => rfl
    | .panic => rfl
    | .ok (some (i, a)) =>
      simp only
      match (act i s a).1.2 with
      | .ok false => exact ih l1 _
      | .ok true => rfl
      | .err e => rfl
      | .panic => rfl

theorem renewSweep_c1 [Fl F] (sys : SysOps G F) (target : TargetOps F) (inner loops n : Nat)
    (l : LList (MergeAgent F)) (y : Option Nat) (g : G) :
    renewSweep sys target inner loops n { l with c1 := y } g =
      (({ (renewSweep sys target inner loops n l g).1.1 with c1 := y },
        (renewSweep sys target inner loops n l g).1.2), (renewSweep sys target inner loops n l g).2) := by
  induction n generalizing l g with
  | zero => rfl
  | succ n ih =>
    unfold renewSweep
    rw [enumerateMut_c1]
    rcases l.enumerateMut (fun a =>
        match a.renewUniform sys target inner loops g with | none => a | some r => r.1.1) with ⟨l1, r⟩
    match r with
    | .ok none => rfl
    | .err e => rfl
    | .panic => rfl
    | .ok (some (i, a)) =>
      simp only
      match a.renewUniform sys target inner loops g with
      | none => rfl
      | some ((_, .ok ()), g1) => exact ih l1 _
      | some ((_, .err e), g1) => rfl
      | some ((_, .panic), g1) => rfl

theorem intoDoubleIter_cursors (l : LList α) (x y : Option Nat) :
    (l.withCursors x y).intoDoubleIter.2 = l.intoDoubleIter.2 ∧
    (l.intoDoubleIter.2 = .ok () → (l.withCursors x y).intoDoubleIter.1 = l.intoDoubleIter.1) ∧
    ∃ x' y', (l.withCursors x y).intoDoubleIter.1 = l.intoDoubleIter.1.withCursors x' y' := by
  unfold LList.intoDoubleIter LList.withCursors
  simp only
  cases l.head with
  | none => exact ⟨rfl, fun _ => rfl, _, _, rfl⟩
  | some i =>
    simp only
    cases l.links[i]? with
    | none => exact ⟨rfl, fun h => by simp at h, some i, y, rfl⟩
    | some nd => exact ⟨rfl, fun _ => rfl, _, _, rfl⟩

theorem collect_c1 (n : Nat) (l : LList α) (y : Option Nat) : ({ l with c1 := y } : LList α).collect n = l.collect n := by
  induction n generalizing l with
  | zero => rfl
  | succ n ih =>
    obtain ⟨links, contents, hd, tl, c0, c1, c2⟩ := l
    unfold LList.collect LList.indicies
    cases c0 with
    | none => rfl
    | some i =>
      simp only
      cases links[i]? with
      | none => rfl
      | some nd =>
        simp only
        exact congrArg (fun r : List Nat × Bool => (i :: r.1, r.2)) (ih ⟨links, contents, hd, tl, nd.next, c1, c2⟩)

theorem liveAgents_cursors (l : LList α) (x y : Option Nat) : liveAgents (l.withCursors x y) = liveAgents l := by
  unfold liveAgents liveSlots
  exact congrArg (fun r : List Nat × Bool => r.1.filterMap fun i => l.contents[i]?)
    (collect_c1 (l.contents.length + 1) l.intoIter y)

variable [Fl F]

/-- A step of the merging simulation does not look at the cursors it finds. -/
theorem mergeStep_cursors (rng : RngOps G F) (sys : SysOps G F) (target : TargetOps F) (rad : MergeAgent F → F)
    (fuel : Nat) (dt : F) (l : LList (MergeAgent F)) (x y : Option Nat) (g : G) (ms : List (Nat × Nat)) :
    let r := mergeStep rng sys target rad fuel dt ⟨l, g, ms⟩
    ∃ x' y', mergeStep rng sys target rad fuel dt ⟨l.withCursors x y, g, ms⟩ =
      (⟨r.1.list.withCursors x' y', r.1.rng, r.1.merges⟩, r.2) := by
  intro r
  have e0 : (l.withCursors x y).intoIter = { l.intoIter with c1 := y } := rfl
  have hr : r = mergeStep rng sys target rad fuel dt ⟨l, g, ms⟩ := rfl
  unfold mergeStep at hr ⊢
  simp only [e0, agentSweep_c1] at hr ⊢
  rcases hs : agentSweep (walkAct (MergeAgent.walker rng) sys target dt) fuel l.intoIter g with ⟨⟨l1, g1⟩, o⟩
  rw [hs] at hr
  simp only at hr ⊢
  match o with
  | none => exact ⟨l1.c0, y, by rw [hr]; rfl⟩
  | some (.err e) => exact ⟨l1.c0, y, by rw [hr]; rfl⟩
  | some .panic => exact ⟨l1.c0, y, by rw [hr]; rfl⟩
  | some (.ok true) => exact ⟨l1.c0, y, by rw [hr]; rfl⟩
  | some (.ok false) =>
    simp only at hr ⊢
    obtain ⟨d1, d2, x', y', d3⟩ := intoDoubleIter_cursors l1 l1.c0 y
    have ew : ({ l1 with c1 := y } : LList (MergeAgent F)) = l1.withCursors l1.c0 y := rfl
    rw [ew]
    rcases hd : l1.intoDoubleIter with ⟨l2, r2⟩
    rcases hd' : (l1.withCursors l1.c0 y).intoDoubleIter with ⟨l2', r2'⟩
    rw [hd, hd'] at d1 d2 d3
    simp only at d1 d2 d3
    subst d1
    rw [hd] at hr
    match r2' with
    | .ok () =>
      obtain rfl := d2 rfl
      exact ⟨r.1.list.c0, r.1.list.c1, by
        simp only at hr ⊢
        rw [hr]
        match pairSweep (mergeAct rad) fuel l2' ms with
        | ((l3, ms), some (.ok ())) => rfl
        | ((l3, ms), some (.err e)) => rfl
        | ((l3, ms), some .panic) => rfl
        | ((l3, ms), none) => rfl⟩
    | .err e => exact ⟨x', y', by rw [hr, d3]⟩
    | .panic => exact ⟨x', y', by rw [hr, d3]⟩

theorem searchLoop_cursors (rng : RngOps G F) (sys : SysOps G F) (target : TargetOps F) (rad : MergeAgent F → F)
    (fuel : Nat) (tick : C → C × Res (Option (F × F))) (n : Nat) (c : C) (l : LList (MergeAgent F))
    (x y : Option Nat) (g : G) (ms : List (Nat × Nat)) :
    let r := searchLoop tick (mergeStep rng sys target rad fuel) n c ⟨l, g, ms⟩
    ∃ x' y', searchLoop tick (mergeStep rng sys target rad fuel) n c ⟨l.withCursors x y, g, ms⟩ =
      ((r.1.1, ⟨r.1.2.list.withCursors x' y', r.1.2.rng, r.1.2.merges⟩), r.2) := by
  induction n generalizing c l x y g ms with
  | zero => exact ⟨x, y, rfl⟩
  | succ n ih =>
    simp only
    unfold searchLoop
    rcases ht : tick c with ⟨c1, o⟩
    match o with
    | .ok none => exact ⟨x, y, rfl⟩
    | .err e => exact ⟨x, y, rfl⟩
    | .panic => exact ⟨x, y, rfl⟩
    | .ok (some (t, dt)) =>
      obtain ⟨x1, y1, e1⟩ := mergeStep_cursors rng sys target rad fuel dt l x y g ms
      simp only [e1]
      rcases hm : mergeStep rng sys target rad fuel dt ⟨l, g, ms⟩ with ⟨⟨l2, g2, ms2⟩, o2⟩
      match o2 with
      | none => exact ⟨x1, y1, rfl⟩
      | some (.ok true) => exact ⟨x1, y1, rfl⟩
      | some (.err e) => exact ⟨x1, y1, rfl⟩
      | some .panic => exact ⟨x1, y1, rfl⟩
      | some (.ok false) => exact ih c1 l2 x1 y1 g2 ms2

/-! ### the preparation -/

omit [Fl F] in
theorem connectAll_from {l : LList α} (hlen : l.links.length = l.contents.length) (hc2 : l.c2 = none) :
    l.connectAll = ((from' l.contents).withCursors l.c0 l.c1, .ok ()) := by
  unfold LList.connectAll from' LList.withCursors
  by_cases h0 : l.contents.length = 0
  · have hk : l.links = [] := List.eq_nil_of_length_eq_zero (by omega)
    have hc : l.contents = [] := List.eq_nil_of_length_eq_zero h0
    simp only [h0, if_true]
    congr 1
    cases l
    simp only at hk hc hc2
    subst hk hc hc2
    rfl
  · simp only [h0, if_false]
    rw [if_neg (by omega)]
    congr 1
    have hd : l.links.drop l.contents.length = [] := List.drop_eq_nil_of_le (by omega)
    rw [hd, List.append_nil]
    cases l
    simp only at hc2
    subst hc2
    rfl

/-- what `renew_uniform` in a sweep over a fresh list does. -/
theorem renewSweep_from (sys : SysOps G F) (target : TargetOps F) (inner loops : Nat) (rest : List (MergeAgent F)) :
    ∀ (done : List (MergeAgent F)) (fuel : Nat) (g : G), rest.length < fuel →
    let l : LList (MergeAgent F) := { from' (done ++ rest) with c0 := if rest = [] then none else some done.length }
    let o := renewEach (fun a g => a.renewUniform sys target inner loops g) rest g
    let r := renewSweep sys target inner loops fuel l g
    (o = none → r.2 = none) ∧
    (∀ cs g1, o = some ((cs, .ok ()), g1) → r = ((from' (done ++ cs), g1), some (.ok ()))) ∧
    (∀ cs e g1, o = some ((cs, e), g1) → e ≠ .ok () → r.2 = some e ∧ r.1.2 = g1) := by
  induction rest with
  | nil =>
    intro done fuel g hf
    obtain ⟨fuel, rfl⟩ : ∃ k, fuel = k + 1 := ⟨fuel - 1, by simp at hf; omega⟩
    simp only [renewEach, if_true]
    have e : ({ from' (done ++ ([] : List (MergeAgent F))) with c0 := none } : LList (MergeAgent F)) =
        from' (done ++ []) := rfl
    rw [e]
    have he : ∀ f, (from' (done ++ ([] : List (MergeAgent F)))).enumerateMut f =
        (from' (done ++ []), .ok none) := fun f => rfl
    refine ⟨by simp, ?_, by simp⟩
    rintro cs g1 h
    simp only [Option.some.injEq, Prod.mk.injEq, and_true] at h
    obtain ⟨rfl, rfl⟩ := h
    unfold renewSweep
    rw [he]
  | cons a rest ih =>
    intro done fuel g hf
    obtain ⟨fuel, rfl⟩ : ∃ k, fuel = k + 1 := ⟨fuel - 1, by simp at hf; omega⟩
    simp only [List.cons_ne_nil, if_false, reduceCtorEq]
    have hlink : (from' (done ++ a :: rest)).links[done.length]? =
        some (connNode (done.length + (rest.length + 1)) done.length) := by
      show (Node.listWithLength _)[done.length]? = _
      rw [listWithLength_getElem?, if_pos (by simp)]
      simp
    have hcont : (done ++ a :: rest)[done.length]? = some a := by simp
    have hstep : ∀ f : MergeAgent F → MergeAgent F,
        ({ from' (done ++ a :: rest) with c0 := some done.length } : LList (MergeAgent F)).enumerateMut f =
        ({ from' ((done ++ [f a]) ++ rest) with c0 := if rest = [] then none else some (done ++ [f a]).length },
          .ok (some (done.length, a))) := by
      intro f
      unfold LList.enumerateMut
      simp only [hlink]
      have : (from' (done ++ a :: rest)).contents = done ++ a :: rest := rfl
      simp only [this, hcont]
      congr 1
      have e1 : (done ++ a :: rest).set done.length (f a) = (done ++ [f a]) ++ rest := by
        rw [List.set_append_right _ _ (le_refl _)]; simp
      have e2 : (done ++ a :: rest).length = ((done ++ [f a]) ++ rest).length := by simp
      have e3 : (connNode (done.length + (rest.length + 1)) done.length).next =
          if rest = [] then none else some (done ++ [f a]).length := by
        unfold connNode
        cases rest with
        | nil => simp
        | cons b rest => simp
      rw [e1, e3]
      unfold from'
      rw [e2]
    unfold renewSweep
    rw [hstep]
    simp only
    unfold renewEach
    rcases hren : a.renewUniform sys target inner loops g with _ | ⟨⟨b, r⟩, g1⟩
    · simp
    · cases r with
      | ok _ =>
        simp only
        obtain ⟨i1, i2, i3⟩ := ih (done ++ [b]) fuel g1 (by simp at hf; omega)
        simp only at i1 i2 i3
        refine ⟨?_, ?_, ?_⟩
        · intro h
          exact i1 (by simpa using h)
        · intro cs g2 h
          simp only [Option.map_eq_some_iff] at h
          obtain ⟨⟨⟨cs', r'⟩, g3⟩, h1, h2⟩ := h
          simp only [Prod.mk.injEq] at h2
          obtain ⟨⟨rfl, rfl⟩, rfl⟩ := h2
          rw [i2 cs' g3 h1]
          simp
        · intro cs e g2 h he
          simp only [Option.map_eq_some_iff] at h
          obtain ⟨⟨⟨cs', r'⟩, g3⟩, h1, h2⟩ := h
          simp only [Prod.mk.injEq] at h2
          obtain ⟨⟨rfl, rfl⟩, rfl⟩ := h2
          exact i3 cs' r' g3 h1 he
      | err e =>
        refine ⟨by simp, by simp, ?_⟩
        intro cs e' g2 h he
        simp only [Option.some.injEq, Prod.mk.injEq] at h
        obtain ⟨⟨-, rfl⟩, rfl⟩ := h
        exact ⟨rfl, rfl⟩
      | panic =>
        refine ⟨by simp, by simp, ?_⟩
        intro cs e' g2 h he
        simp only [Option.some.injEq, Prod.mk.injEq] at h
        obtain ⟨⟨-, rfl⟩, rfl⟩ := h
        exact ⟨rfl, rfl⟩

/-- the preparation of an ensemble on a list with any history. -/
theorem largeNPrepare_says (sys : SysOps G F) (target : TargetOps F) (inner loops fuel : Nat)
    {l : LList (MergeAgent F)} (hlen : l.links.length = l.contents.length) (hc2 : l.c2 = none)
    (hf : l.contents.length < fuel) (g : G) :
    let o := renewEach (fun a g => a.renewUniform sys target inner loops g) l.contents g
    let r := largeNPrepare sys target inner loops fuel l g
    (o = none → r.2 = none) ∧
    (∀ cs g1, o = some ((cs, .ok ()), g1) → r = (((from' cs).withCursors none l.c1, g1), some (.ok ()))) ∧
    (∀ cs e g1, o = some ((cs, e), g1) → e ≠ .ok () → r.2 = some e ∧ r.1.2 = g1) := by
  have e : largeNPrepare sys target inner loops fuel l g =
      renewSweep sys target inner loops fuel
        { ({ from' ([] ++ l.contents) with c0 := if l.contents = [] then none else some ([] : List (MergeAgent F)).length } :
            LList (MergeAgent F)) with c1 := l.c1 } g := by
    unfold largeNPrepare
    rw [connectAll_from hlen hc2]
    simp only
    congr 1
    unfold LList.withCursors LList.intoIter from'
    simp only [List.nil_append, List.length_eq_zero_iff, List.length_nil]
  obtain ⟨i1, i2, i3⟩ := renewSweep_from sys target inner loops l.contents [] fuel g hf
  simp only at i1 i2 i3
  simp only
  rw [e, renewSweep_c1]
  refine ⟨i1, ?_, i3⟩
  intro cs g1 ho
  rw [i2 cs g1 ho]
  rfl

/-! ### what renewing does not see -/

omit [Fl F] in
/-- `b` is what `a` may have become in earlier ensembles: same parameters, positions of a consistent dimension. -/
structure SameKind (a b : MergeAgent F) : Prop where
  agentType : b.agentType = a.agentType
  itype : b.itype = a.itype
  radius : b.ptlRadius = a.ptlRadius
  alpha : b.alpha = a.alpha
  move : (a.mtype = .levy ∧ b.mtype = .levy) ∨ ((∃ D, a.mtype = .brownian D) ∧ ∃ D, b.mtype = .brownian D)
  dim : b.dim = b.pos.length

/-- two outcomes of a renewal that a caller cannot tell apart (what is left behind by a failure may differ). -/
def SameOutcome {β : Type} (x y : Option ((β × Res Unit) × G)) : Prop :=
  x = y ∨ ∃ b b' e g, e ≠ .ok () ∧ x = some ((b, e), g) ∧ y = some ((b', e), g)

omit [Fl F] in
theorem startPos_says {sys : SysOps G F} {n : Nat} (ho : sys.OutsideDim n) (p : Pos F) :
    AgentCore.startPos sys p = (sys.positionOut, decide (p.length ≠ n)) := by
  unfold AgentCore.startPos
  by_cases h : p.length = n
  · rw [(ho.2 p).1 h]; simp [h]
  · obtain ⟨e, he⟩ := (ho.2 p).2 h
    rw [he]; simp [h]

omit [Fl F] in
theorem renew_dim {sys : SysOps G F} {n : Nat} (ho : sys.OutsideDim n) (a : MergeAgent F) (h : a.dim = a.pos.length) :
    (if decide (a.pos.length ≠ n) = true then sys.positionOut.dim else a.dim) = n := by
  by_cases hn : a.pos.length = n
  · simp [hn, h]
  · simp [hn, Pos.dim, ho.1]

theorem renew_same {sys : SysOps G F} {target : TargetOps F} {n : Nat} (ho : sys.OutsideDim n) (inner loops : Nat)
    (g : G) {a b : MergeAgent F} (ha : a.dim = a.pos.length) (h : SameKind a b) :
    SameOutcome (a.renewUniform sys target inner loops g) (b.renewUniform sys target inner loops g) := by
  unfold MergeAgent.renewUniform
  rw [startPos_says ho, startPos_says ho]
  simp only [renew_dim ho a ha, renew_dim ho b h.dim]
  rcases AgentCore.drawOffTarget sys target inner loops g sys.positionOut with _ | ⟨⟨p, r⟩, g1⟩
  · exact .inl rfl
  · obtain ⟨h1, h2, h3, h4, h5, h6⟩ := h
    obtain ⟨t1, m1, i1, d1, p1, r1, s1, al1⟩ := a
    obtain ⟨t2, m2, i2, d2, p2, r2, s2, al2⟩ := b
    simp only at h1 h2 h3 h4 h5 h6
    subst h1 h2 h3 h4
    cases r with
    | ok _ =>
      rcases h5 with ⟨rfl, rfl⟩ | ⟨⟨D1, rfl⟩, D2, rfl⟩
      · exact .inl rfl
      · exact .inl rfl
    | err e => exact .inr ⟨_, _, _, _, by simp, rfl, rfl⟩
    | panic => exact .inr ⟨_, _, _, _, by simp, rfl, rfl⟩

theorem renewEach_same {sys : SysOps G F} {target : TargetOps F} {n : Nat} (ho : sys.OutsideDim n) (inner loops : Nat)
    {v w : List (MergeAgent F)} (h : List.Forall₂ SameKind v w) (hv : ∀ a ∈ v, a.dim = a.pos.length) (g : G) :
    SameOutcome (renewEach (fun a g => a.renewUniform sys target inner loops g) v g)
      (renewEach (fun a g => a.renewUniform sys target inner loops g) w g) := by
  induction h generalizing g with
  | nil => exact .inl rfl
  | @cons a b v w hab _ ih =>
    have hs := renew_same (target := target) ho inner loops g (hv a (by simp)) hab
    unfold renewEach
    rcases hs with hs | ⟨a', b', e, g1, he, h1, h2⟩
    · simp only [hs]
      rcases b.renewUniform sys target inner loops g with _ | ⟨⟨c, r⟩, g1⟩
      · exact .inl rfl
      · cases r with
        | ok _ =>
          simp only
          rcases ih (fun a ha => hv a (by simp [ha])) g1 with h | ⟨x, y, e, g2, he, h1, h2⟩
          · rw [h]; exact .inl rfl
          · rw [h1, h2]
            exact .inr ⟨_, _, _, _, he, rfl, rfl⟩
        | err e => exact .inr ⟨_, _, _, _, by simp, rfl, rfl⟩
        | panic => exact .inr ⟨_, _, _, _, by simp, rfl, rfl⟩
    · simp only [h1, h2]
      cases e with
      | ok _ => exact absurd rfl he
      | err e => exact .inr ⟨_, _, _, _, by simp, rfl, rfl⟩
      | panic => exact .inr ⟨_, _, _, _, by simp, rfl, rfl⟩

/-- what a successful renewal leaves. -/
structure Renewed (sys : SysOps G F) (target : TargetOps F) (n : Nat) (a b : MergeAgent F) : Prop where
  kind : SameKind a b
  dim : b.dim = n
  inside : sys.checkInclusion b.pos = .ok true
  off : target.checkFind b.pos = .ok false
  size : b.size = 1
  move : b.mtype = .brownian (Fl.powf (Fl.ofNat 1) (-a.alpha))

theorem renew_ok {sys : SysOps G F} {target : TargetOps F} {n : Nat} (hd : sys.DrawsInside n) (ho : sys.OutsideDim n)
    {inner loops : Nat} {g g' : G} {a b : MergeAgent F} (ha : a.dim = a.pos.length)
    (h : a.renewUniform sys target inner loops g = some ((b, .ok ()), g')) : Renewed sys target n a b := by
  unfold MergeAgent.renewUniform at h
  rw [startPos_says ho] at h
  simp only [renew_dim ho a ha, Option.map_eq_some_iff] at h
  obtain ⟨⟨⟨p, r⟩, g1⟩, h1, h2⟩ := h
  cases r with
  | err e => simp at h2
  | panic => simp at h2
  | ok _ =>
    obtain ⟨k1, k2, k3⟩ := Props.drawOffTarget_ok hd h1
    obtain ⟨t1, m1, i1, d1, p1, r1, s1, al1⟩ := a
    cases m1 with
    | levy => simp [MergeAgent.rescale] at h2
    | brownian D =>
      simp only [MergeAgent.rescale, Prod.mk.injEq, and_true] at h2
      obtain ⟨rfl, rfl⟩ := h2
      exact ⟨⟨rfl, rfl, rfl, rfl, .inr ⟨⟨_, rfl⟩, _, rfl⟩, k1.symm⟩, rfl, k2, k3, rfl, rfl⟩

theorem renewEach_ok {sys : SysOps G F} {target : TargetOps F} {n : Nat} (hd : sys.DrawsInside n)
    (ho : sys.OutsideDim n) {inner loops : Nat} {v cs : List (MergeAgent F)} {g g' : G}
    (hv : ∀ a ∈ v, a.dim = a.pos.length)
    (h : renewEach (fun a g => a.renewUniform sys target inner loops g) v g = some ((cs, .ok ()), g')) :
    List.Forall₂ (Renewed sys target n) v cs := by
  induction v generalizing g cs with
  | nil =>
    simp only [renewEach, Option.some.injEq, Prod.mk.injEq, and_true] at h
    obtain ⟨rfl, -⟩ := h
    exact .nil
  | cons a v ih =>
    unfold renewEach at h
    rcases hr : a.renewUniform sys target inner loops g with _ | ⟨⟨b, r⟩, g1⟩
    · simp [hr] at h
    · simp only [hr] at h
      cases r with
      | err e => simp at h
      | panic => simp at h
      | ok _ =>
        simp only [Option.map_eq_some_iff] at h
        obtain ⟨⟨⟨cs', r'⟩, g3⟩, h1, h2⟩ := h
        simp only [Prod.mk.injEq] at h2
        obtain ⟨⟨rfl, rfl⟩, rfl⟩ := h2
        exact .cons (renew_ok hd ho (hv a (by simp)) hr) (ih (fun a ha => hv a (by simp [ha])) h1)

/-! ### what the simulation keeps in every slot -/

omit [Fl F] in
theorem enumerateMut_keeps {R : α → α → Prop} {v : List α} {l : LList α} {f : α → α} {i : Nat} {a : α} {l1 : LList α}
    (h : List.Forall₂ R v l.contents) (he : l.enumerateMut f = (l1, .ok (some (i, a))))
    (hf : ∀ x, R x a → R x (f a)) : List.Forall₂ R v l1.contents := by
  unfold LList.enumerateMut at he
  rcases hc : l.c0 with _ | idx
  · simp [hc] at he
  simp only [hc] at he
  rcases hl : l.links[idx]? with _ | nd
  · simp [hl] at he
  simp only [hl] at he
  rcases hcc : l.contents[idx]? with _ | b
  · simp [hcc] at he
  simp only [hcc, Prod.mk.injEq, Res.ok.injEq, Option.some.injEq] at he
  obtain ⟨rfl, rfl, rfl⟩ := he
  simp only
  have hlen := h.length_eq
  rw [List.forall₂_iff_get] at h ⊢
  refine ⟨by simpa using h.1, fun j h1 h2 => ?_⟩
  simp only [List.get_eq_getElem, List.getElem_set]
  have h2' : j < l.contents.length := by simpa using h2
  split
  · rename_i hij
    subst hij
    apply hf
    have := h.2 idx h1 h2'
    rw [List.getElem?_eq_getElem h2', Option.some.injEq] at hcc
    rw [← hcc]
    exact this
  · exact h.2 j h1 h2'

omit [Fl F] in
theorem enumerateMut_none {l l1 : LList α} {f : α → α} (he : l.enumerateMut f = (l1, .ok none)) :
    l1.contents = l.contents := by
  unfold LList.enumerateMut at he
  rcases hc : l.c0 with _ | idx
  · simp only [hc, Prod.mk.injEq] at he; rw [← he.1]
  simp only [hc] at he
  rcases hl : l.links[idx]? with _ | nd
  · simp [hl] at he
  simp only [hl] at he
  rcases hcc : l.contents[idx]? with _ | b
  · simp [hcc] at he
  · simp [hcc] at he

omit [Fl F] in
theorem enumerateMut_index {l l1 : LList α} {f : α → α} {i : Nat} {a : α}
    (he : l.enumerateMut f = (l1, .ok (some (i, a)))) : l.c0.getD 0 = i := by
  unfold LList.enumerateMut at he
  rcases hc : l.c0 with _ | idx
  · simp [hc] at he
  simp only [hc] at he
  rcases hl : l.links[idx]? with _ | nd
  · simp [hl] at he
  simp only [hl] at he
  rcases hcc : l.contents[idx]? with _ | b
  · simp [hcc] at he
  · simp only [hcc, Prod.mk.injEq, Res.ok.injEq, Option.some.injEq] at he
    simpa using he.2.1

omit [Fl F] in
theorem agentSweep_keeps {R : α → α → Prop} {v : List α} {act : Nat → S → α → (α × Res Bool) × S}
    (hact : ∀ i s x a b, R x a → (act i s a).1.2 = .ok b → R x (act i s a).1.1) (n : Nat) (l : LList α) (s : S)
    (h : List.Forall₂ R v l.contents) (b : Bool) (hok : (agentSweep act n l s).2 = some (.ok b)) :
    List.Forall₂ R v (agentSweep act n l s).1.1.contents := by
  induction n generalizing l s with
  | zero => simp [agentSweep] at hok
  | succ n ih =>
    unfold agentSweep at hok ⊢
    rcases he : l.enumerateMut (fun a => (act (l.c0.getD 0) s a).1.1) with ⟨l1, r⟩
    rw [he] at hok
    match r with
    | .ok none => simp only; rw [enumerateMut_none he]; exact h
    | .err e => simp at hok
    | .panic => simp at hok
    | .ok (some (i, a)) =>
      have hi := enumerateMut_index he
      have hk : ∀ b, (act i s a).1.2 = .ok b → List.Forall₂ R v l1.contents := fun b hb =>
        enumerateMut_keeps h he (fun x hx => by rw [hi]; exact hact i s x a b hx hb)
      simp only at hok ⊢
      rcases hact' : (act i s a).1.2 with b' | e | _
      · have hb := hk b' hact'
        rw [hact'] at hok
        cases b' with
        | true => exact hb
        | false => exact ih l1 _ hb hok
      · rw [hact'] at hok; simp at hok
      · rw [hact'] at hok; simp at hok

omit [Fl F] in
theorem enumerateDouble_contents (l : LList α) : l.enumerateDouble.1.contents = l.contents := by
  have h : l.indiciesDouble.1.contents = l.contents := by
    unfold LList.indiciesDouble
    repeat' split
    all_goals rfl
  unfold LList.enumerateDouble
  rcases hi : l.indiciesDouble with ⟨l1, r⟩
  rw [hi] at h
  match r with
  | .ok none => exact h
  | .err e => exact h
  | .panic => exact h
  | .ok (some (i, j)) =>
    simp only
    split
    · exact h
    · exact h

omit [Fl F] in
theorem del_contents (l : LList α) (i : Nat) : (l.del i).1.contents = l.contents := by
  unfold LList.del
  rcases l.links[i]? with _ | nd
  · rfl
  simp only
  split
  · rfl
  · split
    · rfl
    · rename_i l2 h2
      have e2 : l2.contents = l.contents := by
        rcases hp : nd.prev with _ | prev
        · simp only [hp, Option.some.injEq] at h2; rw [← h2]
        · simp only [hp, Option.map_eq_some_iff] at h2
          obtain ⟨ls, -, h2⟩ := h2
          rw [← h2]
      split
      · exact e2
      · rename_i l3 h3
        rcases hp : nd.next with _ | nx
        · simp only [hp, Option.some.injEq] at h3; rw [← h3]; exact e2
        · simp only [hp, Option.map_eq_some_iff] at h3
          obtain ⟨ls, -, h3⟩ := h3
          rw [← h3]; exact e2

omit [Fl F] in
theorem intoDoubleIter_contents (l : LList α) : l.intoDoubleIter.1.contents = l.contents := by
  unfold LList.intoDoubleIter
  repeat' split
  all_goals rfl

omit [Fl F] in
/-- of the same kind, and of dimension `n`. -/
def KindDim (n : Nat) (a b : MergeAgent F) : Prop := SameKind a b ∧ b.dim = n

theorem mergeAct_keeps {n : Nat} {v : List (MergeAgent F)} {rad : MergeAgent F → F} {i j : Nat} {a b : MergeAgent F}
    {l : LList (MergeAgent F)} {ms : List (Nat × Nat)} (h : List.Forall₂ (KindDim n) v l.contents) 
    (hok : (mergeAct rad i a j b l ms).2 = .ok ()) :
    List.Forall₂ (KindDim n) v (mergeAct rad i a j b l ms).1.1.contents := by
  unfold mergeAct at hok ⊢
  rcases hdd : a.pos.distance b.pos with d | e | _
  · simp only [hdd] at hok ⊢
    split
    · rename_i hlt
      rw [if_pos hlt] at hok
      have key : (l.merge MergeAgent.mergeOps i j).2 = .ok () →
          List.Forall₂ (KindDim n) v (l.merge MergeAgent.mergeOps i j).1.contents := by
        unfold LList.merge
        rcases hj : l.contents[j]? with _ | y
        · simp
        rcases hi : l.contents[i]? with _ | x
        · simp
        simp only
        rcases hr : (MergeAgent.mergeOps (F := F)).addSize x ((MergeAgent.mergeOps (F := F)).size y) with ⟨x', r⟩
        have hx' : r = .ok () → ∀ z, KindDim n z x → KindDim n z x' := by
          rintro rfl z ⟨⟨h1, h2, h3, h4, h5, h6⟩, h7⟩
          have hr' : MergeAgent.addSize x y.size = (x', .ok ()) := hr
          unfold MergeAgent.addSize MergeAgent.rescale at hr'
          rcases h5 with ⟨h5, h5'⟩ | ⟨h5, D, h5'⟩
          · simp [h5'] at hr'
          · simp only [h5', Prod.mk.injEq, and_true] at hr'
            subst hr'
            exact ⟨⟨h1, h2, h3, h4, .inr ⟨h5, _, rfl⟩, h6⟩, h7⟩
        cases r with
        | err e => simp
        | panic => simp
        | ok _ =>
          intro _
          simp only
          rw [del_contents]
          simp only
          have hlen := h.length_eq
          rw [List.forall₂_iff_get] at h ⊢
          refine ⟨by simpa using h.1, fun k h1 h2 => ?_⟩
          simp only [List.get_eq_getElem, List.getElem_set]
          have h2' : k < l.contents.length := by simpa using h2
          split
          · rename_i hij
            subst hij
            apply hx' rfl
            have := h.2 i h1 h2'
            rw [List.getElem?_eq_getElem h2', Option.some.injEq] at hi
            rw [← hi]
            exact this
          · exact h.2 k h1 h2'
      rcases hm : l.merge MergeAgent.mergeOps i j with ⟨l1, r⟩
      rw [hm] at key hok
      cases r with
      | ok _ => exact key rfl
      | err e => simp at hok
      | panic => simp at hok
    · exact h
  · simp [hdd] at hok
  · simp [hdd] at hok

theorem pairSweep_keeps {d : Nat} {v : List (MergeAgent F)} {rad : MergeAgent F → F} (n : Nat) (l : LList (MergeAgent F))
    (ms : List (Nat × Nat)) (h : List.Forall₂ (KindDim d) v l.contents)
    (hok : (pairSweep (mergeAct rad) n l ms).2 = some (.ok ())) :
    List.Forall₂ (KindDim d) v (pairSweep (mergeAct rad) n l ms).1.1.contents := by
  induction n generalizing l ms with
  | zero => simp [pairSweep] at hok
  | succ n ih =>
    unfold pairSweep at hok ⊢
    have hc := enumerateDouble_contents l
    rcases he : l.enumerateDouble with ⟨l1, r⟩
    rw [he] at hok hc
    simp only at hc
    rw [← hc] at h
    match r with
    | .ok none => exact h
    | .err e => simp at hok
    | .panic => simp at hok
    | .ok (some (i, a, j, b)) =>
      simp only at hok ⊢
      have hk := mergeAct_keeps (rad := rad) (i := i) (j := j) (a := a) (b := b) (ms := ms) h
      rcases hm : mergeAct rad i a j b l1 ms with ⟨⟨l2, ms2⟩, r2⟩
      rw [hm] at hok hk
      cases r2 with
      | ok _ => exact ih l2 ms2 (hk rfl) hok
      | err e => simp at hok
      | panic => simp at hok

theorem inside_length {rng : RngOps G F} {sys : SysOps G F} (hsys : LibrarySystem rng sys) {n : Nat}
    (ho : sys.OutsideDim n) {p : Pos F} (h : sys.checkInclusion p = .ok true) : p.length = n := by
  have h1 := ho.1
  rcases hsys with ⟨s, rfl⟩ | ⟨s, rfl⟩ | ⟨s, rfl⟩
  · simp only [Cubic.ops, Cubic.positionOutOfSystem, List.length_replicate] at h1
    simp only [Cubic.ops, Cubic.checkInclusion] at h
    by_contra hn
    rw [if_pos (by omega)] at h
    simp at h
  · simp only [Circ.ops, Circ.positionOutOfSystem, List.length_replicate] at h1
    simp only [Circ.ops, Circ.checkInclusion] at h
    by_contra hn
    rw [if_pos (by omega)] at h
    simp at h
  · simp only [Cyl.ops, Cyl.positionOutOfSystem, List.length_replicate] at h1
    simp only [Cyl.ops, Cyl.checkInclusion] at h
    by_contra hn
    rw [if_pos (by omega)] at h
    simp at h

theorem walkAct_keeps {rng : RngOps G F} {sys : SysOps G F} (hsys : LibrarySystem rng sys) {n : Nat}
    (ho : sys.OutsideDim n) (target : TargetOps F) (dt : F) (i : Nat) (g : G) (x a : MergeAgent F) (b : Bool)
    (h : KindDim n x a) (hok : (walkAct (MergeAgent.walker rng) sys target dt i g a).1.2 = .ok b) :
    KindDim n x (walkAct (MergeAgent.walker rng) sys target dt i g a).1.1 := by
  obtain ⟨⟨h1, h2, h3, h4, h5, h6⟩, h7⟩ := h
  unfold walkAct at hok ⊢
  rcases hm : (MergeAgent.walker rng).randomMove a g dt with ⟨r, g1⟩
  rw [hm] at hok
  cases r with
  | err e => simp at hok
  | panic => simp at hok
  | ok single =>
    simp only at hok ⊢
    have hs := library_sound hsys ((MergeAgent.walker rng).pos a) single
    rcases hc : sys.checkBc ((MergeAgent.walker rng).pos a) single with ⟨p, r⟩
    rw [hc] at hok hs
    cases r with
    | err e => simp at hok
    | panic => simp at hok
    | ok _ =>
      have hl := inside_length hsys ho (hs rfl)
      refine ⟨⟨h1, h2, h3, h4, h5, ?_⟩, h7⟩
      show a.dim = p.length
      rw [h7]; exact hl.symm

theorem mergeStep_keeps {rng : RngOps G F} {sys : SysOps G F} (hsys : LibrarySystem rng sys) {n : Nat}
    (ho : sys.OutsideDim n) (target : TargetOps F) (rad : MergeAgent F → F) (fuel : Nat) (dt : F)
    {v : List (MergeAgent F)} (st : MergeSim G F) (h : List.Forall₂ (KindDim n) v st.list.contents) (b : Bool)
    (hok : (mergeStep rng sys target rad fuel dt st).2 = some (.ok b)) :
    List.Forall₂ (KindDim n) v (mergeStep rng sys target rad fuel dt st).1.list.contents := by
  have hsweep := agentSweep_keeps (v := v) (walkAct_keeps hsys ho target dt) fuel st.list.intoIter st.rng
    (by exact h)
  unfold mergeStep at hok ⊢
  rcases hs : agentSweep (walkAct (MergeAgent.walker rng) sys target dt) fuel st.list.intoIter st.rng with ⟨⟨l1, g1⟩, o⟩
  rw [hs] at hok hsweep
  match o with
  | none => simp at hok
  | some (.err e) => simp at hok
  | some .panic => simp at hok
  | some (.ok true) => exact hsweep true rfl
  | some (.ok false) =>
    have h1 := hsweep false rfl
    simp only at h1 hok ⊢
    have hc := intoDoubleIter_contents l1
    rcases hd : l1.intoDoubleIter with ⟨l2, r2⟩
    rw [hd] at hok hc
    simp only at hc
    rw [← hc] at h1
    match r2 with
    | .err e => simp at hok
    | .panic => simp at hok
    | .ok () =>
      simp only at hok ⊢
      have hp := pairSweep_keeps (rad := rad) fuel l2 st.merges h1
      rcases hps : pairSweep (mergeAct rad) fuel l2 st.merges with ⟨⟨l3, ms⟩, o3⟩
      rw [hps] at hok hp
      match o3 with
      | none => simp at hok
      | some (.err e) => simp at hok
      | some .panic => simp at hok
      | some (.ok ()) => exact hp rfl

theorem searchLoop_keeps {rng : RngOps G F} {sys : SysOps G F} (hsys : LibrarySystem rng sys) {n : Nat}
    (ho : sys.OutsideDim n) (target : TargetOps F) (rad : MergeAgent F → F) (fuel : Nat)
    (tick : C → C × Res (Option (F × F))) {v : List (MergeAgent F)} (steps : Nat) (c : C) (st : MergeSim G F)
    (h : List.Forall₂ (KindDim n) v st.list.contents) (t : Option F)
    (hok : (searchLoop tick (mergeStep rng sys target rad fuel) steps c st).2 = some (.ok t)) :
    List.Forall₂ (KindDim n) v
      (searchLoop tick (mergeStep rng sys target rad fuel) steps c st).1.2.list.contents := by
  induction steps generalizing c st with
  | zero => simp [searchLoop] at hok
  | succ steps ih =>
    unfold searchLoop at hok ⊢
    rcases ht : tick c with ⟨c1, o⟩
    rw [ht] at hok
    match o with
    | .ok none => exact h
    | .err e => simp at hok
    | .panic => simp at hok
    | .ok (some (tm, dt)) =>
      simp only at hok ⊢
      have hk := mergeStep_keeps hsys ho target rad fuel dt st h
      rcases hm : mergeStep rng sys target rad fuel dt st with ⟨st1, o2⟩
      rw [hm] at hok hk
      match o2 with
      | none => simp at hok
      | some (.err e) => simp at hok
      | some .panic => simp at hok
      | some (.ok true) => exact hk true rfl
      | some (.ok false) => exact ih c1 st1 (hk false rfl) hok

end Moledyn
