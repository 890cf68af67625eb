import Verif.Lemmas.ListProgram
import Verif.Model.SingleSearch
import Verif.Spec.NoMerging
/-
Helper lemmas: merging searchers that do not meet move as independent searchers.
-/
namespace Moledyn
open LList
set_option linter.unusedSimpArgs false
variable {G F S S' α β C : Type}

/-- two loops over agents in lockstep, when the invariant survives only a body that goes on. -/
theorem agentSweep_lockstep_ok {R : S → S' → Prop} {K : α → Prop} {f : α → β}
    {act : Nat → S → α → (α × Res Bool) × S} {act' : Nat → S' → β → (β × Res Bool) × S'}
    (hact : ∀ i s s' a, R s s' → K a → (act' i s' (f a)).1 = (f (act i s a).1.1, (act i s a).1.2) ∧
      R (act i s a).2 (act' i s' (f a)).2 ∧ ((act i s a).1.2 = .ok false → K (act i s a).1.1))
    (n : Nat) (l : LList α) (l' : LList β) (hl : Corresponds f l l') (hc0 : l'.c0 = l.c0) (hK : ∀ a ∈ l.contents, K a)
    (s : S) (s' : S') (h : R s s') :
    Corresponds f (agentSweep act n l s).1.1 (agentSweep act' n l' s').1.1 ∧
    (agentSweep act' n l' s').2 = (agentSweep act n l s).2 ∧
    R (agentSweep act n l s).1.2 (agentSweep act' n l' s').1.2 ∧
    ((agentSweep act n l s).2 = some (.ok false) → ∀ a ∈ (agentSweep act n l s).1.1.contents, K a) := by
  induction n generalizing l l' s s' with
  | zero => exact ⟨hl, rfl, h, fun _ => hK⟩
  | succ n ih =>
    obtain ⟨lk', ct', hd', tl', c0', c1', c2'⟩ := l'
    obtain ⟨h1, h2, h3, h4, h5⟩ := hl
    simp only at h1 h2 h3 h4 h5 hc0
    subst h1 h2 h3 h4 h5 hc0
    unfold agentSweep
    unfold LList.enumerateMut
    simp only
    rcases hcur : l.c0 with _ | idx
    · exact ⟨⟨rfl, rfl, rfl, rfl, rfl⟩, rfl, h, fun _ => hK⟩
    · simp only [Option.getD_some]
      rcases hnd : l.links[idx]? with _ | nd
      · exact ⟨⟨rfl, rfl, rfl, rfl, rfl⟩, rfl, h, fun _ => hK⟩
      · simp only [List.getElem?_map]
        rcases ha : l.contents[idx]? with _ | a
        · exact ⟨⟨rfl, rfl, rfl, rfl, rfl⟩, rfl, h, fun _ => hK⟩
        · have hKa := hK a (List.mem_of_getElem? ha)
          obtain ⟨h1, h2, h3⟩ := hact idx s s' a h hKa
          have e1 : (act' idx s' (f a)).1.1 = f (act idx s a).1.1 := by rw [h1]
          have e2 : (act' idx s' (f a)).1.2 = (act idx s a).1.2 := by rw [h1]
          simp only [Option.map_some, e1, e2]
          match hr : (act idx s a).1.2 with
          | .ok false =>
            refine ih _ _ ⟨rfl, by simp only [List.map_set], rfl, rfl, rfl⟩ rfl ?_ _ _ h2
            intro b hb
            rcases List.mem_or_eq_of_mem_set hb with hb | rfl
            · exact hK b hb
            · exact h3 hr
          | .ok true => exact ⟨⟨rfl, by simp only [List.map_set], rfl, rfl, rfl⟩, rfl, h2, fun h => by simp at h⟩
          | .err e => exact ⟨⟨rfl, by simp only [List.map_set], rfl, rfl, rfl⟩, rfl, h2, fun h => by simp at h⟩
          | .panic => exact ⟨⟨rfl, by simp only [List.map_set], rfl, rfl, rfl⟩, rfl, h2, fun h => by simp at h⟩

theorem enumerateDouble_cursors (l : LList α) : ∃ x y, l.enumerateDouble.1 = l.withCursors x y := by
  have h : ∃ x y, l.indiciesDouble.1 = l.withCursors x y := by
    unfold LList.indiciesDouble
    repeat' split
    all_goals exact ⟨_, _, rfl⟩
  unfold LList.enumerateDouble
  rcases hi : l.indiciesDouble with ⟨l1, r⟩
  rw [hi] at h
  match r with
  | .ok none => exact h
  | .err e => exact h
  | .panic => exact h
  | .ok (some (i, j)) =>
    simp only
    split
    · exact h
    · exact h

theorem liveAgents_corresponds {f : α → β} {l : LList α} {l' : LList β} (h : Corresponds f l l') : liveAgents l' = (liveAgents l).map f := by
  have hc : ∀ (n : Nat) (l : LList α) (l' : LList β), l'.links = l.links → l'.c0 = l.c0 → l'.collect n = l.collect n := by
    intro n
    induction n with
    | zero => intro l l' _ _; rfl
    | succ n ih =>
      intro l l' h1 h2
      unfold LList.collect LList.indicies
      rw [h1, h2]
      rcases l.c0 with _ | i
      · rfl
      · simp only
        rcases l.links[i]? with _ | nd
        · rfl
        · simp only
          rw [ih { l with c0 := nd.next } { l' with links := l.links, c0 := nd.next } rfl rfl]
  unfold liveAgents liveSlots
  rw [h.contents, List.length_map, hc _ l.intoIter l'.intoIter h.links h.head, List.map_filterMap]
  refine List.filterMap_congr fun i _ => ?_
  simp

variable [Fl F]

theorem walkAct_plain (rng : RngOps G F) (sys : SysOps G F) (target : TargetOps F) (dt : F) (i : Nat) (g : G) (a : MergeAgent F) :
    walkAct (IndepAgent.walker rng) sys target dt i g a.plain =
      (((walkAct (MergeAgent.walker rng) sys target dt i g a).1.1.plain, (walkAct (MergeAgent.walker rng) sys target dt i g a).1.2),
        (walkAct (MergeAgent.walker rng) sys target dt i g a).2) := by
  unfold walkAct
  have h1 : (IndepAgent.walker rng).randomMove a.plain g dt = (MergeAgent.walker rng).randomMove a g dt := rfl
  rw [h1]
  rcases (MergeAgent.walker rng).randomMove a g dt with ⟨r | e | _, g1⟩
  · simp only
    have h2 : (IndepAgent.walker rng).pos a.plain = (MergeAgent.walker rng).pos a := rfl
    rw [h2]
    rcases sys.checkBc ((MergeAgent.walker rng).pos a) r with ⟨p, r | e | _⟩ <;> rfl
  · rfl
  · rfl

/-- a diffusing searcher of dimension `d`. -/
def Diffusing (d : Nat) (D : F) (a : MergeAgent F) : Prop := a.dim = d ∧ a.pos.length = d ∧ a.mtype = .brownian D

theorem walkAct_diffusing {rng : RngOps G F} {sys : SysOps G F} (hsys : LibrarySystem rng sys) {d : Nat} (ho : sys.OutsideDim d) {D : F}
    (target : TargetOps F) (dt : F) (i : Nat) (g : G) (a : MergeAgent F) (h : Diffusing d D a) (b : Bool)
    (hok : (walkAct (MergeAgent.walker rng) sys target dt i g a).1.2 = .ok b) :
    Diffusing d D (walkAct (MergeAgent.walker rng) sys target dt i g a).1.1 := by
  unfold walkAct at hok ⊢
  rcases hm : (MergeAgent.walker rng).randomMove a g dt with ⟨r, g1⟩
  rw [hm] at hok
  cases r with
  | err e => simp at hok
  | panic => simp at hok
  | ok single =>
    simp only at hok ⊢
    have hs := library_sound hsys ((MergeAgent.walker rng).pos a) single
    rcases hc : sys.checkBc ((MergeAgent.walker rng).pos a) single with ⟨p, r⟩
    rw [hc] at hok hs
    cases r with
    | err e => simp at hok
    | panic => simp at hok
    | ok _ => exact ⟨h.1, inside_length hsys ho (hs rfl), h.2.2⟩

/-- the record of merges only grows. -/
theorem pairSweep_record (rad : MergeAgent F → F) (n : Nat) (l : LList (MergeAgent F)) (ms : List (Nat × Nat)) :
    ∃ ext, (pairSweep (mergeAct rad) n l ms).1.2 = ms ++ ext := by
  induction n generalizing l ms with
  | zero => exact ⟨[], by simp [pairSweep]⟩
  | succ n ih =>
    unfold pairSweep
    rcases l.enumerateDouble with ⟨l1, r⟩
    match r with
    | .ok none => exact ⟨[], by simp⟩
    | .err e => exact ⟨[], by simp⟩
    | .panic => exact ⟨[], by simp⟩
    | .ok (some (i, a, j, b)) =>
      have hm : ∃ ext, (mergeAct rad i a j b l1 ms).1.2 = ms ++ ext := by
        unfold mergeAct
        rcases a.pos.distance b.pos with x | e | _
        · simp only
          split
          · rcases l1.merge MergeAgent.mergeOps i j with ⟨l2, r | e | _⟩
            · exact ⟨[(i, j)], rfl⟩
            · exact ⟨[], by simp⟩
            · exact ⟨[], by simp⟩
          · exact ⟨[], by simp⟩
        · exact ⟨[], by simp⟩
        · exact ⟨[], by simp⟩
      simp only
      rcases hx : mergeAct rad i a j b l1 ms with ⟨⟨l2, ms2⟩, r | e | _⟩
      · rw [hx] at hm
        obtain ⟨e1, h1⟩ := hm
        obtain ⟨e2, h2⟩ := ih l2 ms2
        simp only at h1 ⊢
        exact ⟨e1 ++ e2, by rw [h2, h1, List.append_assoc]⟩
      · rw [hx] at hm; exact hm
      · rw [hx] at hm; exact hm

theorem mergeStep_record (rng : RngOps G F) (sys : SysOps G F) (target : TargetOps F) (rad : MergeAgent F → F)
    (fuel : Nat) (dt : F) (st : MergeSim G F) : ∃ ext, (mergeStep rng sys target rad fuel dt st).1.merges = st.merges ++ ext := by
  unfold mergeStep
  rcases agentSweep (walkAct (MergeAgent.walker rng) sys target dt) fuel st.list.intoIter st.rng with ⟨⟨l1, g1⟩, o⟩
  match o with
  | none => exact ⟨[], by simp⟩
  | some (.ok true) => exact ⟨[], by simp⟩
  | some (.err e) => exact ⟨[], by simp⟩
  | some .panic => exact ⟨[], by simp⟩
  | some (.ok false) =>
    simp only
    rcases l1.intoDoubleIter with ⟨l2, r | e | _⟩
    · obtain ⟨ext, h⟩ := pairSweep_record rad fuel l2 st.merges
      simp only
      rcases hp : pairSweep (mergeAct rad) fuel l2 st.merges with ⟨⟨l3, ms⟩, o⟩
      rw [hp] at h
      match o with
      | none => exact ⟨ext, h⟩
      | some (.ok ()) => exact ⟨ext, h⟩
      | some (.err e) => exact ⟨ext, h⟩
      | some .panic => exact ⟨ext, h⟩
    · exact ⟨[], by simp⟩
    · exact ⟨[], by simp⟩

theorem searchLoop_record (rng : RngOps G F) (sys : SysOps G F) (target : TargetOps F) (rad : MergeAgent F → F)
    (fuel : Nat) (tick : C → C × Res (Option (F × F))) (steps : Nat) (c : C) (st : MergeSim G F) :
    ∃ ext, (searchLoop tick (mergeStep rng sys target rad fuel) steps c st).1.2.merges = st.merges ++ ext := by
  induction steps generalizing c st with
  | zero => exact ⟨[], by simp [searchLoop]⟩
  | succ n ih =>
    unfold searchLoop
    rcases tick c with ⟨c1, r⟩
    match r with
    | .ok none => exact ⟨[], by simp⟩
    | .err e => exact ⟨[], by simp⟩
    | .panic => exact ⟨[], by simp⟩
    | .ok (some (time, dt)) =>
      obtain ⟨e1, h1⟩ := mergeStep_record rng sys target rad fuel dt st
      simp only
      rcases hs : mergeStep rng sys target rad fuel dt st with ⟨st1, o⟩
      rw [hs] at h1
      match o with
      | none => exact ⟨e1, h1⟩
      | some (.ok true) => exact ⟨e1, h1⟩
      | some (.err e) => exact ⟨e1, h1⟩
      | some .panic => exact ⟨e1, h1⟩
      | some (.ok false) =>
        obtain ⟨e2, h2⟩ := ih c1 st1
        simp only at h1 ⊢
        exact ⟨e1 ++ e2, by rw [h2, h1, List.append_assoc]⟩

/-- A pair loop in which nothing merges only moves the cursors. -/
theorem pairSweep_quiet {d : Nat} {D : F} (rad : MergeAgent F → F) (Far : Prop)
    (hfar : Far → ∀ a b x, Diffusing d D a → Diffusing d D b → a.pos.distance b.pos = .ok x → Fl.lt x (Fl.two * rad a) = false) (n : Nat) :
    ∀ {l : LList (MergeAgent F)} {s : Slots (MergeAgent F)}, Rep l s → PairOk s → (pending s).length < n → (∀ a ∈ l.contents, Diffusing d D a) →
    ((pairSweep (mergeAct rad) n l []).1.2 = [] ∨ Far ∨ pending s = []) →
    (pairSweep (mergeAct rad) n l []).2 = some (.ok ()) ∧ (pairSweep (mergeAct rad) n l []).1.2 = [] ∧
    (∃ x y, (pairSweep (mergeAct rad) n l []).1.1 = l.withCursors x y) ∧
    ∃ s', Rep (pairSweep (mergeAct rad) n l []).1.1 s' ∧ s'.live = s.live := by
  induction n with
  | zero => intro l s _ _ hn; omega
  | succ n ih =>
    intro l s h hp hn hK hq0
    by_cases hnil : s.q0 = [] ∨ s.q1 = []
    · have e : pairSweep (mergeAct rad) (n + 1) l [] = ((l, []), some (.ok ())) := by
        simp only [pairSweep, h.enumDouble_none hnil]
      rw [e]
      exact ⟨rfl, rfl, ⟨l.c0, l.c1, rfl⟩, s, h, rfl⟩
    · rw [not_or] at hnil
      obtain ⟨i, t, hq⟩ := List.exists_cons_of_ne_nil hnil.1
      obtain ⟨j, u, hq1⟩ := List.exists_cons_of_ne_nil hnil.2
      have hi : i ∈ s.live := h.q0suf.subset (by rw [hq]; simp)
      have hj : j ∈ s.live := h.q1suf.subset (by rw [hq1]; simp)
      obtain ⟨a, ha⟩ := h.content hi
      obtain ⟨b, hb⟩ := h.content hj
      obtain ⟨hr, hrep⟩ := h.enumDouble_some hq hq1 ha hb
      obtain ⟨hp1, hpend⟩ := pairOk_next hp hq hq1
      have he : l.enumerateDouble = (l.enumerateDouble.1, .ok (some (i, a, j, b))) := Prod.ext rfl hr
      obtain ⟨x0, y0, hcur⟩ := enumerateDouble_cursors l
      set l1 := l.enumerateDouble.1 with hl1
      change Rep l1 (afterPair s t u) at hrep
      change PairOk (afterPair s t u) at hp1
      change pending s = (i, j) :: pending (afterPair s t u) at hpend
      have hlv : (afterPair s t u).live = s.live := by unfold afterPair; split <;> rfl
      have hct : (afterPair s t u).contents = s.contents := by unfold afterPair; split <;> rfl
      have hKa : Diffusing d D a := hK a (by rw [h.contents_eq]; exact List.mem_of_getElem? ha)
      have hKb : Diffusing d D b := hK b (by rw [h.contents_eq]; exact List.mem_of_getElem? hb)
      have hdist : ∃ x, a.pos.distance b.pos = .ok x := by
        unfold Pos.distance
        rw [if_neg (by simp only [Pos.dim]; rw [hKa.2.1, hKb.2.1]; simp)]
        exact ⟨_, rfl⟩
      obtain ⟨x, hx⟩ := hdist
      by_cases hlt : Fl.lt x (Fl.two * rad a) = true
      · exfalso
        have ha1 : l1.contents[i]? = some a := by rw [hrep.contents_eq, hct, ha]
        have hb1 : l1.contents[j]? = some b := by rw [hrep.contents_eq, hct, hb]
        have hadd : (a.addSize b.size).2 = .ok () := by
          unfold MergeAgent.addSize MergeAgent.rescale
          simp only [hKa.2.2]
        obtain ⟨hrm, hrok⟩ := hrep.merge MergeAgent.mergeOps ha1 hb1 hadd (by rw [hlv]; exact hj)
        have hm : l1.merge MergeAgent.mergeOps i j = ((l1.merge MergeAgent.mergeOps i j).1, .ok ()) :=
          Prod.ext rfl hrok
        have e' : pairSweep (mergeAct rad) (n + 1) l [] =
            pairSweep (mergeAct rad) n (l1.merge MergeAgent.mergeOps i j).1 [(i, j)] := by
          simp only [pairSweep, he, mergeAct, hx, hlt, if_true]
          rw [hm]
          rfl
        rcases hq0 with hq0 | hf | hf
        · rw [e'] at hq0
          obtain ⟨ext, h2⟩ := pairSweep_record rad n (l1.merge MergeAgent.mergeOps i j).1 [(i, j)]
          rw [h2] at hq0
          simp at hq0
        · rw [hfar hf a b x hKa hKb hx] at hlt
          simp at hlt
        · rw [hpend] at hf
          simp at hf
      · have e' : pairSweep (mergeAct rad) (n + 1) l [] = pairSweep (mergeAct rad) n l1 [] := by
          simp only [pairSweep, he, mergeAct, hx, hlt]
          simp
        rw [e'] at hq0 ⊢
        have hK1 : ∀ a ∈ l1.contents, Diffusing d D a := by rw [hcur]; exact hK
        obtain ⟨k1, k2, ⟨x2, y2, k3⟩, s', k4, k5⟩ := ih hrep hp1 (by rw [hpend] at hn; simpa using hn) hK1 (by
          rcases hq0 with h | h | h
          · exact .inl h
          · exact .inr (.inl h)
          · rw [hpend] at h; simp at h)
        exact ⟨k1, k2, ⟨x2, y2, by rw [k3, hcur]; rfl⟩, s', k4, by rw [k5, hlv]⟩

/-- merging searchers that have not met, and independent searchers at the same places. -/
structure NotMet (d N : Nat) (D : F) (st : MergeSim G F) (s' : LList (IndepAgent F) × G) : Prop where
  alike : Corresponds MergeAgent.plain st.list s'.1
  rng : s'.2 = st.rng
  none : st.merges = []
  kind : ∀ a ∈ st.list.contents, Diffusing d D a
  good : ∃ sl, Rep st.list sl ∧ sl.live.length = N

/-- one turn in which nothing merges is one turn of the independent searchers. -/
theorem mergeStep_quiet {rng : RngOps G F} {sys : SysOps G F} (hsys : LibrarySystem rng sys) {d N : Nat} (ho : sys.OutsideDim d) {D : F}
    (target : TargetOps F) (rad : MergeAgent F → F) (Far : Prop)
    (hfar : Far → N ≤ 1 ∨ ∀ a b x, Diffusing d D a → Diffusing d D b → a.pos.distance b.pos = .ok x → Fl.lt x (Fl.two * rad a) = false)
    {fuel : Nat} (hf : N * N < fuel) (dt : F) {st : MergeSim G F} {s' : LList (IndepAgent F) × G} (h : NotMet d N D st s')
    (hq : (mergeStep rng sys target rad fuel dt st).1.merges = [] ∨ Far) :
    (walkStep (IndepAgent.walker rng) sys target fuel dt s').2 = (mergeStep rng sys target rad fuel dt st).2 ∧
    (walkStep (IndepAgent.walker rng) sys target fuel dt s').1.2 = (mergeStep rng sys target rad fuel dt st).1.rng ∧
    (mergeStep rng sys target rad fuel dt st).1.merges = [] ∧
    Corresponds MergeAgent.plain (mergeStep rng sys target rad fuel dt st).1.list (walkStep (IndepAgent.walker rng) sys target fuel dt s').1.1 ∧
    ((mergeStep rng sys target rad fuel dt st).2 = some (.ok false) →
      NotMet d N D (mergeStep rng sys target rad fuel dt st).1 (walkStep (IndepAgent.walker rng) sys target fuel dt s').1) := by
  obtain ⟨hal, hrng, hno, hkind, sl, hrep, hlive⟩ := h
  have hi : Rep st.list.intoIter { sl with q0 := sl.live } := hrep.intoIter
  obtain ⟨s1, a1, a2, a3, a4, a5, -⟩ :=
    agentSweep_rep (walkAct (MergeAgent.walker rng) sys target dt) (fun _ _ _ _ => True) (fun _ => True) fuel st.rng hi
      trivial (fun _ _ _ _ _ _ _ _ => ⟨trivial, trivial⟩)
  simp only at a2
  have hal' : Corresponds MergeAgent.plain st.list.intoIter s'.1.intoIter :=
    ⟨hal.links, hal.contents, hal.head, hal.tail, hal.c2⟩
  obtain ⟨b1, b2, b3, b4⟩ := agentSweep_lockstep_ok (R := fun (g : G) g' => g' = g)
    (K := Diffusing d D) (f := MergeAgent.plain)
    (act := walkAct (MergeAgent.walker rng) sys target dt) (act' := walkAct (IndepAgent.walker rng) sys target dt)
    (fun i g g' a hg ha => by
      subst hg
      rw [walkAct_plain]
      exact ⟨rfl, rfl, fun hk => walkAct_diffusing hsys ho target dt i _ a ha false hk⟩)
    fuel st.list.intoIter s'.1.intoIter hal' hal.head hkind st.rng s'.2 hrng
  unfold mergeStep at hq ⊢
  unfold walkStep
  rcases hsw : agentSweep (walkAct (MergeAgent.walker rng) sys target dt) fuel st.list.intoIter st.rng with ⟨⟨l1, g1⟩, o⟩
  rw [hsw] at b1 b2 b3 b4 a1 hq
  simp only at b1 b2 b3 b4 a1
  match o with
  | none => exact ⟨b2, b3, hno, b1, fun h => by simp at h⟩
  | some (.ok true) => exact ⟨b2, b3, hno, b1, fun h => by simp at h⟩
  | some (.err e) => exact ⟨b2, b3, hno, b1, fun h => by simp at h⟩
  | some .panic => exact ⟨b2, b3, hno, b1, fun h => by simp at h⟩
  | some (.ok false) =>
    simp only at hq ⊢
    obtain ⟨c1, c2⟩ := a1.intoDoubleIter
    have hdi : l1.intoDoubleIter = (l1.intoDoubleIter.1, .ok ()) := Prod.ext rfl c2
    have hcur : ∃ x y, l1.intoDoubleIter.1 = l1.withCursors x y := by
      unfold LList.intoDoubleIter
      repeat' split
      all_goals exact ⟨_, _, rfl⟩
    generalize l1.intoDoubleIter.1 = l2 at hdi c1 hcur
    rw [hdi] at hq ⊢
    simp only at hq ⊢
    rw [hno] at hq ⊢
    obtain ⟨x, y, rfl⟩ := hcur
    have hlen := length_pairsOf s1.live
    have hpl : (pending { s1 with q0 := s1.live, q1 := s1.live.tail }).length < fuel := by
      rw [pending_start]
      rw [a2, hlive] at hlen
      have : N * (N - 1) ≤ N * N := Nat.mul_le_mul_left _ (by omega)
      rw [← a2] at hlen
      omega
    have hmerg : (pairSweep (mergeAct rad) fuel (l1.withCursors x y) []).1.2 = [] ∨ Far := by
      refine hq.imp_left fun hq => ?_
      generalize pairSweep (mergeAct rad) fuel (l1.withCursors x y) [] = z at hq ⊢
      rcases z with ⟨⟨l3, ms⟩, _ | ⟨_ | _ | _⟩⟩ <;> exact hq
    have hquiet : (pairSweep (mergeAct rad) fuel (l1.withCursors x y) []).1.2 = [] ∨ (Far ∧ ¬ N ≤ 1) ∨
        pending { s1 with q0 := s1.live, q1 := s1.live.tail } = [] := by
      rcases hmerg with hm | hm
      · exact .inl hm
      · by_cases hN : N ≤ 1
        · right; right
          rw [pending_start, pairsOf_nil_iff, a2, hlive]
          exact hN
        · exact .inr (.inl ⟨hm, hN⟩)
    obtain ⟨k1, k2, ⟨x2, y2, k3⟩, s2, k4, k5⟩ := pairSweep_quiet (d := d) (D := D) rad (Far ∧ ¬ N ≤ 1) (fun hh => (hfar hh.1).resolve_left hh.2)
      fuel c1 (pairOk_start s1) hpl (b4 rfl) hquiet
    generalize pairSweep (mergeAct rad) fuel (l1.withCursors x y) [] = z at k1 k2 k3 k4
    obtain ⟨⟨l3, ms⟩, o⟩ := z
    simp only at k1 k2 k3 k4
    subst k1 k2 k3
    have hco : Corresponds MergeAgent.plain ((l1.withCursors x y).withCursors x2 y2)
        (agentSweep (walkAct (IndepAgent.walker rng) sys target dt) fuel s'.1.intoIter s'.2).1.1 := ⟨b1.links, b1.contents, b1.head, b1.tail, b1.c2⟩
    exact ⟨b2, b3, rfl, hco, fun _ => ⟨hco, b3, rfl, b4 rfl, s2, k4, by rw [k5, a2, hlive]⟩⟩

/-- the whole search. -/
theorem searchLoop_quiet {rng : RngOps G F} {sys : SysOps G F} (hsys : LibrarySystem rng sys) {d N : Nat} (ho : sys.OutsideDim d) {D : F}
    (target : TargetOps F) (rad : MergeAgent F → F) (Far : Prop)
    (hfar : Far → N ≤ 1 ∨ ∀ a b x, Diffusing d D a → Diffusing d D b → a.pos.distance b.pos = .ok x → Fl.lt x (Fl.two * rad a) = false)
    {fuel : Nat} (hf : N * N < fuel) (tick : C → C × Res (Option (F × F))) (steps : Nat) (c : C) {st : MergeSim G F}
    {s' : LList (IndepAgent F) × G} (h : NotMet d N D st s')
    (hq : (searchLoop tick (mergeStep rng sys target rad fuel) steps c st).1.2.merges = [] ∨ Far) :
    (searchLoop tick (walkStep (IndepAgent.walker rng) sys target fuel) steps c s').2 =
      (searchLoop tick (mergeStep rng sys target rad fuel) steps c st).2 ∧
    (searchLoop tick (walkStep (IndepAgent.walker rng) sys target fuel) steps c s').1.2.2 =
      (searchLoop tick (mergeStep rng sys target rad fuel) steps c st).1.2.rng ∧
    (searchLoop tick (mergeStep rng sys target rad fuel) steps c st).1.2.merges = [] ∧
    Corresponds MergeAgent.plain (searchLoop tick (mergeStep rng sys target rad fuel) steps c st).1.2.list
      (searchLoop tick (walkStep (IndepAgent.walker rng) sys target fuel) steps c s').1.2.1 := by
  induction steps generalizing c st s' with
  | zero => exact ⟨rfl, h.rng, h.none, h.alike⟩
  | succ n ih =>
    unfold searchLoop at hq ⊢
    generalize tick c = tc at hq ⊢
    rcases tc with ⟨c1, r⟩
    match r with
    | .ok none => exact ⟨rfl, h.rng, h.none, h.alike⟩
    | .err e => exact ⟨rfl, h.rng, h.none, h.alike⟩
    | .panic => exact ⟨rfl, h.rng, h.none, h.alike⟩
    | .ok (some (time, dt)) =>
      simp only at hq ⊢
      have hq1 : (mergeStep rng sys target rad fuel dt st).1.merges = [] ∨ Far := by
        refine hq.imp_left fun hq => ?_
        rcases hs : mergeStep rng sys target rad fuel dt st with ⟨st1, o⟩
        rw [hs] at hq
        match o with
        | none => exact hq
        | some (.ok true) => exact hq
        | some (.err e) => exact hq
        | some .panic => exact hq
        | some (.ok false) =>
          simp only at hq ⊢
          obtain ⟨ext, h2⟩ := searchLoop_record rng sys target rad fuel tick n c1 st1
          rw [h2] at hq
          exact (List.append_eq_nil_iff.1 hq).1
      obtain ⟨e1, e2, e3, e5, e4⟩ := mergeStep_quiet hsys ho target rad Far hfar hf dt h hq1
      rcases hs : mergeStep rng sys target rad fuel dt st with ⟨st1, o⟩
      rcases hs' : walkStep (IndepAgent.walker rng) sys target fuel dt s' with ⟨s1', o'⟩
      rw [hs, hs'] at e1 e2 e4 e5
      rw [hs] at e3 hq
      simp only at e1 e2 e3 e4 e5
      subst e1
      match o' with
      | none => exact ⟨rfl, e2, e3, e5⟩
      | some (.ok true) => exact ⟨rfl, e2, e3, e5⟩
      | some (.err e) => exact ⟨rfl, e2, e3, e5⟩
      | some .panic => exact ⟨rfl, e2, e3, e5⟩
      | some (.ok false) => exact ih c1 (e4 rfl) hq

/-- making the searchers. -/
theorem makeAgents_plain {sys : SysOps G F} {d : Nat} (hd : sys.DrawsInside d) (target : TargetOps F) (inner loops : Nat) (D radius alpha : F)
    (n : Nat) (g : G) :
    makeAgents (fun g => IndepAgent.newUniform sys target inner loops g (.brownian D)) n g =
      (makeAgents (fun g => MergeAgent.newUniform sys target inner loops g (.brownian D) radius alpha) n g).map
        (fun r => (r.1.map (List.map MergeAgent.plain), r.2)) ∧
    ∀ v g', makeAgents (fun g => MergeAgent.newUniform sys target inner loops g (.brownian D) radius alpha) n g = some (.ok v, g') →
      v.length = n ∧ ∀ a ∈ v, Diffusing d D a := by
  induction n generalizing g with
  | zero =>
    refine ⟨rfl, fun v g' h => ?_⟩
    simp only [makeAgents, Option.some.injEq, Prod.mk.injEq, Res.ok.injEq] at h
    obtain ⟨rfl, -⟩ := h
    simp
  | succ n ih =>
    have e1 : IndepAgent.newUniform sys target inner loops g (.brownian D) =
        (MergeAgent.newUniform sys target inner loops g (.brownian D) radius alpha).map fun r => (r.1.map MergeAgent.plain, r.2) := by
      unfold IndepAgent.newUniform MergeAgent.newUniform
      rcases AgentCore.drawOffTarget sys target inner loops g sys.positionOut with _ | ⟨⟨p, r | e | _⟩, g1⟩ <;> rfl
    have e2 : ∀ a g', MergeAgent.newUniform sys target inner loops g (.brownian D) radius alpha = some (.ok a, g') → Diffusing d D a := by
      intro a g' h
      unfold MergeAgent.newUniform at h
      rcases hdr : AgentCore.drawOffTarget sys target inner loops g sys.positionOut with _ | ⟨⟨p, r⟩, g1⟩
      · rw [hdr] at h; simp at h
      · rw [hdr] at h
        cases r with
        | err e => simp [Res.map] at h
        | panic => simp [Res.map] at h
        | ok _ =>
          obtain ⟨k1, -, -⟩ := Props.drawOffTarget_ok hd hdr
          simp only [Option.map_some, Res.map, Option.some.injEq, Prod.mk.injEq, Res.ok.injEq] at h
          rw [← h.1]
          exact ⟨k1, k1, rfl⟩
    unfold makeAgents
    rw [e1]
    rcases hz : MergeAgent.newUniform sys target inner loops g (.brownian D) radius alpha with _ | ⟨r, g1⟩
    · exact ⟨rfl, fun v g' h => by simp at h⟩
    · cases r with
      | err e => exact ⟨rfl, fun v g' h => by simp at h⟩
      | panic => exact ⟨rfl, fun v g' h => by simp at h⟩
      | ok a =>
        obtain ⟨i1, i2⟩ := ih g1
        simp only [Option.map_some, Res.map]
        rw [i1]
        rcases hw : makeAgents (fun g => MergeAgent.newUniform sys target inner loops g (.brownian D) radius alpha) n g1 with _ | ⟨r, g2⟩
        · exact ⟨rfl, fun v g' h => by simp at h⟩
        · cases r with
          | err e => exact ⟨rfl, fun v g' h => by simp at h⟩
          | panic => exact ⟨rfl, fun v g' h => by simp at h⟩
          | ok w =>
            refine ⟨rfl, fun v g' hv => ?_⟩
            simp only [Option.map_some, Option.some.injEq, Prod.mk.injEq, Res.ok.injEq] at hv
            obtain ⟨rfl, -⟩ := hv
            obtain ⟨j1, j2⟩ := i2 w g2 hw
            refine ⟨by simp [j1], ?_⟩
            intro b hb
            rcases List.mem_cons.1 hb with rfl | hb
            · exact e2 _ g1 hz
            · exact j2 b hb

end Moledyn
