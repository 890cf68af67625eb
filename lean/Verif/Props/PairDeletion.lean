import Verif.Props.LinkedListSweeps
/-
C07: pair sweeps with deletions between the calls, the positive part.
-/
namespace Moledyn.Props
open LList
variable {α : Type}

theorem filter_pairs_row {i d : Nat} (hid : i ≠ d) (u : List Nat) :
    (u.map fun j => (i, j)).filter (fun q => decide (q.1 ≠ d ∧ q.2 ≠ d)) =
      (u.filter (· ≠ d)).map fun j => (i, j) := by
  rw [List.filter_map]
  congr 1
  apply List.filter_congr
  intro x _
  simp [hid]

/-- a gentle deletion strikes out exactly the pairs with the deleted slot. -/
theorem pairOk_del_gentle {s : Slots α} (hp : PairOk s) (hsuf : s.q1 <:+ s.live) (d : Nat)
    (hg : ∀ i j t u, s.q0 = i :: t → s.q1 = j :: u → d ≠ i ∧ (d = j → ∃ m ∈ s.live, j < m)) (hsl : s.live.Pairwise (· < ·)) :
    PairOk (Slots.delS s d) ∧
      pending (Slots.delS s d) = (pending s).filter (fun q => q.1 ≠ d ∧ q.2 ≠ d) := by
  cases hq : s.q0 with
  | nil =>
    constructor
    · constructor <;> intro i t h <;> simp [Slots.delS, hq] at h
    · simp [pending, Slots.delS, hq]
  | cons i t =>
    cases hq1 : s.q1 with
    | nil =>
      have ht := hp.emp i t hq hq1
      subst ht
      constructor
      · constructor
        · intro i' t' h; simp [Slots.delS, hq, hq1]
        · intro i' t' h _
          by_cases hid : i = d
          · simp [Slots.delS, hq, hid] at h
          · simp [Slots.delS, hq, hid] at h; exact h.2
      · by_cases hid : i = d <;> simp [pending, Slots.delS, hq, hq1, hid]
    | cons j u =>
      obtain ⟨hdi, hdj⟩ := hg i j t u hq hq1
      have hid : i ≠ d := fun h => hdi h.symm
      have hne' : (Slots.delS s d).q0 = i :: t.filter (· ≠ d) := by
        simp only [Slots.delS]; rw [hq, List.filter_cons]; simp [hid]
      have hne1 : (Slots.delS s d).q1 = (j :: u).filter (· ≠ d) := by
        simp only [Slots.delS]; rw [hq1]
      have hsu := hp.suf i t hq
      rw [hq1] at hsu
      have hnonempty : (j :: u).filter (· ≠ d) ≠ [] := by
        by_cases hjd : j = d
        · obtain ⟨m, hm, hjm⟩ := hdj hjd.symm
          -- `m` is behind `j`, so it is in `u`
          rw [hq1] at hsuf
          obtain ⟨a, ha⟩ := hsuf
          rw [← ha] at hm hsl
          have hmu : m ∈ u := by
            rcases List.mem_append.1 hm with h | h
            · have := (List.pairwise_append.1 hsl).2.2 m h j (by simp)
              omega
            · rcases List.mem_cons.1 h with h | h
              · omega
              · exact h
          intro hnil
          have := List.filter_eq_nil_iff.1 hnil m (by simp [hmu])
          simp at this
          omega
        · simp [hjd]
      refine ⟨⟨?_, ?_⟩, ?_⟩
      · intro i' t' h
        rw [hne'] at h
        injection h with _ h
        rw [hne1, ← h]
        exact suffix_filter (fun x => decide (x ≠ d)) hsu
      · intro i' t' _ h2
        rw [hne1] at h2; exact absurd h2 hnonempty
      · unfold pending
        rw [hne', hne1, hq, hq1]
        simp only [if_neg hnonempty, List.filter_append, filter_pairs_row hid, reduceCtorEq, if_false,
          pairsOf_filter]

theorem slots_nextPair (s : Slots α) (hp : PairOk s) (hc : ∀ i ∈ s.live, ∃ a, s.contents[i]? = some a)
    (h0 : s.q0 <:+ s.live) (h1 : s.q1 <:+ s.live) :
    PairOk (s.step .nextPair).1 ∧
    (pending s = [] → (s.step .nextPair).2 = .pair (.ok none) ∧ pending (s.step .nextPair).1 = []) ∧
    (∀ p ps, pending s = p :: ps → ∃ a b, (s.step .nextPair).2 = .pair (.ok (some (p.1, a, p.2, b))) ∧
      pending (s.step .nextPair).1 = ps) := by
  cases hq : s.q0 with
  | nil =>
    have he : s.step .nextPair = (s, .pair (.ok none)) := by simp [Slots.step, hq]
    rw [he]
    have hpn := (pending_nil hp).2 (.inl hq)
    exact ⟨hp, fun _ => ⟨rfl, hpn⟩, fun p ps h => by rw [hpn] at h; cases h⟩
  | cons i t =>
    cases hq1 : s.q1 with
    | nil =>
      have he : s.step .nextPair = (s, .pair (.ok none)) := by simp [Slots.step, hq, hq1]
      rw [he]
      have hpn := (pending_nil hp).2 (.inr hq1)
      exact ⟨hp, fun _ => ⟨rfl, hpn⟩, fun p ps h => by rw [hpn] at h; cases h⟩
    | cons j u =>
      obtain ⟨h3, h4⟩ := pairOk_next hp hq hq1
      obtain ⟨a, ha⟩ := hc i (h0.subset (by simp [hq]))
      obtain ⟨b, hb⟩ := hc j (h1.subset (by simp [hq1]))
      have he : s.step .nextPair =
          ((if u = [] then { s with q0 := t, q1 := t.tail } else { s with q1 := u }),
            .pair (.ok (some (i, a, j, b)))) := by
        simp [Slots.step, hq, hq1, ha, hb]
      rw [he]
      refine ⟨h3, fun h => (by rw [h4] at h; cases h), fun p ps h => ?_⟩
      rw [h4] at h
      injection h with h5 h6
      subst h5
      exact ⟨a, b, rfl, h6⟩

theorem run_pairs {l : LList α} {s : Slots α} (h : Rep l s) (hp : PairOk s) (rest : List (Op α))
    (hrest : ∀ op ∈ rest, op.pairOp = true)
    (hg : ∀ k d, rest[k]? = some (.del d) → ∀ i j,
      (l.run (rest.take k)).1.indiciesDouble.2 = .ok (some (i, j)) →
        d ≠ i ∧ (d = j → ∃ m ∈ (s.run (rest.take k)).1.live, j < m)) :
    pairReturns (l.run rest).2 = pairSweepSpec rest (pending s) := by
  induction rest generalizing l s with
  | nil => rfl
  | cons op rest ih =>
    have hst := h.step op
    have hg' : ∀ k d, rest[k]? = some (.del d) → ∀ i j,
        ((l.step op).1.run (rest.take k)).1.indiciesDouble.2 = .ok (some (i, j)) →
          d ≠ i ∧ (d = j → ∃ m ∈ ((s.step op).1.run (rest.take k)).1.live, j < m) := by
      intro k d hk i j hij
      exact hg (k + 1) d (by simpa using hk) i j (by simpa [LList.run] using hij)
    have hop := hrest op (by simp)
    have hrest' : ∀ op ∈ rest, op.pairOp = true := fun o ho => hrest o (by simp [ho])
    cases op with
    | nextPair =>
      have hcont : ∀ i ∈ s.live, ∃ a, s.contents[i]? = some a := by
        intro i hi
        have := h.bound i hi
        rw [h.len, h.contents_eq] at this
        exact ⟨s.contents[i], by simp [this]⟩
      obtain ⟨p1, p2, p3⟩ := slots_nextPair s hp hcont h.q0suf h.q1suf
      have hrec := ih hst.1 p1 hrest' hg'
      have hout := hst.2
      cases hpend : pending s with
      | nil =>
        obtain ⟨e1, e2⟩ := p2 hpend
        rw [e1] at hout
        rw [e2] at hrec
        simp only [LList.run, pairReturns, List.filterMap_cons, hout, pairSweepSpec]
        rw [← hrec]; rfl
      | cons p ps =>
        obtain ⟨a, b, e1, e2⟩ := p3 p ps hpend
        rw [e1] at hout
        rw [e2] at hrec
        simp only [LList.run, pairReturns, List.filterMap_cons, hout, pairSweepSpec]
        rw [← hrec]; rfl
    | del d =>
      have hgd : ∀ i j t u, s.q0 = i :: t → s.q1 = j :: u → d ≠ i ∧ (d = j → ∃ m ∈ s.live, j < m) := by
        intro i j t u hq hq1
        exact hg 0 d rfl i j (by simpa [LList.run] using (h.indiciesDouble_some hq hq1).1)
      have hmain := pairOk_del_gentle hp h.q1suf d hgd h.sorted
      have hs' : PairOk (s.step (.del d)).1 ∧
          pending (s.step (.del d)).1 = (pending s).filter (fun q => q.1 ≠ d ∧ q.2 ≠ d) := by
        simp only [Slots.step]
        by_cases hd : d ∈ s.live
        · rw [if_pos hd]; exact hmain
        · rw [if_neg hd]
          refine ⟨hp, ?_⟩
          have e : Slots.delS s d = s := by
            have hf : ∀ q : List Nat, q <:+ s.live → q.filter (· ≠ d) = q := by
              intro q hq
              rw [List.filter_eq_self]
              intro x hx
              have : x ≠ d := fun e => hd (e ▸ hq.subset hx)
              simpa using this
            simp only [Slots.delS]
            rw [hf _ (List.suffix_refl _), hf _ h.q0suf, hf _ h.q1suf]
          rw [← hmain.2, e]
      have hrec := ih hst.1 hs'.1 hrest' hg'
      have hno : ∃ r, (l.step (.del d)).2 = .done r := ⟨_, rfl⟩
      obtain ⟨r, hr⟩ := hno
      simp only [LList.run, pairReturns, List.filterMap_cons, hr, pairSweepSpec]
      rw [← hs'.2, ← hrec]; rfl
    | push a => cases hop
    | connectAll => cases hop
    | intoIter => cases hop
    | intoDoubleIter => cases hop
    | next => cases hop
    | nextMut f => cases hop

/-- C07, positive part: as long as no deletion hits the first member of the upcoming pair, nor its second member
while that is the last live slot, the calls return exactly the remaining pairs: every pair of live slots in
order, minus the pairs with a slot deleted before their turn. -/
theorem C07_gentle_deletions (v : List α) (ops rest : List (Op α)) (hrest : ∀ op ∈ rest, op.pairOp = true)
    (hg : GentleDeletions v (ops ++ [.intoDoubleIter]) rest) :
    pairReturns (((from' v).run (ops ++ [.intoDoubleIter])).1.run rest).2 =
      pairSweepSpec rest (pairsOf (liveAfter v.length ops).2) := by
  have hrun : ∀ (ops1 ops2 : List (Op α)) (l : LList α), (l.run (ops1 ++ ops2)).1 = ((l.run ops1).1.run ops2).1 := by
    intro ops1
    induction ops1 with
    | nil => intros; rfl
    | cons o os ih => intro ops2 l; simp only [List.cons_append, LList.run, ih]
  have hsrun : ∀ (ops1 ops2 : List (Op α)) (s : Slots α), (s.run (ops1 ++ ops2)).1 = ((s.run ops1).1.run ops2).1 := by
    intro ops1
    induction ops1 with
    | nil => intros; rfl
    | cons o os ih => intro ops2 l; simp only [List.cons_append, Slots.run, ih]
  have hr := ((rep_from v).run (ops ++ [.intoDoubleIter])).1
  have hs : ((Slots.ofContents v).run (ops ++ [.intoDoubleIter])).1 =
      { ((Slots.ofContents v).run ops).1 with
        q0 := ((Slots.ofContents v).run ops).1.live, q1 := ((Slots.ofContents v).run ops).1.live.tail } := by
    rw [hsrun]; rfl
  have hlive : ∀ o : List (Op α), ((Slots.ofContents v).run o).1.live = (liveAfter v.length o).2 := by
    intro o
    have := congrArg Prod.snd (slots_run_live (Slots.ofContents v) o)
    simpa [Slots.ofContents, liveAfter] using this
  have := run_pairs hr (by rw [hs]; exact pairOk_start _) rest hrest (by
    intro k d hk i j hij
    have := hg k d hk i j (by rw [hrun]; exact hij)
    rwa [← hlive, hsrun] at this)
  rw [this, hs, pending_start, hlive]

/-- the slots deleted by the calls. -/
def deletedBy (ops : List (Op α)) : List Nat := ops.filterMap fun | .del d => some d | _ => none

/-- the number of pair calls. -/
def pairCalls (ops : List (Op α)) : Nat := ops.countP fun | .nextPair => true | _ => false

theorem pairSweepSpec_sublist (rest : List (Op α)) (ps : List (Nat × Nat)) :
    ((pairSweepSpec rest ps).filterMap id).Sublist ps := by
  induction rest generalizing ps with
  | nil => simp [pairSweepSpec]
  | cons op rest ih =>
    cases op with
    | nextPair =>
      cases ps with
      | nil => simpa [pairSweepSpec] using ih []
      | cons p ps => simpa [pairSweepSpec] using ih ps
    | del d => exact (ih _).trans List.filter_sublist
    | push a => exact ih ps
    | connectAll => exact ih ps
    | intoIter => exact ih ps
    | intoDoubleIter => exact ih ps
    | next => exact ih ps
    | nextMut f => exact ih ps

theorem pairSweepSpec_complete (rest : List (Op α)) (ps : List (Nat × Nat)) (hend : none ∈ pairSweepSpec rest ps)
    (p : Nat × Nat) (hp : p ∈ ps) (hd : p.1 ∉ deletedBy rest ∧ p.2 ∉ deletedBy rest) :
    some p ∈ pairSweepSpec rest ps := by
  induction rest generalizing ps with
  | nil => simp [pairSweepSpec] at hend
  | cons op rest ih =>
    cases op with
    | nextPair =>
      cases ps with
      | nil => simp at hp
      | cons q ps =>
        simp only [pairSweepSpec, List.mem_cons, reduceCtorEq, false_or, Option.some.injEq] at hend ⊢
        rcases List.mem_cons.1 hp with rfl | hp
        · exact .inl rfl
        · exact .inr (ih ps hend hp (by simpa [deletedBy] using hd))
    | del d =>
      have hd' : (p.1 ≠ d ∧ p.1 ∉ deletedBy rest) ∧ p.2 ≠ d ∧ p.2 ∉ deletedBy rest := by
        simpa [deletedBy, not_or] using hd
      exact ih _ hend (by simp [hp, hd'.1.1, hd'.2.1]) ⟨hd'.1.2, hd'.2.2⟩
    | push a => exact ih ps hend hp (by simpa [deletedBy] using hd)
    | connectAll => exact ih ps hend hp (by simpa [deletedBy] using hd)
    | intoIter => exact ih ps hend hp (by simpa [deletedBy] using hd)
    | intoDoubleIter => exact ih ps hend hp (by simpa [deletedBy] using hd)
    | next => exact ih ps hend hp (by simpa [deletedBy] using hd)
    | nextMut f => exact ih ps hend hp (by simpa [deletedBy] using hd)

theorem pairSweepSpec_ends (rest : List (Op α)) (ps : List (Nat × Nat)) (hn : ps.length < pairCalls rest) :
    none ∈ pairSweepSpec rest ps := by
  induction rest generalizing ps with
  | nil => simp [pairCalls] at hn
  | cons op rest ih =>
    cases op with
    | nextPair =>
      cases ps with
      | nil => simp [pairSweepSpec]
      | cons p ps =>
        simp only [pairSweepSpec, List.mem_cons, reduceCtorEq, false_or]
        exact ih ps (by simp [pairCalls] at hn ⊢; omega)
    | del d =>
      exact ih _ (Nat.lt_of_le_of_lt (List.length_filter_le _ _) (by simpa [pairCalls] using hn))
    | push a => exact ih ps (by simpa [pairCalls] using hn)
    | connectAll => exact ih ps (by simpa [pairCalls] using hn)
    | intoIter => exact ih ps (by simpa [pairCalls] using hn)
    | intoDoubleIter => exact ih ps (by simpa [pairCalls] using hn)
    | next => exact ih ps (by simpa [pairCalls] using hn)
    | nextMut f => exact ih ps (by simpa [pairCalls] using hn)

theorem pairsOf_mem {l : List Nat} (hl : l.Pairwise (· < ·)) {i j : Nat} :
    (i, j) ∈ pairsOf l ↔ i ∈ l ∧ j ∈ l ∧ i < j := by
  induction l with
  | nil => simp [pairsOf]
  | cons a l ih =>
    obtain ⟨h1, h2⟩ := List.pairwise_cons.1 hl
    simp only [pairsOf, List.mem_append, List.mem_map, Prod.mk.injEq, ih h2, List.mem_cons]
    constructor
    · rintro (⟨x, hx, rfl, rfl⟩ | ⟨h3, h4, h5⟩)
      · exact ⟨.inl rfl, .inr hx, h1 _ hx⟩
      · exact ⟨.inr h3, .inr h4, h5⟩
    · rintro ⟨rfl | h3, rfl | h4, h5⟩
      · omega
      · exact .inl ⟨j, h4, rfl, rfl⟩
      · have := h1 _ h3; omega
      · exact .inr ⟨h3, h4, h5⟩

theorem pairsOf_lex {l : List Nat} (hl : l.Pairwise (· < ·)) :
    (pairsOf l).Pairwise fun p q => p.1 < q.1 ∨ (p.1 = q.1 ∧ p.2 < q.2) := by
  induction l with
  | nil => simp [pairsOf]
  | cons a l ih =>
    obtain ⟨h1, h2⟩ := List.pairwise_cons.1 hl
    rw [pairsOf, List.pairwise_append]
    refine ⟨?_, ih h2, ?_⟩
    · rw [List.pairwise_map]
      exact h2.imp fun h => .inr ⟨rfl, h⟩
    · intro p hp q hq
      obtain ⟨x, hx, rfl⟩ := List.mem_map.1 hp
      obtain ⟨i, j⟩ := q
      exact .inl (h1 _ ((pairsOf_mem h2).1 hq).1)

theorem returnedPairs_eq (outs : List (Out α)) : returnedPairs outs = (pairReturns outs).filterMap id := by
  unfold returnedPairs pairReturns
  rw [List.filterMap_filterMap]
  congr 1
  funext o
  match o with
  | .pair (.ok none) => rfl
  | .pair (.ok (some (i, _, j, _))) => rfl
  | .pair (.err _) => rfl
  | .pair .panic => rfl
  | .done _ => rfl
  | .item _ => rfl

/-- C07, read off: with gentle deletions only, the pairs come in strictly increasing lexicographic order (so none
twice) and have a smaller first member (so no self pair); all their members were live at the start; when the
sweep has ended, every pair of slots that were live at the start and never deleted has been returned; and it has
ended after one call more than there were pairs. -/
theorem C07_gentle_each_pair_once (v : List α) (ops rest : List (Op α)) (hrest : ∀ op ∈ rest, op.pairOp = true)
    (hg : GentleDeletions v (ops ++ [.intoDoubleIter]) rest) :
    let outs := (((from' v).run (ops ++ [.intoDoubleIter])).1.run rest).2
    let live := (liveAfter v.length ops).2
    ((returnedPairs outs).Pairwise fun p q => p.1 < q.1 ∨ (p.1 = q.1 ∧ p.2 < q.2)) ∧
    (∀ p ∈ returnedPairs outs, p.1 ∈ live ∧ p.2 ∈ live ∧ p.1 < p.2) ∧
    (pairSweepEnded outs → ∀ i ∈ live, ∀ j ∈ live, i < j → i ∉ deletedBy rest → j ∉ deletedBy rest →
      (i, j) ∈ returnedPairs outs) ∧
    ((pairsOf live).length < pairCalls rest → pairSweepEnded outs) := by
  intro outs live
  have h := C07_gentle_deletions v ops rest hrest hg
  have hsort := (C01_live_sorted v ops).1
  have hret : returnedPairs outs = (pairSweepSpec rest (pairsOf live)).filterMap id := by
    rw [returnedPairs_eq]; exact congrArg _ h
  have hsub := pairSweepSpec_sublist rest (pairsOf live)
  have hend : pairSweepEnded outs ↔ none ∈ pairSweepSpec rest (pairsOf live) := by
    rw [← h]
    unfold pairSweepEnded pairReturns
    simp only [List.mem_filterMap]
    constructor
    · rintro ⟨o, ho, he⟩
      refine ⟨o, ho, ?_⟩
      match o, he with
      | .pair (.ok none), _ => rfl
    · rintro ⟨o, ho, he⟩
      refine ⟨o, ho, ?_⟩
      match o, he with
      | .pair (.ok none), _ => rfl
  refine ⟨?_, ?_, ?_, ?_⟩
  · rw [hret]; exact (pairsOf_lex hsort).sublist hsub
  · intro p hp
    rw [hret] at hp
    obtain ⟨i, j⟩ := p
    exact (pairsOf_mem hsort).1 (hsub.subset hp)
  · intro he i hi j hj hij hdi hdj
    rw [hret]
    have := pairSweepSpec_complete rest _ (hend.1 he) (i, j) ((pairsOf_mem hsort).2 ⟨hi, hj, hij⟩) ⟨hdi, hdj⟩
    exact List.mem_filterMap.2 ⟨_, this, rfl⟩
  · intro hn
    exact hend.2 (pairSweepSpec_ends rest _ hn)

/-- gentle deletions: the partner just returned, a slot already passed, and a slot to come. -/
example : pairReturns (((from' [10, 11, 12, 13, 14]).run [.intoDoubleIter]).1.run
    [.nextPair, .del 1, .nextPair, .nextPair, .nextPair, .del 0, .del 3, .nextPair, .nextPair]).2 =
      [some (0, 1), some (0, 2), some (0, 3), some (0, 4), some (2, 4), none] := by decide

example : GentleDeletions [10, 11, 12, 13] [.intoDoubleIter] [.nextPair, .del 1, .nextPair, .nextPair] := by
  intro k d hk i j hij
  match k, hk with
  | 1, hk =>
    have hd : 1 = d := by simpa using hk
    subst hd
    have e : ((from' [10, 11, 12, 13]).run ([.intoDoubleIter] ++ [.nextPair])).1.indiciesDouble.2 =
      .ok (some (0, 2)) := by decide
    have hij' : Res.ok (some (0, 2)) = Res.ok (some (i, j)) := e.symm.trans hij
    simp at hij'
    omega
  | 0, hk => simp at hk
  | 2, hk => simp at hk
  | 3, hk => simp at hk
  | k + 4, hk => simp at hk

end Moledyn.Props
