import Mathlib.Data.List.Perm.Subperm
import Verif.Lemmas.LinkedListMerge
import Verif.Props.LinkedList
/-
Property theorems C03-C10 (src/iterator.rs), continued.
-/
namespace Moledyn.Props
open LList
variable {α : Type}

/-! ## C03, read off -/

/-- In a sweep with arbitrary deletions between the calls: (1) the returned slots strictly increase
(so none is returned twice); (2) a returned slot was live at the start and in no batch deleted before
its turn; (3) if the sweep ends by `None`, every slot that was live at the start and never deleted has
been returned; (4) it does end, at the latest after one call per initially live slot plus one. -/
theorem C03_each_survivor_once (v : List α) (ops : List (Op α)) (batches : List (List Nat)) :
    let rs := sweepDeleting batches ((from' v).run ops).1.intoIter
    let live := (liveAfter v.length ops).2
    (gotSlots rs).Pairwise (· < ·) ∧
    (∀ k i, rs[k]? = some (.ok (some i)) → i ∈ live ∧ ∀ b ∈ batches.take k, i ∉ b) ∧
    (.ok none ∈ rs → ∀ i ∈ live, (∀ b ∈ batches, i ∉ b) → .ok (some i) ∈ rs) ∧
    (live.length < batches.length → .ok none ∈ rs) := by
  intro rs live
  have hrs : rs = sweepSpec batches live 0 := C03_sweep_under_deletion v ops batches
  have hsorted := (C01_live_sorted v ops).1
  obtain ⟨h1, h2, h3, h4⟩ := sweepSpec_facts batches live 0 hsorted
  rw [hrs]
  refine ⟨h1, h3, fun hn i hi hb => h4 hn i hi (Nat.zero_le _) hb, fun hlt => ?_⟩
  by_contra hno
  -- otherwise every call returns a slot, and these are distinct live slots
  have hall : ∀ r ∈ sweepSpec batches live 0, ∃ i, r = .ok (some i) := by
    have key : ∀ (bs : List (List Nat)) (lv : List Nat) (n : Nat), ∀ r ∈ sweepSpec bs lv n, ∃ o, r = .ok o := by
      intro bs
      induction bs with
      | nil => intro lv n r hr; simp [sweepSpec] at hr
      | cons b bs ih =>
        intro lv n r hr
        simp only [sweepSpec, List.mem_cons] at hr
        rcases hr with rfl | hr
        · exact ⟨_, rfl⟩
        · exact ih _ _ r hr
    intro r hr
    obtain ⟨o, rfl⟩ := key _ _ _ r hr
    cases o with
    | none => exact absurd hr hno
    | some i => exact ⟨i, rfl⟩
  have hlen : ∀ (bs : List (List Nat)) (lv : List Nat) (n : Nat), (sweepSpec bs lv n).length = bs.length := by
    intro bs
    induction bs with
    | nil => intros; rfl
    | cons b bs ih => intro lv n; simp [sweepSpec, ih]
  have hgl : ∀ (rs : List (Res (Option Nat))), (∀ r ∈ rs, ∃ i, r = .ok (some i)) →
      (gotSlots rs).length = rs.length := by
    intro rs
    induction rs with
    | nil => intro _; rfl
    | cons r rs ih =>
      intro h
      obtain ⟨i, rfl⟩ := h r (by simp)
      have := ih (fun r hr => h r (by simp [hr]))
      simp only [gotSlots, List.filterMap_cons, List.length_cons] at this ⊢
      omega
  have hsub : gotSlots (sweepSpec batches live 0) ⊆ live := by
    intro i hi
    simp only [gotSlots, List.mem_filterMap] at hi
    obtain ⟨r, hr, hri⟩ := hi
    obtain ⟨j, rfl⟩ := hall r hr
    simp at hri; subst hri
    obtain ⟨k, hk⟩ := List.mem_iff_getElem?.1 hr
    exact (h3 k j hk).1
  have hnd : (gotSlots (sweepSpec batches live 0)).Nodup := h1.imp (fun h => Nat.ne_of_lt h)
  have := (List.subperm_of_subset hnd hsub).length_le
  rw [hgl _ hall, hlen] at this
  omega

-- slots 1 and 2 are deleted while slot 0 is being processed; slot 3 is still returned
example : sweepDeleting [[1, 2], [], []] (from' [10, 11, 12, 13]).intoIter
    = [.ok (some 0), .ok (some 3), .ok none] := by decide

/-! ## C04 -/

/-- An element pushed while the sweep still has a slot to return (`indicies` would not return `None`)
is returned by that sweep, whatever pushes and deletions of other slots are interleaved, provided the
sweep is run to its end; and all slots are returned in increasing order, so after all older ones. -/
theorem C04_push_visited (v : List α) (ops : List (Op α)) (x : α) (rest : List (Op α)) :
    let l := ((from' v).run ops).1
    let n := l.contents.length
    let after := ((l.push x).1.run rest).2
    l.indicies.2 ≠ .ok none →
    (∀ op ∈ rest, op.sweepOp = true) → (∀ op ∈ rest, op ≠ .del n) → sweepEnded after →
    n ∈ returnedSlots after ∧ (returnedSlots after).Pairwise (· < ·) := by
  intro l n after hne hops hd hend
  obtain ⟨s, hr, -, -⟩ := rep_reach v ops
  have hq : s.q0 ≠ [] := fun h => hne ((hr.indicies_none_iff).2 h)
  have hp := (hr.push x).1
  simp only [LList.step] at hp
  refine ⟨visited_of_mem_queue hp n ?_ rest hops hd hend, (returned_sorted hp rest hops).1⟩
  have : n = s.contents.length := by rw [← hr.contents_eq]
  simp [Slots.step, Slots.extend, hq, this]

/-- Limit of C04: once every slot has been handed out (the next call would return `None`), nothing
pushed or deleted afterwards makes the same sweep return anything. -/
theorem C04_push_after_last_is_missed (v : List α) (ops : List (Op α)) (rest : List (Op α)) :
    let l := ((from' v).run ops).1
    l.indicies.2 = .ok none → (∀ op ∈ rest, op.sweepOp = true) →
    returnedSlots (l.run rest).2 = [] := by
  intro l hn hops
  obtain ⟨s, hr, -, -⟩ := rep_reach v ops
  have hq := (hr.indicies_none_iff).1 hn
  have h2 := (returned_sorted hr rest hops).2
  rw [hq] at h2
  apply List.eq_nil_iff_forall_not_mem.2
  intro k hk
  have := h2 k hk
  simp at this

-- met: one slot already returned, one to come, then a push of a third
example : let l := ((from' [10, 11]).run [.intoIter, .next]).1
    l.indicies.2 = .ok (some 1) ∧
    returnedSlots ((l.push 12).1.run [.next, .next, .next]).2 = [1, 2] := by decide
-- the last slot has been returned but the loop has not yet seen `None`: the push is missed
example : let l := ((from' [10]).run [.intoIter, .next]).1
    l.indicies.2 = .ok none ∧
    returnedSlots ((l.push 11).1.run [.next, .next]).2 = [] := by decide

/-! ## C05 -/

/-- An undisturbed pair sweep returns every pair `(i, j)` of live slots with `i` before `j`, in
lexicographic order, then ends. -/
theorem C05_pair_sweep (v : List α) (ops : List (Op α)) (fuel : Nat)
    (h : (pairsOf (liveAfter v.length ops).2).length < fuel) :
    ((from' v).run ops).1.intoDoubleIter.2 = .ok () ∧
    collectPairs fuel ((from' v).run ops).1.intoDoubleIter.1 =
      (pairsOf (liveAfter v.length ops).2, true) := by
  obtain ⟨s, hr, hl, _⟩ := rep_reach v ops
  refine ⟨hr.intoDoubleIter.2, ?_⟩
  have := collectPairs_rep hr.intoDoubleIter.1 (pairOk_start s) fuel
    (by rw [pending_start, hl]; exact h)
  rw [this, pending_start, hl]

/-- Said without `pairsOf`: the sweep ends, returns no pair twice, and returns `(i, j)` exactly when
`i < j` are both live; there are `n(n-1)/2` of them. -/
theorem C05_each_pair_once (v : List α) (ops : List (Op α)) :
    ∃ (pairs : List (Nat × Nat)) (bound : Nat),
      (∀ fuel, bound < fuel →
        collectPairs fuel ((from' v).run ops).1.intoDoubleIter.1 = (pairs, true)) ∧
      pairs.Nodup ∧
      (∀ i j, (i, j) ∈ pairs ↔
        i ∈ (liveAfter v.length ops).2 ∧ j ∈ (liveAfter v.length ops).2 ∧ i < j) ∧
      2 * pairs.length =
        (liveAfter v.length ops).2.length * ((liveAfter v.length ops).2.length - 1) := by
  have hs := (C01_live_sorted v ops).1
  exact ⟨_, _, fun fuel hf => (C05_pair_sweep v ops fuel hf).2, nodup_pairsOf hs, mem_pairsOf hs,
    length_pairsOf _⟩

/-- `get_double`, `enumerate_double` and `indicies_double` are views of the same traversal. -/
theorem C05_views_agree (v : List α) (ops : List (Op α)) :
    let l := ((from' v).run ops).1
    l.getDouble = (l.enumerateDouble.1, l.enumerateDouble.2.map (Option.map fun q => (q.2.1, q.2.2.2))) ∧
    l.indiciesDouble = (l.enumerateDouble.1, l.enumerateDouble.2.map (Option.map fun q => (q.1, q.2.2.1))) := by
  intro l
  obtain ⟨s, hr, -, -⟩ := rep_reach v ops
  have hl : l = ((from' v).run ops).1 := rfl
  rw [← hl] at hr
  by_cases hnil : s.q0 = [] ∨ s.q1 = []
  · have := hr.indiciesDouble_none hnil
    simp [LList.getDouble, LList.enumerateDouble, this]
  · obtain ⟨i, t, hq⟩ : ∃ i t, s.q0 = i :: t := List.exists_cons_of_ne_nil (fun h => hnil (Or.inl h))
    obtain ⟨j, u, hq1⟩ : ∃ i t, s.q1 = i :: t := List.exists_cons_of_ne_nil (fun h => hnil (Or.inr h))
    have h1 := hr.indiciesDouble_some hq hq1
    have hsplit : l.indiciesDouble = (l.indiciesDouble.1, .ok (some (i, j))) := by rw [← h1.1]
    have hc : l.indiciesDouble.1.contents = l.contents := by
      rw [h1.2.contents_eq, hr.contents_eq]; split <;> rfl
    obtain ⟨a, ha⟩ := hr.suffix_content (hq ▸ hr.q0suf : (i :: t) <:+ s.live)
    obtain ⟨b, hb⟩ := hr.suffix_content (hq1 ▸ hr.q1suf : (j :: u) <:+ s.live)
    have e1 : l.enumerateDouble = (l.indiciesDouble.1, .ok (some (i, a, j, b))) := by
      unfold LList.enumerateDouble
      rw [hsplit]; simp only [hc, ha, hb]
    have e2 : l.getDouble = (l.indiciesDouble.1, .ok (some (a, b))) := by
      unfold LList.getDouble
      rw [hsplit]; simp only [hc, ha, hb]
    rw [e1, e2]
    exact ⟨rfl, hsplit⟩

example : collectPairs 9 ((from' [10, 11, 12, 13]).run [.del 1]).1.intoDoubleIter.1
    = ([(0, 2), (0, 3), (2, 3)], true) := by decide

/-! ## C06 -/

/-- A pair sweep in which the caller deletes the partner `j` of a returned pair `(i, j)` whenever it
decides so returns exactly the remaining pairs of still-live slots, in order. -/
theorem C06_merging_sweep (v : List α) (ops : List (Op α)) (decisions : List Bool) :
    mergeSweep decisions ((from' v).run ops).1.intoDoubleIter.1 =
      mergeSpec decisions (pairsOf (liveAfter v.length ops).2) := by
  obtain ⟨s, hr, hl, _⟩ := rep_reach v ops
  rw [mergeSweep_rep hr.intoDoubleIter.1 (pairOk_start s), pending_start, hl]

/-- Said without `mergeSpec`: the returned pairs are pairs of initially live slots in order, none
twice; no returned pair contains a slot removed before; when the sweep ends, each pair of slots that
survived to the end has been returned; and it ends (given enough decisions). -/
theorem C06_each_surviving_pair_once (v : List α) (ops : List (Op α)) (decisions : List Bool) :
    let live := (liveAfter v.length ops).2
    let r := mergeSweep decisions ((from' v).run ops).1.intoDoubleIter.1
    r.1.Sublist (pairsOf live) ∧ r.1.Nodup ∧
    (∀ k p, r.1[k]? = some p →
      ∀ d ∈ mergedAway (decisions.take k) (r.1.take k), p.1 ≠ d ∧ p.2 ≠ d) ∧
    (r.2 = true → ∀ i ∈ live, ∀ j ∈ live, i < j →
      i ∉ mergedAway decisions r.1 → j ∉ mergedAway decisions r.1 → (i, j) ∈ r.1) ∧
    ((pairsOf live).length < decisions.length → r.2 = true) := by
  intro live r
  have hs := (C01_live_sorted v ops).1
  have hr : r = mergeSpec decisions (pairsOf live) := C06_merging_sweep v ops decisions
  obtain ⟨h1, h2, h3, h4⟩ := mergeSpec_facts decisions (pairsOf live) (nodup_pairsOf hs)
  rw [hr]
  refine ⟨h1, (nodup_pairsOf hs).sublist h1, h2, ?_, h4⟩
  intro he i hi j hj hij hid hjd
  refine h3 he (i, j) ((mem_pairsOf hs i j).2 ⟨hi, hj, hij⟩) ?_
  intro d hd
  exact ⟨fun h => hid (by rw [show i = d from h]; exact hd), fun h => hjd (by rw [show j = d from h]; exact hd)⟩

-- merging 1 into 0 and then 3 into 2
example : mergeSweep [true, false, false, true, false] (from' [10, 11, 12, 13]).intoDoubleIter.1
    = ([(0, 1), (0, 2), (0, 3), (2, 3)], true) := by decide

/-! ## C07: arbitrary deletions during a pair sweep -/

/-- What remains true under arbitrary deletions: both members of every returned pair are live at that
moment, and the first is not behind the second.  (That every surviving pair is returned once is false in general, see
below, and true for gentle deletions, see Props/PairDeletion.) -/
theorem C07_pairs_are_live (v : List α) (ops : List (Op α)) (rest : List (Op α))
    (hrest : ∀ op ∈ rest, op.pairOp = true) (k : Nat) (p : Nat × Nat)
    (hp : (((from' v).run (ops ++ [.intoDoubleIter])).1.run rest).2[k]?.bind Out.pair? = some p) :
    p.1 ∈ (liveAfter v.length (ops ++ rest.take k)).2 ∧
    p.2 ∈ (liveAfter v.length (ops ++ rest.take k)).2 ∧ p.1 ≤ p.2 := by
  have hrun : ∀ (ops1 ops2 : List (Op α)) (l : LList α), (l.run (ops1 ++ ops2)).1 = ((l.run ops1).1.run ops2).1 := by
    intro ops1
    induction ops1 with
    | nil => intros; rfl
    | cons o os ih => intro ops2 l; simp only [List.cons_append, LList.run, ih]
  have hsrun : ∀ (ops1 ops2 : List (Op α)) (s : Slots α), (s.run (ops1 ++ ops2)).1 = ((s.run ops1).1.run ops2).1 := by
    intro ops1
    induction ops1 with
    | nil => intros; rfl
    | cons o os ih => intro ops2 l; simp only [List.cons_append, Slots.run, ih]
  have hr := ((rep_from v).run ops).1
  set s := ((Slots.ofContents v).run ops).1 with hs
  have hd := (hr.step .intoDoubleIter).1
  rw [hrun] at hp
  have hle : ∀ i j, (s.step .intoDoubleIter).1.q0.head? = some i →
      (s.step .intoDoubleIter).1.q1.head? = some j → i ≤ j := by
    intro i j hi hj
    simp only [Slots.step] at hi hj
    have hsort := hr.sorted
    cases hlv : s.live with
    | nil => rw [hlv] at hi; simp at hi
    | cons a t =>
      rw [hlv] at hi hj hsort
      simp at hi hj
      subst hi
      exact Nat.le_of_lt ((List.pairwise_cons.1 hsort).1 j (List.mem_of_mem_head? hj))
  have := pairs_live hd hle rest hrest k p (by simpa [LList.run] using hp)
  have hlive : ((s.step .intoDoubleIter).1.run (rest.take k)).1.live =
      (liveAfter v.length (ops ++ rest.take k)).2 := by
    have h1 := congrArg Prod.snd (slots_run_live (s.step .intoDoubleIter).1 (rest.take k))
    have h2 := congrArg Prod.snd (slots_run_live s (rest.take k))
    have h3 := congrArg Prod.snd (slots_run_live (Slots.ofContents v) (ops ++ rest.take k))
    rw [hsrun] at h3
    simp only at h1 h2 h3
    rw [h1]
    simp only [Slots.step]
    rw [← h2, hs, h3]
    simp [Slots.ofContents, liveAfter]
  rwa [hlive] at this

/-- Negation of the full claim, 1: deleting an upcoming first member of a pair, between two pair
calls, makes the sweep return the self pair `(2, 2)`. -/
theorem C07_self_pair :
    ∃ rest : List (Op Nat), (∀ op ∈ rest, op.pairOp = true) ∧
      (2, 2) ∈ returnedPairs (((from' [10, 11, 12]).run [.intoDoubleIter]).1.run rest).2 :=
  ⟨[.nextPair, .nextPair, .del 1, .nextPair], by decide, by decide⟩

/-- Negation, 2: deleting the *first* member of the pair just returned makes the sweep end without
ever returning `(1, 2)`, although both 1 and 2 are live throughout. -/
theorem C07_missed_pair_first_member :
    ∃ rest : List (Op Nat), (∀ op ∈ rest, op.pairOp = true) ∧
      (∀ op ∈ rest, op ≠ .del 1 ∧ op ≠ .del 2) ∧
      pairSweepEnded (((from' [10, 11, 12, 13]).run [.intoDoubleIter]).1.run rest).2 ∧
      (1, 2) ∉ returnedPairs (((from' [10, 11, 12, 13]).run [.intoDoubleIter]).1.run rest).2 :=
  ⟨[.nextPair, .nextPair, .del 0, .nextPair, .nextPair, .nextPair], by decide, by
    intro op h; simp at h; rcases h with rfl | rfl | rfl <;> simp,
    by unfold pairSweepEnded; decide, by decide⟩

/-- Negation, 3: deleting the *last* slot while it is the upcoming partner ends the whole sweep, again
without returning `(1, 2)`. -/
theorem C07_missed_pair_last_slot :
    ∃ rest : List (Op Nat), (∀ op ∈ rest, op.pairOp = true) ∧
      (∀ op ∈ rest, op ≠ .del 1 ∧ op ≠ .del 2) ∧
      pairSweepEnded (((from' [10, 11, 12, 13]).run [.intoDoubleIter]).1.run rest).2 ∧
      (1, 2) ∉ returnedPairs (((from' [10, 11, 12, 13]).run [.intoDoubleIter]).1.run rest).2 :=
  ⟨[.nextPair, .nextPair, .del 3, .nextPair], by decide, by
    intro op h; simp at h; rcases h with rfl | rfl | rfl <;> simp,
    by unfold pairSweepEnded; decide, by decide⟩

-- the hypotheses of C07_pairs_are_live are met with a deletion in between
example : (((from' [10, 11, 12, 13]).run ([.del 3] ++ [.intoDoubleIter])).1.run
    [.nextPair, .del 0, .nextPair]).2[2]?.bind Out.pair? = some (1, 2) := by decide

/-! ## C08: merging (generic part; the agents are in Props/Agents) -/

/-- For any element type whose `add_size` succeeds and adds sizes on `good` elements: a sequence of
merges between distinct live slots succeeds at every step, leaves the total size of the live slots
unchanged, removes exactly one live slot per merge, and a fresh sweep then visits exactly the slots
not merged away. -/
theorem C08_merges_conserve_total (m : MergeOps α) (good : α → Prop)
    (hgood : ∀ a k, good a → (m.addSize a k).2 = .ok () ∧
      m.size (m.addSize a k).1 = m.size a + k ∧ good (m.addSize a k).1)
    (v : List α) (ops : List (Op α)) (ps : List (Nat × Nat)) :
    let l := ((from' v).run ops).1
    let live := (liveAfter v.length ops).2
    let live' := liveAfterMerges live ps
    let r := mergeMany m l ps
    (∀ i ∈ live, ∀ a, l.contents[i]? = some a → good a) → ValidMerges live ps →
    (∀ x ∈ r.2, x = .ok ()) ∧ totalSize m r.1 live' = totalSize m l live ∧
    live'.length + ps.length = live.length ∧
    (∀ fuel, live'.length < fuel → collect fuel r.1.intoIter = (live', true)) := by
  intro l live live' r hg hv
  obtain ⟨s, hr, hl, _⟩ := rep_reach v ops
  obtain ⟨s', hr', hl', hall, _, htot, hcnt, _⟩ := mergeMany_rep m good hgood ps hr
    (by rw [hl]; exact hg) (by rw [hl]; exact hv)
  have e : s'.live = live' := by rw [hl', hl]
  rw [e, hl] at htot hcnt
  refine ⟨hall, htot, hcnt, fun fuel hf => ?_⟩
  have := collect_rep hr'.intoIter fuel (by simpa [e] using hf)
  rw [this]; simp [e]

/-- The effect of one merge of two different live slots: slot `i` has the sum, `j` is gone. -/
theorem C08_merge_adds_sizes (m : MergeOps α) (v : List α) (ops : List (Op α)) (i j : Nat) (a b : α) :
    let l := ((from' v).run ops).1
    let live := (liveAfter v.length ops).2
    i ∈ live → j ∈ live → i ≠ j → l.contents[i]? = some a → l.contents[j]? = some b →
    (m.addSize a (m.size b)).2 = .ok () →
    (l.merge m i j).2 = .ok () ∧
    (l.merge m i j).1.contents = l.contents.set i (m.addSize a (m.size b)).1 ∧
    (∀ fuel, live.length < fuel →
      collect fuel (l.merge m i j).1.intoIter = (live.filter (· ≠ j), true)) := by
  intro l live _ hj _ ha hb hok
  obtain ⟨s, hr, hl, _⟩ := rep_reach v ops
  obtain ⟨hrep, hres⟩ := hr.merge m ha hb hok (by rw [hl]; exact hj)
  refine ⟨hres, ?_, fun fuel hf => ?_⟩
  · rw [hrep.contents_eq]; simp only [Slots.delS]; rw [← hr.contents_eq]
  · have e : (Slots.delS { s with contents := s.contents.set i (m.addSize a (m.size b)).1 } j).live
        = live.filter (· ≠ j) := by
      show s.live.filter (· ≠ j) = _
      rw [hl]
    have hlen := List.length_filter_le (· ≠ j) live
    have := collect_rep hrep.intoIter fuel (by
      simp only [e]
      exact Nat.lt_of_le_of_lt hlen hf)
    rw [this]; simp only [e]

/-- sizes as plain numbers, the simplest element type: used for the witnesses below. -/
def natMerge : MergeOps Nat := { size := id, addSize := fun a k => (a + k, .ok ()) }

example : (mergeMany natMerge (from' [1, 1, 1, 1]) [(0, 1), (2, 3), (0, 2)]).1.contents = [4, 1, 2, 1] ∧
    ValidMerges [0, 1, 2, 3] [(0, 1), (2, 3), (0, 2)] :=
  ⟨by decide, by simp [ValidMerges]⟩

/-- Outside the guard, conservation fails: merging a slot with itself deletes it altogether
(total 2 → 1), merging a dead slot returns an error but has already added its size (total 2 → 3 on
the live slots), and merging into a dead slot loses the partner (total 2 → 1). -/
theorem C08_unguarded_merges_do_not_conserve :
    (let l := from' [1, 1]
     totalSize natMerge l [0, 1] = 2 ∧ (l.merge natMerge 0 0).2 = .ok () ∧
     collect 5 (l.merge natMerge 0 0).1.intoIter = ([1], true) ∧
     totalSize natMerge (l.merge natMerge 0 0).1 [1] = 1) ∧
    (let l := ((from' [1, 1, 1]).del 2).1
     collect 5 l.intoIter = ([0, 1], true) ∧ totalSize natMerge l [0, 1] = 2 ∧
     (l.merge natMerge 0 2).2 = .err .invalidArgumentInput ∧
     collect 5 (l.merge natMerge 0 2).1.intoIter = ([0, 1], true) ∧
     totalSize natMerge (l.merge natMerge 0 2).1 [0, 1] = 3) ∧
    (let l := ((from' [1, 1, 1]).del 2).1
     (l.merge natMerge 2 1).2 = .ok () ∧
     collect 5 (l.merge natMerge 2 1).1.intoIter = ([0], true) ∧
     totalSize natMerge (l.merge natMerge 2 1).1 [0] = 1) := by decide

/-! ## C09 -/

/-- `connect_all` succeeds after any history; links, head and tail become those of `from(contents)`;
contents and cursors are untouched. -/
theorem C09_connect_all (v : List α) (ops : List (Op α)) :
    let l := ((from' v).run ops).1
    let l' := l.connectAll.1
    l.connectAll.2 = .ok () ∧ l'.links = (from' l.contents).links ∧
    l'.head = (from' l.contents).head ∧ l'.tail = (from' l.contents).tail ∧
    l'.contents = l.contents ∧ (l'.c0, l'.c1, l'.c2) = (l.c0, l.c1, l.c2) := by
  intro l l'
  obtain ⟨s, hr, -, -⟩ := rep_reach v ops
  have := hr.connectAll_eq
  have h1 : l.connectAll = _ := this
  have h2 : l' = { from' l.contents with c0 := l.c0, c1 := l.c1, c2 := l.c2 } := by
    show l.connectAll.1 = _
    rw [h1]
  rw [h1, h2]
  simp [from']

/-- Afterwards every slot is live, and a second `connect_all` changes nothing. -/
theorem C09_all_live_and_idempotent (v : List α) (ops : List (Op α)) :
    let l := ((from' v).run ops).1
    (∀ fuel, l.contents.length < fuel →
      collect fuel l.connectAll.1.intoIter = (List.range l.contents.length, true)) ∧
    l.connectAll.1.connectAll = l.connectAll := by
  intro l
  obtain ⟨s, hr, -, -⟩ := rep_reach v ops
  have hc := (hr.step .connectAll).1
  simp only [LList.step] at hc
  constructor
  · intro fuel hf
    have e : ((s.step .connectAll).1).live = List.range l.contents.length := by
      simp only [Slots.step]; rw [← hr.contents_eq]
    have := collect_rep hc.intoIter fuel (by show List.length _ < _; rw [e]; simpa using hf)
    rw [this]; simp only [e]
  · have h1 := hr.connectAll_eq
    have h2 := hc.connectAll_eq
    rw [h2]
    show _ = l.connectAll
    have h1' : l.connectAll = _ := h1
    rw [h1']
    rfl

example : ((from' [1, 2, 3]).run [.del 1, .del 2, .push 9, .connectAll]).1.links
    = (from' [1, 2, 3, 9]).links := by decide

/-! ## C10 -/

/-- A dead slot is returned by no single or pair sweep, and stays dead, until `connect_all`. -/
theorem C10_dead_stays_dead (v : List α) (ops : List (Op α)) (i : Nat) (rest : List (Op α))
    (hi : i < (liveAfter v.length ops).1) (hdead : i ∉ (liveAfter v.length ops).2)
    (hrest : ∀ op ∈ rest, op ≠ .connectAll) :
    let l := ((from' v).run ops).1
    i ∉ returnedSlots (l.run rest).2 ∧
    (∀ p ∈ returnedPairs (l.run rest).2, p.1 ≠ i ∧ p.2 ≠ i) ∧
    i ∉ (liveAfter v.length (ops ++ rest)).2 := by
  intro l
  have hr := ((rep_from v).run ops).1
  have hsl := slots_run_live (Slots.ofContents v) ops
  have e : ops.foldl liveStep ((Slots.ofContents v).contents.length, (Slots.ofContents v).live)
      = liveAfter v.length ops := rfl
  rw [e] at hsl
  rw [← hsl] at hi hdead
  obtain ⟨h1, h2, h3⟩ := dead_stays_dead hr i hi hdead rest hrest
  refine ⟨h1, h2, ?_⟩
  have hsl2 := slots_run_live ((Slots.ofContents v).run ops).1 rest
  rw [hsl] at hsl2
  have : liveAfter v.length (ops ++ rest) = rest.foldl liveStep (liveAfter v.length ops) := by
    simp [liveAfter]
  rw [this, ← hsl2]
  exact h3

example : 1 < (liveAfter (α := Nat) 3 [.del 1]).1 ∧ 1 ∉ (liveAfter (α := Nat) 3 [.del 1]).2 := by decide

/-! ## C54: `clear` on a list of buffers -/

/-- `LinkedList<Position>::clear` applies `f` (`Position::clear`) once to exactly the live slots,
leaves dead slots alone and keeps the live set. -/
theorem C54_clear_touches_live_only (f : α → α) (v : List α) (ops : List (Op α)) (fuel : Nat)
    (h : (liveAfter v.length ops).2.length < fuel) :
    let l := ((from' v).run ops).1
    let r := l.clearAll f fuel
    r.2 = true ∧
    (∀ k : Nat, r.1.contents[k]? =
      if k ∈ (liveAfter v.length ops).2 then l.contents[k]?.map f else l.contents[k]?) ∧
    collect fuel r.1.intoIter = ((liveAfter v.length ops).2, true) := by
  intro l r
  obtain ⟨s, hr, hl, _⟩ := rep_reach v ops
  obtain ⟨h1, h2⟩ := mapSweep_rep f fuel hr.intoIter (by simpa [hl] using h)
  refine ⟨h1, fun k => ?_, ?_⟩
  · show (mapSweep f fuel l.intoIter).1.contents[k]? = _
    rw [h2.contents_eq]
    simp only
    rw [foldl_modify_getElem? f _ hr.nodup, hl, ← hr.contents_eq]
  · have := collect_rep h2.intoIter fuel (by simpa [hl] using h)
    show collect fuel (mapSweep f fuel l.intoIter).1.intoIter = _
    rw [this]; simp [hl]

example : ((from' [1, 2, 3]).run [.del 1]).1.clearAll (fun _ => 0) 4 |>.1.contents = [0, 2, 0] := by decide

end Moledyn.Props
