import Mathlib.Data.List.Nodup
import Verif.Spec.LinkedList
import Verif.Lemmas.LinkedList
import Mathlib.Tactic.Ring
/-
Helper lemmas for the linked-list properties: everything is read off the abstract slot machine.
-/
namespace Moledyn
namespace LList
variable {α : Type}

theorem new_eq_from : (new : LList α) = from' [] := rfl

/-! ### live slots of the abstract machine agree with `liveAfter` -/

theorem slots_liveStep (s : Slots α) (op : Op α) :
    ((s.step op).1.contents.length, (s.step op).1.live) =
      liveStep (s.contents.length, s.live) op := by
  cases op with
  | push a => simp [Slots.step, liveStep]
  | del i =>
    simp only [Slots.step, liveStep]
    split
    · rfl
    · rename_i h
      simp only [Prod.mk.injEq, true_and]
      symm
      rw [List.filter_eq_self]
      intro x hx; simp; rintro rfl; exact h hx
  | connectAll => simp [Slots.step, liveStep]
  | intoIter => simp [Slots.step, liveStep]
  | intoDoubleIter => simp [Slots.step, liveStep]
  | next => simp only [Slots.step, liveStep]; split <;> rfl
  | nextMut f => simp only [Slots.step, liveStep]; split <;> simp
  | nextPair =>
    simp only [Slots.step, liveStep]
    split
    · rfl
    · rfl
    · simp only; split <;> rfl

theorem slots_run_live (s : Slots α) (ops : List (Op α)) :
    ((s.run ops).1.contents.length, (s.run ops).1.live) =
      ops.foldl liveStep (s.contents.length, s.live) := by
  induction ops generalizing s with
  | nil => rfl
  | cons op ops ih =>
    simp only [Slots.run, List.foldl_cons]
    rw [ih, ← slots_liveStep]

theorem rep_reach (v : List α) (ops : List (Op α)) :
    ∃ s : Slots α, Rep ((from' v).run ops).1 s ∧
      s.live = (liveAfter v.length ops).2 ∧ s.contents.length = (liveAfter v.length ops).1 := by
  have h := (rep_from v).run ops
  refine ⟨_, h.1, ?_, ?_⟩
  · have := slots_run_live (Slots.ofContents v) ops
    exact congrArg Prod.snd this
  · have := slots_run_live (Slots.ofContents v) ops
    exact congrArg Prod.fst this

/-! ### `indicies` and pairs -/

theorem Rep.indicies_nil {l : LList α} {s : Slots α} (h : Rep l s) (hq : s.q0 = []) :
    l.indicies = (l, .ok none) := by
  have hc : l.c0 = none := by rw [h.c0, hq]; rfl
  simp [LList.indicies, hc]

theorem Rep.indicies_cons {l : LList α} {s : Slots α} (h : Rep l s) {i : Nat} {q : List Nat}
    (hq : s.q0 = i :: q) :
    l.indicies.2 = .ok (some i) ∧ Rep l.indicies.1 { s with q0 := q } := by
  have hc : l.c0 = some i := by rw [h.c0, hq]; rfl
  have hsuf : (i :: q) <:+ s.live := hq ▸ h.q0suf
  obtain ⟨p, hp⟩ := h.suffix_node hsuf
  have := h.cursors q s.q1 (suffix_tail hsuf) h.q1suf
  rw [← h.c1] at this
  simp only [LList.indicies, hc, hp]
  exact ⟨trivial, this⟩

theorem collect_rep {l : LList α} {s : Slots α} (h : Rep l s) :
    ∀ fuel, s.q0.length < fuel → collect fuel l = (s.q0, true) := by
  intro fuel
  induction fuel generalizing l s with
  | zero => intro hf; omega
  | succ n ih =>
    intro hf
    cases hq : s.q0 with
    | nil =>
      simp [collect, h.indicies_nil hq]
    | cons i q =>
      obtain ⟨h1, h2⟩ := h.indicies_cons hq
      have h3 := ih h2 (by simp only; rw [hq] at hf; simp at hf; omega)
      have he : l.indicies = (l.indicies.1, l.indicies.2) := rfl
      rw [h1] at he
      rw [collect, he]
      simp only [h3]

theorem Rep.indiciesDouble_none {l : LList α} {s : Slots α} (h : Rep l s)
    (hq : s.q0 = [] ∨ s.q1 = []) : l.indiciesDouble = (l, .ok none) := by
  rcases hq with hq | hq
  · have hc : l.c0 = none := by rw [h.c0, hq]; rfl
    simp [LList.indiciesDouble, hc]
  · have hc : l.c1 = none := by rw [h.c1, hq]; rfl
    cases h0 : l.c0 <;> simp [LList.indiciesDouble, hc, h0]

theorem Rep.indiciesDouble_some {l : LList α} {s : Slots α} (h : Rep l s) {i j : Nat}
    {t u : List Nat} (hq : s.q0 = i :: t) (hq1 : s.q1 = j :: u) :
    l.indiciesDouble.2 = .ok (some (i, j)) ∧
      Rep l.indiciesDouble.1
        (if u = [] then { s with q0 := t, q1 := t.tail } else { s with q1 := u }) := by
  have hmain := h.enumerateDouble
  simp only [LList.step, Slots.step, hq, hq1, LList.enumerateDouble] at hmain
  have hs0 : (i :: t) <:+ s.live := hq ▸ h.q0suf
  have hs1 : (j :: u) <:+ s.live := hq1 ▸ h.q1suf
  obtain ⟨x, hx⟩ := h.suffix_content hs0
  obtain ⟨y, hy⟩ := h.suffix_content hs1
  have hx' : s.contents[i]? = some x := h.contents_eq ▸ hx
  have hy' : s.contents[j]? = some y := h.contents_eq ▸ hy
  obtain ⟨h1, h2⟩ := hmain
  simp only [hx', hy'] at h2
  cases hd : l.indiciesDouble with
  | mk l1 r =>
    rw [hd] at h1 h2
    cases r with
    | err e => simp at h2
    | panic => simp at h2
    | ok o =>
      cases o with
      | none => simp at h2
      | some p =>
        obtain ⟨a, b⟩ := p
        simp only at h1 h2 ⊢
        cases ha : l1.contents[a]? with
        | none => simp [ha] at h2
        | some xa =>
          cases hb : l1.contents[b]? with
          | none => simp [ha, hb] at h2
          | some xb =>
            simp [ha, hb] at h2
            simp only [ha, hb] at h1
            refine ⟨by simp [h2], ?_⟩
            by_cases hu : u = []
            · simp only [hu, if_true] at h1 ⊢; exact h1
            · simp only [if_neg hu, hq] at h1 ⊢; exact h1

/-- pairs still to come, as seen from the two queues -/
def pending (s : Slots α) : List (Nat × Nat) :=
  match s.q0 with
  | [] => []
  | i :: t => s.q1.map (fun j => (i, j)) ++ (if s.q1 = [] then [] else pairsOf t)

/-- state of an undisturbed (or merge-only) pair sweep -/
structure PairOk (s : Slots α) : Prop where
  suf : ∀ i t, s.q0 = i :: t → s.q1 <:+ t
  emp : ∀ i t, s.q0 = i :: t → s.q1 = [] → t = []

theorem pairsOf_nil_iff (t : List Nat) : pairsOf t = [] ↔ t.length ≤ 1 := by
  match t with
  | [] => simp [pairsOf]
  | [a] => simp [pairsOf]
  | a :: b :: t => simp [pairsOf]

theorem pending_nil {s : Slots α} (_h : PairOk s) : pending s = [] ↔ s.q0 = [] ∨ s.q1 = [] := by
  unfold pending
  cases hq : s.q0 with
  | nil => simp
  | cons i t =>
    cases hq1 : s.q1 with
    | nil => simp
    | cons j u => simp

theorem pairOk_next {s : Slots α} {i j : Nat} {t u : List Nat}
    (hp : PairOk s) (hq : s.q0 = i :: t) (hq1 : s.q1 = j :: u) :
    let s' : Slots α := if u = [] then { s with q0 := t, q1 := t.tail } else { s with q1 := u }
    PairOk s' ∧ pending s = (i, j) :: pending s' := by
  by_cases hu : u = []
  · simp only [hu, if_true]
    constructor
    · constructor
      · intro i' t' h; simp only at h ⊢; subst h; simp
      · intro i' t' h h2; simp only at h h2; subst h; simpa using h2
    · unfold pending
      rw [hq, hq1, hu]
      simp only [List.map_cons, List.map_nil]
      cases t with
      | nil => simp [pairsOf]
      | cons k t =>
        cases t with
        | nil => simp [pairsOf]
        | cons m t => simp [pairsOf]
  · simp only [if_neg hu]
    constructor
    · constructor
      · intro i' t' h
        simp only at h ⊢
        have := hp.suf i' t' h
        rw [hq1] at this
        exact suffix_tail this
      · intro i' t' _ h2; simp only at h2; exact absurd h2 hu
    · unfold pending
      rw [hq, hq1]
      simp [hu]

theorem collectPairs_rep {l : LList α} {s : Slots α} (h : Rep l s) (hp : PairOk s) :
    ∀ fuel, (pending s).length < fuel → collectPairs fuel l = (pending s, true) := by
  intro fuel
  induction fuel generalizing l s with
  | zero => intro hf; omega
  | succ n ih =>
    intro hf
    by_cases hnil : s.q0 = [] ∨ s.q1 = []
    · rw [collectPairs, h.indiciesDouble_none hnil, (pending_nil hp).2 hnil]
    · rw [not_or] at hnil
      obtain ⟨i, t, hq⟩ := List.exists_cons_of_ne_nil hnil.1
      obtain ⟨j, u, hq1⟩ := List.exists_cons_of_ne_nil hnil.2
      obtain ⟨h1, h2⟩ := h.indiciesDouble_some hq hq1
      obtain ⟨h3, h4⟩ := pairOk_next hp hq hq1
      have h5 := ih h2 h3 (by rw [h4] at hf; simpa using hf)
      have he : l.indiciesDouble = (l.indiciesDouble.1, l.indiciesDouble.2) := rfl
      rw [h1] at he
      rw [collectPairs, he, h4]
      simp only [h5]

theorem pairOk_start (s : Slots α) : PairOk { s with q0 := s.live, q1 := s.live.tail } := by
  constructor
  · intro i t h; simp only at h ⊢; rw [h]; simp
  · intro i t h h2; simp only at h h2; rw [h] at h2; simpa using h2

theorem pending_start (s : Slots α) :
    pending { s with q0 := s.live, q1 := s.live.tail } = pairsOf s.live := by
  unfold pending
  simp only
  cases s.live with
  | nil => rfl
  | cons i t => cases t <;> simp [pairsOf]

/-! ### deleting the partner just returned -/

theorem pairsOf_filter (d : Nat) (t : List Nat) :
    pairsOf (t.filter (· ≠ d)) = (pairsOf t).filter (fun q => q.1 ≠ d ∧ q.2 ≠ d) := by
  induction t with
  | nil => rfl
  | cons i t ih =>
    simp only [pairsOf, List.filter_append, List.filter_cons]
    by_cases hi : i = d
    · subst hi
      have h1 : (t.map fun j => (i, j)).filter (fun q => decide (q.1 ≠ i ∧ q.2 ≠ i)) = [] := by
        rw [List.filter_eq_nil_iff]; intro a ha; simp at ha; obtain ⟨b, _, rfl⟩ := ha; simp
      rw [h1]; simpa using ih
    · have h1 : (t.map fun j => (i, j)).filter (fun q => decide (q.1 ≠ d ∧ q.2 ≠ d)) =
          (t.filter (· ≠ d)).map fun j => (i, j) := by
        rw [List.filter_map]
        congr 1
        apply List.filter_congr
        intro x _; simp [hi]
      rw [h1]
      simp only [ne_eq, hi, not_false_eq_true, decide_true, if_true, pairsOf]
      rw [← ih]

/-- the abstract state after deleting `d` -/
def Slots.delS (s : Slots α) (d : Nat) : Slots α :=
  { s with live := s.live.filter (· ≠ d), q0 := s.q0.filter (· ≠ d), q1 := s.q1.filter (· ≠ d) }

theorem Rep.delS {l : LList α} {s : Slots α} (h : Rep l s) (d : Nat) :
    Rep (l.del d).1 (Slots.delS s d) := by
  have := (h.del d).1
  simp only [LList.step, Slots.step] at this
  split at this
  · exact this
  · rename_i hd
    have e : Slots.delS s d = s := by
      have f : ∀ q : List Nat, q <:+ s.live → q.filter (· ≠ d) = q := by
        intro q hq
        rw [List.filter_eq_self]; intro x hx; simp; rintro rfl; exact hd (hq.subset hx)
      unfold Slots.delS
      rw [f _ h.q0suf, f _ h.q1suf, f _ (List.suffix_refl _)]
    rw [e]; exact this

/-- deleting any slot at the very start of a row, unless it is the row itself -/
theorem pairOk_del_fresh {s : Slots α} (hf : s.q1 = s.q0.tail) (d : Nat)
    (hne : s.q0.head? = some d → s.q0.tail = []) :
    PairOk (Slots.delS s d) ∧
      pending (Slots.delS s d) = (pending s).filter (fun q => q.1 ≠ d ∧ q.2 ≠ d) := by
  cases hq : s.q0 with
  | nil =>
    constructor
    · constructor <;> intro i t h <;> simp [Slots.delS, hq] at h
    · simp [pending, Slots.delS, hq]
  | cons i t =>
    rw [hq] at hf
    simp only [List.tail_cons] at hf
    by_cases hid : i = d
    · have hl : t = [] := by simpa [hq, hid] using hne
      subst hid hl
      constructor
      · constructor <;> intro i' t h <;> simp [Slots.delS, hq] at h
      · simp [pending, Slots.delS, hq, hf]
    · have hne' : (Slots.delS s d).q0 = i :: t.filter (· ≠ d) := by
        simp only [Slots.delS]; rw [hq, List.filter_cons]; simp [hid]
      have hne1 : (Slots.delS s d).q1 = t.filter (· ≠ d) := by
        simp only [Slots.delS]; rw [hf]
      have e1 : pending (Slots.delS s d) = pairsOf (i :: t.filter (· ≠ d)) := by
        unfold pending
        rw [hne', hne1]
        cases t.filter (· ≠ d) <;> simp [pairsOf]
      have e2 : pending s = pairsOf (i :: t) := by
        unfold pending
        rw [hq, hf]
        cases t <;> simp [pairsOf]
      refine ⟨⟨?_, ?_⟩, ?_⟩
      · intro i' t' h
        rw [hne'] at h
        rw [hne1]
        simp at h
        rw [← h.2]
        simp
      · intro i' t' h h2
        rw [hne'] at h
        rw [hne1] at h2
        injection h with _ h
        rw [← h]; exact h2
      · rw [e1, e2, ← pairsOf_filter, List.filter_cons]
        simp [hid]

/-- deleting a slot that is neither the row nor a pending partner of the row -/
theorem pairOk_del_mid {s : Slots α} (hp : PairOk s) {i : Nat} {t : List Nat} (hq : s.q0 = i :: t)
    (hq1 : s.q1 ≠ []) (d : Nat) (hdi : i ≠ d) (hd : d ∉ s.q1) :
    PairOk (Slots.delS s d) ∧
      pending (Slots.delS s d) = (pending s).filter (fun q => q.1 ≠ d ∧ q.2 ≠ d) := by
  have hne' : (Slots.delS s d).q0 = i :: t.filter (· ≠ d) := by
    simp only [Slots.delS]; rw [hq, List.filter_cons]; simp [hdi]
  have hne1 : (Slots.delS s d).q1 = s.q1 := by
    simp only [Slots.delS]
    rw [List.filter_eq_self]; intro x hx; simp; rintro rfl; exact hd hx
  have hsuf := hp.suf i t hq
  refine ⟨⟨?_, ?_⟩, ?_⟩
  · intro i' t' h
    rw [hne'] at h
    injection h with _ h
    have := suffix_filter (fun x => decide (x ≠ d)) hsuf
    rw [← h]
    simpa only [Slots.delS] using this
  · intro i' t' _ h2
    rw [hne1] at h2; exact absurd h2 hq1
  · unfold pending
    rw [hne', hne1, hq]
    simp only [if_neg hq1, List.filter_append, pairsOf_filter]
    congr 1
    symm
    rw [List.filter_eq_self]
    intro x hx
    simp at hx
    obtain ⟨y, hy, rfl⟩ := hx
    simp [hdi]
    rintro rfl
    exact hd hy

theorem mergeSweep_rep {l : LList α} {s : Slots α} (h : Rep l s) (hp : PairOk s) (ds : List Bool) :
    mergeSweep ds l = mergeSpec ds (pending s) := by
  induction ds generalizing l s with
  | nil => rfl
  | cons d ds ih =>
    by_cases hnil : s.q0 = [] ∨ s.q1 = []
    · rw [mergeSweep, h.indiciesDouble_none hnil, (pending_nil hp).2 hnil, mergeSpec]
    · rw [not_or] at hnil
      obtain ⟨i, t, hq⟩ := List.exists_cons_of_ne_nil hnil.1
      obtain ⟨j, u, hq1⟩ := List.exists_cons_of_ne_nil hnil.2
      obtain ⟨h1, h2⟩ := h.indiciesDouble_some hq hq1
      obtain ⟨h3, h4⟩ := pairOk_next hp hq hq1
      have he : l.indiciesDouble = (l.indiciesDouble.1, l.indiciesDouble.2) := rfl
      rw [h1] at he
      rw [mergeSweep, he, h4, mergeSpec]
      simp only
      cases d with
      | false =>
        simp only [Bool.false_eq_true, if_false]
        rw [ih h2 h3]
      | true =>
        simp only [if_true]
        have hnd : s.live.Nodup := h.nodup
        have hij : i ≠ j := by
          have hs := hp.suf i t hq
          rw [hq1] at hs
          have hjt : j ∈ t := hs.subset (by simp)
          have hnq : s.q0.Nodup := hnd.sublist h.q0suf.sublist
          rw [hq] at hnq
          rintro rfl
          exact (List.nodup_cons.1 hnq).1 hjt
        have hdel := h2.delS j
        have hmain : PairOk (Slots.delS (if u = [] then { s with q0 := t, q1 := t.tail }
              else { s with q1 := u }) j) ∧
            pending (Slots.delS (if u = [] then { s with q0 := t, q1 := t.tail }
              else { s with q1 := u }) j) =
            (pending (if u = [] then { s with q0 := t, q1 := t.tail }
              else { s with q1 := u })).filter (fun q => q.1 ≠ j ∧ q.2 ≠ j) := by
          by_cases hu : u = []
          · subst hu
            simp only [if_true]
            apply pairOk_del_fresh rfl
            intro hh
            simp only at hh ⊢
            cases t with
            | nil => rfl
            | cons k t =>
              simp at hh
              subst hh
              simp only [List.tail_cons]
              by_contra hne
              have hs := hp.suf i (k :: t) hq
              rw [hq1] at hs
              have hnq : s.q0.Nodup := hnd.sublist h.q0suf.sublist
              rw [hq] at hnq
              have hnt := (List.nodup_cons.1 hnq).2
              have hlast := suffix_getLast? hs (by simp)
              have : t.getLast? = some k := by
                rw [← suffix_getLast? (List.suffix_cons k t) hne, hlast]; simp
              exact (List.nodup_cons.1 hnt).1 (List.mem_of_getLast? this)
          · simp only [if_neg hu] at h3 ⊢
            refine pairOk_del_mid h3 (i := i) (t := t) hq hu j hij ?_
            have hn1 : s.q1.Nodup := hnd.sublist h.q1suf.sublist
            rw [hq1] at hn1
            exact (List.nodup_cons.1 hn1).1
        rw [ih hdel hmain.1, hmain.2]

/-! ### sweeping while deleting -/

theorem Rep.delMany {l : LList α} {s : Slots α} (h : Rep l s) (ds : List Nat) :
    Rep (l.delMany ds) { s with live := s.live.filter (· ∉ ds), q0 := s.q0.filter (· ∉ ds),
                                q1 := s.q1.filter (· ∉ ds) } := by
  induction ds generalizing l s with
  | nil => simpa [LList.delMany] using h
  | cons d ds ih =>
    have h1 := ih (h.delS d)
    have e : ∀ q : List Nat, (q.filter (· ≠ d)).filter (· ∉ ds) = q.filter (· ∉ d :: ds) := by
      intro q
      rw [List.filter_filter]
      apply List.filter_congr
      intro x _
      simp [not_or, Bool.and_comm]
    simp only [Slots.delS, e] at h1
    exact h1

theorem find?_ge_of_sorted {live q : List Nat} {nxt : Nat}
    (hq : q = live.filter (nxt ≤ ·)) : live.find? (nxt ≤ ·) = q.head? := by
  rw [hq, List.head?_filter]

theorem sweepDeleting_rep {l : LList α} {s : Slots α} (h : Rep l s) (nxt : Nat)
    (hq : s.q0 = s.live.filter (nxt ≤ ·)) (batches : List (List Nat)) :
    sweepDeleting batches l = sweepSpec batches s.live nxt := by
  induction batches generalizing l s nxt with
  | nil => rfl
  | cons ds rest ih =>
    rw [sweepDeleting, sweepSpec, find?_ge_of_sorted hq]
    cases hq0 : s.q0 with
    | nil =>
      rw [h.indicies_nil hq0]
      simp only [List.head?_nil]
      congr 1
      have h1 := h.delMany ds
      have := ih h1 nxt (by
        simp only
        rw [hq, List.filter_filter, List.filter_filter]
        apply List.filter_congr; intro x _; rw [Bool.and_comm])
      exact this
    | cons i q =>
      obtain ⟨h1, h2⟩ := h.indicies_cons hq0
      rw [h1]
      simp only [List.head?_cons]
      congr 1
      have h3 := h2.delMany ds
      have := ih h3 (i + 1) (by
        simp only
        have hsorted := h.sorted.sublist h.q0suf.sublist
        have hqi : q = s.live.filter (i + 1 ≤ ·) := by
          have hi0 : nxt ≤ i := by
            have : i ∈ s.live.filter (nxt ≤ ·) := by rw [← hq, hq0]; simp
            simpa using (List.mem_filter.1 this).2
          have e1 : s.live.filter (i + 1 ≤ ·) = s.q0.filter (i + 1 ≤ ·) := by
            rw [hq, List.filter_filter]
            apply List.filter_congr
            intro x _
            simp; omega
          rw [e1, hq0, List.filter_cons]
          rw [hq0] at hsorted
          simp only [Nat.not_succ_le_self, decide_false]
          symm
          simp only [Bool.false_eq_true, if_false]
          rw [List.filter_eq_self]
          intro x hx
          have := (List.pairwise_cons.1 hsorted).1 x hx
          simp; omega
        rw [hqi, List.filter_filter, List.filter_filter]
        apply List.filter_congr; intro x _; rw [Bool.and_comm])
      exact this

/-! ### pointer chains -/

theorem chase_next {l : LList α} {s : Slots α} (h : Rep l s) :
    ∀ (q : List Nat), q <:+ s.live → ∀ fuel, q.length < fuel →
      chase Node.next l.links fuel q.head? = q := by
  intro q
  induction q with
  | nil => intro _ fuel hf; cases fuel with
    | zero => rfl
    | succ n => rfl
  | cons i q ih =>
    intro hs fuel hf
    obtain ⟨p, hp⟩ := h.suffix_node hs
    cases fuel with
    | zero => simp at hf
    | succ n =>
      simp only [List.head?_cons, chase, hp]
      rw [ih (suffix_tail hs) n (by simpa using hf)]

theorem chase_prev {l : LList α} {s : Slots α} (h : Rep l s) :
    ∀ (q : List Nat) (b : List Nat), s.live = q.reverse ++ b → ∀ fuel, q.length < fuel →
      chase Node.prev l.links fuel q.head? = q := by
  intro q
  induction q with
  | nil => intro _ _ fuel hf; cases fuel with
    | zero => rfl
    | succ n => rfl
  | cons i q ih =>
    intro b hs fuel hf
    have hnode := h.chain q.reverse i b (by rw [hs]; simp)
    cases fuel with
    | zero => simp at hf
    | succ n =>
      simp only [List.head?_cons, chase, hnode]
      rw [List.getLast?_reverse, ih (i :: b) (by rw [hs]; simp) n (by simpa using hf)]

/-! ### facts about the specifications -/

/-- facts about `sweepSpec`, by induction over the batches -/
theorem sweepSpec_facts (batches : List (List Nat)) (live : List Nat) (nxt : Nat)
    (hs : live.Pairwise (· < ·)) :
    -- increasing
    ((sweepSpec batches live nxt).filterMap (fun r => match r with | .ok (some i) => some i | _ => none)).Pairwise (· < ·) ∧
    (∀ i, .ok (some i) ∈ sweepSpec batches live nxt → nxt ≤ i) ∧
    -- live at that moment
    (∀ k i, (sweepSpec batches live nxt)[k]? = some (.ok (some i)) →
      i ∈ live ∧ ∀ b ∈ batches.take k, i ∉ b) ∧
    -- complete
    (.ok none ∈ sweepSpec batches live nxt → ∀ i ∈ live, nxt ≤ i → (∀ b ∈ batches, i ∉ b) →
      .ok (some i) ∈ sweepSpec batches live nxt) := by
  induction batches generalizing live nxt with
  | nil => simp [sweepSpec]
  | cons ds rest ih =>
    simp only [sweepSpec]
    cases hf : live.find? (nxt ≤ ·) with
    | none =>
      simp only
      obtain ⟨h1, h2, h3, h4⟩ := ih (live.filter (· ∉ ds)) nxt (hs.filter _)
      refine ⟨by simpa using h1, by simpa using h2, ?_, ?_⟩
      · intro k i hk
        cases k with
        | zero => simp at hk
        | succ k =>
          simp only [List.getElem?_cons_succ] at hk
          have := h3 k i hk
          simp only [List.mem_filter, decide_eq_true_eq] at this
          refine ⟨this.1.1, ?_⟩
          intro b hb
          simp at hb
          rcases hb with rfl | hb
          · exact this.1.2
          · exact this.2 b hb
      · intro _ i hi hni
        rw [List.find?_eq_none] at hf
        have := hf i hi
        simp at this
        omega
    | some j =>
      simp only
      obtain ⟨h1, h2, h3, h4⟩ := ih (live.filter (· ∉ ds)) (j + 1) (hs.filter _)
      have hj : nxt ≤ j := by simpa using List.find?_some hf
      have hjl : j ∈ live := List.mem_of_find?_eq_some hf
      refine ⟨?_, ?_, ?_, ?_⟩
      · simp only [List.filterMap_cons, List.pairwise_cons]
        refine ⟨?_, h1⟩
        intro a ha
        rw [List.mem_filterMap] at ha
        obtain ⟨r, hr, hra⟩ := ha
        cases r with
        | ok o =>
          cases o with
          | none => simp at hra
          | some i =>
            simp at hra
            subst hra
            have := h2 _ hr
            omega
        | err e => simp at hra
        | panic => simp at hra
      · intro i hi
        simp only [List.mem_cons, Res.ok.injEq, Option.some.injEq] at hi
        rcases hi with rfl | hi
        · exact hj
        · have := h2 i hi; omega
      · intro k i hk
        cases k with
        | zero => simp at hk; subst hk; exact ⟨hjl, by simp⟩
        | succ k =>
          simp only [List.getElem?_cons_succ] at hk
          have := h3 k i hk
          simp only [List.mem_filter, decide_eq_true_eq] at this
          refine ⟨this.1.1, ?_⟩
          intro b hb
          simp at hb
          rcases hb with rfl | hb
          · exact this.1.2
          · exact this.2 b hb
      · intro hn i hi hni hb
        simp only [List.mem_cons, Res.ok.injEq, reduceCtorEq, false_or] at hn
        by_cases hij : i = j
        · subst hij; simp
        · have hle : j + 1 ≤ i := by
            obtain ⟨hj2, l1, l2, hl, hl1⟩ := List.find?_eq_some_iff_append.1 hf
            rw [hl] at hi hs
            simp at hi
            rcases hi with hi | hi | hi
            · have := hl1 i hi; simp at this; omega
            · exact absurd hi hij
            · exact (List.pairwise_cons.1 (List.pairwise_append.1 hs).2.1).1 i hi
          exact List.mem_cons_of_mem _ (h4 hn i (by simp [hi]; exact hb ds (by simp)) hle
            (fun b hb' => hb b (by simp [hb'])))


theorem mem_pairsOf {t : List Nat} (hs : t.Pairwise (· < ·)) (i j : Nat) :
    (i, j) ∈ pairsOf t ↔ i ∈ t ∧ j ∈ t ∧ i < j := by
  induction t with
  | nil => simp [pairsOf]
  | cons a t ih =>
    rw [List.pairwise_cons] at hs
    simp only [pairsOf, List.mem_append, List.mem_map, Prod.mk.injEq, List.mem_cons]
    rw [ih hs.2]
    constructor
    · rintro (⟨b, hb, rfl, rfl⟩ | ⟨h1, h2, h3⟩)
      · exact ⟨Or.inl rfl, Or.inr hb, hs.1 b hb⟩
      · exact ⟨Or.inr h1, Or.inr h2, h3⟩
    · rintro ⟨h1, h2, h3⟩
      rcases h1 with rfl | h1
      · rcases h2 with rfl | h2
        · omega
        · exact Or.inl ⟨j, h2, rfl, rfl⟩
      · rcases h2 with rfl | h2
        · have := hs.1 i h1; omega
        · exact Or.inr ⟨h1, h2, h3⟩

theorem nodup_pairsOf {t : List Nat} (hs : t.Pairwise (· < ·)) : (pairsOf t).Nodup := by
  induction t with
  | nil => simp [pairsOf]
  | cons a t ih =>
    rw [List.pairwise_cons] at hs
    rw [pairsOf, List.nodup_append]
    refine ⟨?_, ih hs.2, ?_⟩
    · have hnd : t.Nodup := hs.2.imp (fun h => Nat.ne_of_lt h)
      exact List.Nodup.map (f := fun j => (a, j)) (fun x y h => by simpa using h) hnd
    · rintro ⟨x, y⟩ hx ⟨x', y'⟩ hx' h
      simp only [List.mem_map, Prod.mk.injEq] at hx
      obtain ⟨b, hb, rfl, rfl⟩ := hx
      rw [← h, mem_pairsOf hs.2] at hx'
      have := hs.1 _ hx'.1
      omega

theorem length_pairsOf (t : List Nat) : 2 * (pairsOf t).length = t.length * (t.length - 1) := by
  induction t with
  | nil => simp [pairsOf]
  | cons a t ih =>
    simp only [pairsOf, List.length_append, List.length_map, List.length_cons]
    rw [Nat.mul_add, ih]
    cases t with
    | nil => simp
    | cons b t => simp; ring_nf

theorem mergeSpec_facts (ds : List Bool) (ps : List (Nat × Nat)) (hn : ps.Nodup) :
    (mergeSpec ds ps).1.Sublist ps ∧
    (∀ k p, (mergeSpec ds ps).1[k]? = some p →
      ∀ d ∈ mergedAway (ds.take k) ((mergeSpec ds ps).1.take k), p.1 ≠ d ∧ p.2 ≠ d) ∧
    ((mergeSpec ds ps).2 = true → ∀ p ∈ ps,
      (∀ d ∈ mergedAway ds (mergeSpec ds ps).1, p.1 ≠ d ∧ p.2 ≠ d) →
      p ∈ (mergeSpec ds ps).1) ∧
    (ps.length < ds.length → (mergeSpec ds ps).2 = true) := by
  induction ds generalizing ps with
  | nil => simp [mergeSpec]
  | cons d ds ih =>
    cases ps with
    | nil => simp [mergeSpec]
    | cons p ps =>
      simp only [mergeSpec]
      have hn' : (if d then ps.filter (fun q => q.1 ≠ p.2 ∧ q.2 ≠ p.2) else ps).Nodup := by
        have := (List.nodup_cons.1 hn).2
        split
        · exact this.filter _
        · exact this
      have hsub : (if d then ps.filter (fun q => q.1 ≠ p.2 ∧ q.2 ≠ p.2) else ps).Sublist ps := by
        split
        · exact List.filter_sublist
        · exact List.Sublist.refl _
      obtain ⟨h1, h2, h3, h4⟩ := ih _ hn'
      refine ⟨(h1.trans hsub).cons_cons p, ?_, ?_, ?_⟩
      · intro k q hk e he
        cases k with
        | zero => simp [mergedAway] at he
        | succ k =>
          simp only [List.getElem?_cons_succ] at hk
          simp only [List.take_succ_cons, mergedAway, List.zip_cons_cons,
            List.filterMap_cons] at he
          have hq := h2 k q hk
          have hmem : q ∈ (if d then ps.filter (fun q => q.1 ≠ p.2 ∧ q.2 ≠ p.2) else ps) :=
            h1.subset (List.mem_of_getElem? hk)
          cases d with
          | false => simp at he; exact hq e (by simpa [mergedAway] using he)
          | true =>
            simp only [if_true, List.mem_cons] at he hmem
            rcases he with rfl | he
            · simpa using (List.mem_filter.1 hmem).2
            · exact hq e (by simpa [mergedAway] using he)
      · intro hend q hq hall
        simp only [List.mem_cons] at hq ⊢
        rcases hq with rfl | hq
        · exact Or.inl rfl
        · refine Or.inr (h3 hend q ?_ ?_)
          · cases d with
            | false => simpa using hq
            | true =>
              simp only [if_true, List.mem_filter]
              refine ⟨hq, ?_⟩
              have := hall p.2 (by simp [mergedAway])
              simpa using this
          · intro e he
            apply hall e
            simp only [mergedAway, List.zip_cons_cons, List.filterMap_cons] at he ⊢
            split
            · exact he
            · exact List.mem_cons_of_mem _ he
      · intro hlen
        apply h4
        have := hsub.length_le
        simp at hlen
        omega

/-! ### interleavings -/

/-- what a `next`-like call returns is the head of the queue -/
theorem step_item {l : LList α} {s : Slots α} (h : Rep l s) (op : Op α)
    (hop : op = .next ∨ ∃ f, op = .nextMut f) :
    (s.q0 = [] ∧ (l.step op).2 = .item (.ok none) ∧ (s.step op).1 = s) ∨
    (∃ i q x, s.q0 = i :: q ∧ (l.step op).2 = .item (.ok (some (i, x))) ∧
      (s.step op).1.q0 = q ∧ (s.step op).1.live = s.live) := by
  rw [(h.step op).2]
  cases hq : s.q0 with
  | nil =>
    left
    rcases hop with rfl | ⟨f, rfl⟩ <;> simp [Slots.step, hq]
  | cons i q =>
    right
    obtain ⟨x, hx⟩ := h.suffix_content (hq ▸ h.q0suf)
    rw [h.contents_eq] at hx
    refine ⟨i, q, x, rfl, ?_⟩
    rcases hop with rfl | ⟨f, rfl⟩ <;> simp [Slots.step, hq, hx]

theorem slot_of_step {l : LList α} {s : Slots α} (h : Rep l s) (op : Op α) {k : Nat}
    (hk : (l.step op).2.slot? = some k) : s.q0.head? = some k := by
  cases op with
  | next =>
    rcases step_item h .next (Or.inl rfl) with ⟨_, ho, _⟩ | ⟨a, q, x, hq, ho, _⟩
    · rw [ho] at hk; simp [Out.slot?] at hk
    · rw [ho] at hk; simp [Out.slot?] at hk; subst hk; rw [hq]; rfl
  | nextMut f =>
    rcases step_item h (.nextMut f) (Or.inr ⟨f, rfl⟩) with ⟨_, ho, _⟩ | ⟨a, q, x, hq, ho, _⟩
    · rw [ho] at hk; simp [Out.slot?] at hk
    · rw [ho] at hk; simp [Out.slot?] at hk; subst hk; rw [hq]; rfl
  | push a => simp [LList.step, Out.slot?] at hk
  | del k => simp [LList.step, Out.slot?] at hk
  | connectAll => simp [LList.step, Out.slot?] at hk
  | intoIter => simp [LList.step, Out.slot?] at hk
  | intoDoubleIter => simp [LList.step, Out.slot?] at hk
  | nextPair => simp [LList.step, Out.slot?] at hk

theorem pair_of_step {l : LList α} {s : Slots α} (h : Rep l s) (op : Op α) {p : Nat × Nat}
    (hk : (l.step op).2.pair? = some p) : s.q0.head? = some p.1 ∧ s.q1.head? = some p.2 := by
  cases op with
  | nextPair =>
    rw [(h.step .nextPair).2] at hk
    cases hqa : s.q0 with
    | nil => simp [Slots.step, hqa, Out.pair?] at hk
    | cons a t =>
      cases hqb : s.q1 with
      | nil => simp [Slots.step, hqa, hqb, Out.pair?] at hk
      | cons b u =>
        obtain ⟨x, hx⟩ := h.suffix_content (hqa ▸ h.q0suf)
        obtain ⟨y, hy⟩ := h.suffix_content (hqb ▸ h.q1suf)
        rw [h.contents_eq] at hx hy
        simp [Slots.step, hqa, hqb, hx, hy, Out.pair?] at hk
        subst hk
        simp
  | _ => simp [LList.step, Out.pair?] at hk

theorem visited_of_mem_queue {l : LList α} {s : Slots α} (h : Rep l s) (n : Nat) (hn : n ∈ s.q0)
    (ops : List (Op α)) (hops : ∀ op ∈ ops, op.sweepOp = true) (hd : ∀ op ∈ ops, op ≠ .del n)
    (hend : sweepEnded (l.run ops).2) : n ∈ returnedSlots (l.run ops).2 := by
  induction ops generalizing l s with
  | nil => simp [sweepEnded, LList.run] at hend
  | cons op ops ih =>
    have hstep := h.step op
    have hrest := fun hn' he => ih hstep.1 hn' (fun o ho => hops o (by simp [ho]))
      (fun o ho => hd o (by simp [ho])) he
    simp only [LList.run] at hend ⊢
    have hkeep : (l.step op).2.isEnd = false → n ∈ (s.step op).1.q0 →
        n ∈ returnedSlots ((l.step op).2 :: ((l.step op).1.run ops).2) := by
      intro hne hn'
      have he : sweepEnded ((l.step op).1.run ops).2 := by
        obtain ⟨o, ho, ho2⟩ := hend
        simp only [List.mem_cons] at ho
        rcases ho with rfl | ho
        · rw [hne] at ho2; simp at ho2
        · exact ⟨o, ho, ho2⟩
      have := hrest hn' he
      unfold returnedSlots at this ⊢
      rw [List.filterMap_cons]
      split
      · exact this
      · exact List.mem_cons_of_mem _ this
    have hop := hops op (by simp)
    have hitem : (op = .next ∨ ∃ f, op = .nextMut f) →
        n ∈ returnedSlots ((l.step op).2 :: ((l.step op).1.run ops).2) := by
      intro hx
      rcases step_item h op hx with ⟨hq, _⟩ | ⟨i, q, x, hq, hout, hq', _⟩
      · rw [hq] at hn; simp at hn
      · rw [hq] at hn
        simp only [List.mem_cons] at hn
        rcases hn with rfl | hn
        · rw [hout]; simp [returnedSlots, Out.slot?]
        · apply hkeep
          · rw [hout]; rfl
          · rw [hq']; exact hn
    cases op with
    | push a =>
      apply hkeep
      · rw [hstep.2]; simp [Slots.step, Out.isEnd]
      · have : s.q0 ≠ [] := List.ne_nil_of_mem hn
        simp [Slots.step, Slots.extend, this, hn]
    | del i =>
      have hin : n ≠ i := fun hx => hd (.del i) (by simp) (by rw [hx])
      apply hkeep
      · rw [hstep.2]; simp only [Slots.step]; split <;> rfl
      · simp only [Slots.step]
        split
        · simp [hn, hin]
        · exact hn
    | next => exact hitem (Or.inl rfl)
    | nextMut f => exact hitem (Or.inr ⟨f, rfl⟩)
    | connectAll => simp [Op.sweepOp] at hop
    | intoIter => simp [Op.sweepOp] at hop
    | intoDoubleIter => simp [Op.sweepOp] at hop
    | nextPair => simp [Op.sweepOp] at hop

/-- outputs only show live slots; without `connect_all`, dead slots stay dead -/
theorem dead_stays_dead {l : LList α} {s : Slots α} (h : Rep l s) (i : Nat)
    (hi : i < s.contents.length) (hd : i ∉ s.live) (ops : List (Op α))
    (hops : ∀ op ∈ ops, op ≠ .connectAll) :
    i ∉ returnedSlots (l.run ops).2 ∧
    (∀ p ∈ returnedPairs (l.run ops).2, p.1 ≠ i ∧ p.2 ≠ i) ∧ i ∉ (s.run ops).1.live := by
  induction ops generalizing l s with
  | nil => simp [LList.run, Slots.run, returnedSlots, returnedPairs, hd]
  | cons op ops ih =>
    have hstep := h.step op
    have hlive := slots_liveStep s op
    simp only [Prod.ext_iff] at hlive
    have hi' : i < (s.step op).1.contents.length := by
      have := hlive.1
      cases op <;> simp only [liveStep] at this <;> omega
    have hd' : i ∉ (s.step op).1.live := by
      have h2 := hlive.2
      rw [h2]
      cases op with
      | connectAll => exact absurd rfl (hops .connectAll (by simp))
      | push a => simp only [liveStep]; simp [hd]; omega
      | del k => simp only [liveStep]; simp [hd]
      | _ => simpa only [liveStep] using hd
    obtain ⟨h1, h2, h3⟩ := ih hstep.1 hi' hd' (fun o ho => hops o (by simp [ho]))
    simp only [LList.run, Slots.run]
    refine ⟨?_, ?_, h3⟩
    · unfold returnedSlots at h1 ⊢
      rw [List.filterMap_cons]
      split
      · exact h1
      · rename_i k hk
        simp only [List.mem_cons, not_or]
        refine ⟨?_, h1⟩
        rintro rfl
        exact hd (h.q0suf.subset (List.mem_of_mem_head? (slot_of_step h op hk)))
    · unfold returnedPairs at h2 ⊢
      rw [List.filterMap_cons]
      split
      · exact h2
      · rename_i k hk
        intro p hp
        simp only [List.mem_cons] at hp
        rcases hp with rfl | hp
        · have := pair_of_step h op hk
          constructor
          · rintro rfl; exact hd (h.q0suf.subset (List.mem_of_mem_head? this.1))
          · rintro rfl; exact hd (h.q1suf.subset (List.mem_of_mem_head? this.2))
        · exact h2 p hp

/-- first cursor not after the second -/
theorem pairOp_le {l : LList α} {s : Slots α} (h : Rep l s)
    (hle : ∀ i j, s.q0.head? = some i → s.q1.head? = some j → i ≤ j)
    (op : Op α) (hop : op.pairOp = true) :
    ∀ i j, (s.step op).1.q0.head? = some i → (s.step op).1.q1.head? = some j → i ≤ j := by
  intro i j hi hj
  have hs0 := h.sorted.sublist h.q0suf.sublist
  have hs1 := h.sorted.sublist h.q1suf.sublist
  cases op with
  | del k =>
    simp only [Slots.step] at hi hj
    split at hi
    · rename_i hk
      simp only [hk, if_true] at hj
      have hj' : j ∈ s.q1.filter (· ≠ k) := List.mem_of_mem_head? hj
      have hjk : j ≠ k := by simpa using (List.mem_filter.1 hj').2
      have hjq1 : j ∈ s.q1 := List.mem_of_mem_filter hj'
      have hjq0 : j ∈ s.q0 := by
        cases hq0 : s.q0 with
        | nil => rw [hq0] at hi; simp at hi
        | cons a t =>
          cases hq1 : s.q1 with
          | nil => rw [hq1] at hjq1; simp at hjq1
          | cons b u =>
            have hab := hle a b (by rw [hq0]; rfl) (by rw [hq1]; rfl)
            rcases List.suffix_or_suffix_of_suffix h.q1suf h.q0suf with hsuf | hsuf
            · rw [← hq0]; exact hsuf.subset hjq1
            · rw [hq0, hq1] at hsuf
              rw [hq1] at hs1 hjq1
              rcases List.suffix_cons_iff.1 hsuf with heq | hsuf
              · rw [heq]; exact hjq1
              · have : a ∈ u := hsuf.subset (by simp)
                have := (List.pairwise_cons.1 hs1).1 a this
                omega
      have hjf : j ∈ s.q0.filter (· ≠ k) := by simp [hjq0, hjk]
      have hsf := hs0.filter (fun x => decide (x ≠ k))
      cases hq : s.q0.filter (fun x => decide (x ≠ k)) with
      | nil => rw [hq] at hjf; simp at hjf
      | cons a t =>
        rw [hq] at hi hjf hsf
        simp at hi
        subst hi
        simp only [List.mem_cons] at hjf
        rcases hjf with rfl | hjf
        · exact Nat.le_refl _
        · exact Nat.le_of_lt ((List.pairwise_cons.1 hsf).1 j hjf)
    · rename_i hk
      simp only [hk, if_false] at hj
      exact hle i j hi hj
  | nextPair =>
    cases hqa : s.q0 with
    | nil => simp [Slots.step, hqa] at hi
    | cons a t =>
      cases hqb : s.q1 with
      | nil => simp [Slots.step, hqa, hqb] at hj
      | cons b u =>
        simp only [Slots.step, hqa, hqb] at hi hj
        by_cases hu : u = []
        · simp only [hu, if_true] at hi hj
          rw [hqa] at hs0
          cases t with
          | nil => simp at hi
          | cons c t =>
            simp only [List.head?_cons, Option.some.injEq, List.tail_cons] at hi hj
            subst hi
            have hjt : j ∈ t := List.mem_of_mem_head? hj
            exact Nat.le_of_lt ((List.pairwise_cons.1 (List.pairwise_cons.1 hs0).2).1 j hjt)
        · simp only [if_neg hu] at hi hj
          have hab := hle a b (by rw [hqa]; rfl) (by rw [hqb]; rfl)
          simp at hi
          subst hi
          have hju : j ∈ u := List.mem_of_mem_head? hj
          rw [hqb] at hs1
          have := (List.pairwise_cons.1 hs1).1 j hju
          omega
  | _ => simp [Op.pairOp] at hop

/-- pairs handed out under arbitrary deletions: both members live at that moment, first not after
second -/
theorem pairs_live {l : LList α} {s : Slots α} (h : Rep l s)
    (hle : ∀ i j, s.q0.head? = some i → s.q1.head? = some j → i ≤ j)
    (ops : List (Op α)) (hops : ∀ op ∈ ops, op.pairOp = true) (k : Nat) (p : Nat × Nat)
    (hp : (l.run ops).2[k]?.bind Out.pair? = some p) :
    p.1 ∈ (s.run (ops.take k)).1.live ∧ p.2 ∈ (s.run (ops.take k)).1.live ∧ p.1 ≤ p.2 := by
  induction ops generalizing l s k with
  | nil => simp [LList.run] at hp
  | cons op ops ih =>
    have hstep := h.step op
    have hop := hops op (by simp)
    simp only [LList.run] at hp
    cases k with
    | zero =>
      simp only [List.getElem?_cons_zero, Option.bind_some] at hp
      have := pair_of_step h op hp
      exact ⟨h.q0suf.subset (List.mem_of_mem_head? this.1),
        h.q1suf.subset (List.mem_of_mem_head? this.2), hle _ _ this.1 this.2⟩
    | succ k =>
      simp only [List.getElem?_cons_succ] at hp
      have := ih hstep.1 (pairOp_le h hle op hop) (fun o ho => hops o (by simp [ho])) k hp
      simpa only [List.take_succ_cons, Slots.run] using this

end LList
end Moledyn
