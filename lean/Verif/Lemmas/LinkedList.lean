import Verif.Spec.SlotMachine
import Mathlib.Data.List.Basic
import Mathlib.Tactic.ByContra
/-
Refinement of the abstract slot machine by the linked list: helper lemmas.
-/
namespace Moledyn
namespace LList
variable {α : Type}

/-- Representation relation between the concrete list and the abstract slots. -/
structure Rep (l : LList α) (s : Slots α) : Prop where
  contents_eq : l.contents = s.contents
  len : l.links.length = l.contents.length
  sorted : s.live.Pairwise (· < ·)
  bound : ∀ i ∈ s.live, i < l.links.length
  head : l.head = s.live.head?
  tail : l.tail = s.live.getLast?
  chain : ∀ a i b, s.live = a ++ i :: b →
    l.links[i]? = some { next := b.head?, prev := a.getLast?, alive := true }
  dead : ∀ (i : Nat) (nd : Node), l.links[i]? = some nd → nd.alive = true → i ∈ s.live
  q0suf : s.q0 <:+ s.live
  q1suf : s.q1 <:+ s.live
  c0 : l.c0 = s.q0.head?
  c1 : l.c1 = s.q1.head?
  c2 : l.c2 = none

theorem rep_new : Rep (new : LList α) Slots.empty := by
  constructor <;> simp [new, Slots.empty]

theorem listWithLength_getElem? (n i : Nat) :
    (Node.listWithLength n)[i]? = if i < n then some (connNode n i) else none := by
  unfold Node.listWithLength connNode
  simp only [List.getElem?_map]
  by_cases h : i < n
  · simp [h]
  · simp [h]

theorem range_split {n : Nat} {a b : List Nat} {i : Nat} (h : List.range n = a ++ i :: b) :
    a = List.range i ∧ b = List.range' (i+1) (n - i - 1) ∧ i < n := by
  have hlen := congrArg List.length h
  simp at hlen
  have ha : a = List.range a.length := by
    have := congrArg (List.take a.length) h
    rw [List.take_range, List.take_left', show min a.length n = a.length by omega] at this
    · exact this.symm
    · rfl
  have hi : i = a.length := by
    have := congrArg (fun l => l[a.length]?) h
    simp at this
    rw [List.getElem?_range (by omega)] at this
    simpa using this.symm
  refine ⟨by rw [hi]; exact ha, ?_, by omega⟩
  have := congrArg (List.drop (a.length+1)) h
  have h2 : List.drop (a.length + 1) (a ++ i :: b) = b := by simp [List.drop_append]
  rw [h2] at this
  rw [← this, List.range_eq_range', List.drop_range', hi]
  congr 1; omega

theorem connNode_eq {n : Nat} {a b : List Nat} {i : Nat} (h : List.range n = a ++ i :: b) :
    connNode n i = { next := b.head?, prev := a.getLast?, alive := true } := by
  obtain ⟨rfl, rfl, hi⟩ := range_split h
  unfold connNode
  congr 1
  · split
    · rw [show n - i - 1 = (n - i - 2) + 1 by omega, List.range'_succ]; simp
    · rw [show n - i - 1 = 0 by omega]; simp
  · split
    · obtain ⟨k, rfl⟩ : ∃ k, i = k + 1 := ⟨i - 1, by omega⟩
      simp [List.range_succ]
    · obtain rfl : i = 0 := by omega
      simp

theorem range_head? (n : Nat) : (List.range n).head? = if n = 0 then none else some 0 := by
  cases n <;> simp [List.range_succ_eq_map]

theorem range_getLast? (n : Nat) :
    (List.range n).getLast? = if n = 0 then none else some (n - 1) := by
  cases n <;> simp [List.range_succ]

theorem rep_from (v : List α) : Rep (from' v) (Slots.ofContents v) := by
  constructor <;> simp only [from', Slots.ofContents]
  · simp [Node.listWithLength]
  · exact List.pairwise_lt_range
  · simp [Node.listWithLength]
  · exact (range_head? _).symm
  · exact (range_getLast? _).symm
  · intro a i b h
    rw [listWithLength_getElem?, if_pos (range_split h).2.2, connNode_eq h]
  · intro i nd h _
    rw [listWithLength_getElem?] at h
    split at h
    · simpa
    · simp at h
  · simp
  · simp
  · simp
  · simp

/-! ### cursor arithmetic -/

theorem Rep.nodup {l : LList α} {s : Slots α} (h : Rep l s) : s.live.Nodup :=
  h.sorted.imp (fun hab => Nat.ne_of_lt hab)

theorem Rep.alive_iff {l : LList α} {s : Slots α} (h : Rep l s) (i : Nat) :
    i ∈ s.live ↔ ∃ nd, l.links[i]? = some nd ∧ nd.alive = true := by
  constructor
  · intro hi
    obtain ⟨a, b, hab⟩ := List.append_of_mem hi
    exact ⟨_, h.chain a i b hab, rfl⟩
  · rintro ⟨nd, h1, h2⟩
    exact h.dead i nd h1 h2

/-- node at the head of a suffix of the live list -/
theorem Rep.suffix_node {l : LList α} {s : Slots α} (h : Rep l s) {i : Nat} {q : List Nat}
    (hs : (i :: q) <:+ s.live) : ∃ p, l.links[i]? = some { next := q.head?, prev := p, alive := true } := by
  obtain ⟨a, ha⟩ := hs
  exact ⟨_, h.chain a i q ha.symm⟩

theorem Rep.suffix_content {l : LList α} {s : Slots α} (h : Rep l s) {i : Nat} {q : List Nat}
    (hs : (i :: q) <:+ s.live) : ∃ x, l.contents[i]? = some x := by
  have : i < l.links.length := h.bound i (hs.subset (by simp))
  rw [h.len] at this
  exact ⟨l.contents[i], by simp [this]⟩

theorem suffix_tail {i : Nat} {q live : List Nat} (hs : (i :: q) <:+ live) : q <:+ live :=
  (List.suffix_cons i q).trans hs

/-- Steps that only move cursors. -/
theorem Rep.cursors {l : LList α} {s : Slots α} (h : Rep l s) (q0 q1 : List Nat)
    (h0 : q0 <:+ s.live) (h1 : q1 <:+ s.live) :
    Rep { l with c0 := q0.head?, c1 := q1.head? } { s with q0 := q0, q1 := q1 } :=
  { contents_eq := h.contents_eq, len := h.len, sorted := h.sorted, bound := h.bound,
    head := h.head, tail := h.tail, chain := h.chain, dead := h.dead, q0suf := h0, q1suf := h1,
    c0 := rfl, c1 := rfl, c2 := h.c2 }

theorem Rep.intoIter {l : LList α} {s : Slots α} (h : Rep l s) :
    Rep l.intoIter { s with q0 := s.live } := by
  have := h.cursors s.live s.q1 (List.suffix_refl _) h.q1suf
  rw [← h.c1, ← h.head] at this
  exact this

theorem Rep.intoDoubleIter {l : LList α} {s : Slots α} (h : Rep l s) :
    Rep l.intoDoubleIter.1 { s with q0 := s.live, q1 := s.live.tail } ∧
      l.intoDoubleIter.2 = .ok () := by
  have := h.cursors s.live s.live.tail (List.suffix_refl _) (List.tail_suffix _)
  rw [← h.head] at this
  unfold LList.intoDoubleIter
  cases hl : s.live with
  | nil =>
    have hh : l.head = none := by rw [h.head, hl]; rfl
    rw [hl] at this
    simp only [hh] at this ⊢
    exact ⟨this, trivial⟩
  | cons i q =>
    have hh : l.head = some i := by rw [h.head, hl]; rfl
    obtain ⟨p, hp⟩ := h.suffix_node (i := i) (q := q) (by rw [hl]; exact List.suffix_refl _)
    rw [hl] at this
    simp only [hh, hp] at this ⊢
    exact ⟨this, trivial⟩

theorem Rep.enumerate {l : LList α} {s : Slots α} (h : Rep l s) :
    Rep (l.step .next).1 (s.step .next).1 ∧ (l.step .next).2 = (s.step .next).2 := by
  simp only [LList.step, Slots.step, LList.enumerate]
  cases hq : s.q0 with
  | nil =>
    have hc : l.c0 = none := by rw [h.c0, hq]; rfl
    simp only [hc]
    exact ⟨h, trivial⟩
  | cons i q =>
    have hsuf : (i :: q) <:+ s.live := hq ▸ h.q0suf
    have hc : l.c0 = some i := by rw [h.c0, hq]; rfl
    obtain ⟨p, hp⟩ := h.suffix_node hsuf
    obtain ⟨x, hx⟩ := h.suffix_content hsuf
    have := h.cursors q s.q1 (suffix_tail hsuf) h.q1suf
    rw [← h.c1] at this
    simp only [hc, hp, hx]
    rw [h.contents_eq] at hx
    simp only [hx]
    exact ⟨this, rfl⟩

theorem Rep.enumerateMut {l : LList α} {s : Slots α} (h : Rep l s) (f : α → α) :
    Rep (l.step (.nextMut f)).1 (s.step (.nextMut f)).1 ∧
      (l.step (.nextMut f)).2 = (s.step (.nextMut f)).2 := by
  simp only [LList.step, Slots.step, LList.enumerateMut]
  cases hq : s.q0 with
  | nil =>
    have hc : l.c0 = none := by rw [h.c0, hq]; rfl
    simp only [hc]
    exact ⟨h, trivial⟩
  | cons i q =>
    have hsuf : (i :: q) <:+ s.live := hq ▸ h.q0suf
    have hc : l.c0 = some i := by rw [h.c0, hq]; rfl
    obtain ⟨p, hp⟩ := h.suffix_node hsuf
    obtain ⟨x, hx⟩ := h.suffix_content hsuf
    simp only [hc, hp, hx]
    have hx' := hx
    rw [h.contents_eq] at hx'
    simp only [hx']
    refine ⟨?_, rfl⟩
    exact { contents_eq := by
              simp only [h.contents_eq]
              apply List.ext_getElem?
              intro k
              rw [List.getElem?_set, List.getElem?_modify]
              by_cases hik : i = k
              · subst hik
                have hlt : i < s.contents.length := (List.getElem?_eq_some_iff.1 hx').1
                rw [List.getElem?_eq_getElem hlt] at hx'
                simp only [Option.some.injEq] at hx'
                simp [hx', hlt]
              · simp [hik]
            len := by simp [h.len]
            sorted := h.sorted, bound := h.bound, head := h.head, tail := h.tail,
            chain := h.chain, dead := h.dead, q0suf := suffix_tail hsuf, q1suf := h.q1suf,
            c0 := rfl, c1 := h.c1, c2 := h.c2 }

theorem suffix_getLast? {q live : List Nat} (hs : q <:+ live) (hne : q ≠ []) :
    live.getLast? = q.getLast? := by
  obtain ⟨a, rfl⟩ := hs
  rw [List.getLast?_append]
  cases h : q.getLast? with
  | none => simp at h; exact absurd h hne
  | some x => simp

theorem Rep.enumerateDouble {l : LList α} {s : Slots α} (h : Rep l s) :
    Rep (l.step .nextPair).1 (s.step .nextPair).1 ∧
      (l.step .nextPair).2 = (s.step .nextPair).2 := by
  simp only [LList.step, Slots.step, LList.enumerateDouble, LList.indiciesDouble]
  cases hq : s.q0 with
  | nil =>
    have hc : l.c0 = none := by rw [h.c0, hq]; rfl
    simp only [hc]
    exact ⟨h, trivial⟩
  | cons i t =>
    have hc : l.c0 = some i := by rw [h.c0, hq]; rfl
    cases hq1 : s.q1 with
    | nil =>
      have hc1 : l.c1 = none := by rw [h.c1, hq1]; rfl
      simp only [hc, hc1]
      exact ⟨h, trivial⟩
    | cons j u =>
      have hc1 : l.c1 = some j := by rw [h.c1, hq1]; rfl
      have hs0 : (i :: t) <:+ s.live := hq ▸ h.q0suf
      have hs1 : (j :: u) <:+ s.live := hq1 ▸ h.q1suf
      obtain ⟨p, hp⟩ := h.suffix_node hs0
      obtain ⟨x, hx⟩ := h.suffix_content hs0
      obtain ⟨p1, hp1⟩ := h.suffix_node hs1
      obtain ⟨y, hy⟩ := h.suffix_content hs1
      have htail : l.tail = some ((j :: u).getLast (by simp)) := by
        rw [h.tail, suffix_getLast? hs1 (by simp)]
        rw [List.getLast?_eq_some_getLast]
      have hx' : s.contents[i]? = some x := h.contents_eq ▸ hx
      have hy' : s.contents[j]? = some y := h.contents_eq ▸ hy
      by_cases hu : u = []
      · subst hu
        simp only [List.getLast_singleton] at htail
        cases t with
        | nil =>
          have := h.cursors [] [] (List.nil_suffix) (List.nil_suffix)
          rw [htail] at this
          simp only [hc, hc1, htail, hp, hx, hy, hx', hy', List.head?_nil, if_true]
          exact ⟨this, rfl⟩
        | cons k t =>
          obtain ⟨p2, hp2⟩ := h.suffix_node (suffix_tail hs0)
          have := h.cursors (k :: t) t (suffix_tail hs0) (suffix_tail (suffix_tail hs0))
          rw [htail] at this
          simp only [hc, hc1, htail, hp, hp2, hx, hy, hx', hy', List.head?_cons, if_true]
          exact ⟨this, rfl⟩
      · have hne : j ≠ (j :: u).getLast (by simp) := by
          obtain ⟨a, ha⟩ := hs1
          have hnd := h.nodup
          rw [← ha] at hnd
          have hnd2 := (List.nodup_append.1 hnd).2.1
          rw [List.getLast_cons hu]
          intro hj
          have := (List.nodup_cons.1 hnd2).1
          exact this (hj ▸ List.getLast_mem hu)
        have := h.cursors (i :: t) u hs0 (suffix_tail hs1)
        simp only [hc, hc1, htail, hp1, hx, hy, hx', hy', if_neg hne, if_neg hu]
        rw [htail, List.head?_cons] at this
        exact ⟨this, rfl⟩

/-! ### push -/

theorem Rep.push {l : LList α} {s : Slots α} (h : Rep l s) (x : α) :
    Rep (l.step (.push x)).1 (s.step (.push x)).1 ∧
      (l.step (.push x)).2 = (s.step (.push x)).2 := by
  have hn : s.contents.length = l.links.length := by rw [← h.contents_eq, h.len]
  have hsorted : (s.live ++ [l.links.length]).Pairwise (· < ·) := by
    rw [List.pairwise_append]
    exact ⟨h.sorted, by simp, fun a ha b hb => by simp at hb; subst hb; exact h.bound a ha⟩
  have hsufx : ∀ q, q <:+ s.live → Slots.extend q l.links.length <:+ s.live ++ [l.links.length] := by
    intro q hq
    unfold Slots.extend
    split
    · exact List.nil_suffix
    · obtain ⟨a, ha⟩ := hq
      exact ⟨a, by rw [← List.append_assoc, ha]⟩
  have hhead : ∀ q : List Nat, (Slots.extend q l.links.length).head? = q.head? := by
    intro q; unfold Slots.extend; cases q <;> simp
  simp only [LList.step, Slots.step, LList.push]
  cases hl : s.live.getLast? with
  | none =>
    have hnil : s.live = [] := by simpa using hl
    have ht : l.tail = none := by rw [h.tail, hl]
    simp only [ht, hn]
    refine ⟨?_, trivial⟩
    exact { contents_eq := by simp [h.contents_eq]
            len := by simp [h.len]
            sorted := hsorted
            bound := by simp [hnil]
            head := by simp [hnil]
            tail := by simp
            chain := by
              intro a i b hab
              rw [hnil] at hab
              have hlen := congrArg List.length hab
              simp at hlen
              have ha : a = [] := List.eq_nil_of_length_eq_zero (by omega)
              have hb : b = [] := List.eq_nil_of_length_eq_zero (by omega)
              subst ha hb
              simp at hab
              subst hab
              simp
            dead := by
              intro i nd h1 h2
              rw [List.getElem?_append] at h1
              split at h1
              · have := h.dead i nd h1 h2
                rw [hnil] at this
                simp at this
              · have : i - l.links.length = 0 := by
                  by_contra hc
                  rw [List.getElem?_eq_none (by simp; omega)] at h1
                  simp at h1
                simp [hnil]; omega
            q0suf := hsufx _ h.q0suf
            q1suf := hsufx _ h.q1suf
            c0 := by rw [hhead]; exact h.c0
            c1 := by rw [hhead]; exact h.c1
            c2 := h.c2 }
  | some t =>
    obtain ⟨a0, ha0⟩ : ∃ a0, s.live = a0 ++ [t] := by
      have := List.getLast?_eq_some_iff.1 hl
      exact this
    have htn : l.links[t]? = some { next := none, prev := a0.getLast?, alive := true } := by
      have := h.chain a0 t [] ha0
      simpa using this
    have htlt : t < l.links.length := h.bound t (by rw [ha0]; simp)
    have ht : l.tail = some t := by rw [h.tail, hl]
    simp only [ht, modNode, htn, hn]
    refine ⟨?_, trivial⟩
    exact { contents_eq := by simp [h.contents_eq]
            len := by simp [h.len]
            sorted := hsorted
            bound := by
              intro i hi
              simp at hi ⊢
              rcases hi with hi | hi
              · exact Nat.lt_succ_of_lt (h.bound i hi)
              · omega
            head := by
              rw [h.head, ha0]; cases a0 <;> simp
            tail := by simp
            chain := by
              intro a i b hab
              rcases List.eq_nil_or_concat b with hb | ⟨b', z, hb⟩
              · subst hb
                have h2 := List.append_inj' hab rfl
                obtain ⟨h3, h4⟩ := h2
                simp at h4
                subst h4
                rw [List.getElem?_append_right (by simp)]
                simp [← h3, ha0]
              · subst hb
                rw [show a ++ i :: (b'.concat z) = (a ++ i :: b') ++ [z] by simp] at hab
                obtain ⟨h3, h4⟩ := List.append_inj' hab rfl
                simp at h4
                subst h4
                have hi : i < l.links.length := h.bound i (by rw [h3]; simp)
                have hold := h.chain a i b' h3
                rw [List.getElem?_append_left (by simpa using hi), List.getElem?_set]
                by_cases hti : t = i
                · subst hti
                  have hb' : b' = [] := by
                    by_contra hb'
                    have hlast : s.live.getLast? = b'.getLast? := by
                      exact suffix_getLast? ⟨a ++ [t], by rw [h3]; simp⟩ hb'
                    have hmem : t ∈ b' := by
                      rw [hl] at hlast
                      exact List.mem_of_getLast? hlast.symm
                    have hnd := h.nodup
                    rw [h3] at hnd
                    exact (List.nodup_cons.1 (List.nodup_append.1 hnd).2.1).1 hmem
                  subst hb'
                  have haa : a = a0 := by
                    have := List.append_inj' (ha0.symm.trans h3) rfl
                    exact this.1.symm
                  subst haa
                  simp [htlt]
                · rw [if_neg hti, hold]
                  cases b' with
                  | nil =>
                    exfalso
                    have := List.append_inj' (ha0.symm.trans h3) rfl
                    simp at this
                    exact hti this.2
                  | cons y ys => simp
            dead := by
              intro i nd h1 h2
              rw [List.getElem?_append] at h1
              simp only [List.length_set] at h1
              split at h1
              · rename_i hlt
                rw [List.getElem?_set] at h1
                split at h1
                · rename_i hti
                  subst hti
                  simp [ha0]
                · exact List.mem_append_left _ (h.dead i nd h1 h2)
              · have : i - l.links.length = 0 := by
                  by_contra hc
                  rw [List.getElem?_eq_none (by simp; omega)] at h1
                  simp at h1
                simp; omega
            q0suf := hsufx _ h.q0suf
            q1suf := hsufx _ h.q1suf
            c0 := by rw [hhead]; exact h.c0
            c1 := by rw [hhead]; exact h.c1
            c2 := h.c2 }

/-! ### connect_all -/

theorem suffix_range_filter (n i : Nat) :
    (List.range n).filter (i ≤ ·) = List.range' i (n - i) := by
  by_cases h : i ≤ n
  · have : List.range n = List.range i ++ List.range' i (n - i) := by
      rw [List.range_eq_range', List.range_eq_range']
      have := List.range'_append (s := 0) (m := i) (n := n - i) (step := 1)
      simp at this
      rw [this]; congr 1; omega
    rw [this, List.filter_append]
    have h1 : (List.range i).filter (i ≤ ·) = [] := by
      rw [List.filter_eq_nil_iff]; intro a ha; simp at ha; simp; omega
    have h2 : (List.range' i (n-i)).filter (i ≤ ·) = List.range' i (n-i) := by
      rw [List.filter_eq_self]; intro a ha; rw [List.mem_range'] at ha; simp; omega
    rw [h1, h2]; rfl
  · have h1 : (List.range n).filter (i ≤ ·) = [] := by
      rw [List.filter_eq_nil_iff]; intro a ha; simp at ha; simp; omega
    rw [h1, show n - i = 0 by omega]; rfl

theorem range'_suffix_range (n i : Nat) (h : i ≤ n) : List.range' i (n - i) <:+ List.range n := by
  refine ⟨List.range i, ?_⟩
  rw [List.range_eq_range', List.range_eq_range']
  have := List.range'_append (s := 0) (m := i) (n := n - i) (step := 1)
  simp at this
  rw [this]; congr 1; omega

theorem Rep.connectAll {l : LList α} {s : Slots α} (h : Rep l s) :
    Rep (l.step .connectAll).1 (s.step .connectAll).1 ∧
      (l.step .connectAll).2 = (s.step .connectAll).2 := by
  simp only [LList.step, Slots.step, LList.connectAll]
  have hc : s.contents.length = l.contents.length := by rw [h.contents_eq]
  by_cases hz : l.contents.length = 0
  · have hnil : s.live = [] := by
      by_contra hne
      obtain ⟨i, t, ht⟩ := List.exists_cons_of_ne_nil hne
      have := h.bound i (by rw [ht]; simp)
      rw [h.len] at this; omega
    have hq0 : s.q0 = [] := by have := h.q0suf; rw [hnil] at this; exact List.suffix_nil.1 this
    have hq1 : s.q1 = [] := by have := h.q1suf; rw [hnil] at this; exact List.suffix_nil.1 this
    simp only [hc, hz, hq0, hq1, if_true]
    refine ⟨?_, trivial⟩
    exact { contents_eq := h.contents_eq, len := h.len, sorted := by simp, bound := by simp,
            head := by simp, tail := by simp, chain := by simp,
            dead := by
              intro i nd h1 h2
              have := h.dead i nd h1 h2
              rw [hnil] at this; simp at this
            q0suf := by simp, q1suf := by simp, c0 := by simp [h.c0, hq0],
            c1 := by simp [h.c1, hq1], c2 := h.c2 }
  · have hlen := h.len
    simp only [if_neg hz, hlen, Nat.lt_irrefl, if_false, hc]
    have hdrop : l.links.drop l.contents.length = [] := by
      rw [← hlen]; simp
    have hget : ∀ i, ((List.range l.contents.length).map (connNode l.contents.length))[i]? =
        if i < l.contents.length then some (connNode l.contents.length i) else none := by
      intro i
      by_cases hi : i < l.contents.length <;> simp [hi]
    refine ⟨?_, trivial⟩
    simp only [hdrop, List.append_nil]
    exact { contents_eq := h.contents_eq
            len := by simp
            sorted := List.pairwise_lt_range
            bound := by simp
            head := by rw [range_head?, if_neg hz]
            tail := by rw [range_getLast?, if_neg hz]
            chain := by
              intro a i b hab
              rw [hget, if_pos (range_split hab).2.2, connNode_eq hab]
            dead := by
              intro i nd h1 _
              rw [hget] at h1
              split at h1
              · simpa
              · simp at h1
            q0suf := by
              cases hq : s.q0 with
              | nil => simp
              | cons i q =>
                simp only
                have : i < l.contents.length := by
                  rw [← hlen]; exact h.bound i (h.q0suf.subset (by rw [hq]; simp))
                rw [suffix_range_filter]; exact range'_suffix_range _ _ (by omega)
            q1suf := by
              cases hq : s.q1 with
              | nil => simp
              | cons i q =>
                simp only
                have : i < l.contents.length := by
                  rw [← hlen]; exact h.bound i (h.q1suf.subset (by rw [hq]; simp))
                rw [suffix_range_filter]; exact range'_suffix_range _ _ (by omega)
            c0 := by
              simp only [h.c0]
              cases hq : s.q0 with
              | nil => simp
              | cons i q =>
                simp only
                have : i < l.contents.length := by
                  rw [← hlen]; exact h.bound i (h.q0suf.subset (by rw [hq]; simp))
                rw [suffix_range_filter,
                  show l.contents.length - i = (l.contents.length - i - 1) + 1 by omega,
                  List.range'_succ]; simp
            c1 := by
              simp only [h.c1]
              cases hq : s.q1 with
              | nil => simp
              | cons i q =>
                simp only
                have : i < l.contents.length := by
                  rw [← hlen]; exact h.bound i (h.q1suf.subset (by rw [hq]; simp))
                rw [suffix_range_filter,
                  show l.contents.length - i = (l.contents.length - i - 1) + 1 by omega,
                  List.range'_succ]; simp
            c2 := h.c2 }

/-! ### del -/

theorem filter_ne_split {a b : List Nat} {i : Nat} (h : (a ++ i :: b).Nodup) :
    (a ++ i :: b).filter (· ≠ i) = a ++ b := by
  have h1 := List.nodup_append.1 h
  have hia : i ∉ a := fun hi => h1.2.2 i hi i (by simp) rfl
  have hib : i ∉ b := (List.nodup_cons.1 h1.2.1).1
  rw [List.filter_append, List.filter_cons]
  have ha : a.filter (· ≠ i) = a := by
    rw [List.filter_eq_self]; intro x hx; simp; rintro rfl; exact hia hx
  have hb : b.filter (· ≠ i) = b := by
    rw [List.filter_eq_self]; intro x hx; simp; rintro rfl; exact hib hx
  rw [ha, hb]; simp

theorem suffix_filter {q live : List Nat} (p : Nat → Bool) (h : q <:+ live) :
    q.filter p <:+ live.filter p := by
  obtain ⟨a, rfl⟩ := h
  rw [List.filter_append]; exact ⟨_, rfl⟩

/-- where a cursor goes when slot `i` is deleted -/
theorem cursor_del {q a b : List Nat} {i : Nat} (hnd : (a ++ i :: b).Nodup)
    (hs : q <:+ a ++ i :: b) :
    (if q.head? = some i then b.head? else q.head?) = (q.filter (· ≠ i)).head? := by
  cases q with
  | nil => simp
  | cons k t =>
    by_cases hk : k = i
    · subst hk
      obtain ⟨c, hc⟩ := hs
      have h1 : c = a ∧ t = b := by
        have hnd' := hnd
        have h2 := filter_ne_split hnd
        rw [← hc] at hnd
        have hca : c = a := by
          have e1 : c = (c ++ k :: t).takeWhile (· ≠ k) := by
            rw [List.takeWhile_append_of_pos]
            · simp
            · intro x hx
              simp
              rintro rfl
              exact (List.nodup_append.1 hnd).2.2 x hx x (by simp) rfl
          have e2 : a = (a ++ k :: b).takeWhile (· ≠ k) := by
            rw [List.takeWhile_append_of_pos]
            · simp
            · intro x hx
              simp
              rintro rfl
              exact (List.nodup_append.1 hnd').2.2 x hx x (by simp) rfl
          rw [e1, hc, ← e2]
        subst hca
        simpa using hc
      obtain ⟨rfl, rfl⟩ := h1
      have : t.filter (· ≠ k) = t := by
        rw [List.filter_eq_self]; intro x hx; simp; rintro rfl
        exact (List.nodup_cons.1 (List.nodup_append.1 hnd).2.1).1 hx
      rw [List.filter_cons]
      simp only [List.head?_cons, if_true, ne_eq, not_true_eq_false, decide_false]
      rw [← this]
      simp
    · simp [hk]

theorem Rep.del {l : LList α} {s : Slots α} (h : Rep l s) (i : Nat) :
    Rep (l.step (.del i)).1 (s.step (.del i)).1 ∧
      (l.step (.del i)).2 = (s.step (.del i)).2 := by
  simp only [LList.step, Slots.step]
  by_cases hi : i ∈ s.live
  swap
  · simp only [if_neg hi]
    unfold LList.del
    cases hl : l.links[i]? with
    | none => exact ⟨h, rfl⟩
    | some nd =>
      have : nd.alive = false := by
        by_contra hc
        exact hi (h.dead i nd hl (by simpa using hc))
      simp only [this, if_true]
      exact ⟨h, trivial⟩
  · simp only [if_pos hi]
    obtain ⟨a, b, hab⟩ := List.append_of_mem hi
    have hnode := h.chain a i b hab
    have hnd : (a ++ i :: b).Nodup := hab ▸ h.nodup
    have hlive : s.live.filter (· ≠ i) = a ++ b := by rw [hab, filter_ne_split hnd]
    have hbound := h.bound
    rw [hab] at hbound
    have hia : i < l.links.length := hbound i (by simp)
    -- distinctness facts
    have hna := (List.nodup_append.1 hnd)
    have hda : ∀ x ∈ a, x ≠ i := fun x hx hxi => hna.2.2 x hx i (by simp) hxi
    have hdb : ∀ x ∈ b, x ≠ i := by
      intro x hx hxi; subst hxi; exact (List.nodup_cons.1 hna.2.1).1 hx
    have hdab : ∀ x ∈ a, ∀ y ∈ b, x ≠ y := fun x hx y hy => hna.2.2 x hx y (by simp [hy])
    -- the final node table
    have key : ∃ links', (l.del i) = ({ l with
          links := links'
          head := (a ++ b).head?
          tail := (a ++ b).getLast?
          c0 := (s.q0.filter (· ≠ i)).head?
          c1 := (s.q1.filter (· ≠ i)).head? }, .ok ()) ∧ links'.length = l.links.length ∧
        ∀ k, links'[k]? =
          if k = i then some { next := b.head?, prev := a.getLast?, alive := false }
          else (l.links[k]?).map fun nd =>
            { nd with
              next := if a.getLast? = some k then b.head? else nd.next
              prev := if b.head? = some k then a.getLast? else nd.prev } := by
      have hc0 := cursor_del hnd (hab ▸ h.q0suf)
      have hc1 := cursor_del hnd (hab ▸ h.q1suf)
      rw [← h.c0] at hc0
      rw [← h.c1] at hc1
      unfold LList.del
      simp only [hnode, Bool.true_eq_false, if_false]
      rcases List.eq_nil_or_concat a with ha | ⟨a0, p, ha⟩
      · subst ha
        cases b with
        | nil =>
          simp only [List.getLast?_nil, List.head?_nil] at hc0 hc1 ⊢
          refine ⟨l.links.set i { next := none, prev := none, alive := false }, ?_, by simp, ?_⟩
          · rw [hc0, hc1, h.c2]; simp
          · intro k
            rw [List.getElem?_set]
            by_cases hk : i = k
            · subst hk; simp [hia]
            · rw [if_neg hk, if_neg (Ne.symm hk)]
              cases l.links[k]? <;> simp
        | cons n b =>
          have hn : n < l.links.length := hbound n (by simp)
          have hni : n ≠ i := hdb n (by simp)
          have hin : i ≠ n := hni.symm
          simp only [List.getLast?_nil, List.head?_cons, modNode] at hc0 hc1 ⊢
          have hgn : (l.links.set i { next := some n, prev := none, alive := false })[n]?
              = some l.links[n] := by
            rw [List.getElem?_set, if_neg hin]; simp [hn]
          simp only [hgn, Option.map_some]
          refine ⟨(l.links.set i { next := some n, prev := none, alive := false }).set n
              { next := l.links[n].next, prev := none, alive := l.links[n].alive }, ?_, ?_, ?_⟩
          · rw [hc0, hc1, h.c2]
            congr 2
            have := h.tail
            rw [hab] at this
            simpa using this
          · simp
          · intro k
            rw [List.getElem?_set, List.getElem?_set]
            simp only [List.length_set]
            by_cases hk : i = k
            · subst hk
              simp [hia, hni]
            · by_cases hkn : n = k
              · subst hkn
                simp [hn, hni]
              · rw [if_neg hkn, if_neg hk, if_neg (Ne.symm hk)]
                cases l.links[k]? <;> simp [hkn]
      · rw [List.concat_eq_append] at ha
        subst ha
        have hp : p < l.links.length := hbound p (by simp)
        have hpi : p ≠ i := hda p (by simp)
        have hip : i ≠ p := hpi.symm
        have hhead : l.head = (a0 ++ [p]).head? := by
          rw [h.head, hab]; cases a0 <;> simp
        cases b with
        | nil =>
          simp only [List.getLast?_append, List.head?_nil, modNode] at hc0 hc1 ⊢
          have hgp : (l.links.set i { next := none, prev := some p, alive := false })[p]?
              = some l.links[p] := by
            rw [List.getElem?_set, if_neg hip]; simp [hp]
          simp only [List.getLast?_singleton, Option.some_or, hgp, Option.map_some]
          refine ⟨(l.links.set i { next := none, prev := some p, alive := false }).set p
              { next := none, prev := l.links[p].prev, alive := l.links[p].alive }, ?_, ?_, ?_⟩
          · rw [hc0, hc1, h.c2, hhead]; simp
          · simp
          · intro k
            rw [List.getElem?_set, List.getElem?_set]
            simp only [List.length_set]
            by_cases hk : i = k
            · subst hk
              simp [hia, hpi]
            · by_cases hkp : p = k
              · subst hkp
                simp [hp, hpi]
              · rw [if_neg hkp, if_neg hk, if_neg (Ne.symm hk)]
                cases l.links[k]? <;> simp [hkp]
        | cons n b =>
          have hn : n < l.links.length := hbound n (by simp)
          have hni : n ≠ i := hdb n (by simp)
          have hin : i ≠ n := hni.symm
          have hpn : p ≠ n := hdab p (by simp) n (by simp)
          simp only [List.getLast?_append, List.head?_cons, modNode] at hc0 hc1 ⊢
          have hgp : (l.links.set i { next := some n, prev := some p, alive := false })[p]?
              = some l.links[p] := by
            rw [List.getElem?_set, if_neg hip]; simp [hp]
          simp only [List.getLast?_singleton, Option.some_or, hgp, Option.map_some]
          have hgn : ((l.links.set i { next := some n, prev := some p, alive := false }).set p
              { next := some n, prev := l.links[p].prev, alive := l.links[p].alive })[n]?
              = some l.links[n] := by
            rw [List.getElem?_set, if_neg hpn, List.getElem?_set, if_neg hin]; simp [hn]
          simp only [hgn]
          refine ⟨((l.links.set i { next := some n, prev := some p, alive := false }).set p
              { next := some n, prev := l.links[p].prev, alive := l.links[p].alive }).set n
              { next := l.links[n].next, prev := some p, alive := l.links[n].alive }, ?_, ?_, ?_⟩
          · have ht : l.tail = (a0 ++ [p] ++ n :: b).getLast? := by
              rw [h.tail, hab, suffix_getLast? (q := n :: b) ⟨a0 ++ [p] ++ [i], by simp⟩ (by simp),
                suffix_getLast? (q := n :: b) ⟨a0 ++ [p], rfl⟩ (by simp)]
            have hh2 : (a0 ++ [p]).head? = (a0 ++ [p] ++ n :: b).head? := by cases a0 <;> simp
            simp only [hc0, hc1, h.c2, hhead, hh2, ht]
            simp [List.getLast?_append]
            simp [List.getLast?_cons]
          · simp
          · intro k
            rw [List.getElem?_set, List.getElem?_set, List.getElem?_set]
            simp only [List.length_set]
            by_cases hk : i = k
            · subst hk
              simp [hia, hpi, hni]
            · by_cases hkp : p = k
              · subst hkp
                simp [hp, hpi, hpn.symm]
              · by_cases hkn : n = k
                · subst hkn
                  simp [hn, hni, hpn]
                · rw [if_neg hkn, if_neg hkp, if_neg hk, if_neg (Ne.symm hk)]
                  cases l.links[k]? <;> simp [hkp, hkn]
    obtain ⟨links', hdel, hlen', hget⟩ := key
    rw [hdel]
    refine ⟨?_, rfl⟩
    refine { contents_eq := h.contents_eq, len := by simpa [hlen'] using h.len,
             sorted := h.sorted.filter _,
             bound := ?_, head := by rw [hlive], tail := by rw [hlive], chain := ?_, dead := ?_,
             q0suf := suffix_filter _ h.q0suf, q1suf := suffix_filter _ h.q1suf,
             c0 := rfl, c1 := rfl, c2 := h.c2 }
    · intro k hk
      rw [hlen']
      exact h.bound k (List.mem_of_mem_filter hk)
    · intro a' k b' hk'
      rw [hlive] at hk'
      simp only
      rw [hget]
      rcases List.append_eq_append_iff.1 hk' with ⟨c, hc1, hc2⟩ | ⟨c, hc1, hc2⟩
      · -- k in b (or at its start): a' = a ++ c, b = c ++ k :: b'
        have hkb : k ∈ b := by rw [hc2]; simp
        have hold := h.chain (a ++ i :: c) k b' (by rw [hab, hc2]; simp)
        rw [if_neg (hdb k hkb), hold]
        have hka : a.getLast? ≠ some k := fun hx => hdab k (List.mem_of_getLast? hx) k hkb rfl
        simp only [Option.map_some, if_neg hka]
        congr 2
        subst hc1
        cases c with
        | nil => simp [hc2]
        | cons y ys =>
          have : b.head? ≠ some k := by
            rw [hc2]; simp
            intro hy
            subst hy
            have := (List.nodup_cons.1 hna.2.1).2
            rw [hc2] at this
            exact (List.nodup_cons.1 this).1 (by simp)
          rw [if_neg this]
          simp [List.getLast?_append, List.getLast?_cons]
      · -- a = a' ++ c, k :: b' = c ++ b
        cases c with
        | nil =>
          simp at hc1 hc2
          subst hc1
          have hkb : k ∈ b := by rw [← hc2]; simp
          have hold := h.chain (a ++ [i]) k b' (by rw [hab, ← hc2]; simp)
          rw [if_neg (hdb k hkb), hold]
          have hka : a.getLast? ≠ some k := fun hx => hdab k (List.mem_of_getLast? hx) k hkb rfl
          simp only [Option.map_some, if_neg hka]
          congr 2
          simp [← hc2]
        | cons y ys =>
          simp at hc2
          obtain ⟨rfl, hb'⟩ := hc2
          subst hc1
          have hka : k ∈ a' ++ k :: ys := by simp
          have hold := h.chain a' k (ys ++ i :: b) (by rw [hab]; simp)
          rw [if_neg (hda k hka), hold]
          have hkb : b.head? ≠ some k := fun hx => hdab k hka k (List.mem_of_head? hx) rfl
          simp only [Option.map_some, if_neg hkb]
          congr 2
          cases ys with
          | nil => simp [hb', List.getLast?_append]
          | cons z zs =>
            have : (a' ++ k :: z :: zs).getLast? ≠ some k := by
              intro hx
              have hx2 : (z :: zs).getLast? = some k := by
                rw [← hx]
                exact (suffix_getLast? ⟨a' ++ [k], by simp⟩ (by simp)).symm
              have hmem := List.mem_of_getLast? hx2
              have hn1 := hna.1
              exact (List.nodup_cons.1 (List.nodup_append.1 hn1).2.1).1 hmem
            rw [if_neg this]
            simp [hb']
    · intro k nd hk hal
      simp only at hk
      rw [hget] at hk
      split at hk
      · simp only [Option.some.injEq] at hk
        subst hk
        simp at hal
      · rename_i hki
        cases hlk : l.links[k]? with
        | none => rw [hlk] at hk; simp at hk
        | some nd0 =>
          rw [hlk] at hk
          simp only [Option.map_some, Option.some.injEq] at hk
          have : nd0.alive = true := by rw [← hal, ← hk]
          rw [List.mem_filter]
          exact ⟨h.dead k nd0 hlk this, by simpa using hki⟩

/-! ### all operations -/

theorem Rep.step {l : LList α} {s : Slots α} (h : Rep l s) (op : Op α) :
    Rep (l.step op).1 (s.step op).1 ∧ (l.step op).2 = (s.step op).2 := by
  cases op with
  | push a => exact h.push a
  | del i => exact h.del i
  | connectAll => exact h.connectAll
  | intoIter => exact ⟨h.intoIter, rfl⟩
  | intoDoubleIter =>
    have := h.intoDoubleIter
    exact ⟨this.1, by simp only [LList.step, Slots.step, this.2]⟩
  | next => exact h.enumerate
  | nextMut f => exact h.enumerateMut f
  | nextPair => exact h.enumerateDouble

theorem Rep.run {l : LList α} {s : Slots α} (h : Rep l s) (ops : List (Op α)) :
    Rep (l.run ops).1 (s.run ops).1 ∧ (l.run ops).2 = (s.run ops).2 := by
  induction ops generalizing l s with
  | nil => exact ⟨h, rfl⟩
  | cons op ops ih =>
    have h1 := h.step op
    have h2 := ih h1.1
    simp only [LList.run, Slots.run]
    exact ⟨h2.1, by rw [h1.2, h2.2]⟩

end LList
end Moledyn
