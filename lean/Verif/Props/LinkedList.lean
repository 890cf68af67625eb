import Verif.Lemmas.LinkedListSweep
/-
Property theorems C01-C07, C09, C10 (src/iterator.rs).  `α` is the element type; every list is
`from(v)` for arbitrary `v` (`new()` is `from([])`) followed by an arbitrary history `ops`.
-/
namespace Moledyn.Props
open LList
variable {α : Type}

/-! ## C01 -/

/-- `new()` is `from` of an empty vector, so what holds for every `from(v)` holds for `new()`. -/
theorem C01_new : (LList.new : LList α) = from' [] := rfl

/-- Every history of calls shows the caller exactly what the abstract slot machine shows. -/
theorem C01_refines_slots (v : List α) (ops : List (Op α)) :
    ((from' v).run ops).2 = ((Slots.ofContents v).run ops).2 :=
  ((rep_from v).run ops).2

/-- No call of any history panics. -/
theorem C01_never_panics (v : List α) (ops : List (Op α)) :
    ∀ o ∈ ((from' v).run ops).2, o.fine := by
  rw [C01_refines_slots]
  generalize Slots.ofContents v = s
  induction ops generalizing s with
  | nil => simp [Slots.run]
  | cons op ops ih =>
    intro o ho
    simp only [Slots.run, List.mem_cons] at ho
    rcases ho with rfl | ho
    · cases op <;> simp only [Slots.step] <;> first | trivial | (split <;> trivial)
    · exact ih _ o ho

/-- A fresh sweep after any history returns exactly the live slots, in order, then ends. -/
theorem C01_sweep_is_live_slots (v : List α) (ops : List (Op α)) (fuel : Nat)
    (h : (liveAfter v.length ops).2.length < fuel) :
    collect fuel ((from' v).run ops).1.intoIter = ((liveAfter v.length ops).2, true) := by
  obtain ⟨s, hr, hl, _⟩ := rep_reach v ops
  have := collect_rep hr.intoIter fuel (by simpa [hl] using h)
  rw [this]; simp [hl]

/-- The live slots are listed in strictly increasing order and are existing slots. -/
theorem C01_live_sorted (v : List α) (ops : List (Op α)) :
    (liveAfter v.length ops).2.Pairwise (· < ·) ∧
      ∀ i ∈ (liveAfter v.length ops).2, i < (liveAfter v.length ops).1 := by
  obtain ⟨s, hr, hl, hc⟩ := rep_reach v ops
  rw [← hl, ← hc]
  refine ⟨hr.sorted, fun i hi => ?_⟩
  have := hr.bound i hi
  rwa [hr.len, hr.contents_eq] at this

/-- `del(i)` succeeds exactly on live slots and otherwise changes nothing. -/
theorem C01_del_iff_live (v : List α) (ops : List (Op α)) (i : Nat) :
    ((((from' v).run ops).1.del i).2 = .ok () ↔ i ∈ (liveAfter v.length ops).2) ∧
    (i ∉ (liveAfter v.length ops).2 →
      ((from' v).run ops).1.del i = (((from' v).run ops).1, .err .invalidArgumentInput)) := by
  obtain ⟨s, hr, hl, _⟩ := rep_reach v ops
  rw [← hl]
  have h2 := (hr.del i).2
  simp only [LList.step, Slots.step] at h2
  constructor
  · constructor
    · intro h
      by_contra hc
      rw [if_neg hc, h] at h2
      simp at h2
    · intro h
      rw [if_pos h] at h2
      simpa using h2
  · intro h
    unfold LList.del
    cases hlk : ((from' v).run ops).1.links[i]? with
    | none => rfl
    | some nd =>
      have : nd.alive = false := by
        by_contra hc
        exact h (hr.dead i nd hlk (by simpa using hc))
      simp [this]

/-- The contents of the slots are the initial ones followed by the pushed ones, as long as the caller
does not write through `get_mut`/`enumerate_mut`. -/
theorem C01_contents (v : List α) (ops : List (Op α))
    (h : ∀ op ∈ ops, ∀ f, op ≠ .nextMut f) :
    ((from' v).run ops).1.contents =
      v ++ ops.filterMap (fun op => match op with | .push a => some a | _ => none) := by
  have hr := ((rep_from v).run ops).1
  rw [hr.contents_eq]
  have key : ∀ (s : Slots α), (s.run ops).1.contents =
      s.contents ++ ops.filterMap (fun op => match op with | .push a => some a | _ => none) := by
    clear hr
    induction ops with
    | nil => intro s; simp [Slots.run]
    | cons op ops ih =>
      intro s
      have ih' := ih (fun o ho => h o (List.mem_cons_of_mem _ ho))
      simp only [Slots.run, ih']
      cases op with
      | push a => simp [Slots.step]
      | nextMut f => exact absurd rfl (h _ (by simp) f)
      | del i => simp only [Slots.step]; split <;> simp
      | connectAll => simp [Slots.step]
      | intoIter => simp [Slots.step]
      | intoDoubleIter => simp [Slots.step]
      | next => simp only [Slots.step]; split <;> simp
      | nextPair =>
        simp only [Slots.step]
        split <;> simp
        split <;> rfl
  exact key _

/-- `get`, `enumerate` and `indicies` are views of the same traversal. -/
theorem C01_views_agree (v : List α) (ops : List (Op α)) :
    let l := ((from' v).run ops).1
    l.get = (l.enumerate.1, l.enumerate.2.map (Option.map Prod.snd)) ∧
    l.indicies = (l.enumerate.1, l.enumerate.2.map (Option.map Prod.fst)) := by
  intro l
  obtain ⟨s, hr, -, -⟩ := rep_reach v ops
  have hl : l = ((from' v).run ops).1 := rfl
  rw [← hl] at hr
  unfold LList.get LList.enumerate LList.indicies
  cases hq : s.q0 with
  | nil =>
    have hc : l.c0 = none := by rw [hr.c0, hq]; rfl
    simp [hc]
  | cons i q =>
    have hc : l.c0 = some i := by rw [hr.c0, hq]; rfl
    have hsuf : (i :: q) <:+ s.live := hq ▸ hr.q0suf
    obtain ⟨p, hp⟩ := hr.suffix_node hsuf
    obtain ⟨x, hx⟩ := hr.suffix_content hsuf
    simp [hc, hp, hx]

-- non-vacuity: a history with deletions, a push and a revival
example : (liveAfter (α := Nat) 3 [.del 1, .push 7, .del 0]).2 = [2, 3] := by decide
example : collect 5 ((from' [10, 11, 12]).run [.del 1, .push 7, .del 0]).1.intoIter = ([2, 3], true) := by
  decide

/-! ## C02 -/

/-- Following `next` from `head` lists the live slots; following `prev` from `tail` lists them in
reverse; both ends are `None` exactly when nothing is live. -/
theorem C02_links_consistent (v : List α) (ops : List (Op α)) (fuel : Nat)
    (h : (liveAfter v.length ops).2.length < fuel) :
    let l := ((from' v).run ops).1
    chase Node.next l.links fuel l.head = (liveAfter v.length ops).2 ∧
    chase Node.prev l.links fuel l.tail = (liveAfter v.length ops).2.reverse ∧
    (l.head = none ↔ (liveAfter v.length ops).2 = []) ∧
    (l.tail = none ↔ (liveAfter v.length ops).2 = []) := by
  intro l
  obtain ⟨s, hr, hl, _⟩ := rep_reach v ops
  rw [← hl] at h ⊢
  refine ⟨?_, ?_, ?_, ?_⟩
  · rw [hr.head]; exact chase_next hr _ (List.suffix_refl _) fuel h
  · rw [hr.tail]
    have := chase_prev hr s.live.reverse [] (by simp) fuel (by simpa using h)
    simpa using this
  · rw [hr.head]; simp
  · rw [hr.tail]; simp

example : let l := ((from' [10, 11, 12, 13]).run [.del 1, .del 3]).1
    (l.head, l.tail, chase Node.next l.links 5 l.head, chase Node.prev l.links 5 l.tail)
      = (some 0, some 2, [0, 2], [2, 0]) := by decide

/-! ## C03 -/

/-- A sweep with arbitrary deletions between the calls returns, each time, the least slot that is
live at that moment and above everything returned before; `None` only when there is none. -/
theorem C03_sweep_under_deletion (v : List α) (ops : List (Op α)) (batches : List (List Nat)) :
    sweepDeleting batches ((from' v).run ops).1.intoIter =
      sweepSpec batches (liveAfter v.length ops).2 0 := by
  obtain ⟨s, hr, hl, _⟩ := rep_reach v ops
  have := sweepDeleting_rep hr.intoIter 0 (by simp) batches
  rw [this]; simp [hl]


end Moledyn.Props
