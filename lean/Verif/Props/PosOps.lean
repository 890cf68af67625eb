import Verif.Model.PosOps
import Verif.Model.Types
import Verif.Props.TypesText
/-
C76: positions as containers; the number an interaction stands for.
-/
namespace Moledyn.Props
open Moledyn

variable {T : Type}

theorem extend_eq (p : Pos T) (xs : List T) : Pos.extend p xs = p ++ xs := by
  induction xs generalizing p with
  | nil => simp [Pos.extend]
  | cons x xs ih => simp [Pos.extend, ih, Pos.push]

/-- **C76.** `extend` keeps the coordinates there are and puts the new ones behind them, in order; `push` is `extend` by
one. -/
theorem C76_extend (p : Pos T) (xs : List T) (i : Nat) :
    (Pos.extend p xs).dim = p.dim + xs.length ∧
    (i < p.dim → Pos.index (Pos.extend p xs) i = Pos.index p i) ∧
    Pos.index (Pos.extend p xs) (p.dim + i) = Pos.index xs i ∧
    (∀ x, Pos.push p x = Pos.extend p [x]) := by
  refine ⟨by simp [extend_eq, Pos.dim], fun h => ?_, ?_, fun x => rfl⟩
  · simp only [Pos.index, extend_eq]
    rw [List.getElem?_append_left h]
  · simp only [Pos.index, extend_eq]
    rw [List.getElem?_append_right (by simp [Pos.dim])]
    simp [Pos.dim]

/-- **C76.** Reading a coordinate panics exactly beyond the end; writing one changes this coordinate and no other, keeps the
dimension, and panics exactly beyond the end. -/
theorem C76_index (p : Pos T) (i : Nat) (x : T) :
    (Pos.index p i = .panic ↔ p.dim ≤ i) ∧
    (Pos.setIndex p i x = .panic ↔ p.dim ≤ i) ∧
    (∀ q, Pos.setIndex p i x = .ok q → q.dim = p.dim ∧ Pos.index q i = .ok x ∧
      ∀ j, j ≠ i → Pos.index q j = Pos.index p j) := by
  refine ⟨?_, ?_, fun q hq => ?_⟩
  · unfold Pos.index Pos.dim
    rw [← List.getElem?_eq_none_iff]
    cases p[i]? <;> simp
  · unfold Pos.setIndex Pos.dim
    by_cases h : i < p.length <;> simp [h]
    omega
  · unfold Pos.setIndex at hq
    split at hq
    · rename_i h
      injection hq with hq
      subst hq
      refine ⟨by simp [Pos.dim], by simp [Pos.index, h], fun j hj => ?_⟩
      simp only [Pos.index]
      rw [List.getElem?_set_ne (Ne.symm hj)]
    · cases hq

/-- **C76.** The slices `pos[a..b]`, `pos[..b]` and `pos[a..]`: when they are defined and what they hold; the two halves at
any place put together are the position. -/
theorem C76_slices (p : Pos T) (a b : Nat) :
    (∀ l, Pos.range p a b = .ok l ↔ a ≤ b ∧ b ≤ p.dim ∧ l.length = b - a ∧
      ∀ k < b - a, l[k]? = p[a + k]?) ∧
    Pos.rangeTo p b = Pos.range p 0 b ∧ Pos.rangeFrom p a = Pos.range p a p.dim ∧
    (a ≤ p.dim → ∃ l r, Pos.rangeTo p a = .ok l ∧ Pos.rangeFrom p a = .ok r ∧ l ++ r = p) := by
  refine ⟨fun l => ?_, ?_, ?_, fun h => ?_⟩
  · unfold Pos.range Pos.dim
    split
    · rename_i h
      have hlen : ((p.take b).drop a).length = b - a := by simp; omega
      have hget : ∀ k < b - a, ((p.take b).drop a)[k]? = p[a + k]? := by
        intro k hk
        rw [List.getElem?_drop, List.getElem?_take_of_lt (by omega)]
      constructor
      · intro e
        injection e with e
        subst e
        exact ⟨h.1, h.2, hlen, hget⟩
      · rintro ⟨-, -, hl, hk⟩
        congr 1
        apply List.ext_getElem?
        intro k
        by_cases hkk : k < b - a
        · rw [hget k hkk, hk k hkk]
        · rw [List.getElem?_eq_none (by omega), List.getElem?_eq_none (by omega)]
    · rename_i h
      simp only [reduceCtorEq, false_iff]
      rintro ⟨h1, h2, -⟩
      exact h ⟨h1, h2⟩
  · unfold Pos.rangeTo Pos.range
    simp
  · unfold Pos.rangeFrom Pos.range Pos.dim
    simp
  · exact ⟨_, _, by rw [Pos.rangeTo, if_pos (by exact h)], by rw [Pos.rangeFrom, if_pos (by exact h)], List.take_append_drop a p⟩

example : Pos.range [3, 2, 4, 5, 1] 1 3 = .ok [2, 4] := rfl
example : Pos.range [3, 2, 4, 5, 1] 3 1 = .panic := rfl
example : Pos.rangeFrom [3, 2] 2 = .ok [] := rfl

/-- **C76.** Finding: a position printed with a width (`{:<10e}`) is not read back: the blanks stand behind every
coordinate, and a coordinate that is followed by blanks is silently read as 0.  Only the last one survives. -/
theorem C76_padded_not_read_back (f : NumFmt T) (ok : T → Prop) (hf : f.Faithful ok)
    (hblank : ∀ s, f.parse (s ++ [' ']) = none) (x y : T) (hx : ok x) (hy : ok y)
    (hxne : f.print x ≠ []) (hyne : f.print y ≠ []) (width : Nat) (hw : (f.print x).length < width) :
    ∃ s, Pos.displayPadded f width [x, y] = .ok s ∧ Pos.fromStr f s = .ok [f.dflt, y] := by
  refine ⟨_, rfl, ?_⟩
  simp only [Pos.fromStr, List.foldl_cons, List.foldl_nil, Str.padRight]
  generalize hkx : width - (f.print x).length = k
  generalize width - (f.print y).length = m
  have hk : k ≠ 0 := by omega
  have hbl : ∀ n, ∀ c ∈ List.replicate n ' ', Str.isWs c = true := by
    intro n c hc; rw [List.eq_of_mem_replicate hc]; decide
  have t1 : Str.trim (f.print x ++ List.replicate k ' ' ++ [','] ++ (f.print y ++ List.replicate m ' ')) =
      f.print x ++ List.replicate k ' ' ++ [','] ++ f.print y := by
    have := Str.trimMatches_core (p := Str.isWs) (a := []) (b := List.replicate m ' ')
      (s := f.print x ++ List.replicate k ' ' ++ [','] ++ f.print y) (by simp) (hbl m)
      (by
        intro c hc
        cases hp : f.print x with
        | nil => exact absurd hp hxne
        | cons d r =>
          rw [hp] at hc
          simp at hc
          exact hf.noBlank x hx c (by rw [hp, ← hc]; simp))
      (by
        intro c hc
        rw [List.getLast?_append_of_ne_nil _ hyne] at hc
        exact hf.noBlank y hy c (List.mem_of_mem_getLast? hc))
    simpa [Str.trim] using this
  have t2 : Str.trimMatches (fun c => c == '(' || c == ')')
      (f.print x ++ List.replicate k ' ' ++ [','] ++ f.print y) =
      f.print x ++ List.replicate k ' ' ++ [','] ++ f.print y := by
    have := Str.trimMatches_clean (p := fun c => c == '(' || c == ')') (a := []) (b := [])
      (s := f.print x ++ List.replicate k ' ' ++ [','] ++ f.print y) (by simp) (by simp)
      (by
        intro c hc
        simp only [List.mem_append, List.mem_singleton] at hc
        rcases hc with ((hc | hc) | rfl) | hc
        · have := hf.noPunct x hx c hc; simp [this.2.2.1, this.2.2.2]
        · rw [List.eq_of_mem_replicate hc]; decide
        · decide
        · have := hf.noPunct y hy c hc; simp [this.2.2.1, this.2.2.2])
    simpa using this
  rw [t1, t2, List.append_assoc, List.singleton_append]
  rw [Str.splitBy_cons (by
      intro c hc
      simp only [List.mem_append] at hc
      rcases hc with hc | hc
      · have := hf.noPunct x hx c hc; simp [this.1, this.2.1]
      · rw [List.eq_of_mem_replicate hc]; decide) (by decide),
    Str.splitBy_clean (by intro c hc; have := hf.noPunct y hy c hc; simp [this.1, this.2.1])]
  obtain ⟨j, rfl⟩ := Nat.exists_eq_succ_of_ne_zero hk
  simp only [List.map_cons, List.map_nil, hf.roundtrip y hy, Option.getD_some, Nat.succ_eq_add_one]
  rw [List.replicate_succ', ← List.append_assoc, hblank]
  rfl

example : Pos.displayPadded natFmt 3 [7, 8] = .ok (chars! "7  ,8  ") ∧
    Pos.fromStr natFmt (chars! "7  ,8  ") = .ok [0, 8] := ⟨rfl, rfl⟩

/-- **C76.** The number an interaction is turned into (`f64::from`) is its length scale: the number its text ends with; an
interaction without a length scale gives 0. -/
theorem C76_length_scale {F : Type} [Fl F] (f : NumFmt F) (t : InteractType F) :
    (∃ head, t.display f = head ++ f.print t.toF) ∧ (t ≠ .coulomb2D ∧ t ≠ .coulomb3D) ∨
    t.toF = Fl.zero ∧ (t = .coulomb2D ∨ t = .coulomb3D) := by
  cases t with
  | exponential dim gamma => exact .inl ⟨⟨_, rfl⟩, by simp⟩
  | coulomb2D => exact .inr ⟨rfl, .inl rfl⟩
  | coulomb3D => exact .inr ⟨rfl, .inr rfl⟩
  | lennardJones a => exact .inl ⟨⟨_, rfl⟩, by simp⟩

end Moledyn.Props
