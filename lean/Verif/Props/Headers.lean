import Verif.Spec.Headers
import Verif.Props.FileNames
/-
C89: which line of a header is refused, and how.
-/
namespace Moledyn.Props
open Moledyn

/-- every line amounts to exactly one thing. -/
theorem lineFor_total (g : Field) (l : Option (Except Nat Str)) : ∃ r, LineFor g l r := by
  rcases l with _ | t | s
  · exact ⟨_, .missing⟩
  · exact ⟨_, .broken t⟩
  · by_cases h : s.count ':' = 1
    · obtain ⟨a, w, rfl⟩ := List.append_of_mem (List.count_pos_iff.1 (by omega : 0 < s.count ':'))
      rw [List.count_append, List.count_cons_self] at h
      have ha : ':' ∉ a := fun hc => by have := List.count_pos_iff.2 hc; omega
      have hw : ':' ∉ w := fun hc => by have := List.count_pos_iff.2 hc; omega
      by_cases hx : ∃ x, g.parse (Str.trim w) = .ok x
      · obtain ⟨x, hx⟩ := hx
        exact ⟨_, .value a w x ha hw hx⟩
      · exact ⟨_, .garbage a w ha hw fun x hc => hx ⟨x, hc⟩⟩
    · exact ⟨_, .colons s h⟩

private theorem split_two {a w : Str} (ha : ':' ∉ a) (hw : ':' ∉ w) : Str.splitBy (· == ':') (a ++ ':' :: w) = [a, w] := by
  have key : ∀ u : Str, ':' ∉ u → ∀ c ∈ u, (c == ':') = false := by
    intro u hu c hc
    by_contra hh
    simp only [Bool.not_eq_false, beq_iff_eq] at hh
    exact hu (hh ▸ hc)
  rw [Str.splitBy_cons (key a ha) (by rfl), Str.splitBy_clean (key w hw)]

/-- one field -/
private theorem read_one (g : Field) (fs : List Field) (rd : Reader) (r : Res g.V) (h : LineFor g rd.head? r) :
    readArgsFromLines (g :: fs) rd =
      match r with
      | .ok x => (match readArgsFromLines fs rd.tail with
          | (.ok v, rd) => (.ok (x, v), rd)
          | (.err e, rd) => (.err e, rd)
          | (.panic, rd) => (.panic, rd))
      | .err e => (.err e, rd.tail)
      | .panic => (.panic, rd.tail) := by
  cases rd with
  | nil =>
    cases h
    rfl
  | cons l rd =>
    simp only [List.head?_cons, List.tail_cons] at h ⊢
    cases h with
    | broken t => rfl
    | colons s hs =>
      simp only [readArgsFromLines]
      split
      · rename_i hsp
        exfalso
        have := Str.length_splitBy (· == ':') s
        rw [hsp] at this
        apply hs
        simp only [List.length_cons, List.length_nil] at this
        rw [List.count_eq_countP]
        omega
      · rfl
    | value a w x ha hw hx =>
      simp only [readArgsFromLines, split_two ha hw, Field.read, hx, Res.expectOk]
      rfl
    | garbage a w ha hw hx =>
      simp only [readArgsFromLines, split_two ha hw, Field.read]
      cases hp : g.parse (Str.trim w) with
      | ok x => exact absurd hp (hx x)
      | err e => rfl
      | panic => rfl

theorem lineFor_unique {g : Field} {l : Option (Except Nat Str)} {r r' : Res g.V} (h : LineFor g l r) (h' : LineFor g l r') :
    r = r' := by
  have e := read_one g [] l.toList r (by cases l <;> simpa using h)
  have e' := read_one g [] l.toList r' (by cases l <;> simpa using h')
  rw [e] at e'
  cases r <;> cases r' <;> simp [readArgsFromLines] at e' <;> simp [e']

private theorem firstBad_cons (g : Field) (fs : List Field) (rd : Reader) (k : Nat) (r : Option ErrorCode) :
    FirstBad (g :: fs) rd k r ↔ (k = 0 ∧ LineFor g rd.head? (failure r)) ∨
      ∃ k', k = k' + 1 ∧ (∃ x, LineFor g rd.head? (.ok x)) ∧ FirstBad fs rd.tail k' r := by
  have e0 : rd[0]? = rd.head? := by cases rd <;> rfl
  have e1 : ∀ j, rd[j + 1]? = rd.tail[j]? := by intro j; cases rd <;> simp
  cases k with
  | zero =>
    constructor
    · rintro ⟨-, g', hg, hl⟩
      simp only [List.getElem?_cons_zero, Option.some.injEq] at hg
      subst hg
      exact .inl ⟨rfl, e0 ▸ hl⟩
    · rintro (⟨-, h⟩ | ⟨k', h, -⟩)
      · exact ⟨fun j h hj => absurd hj (by omega), g, rfl, by rw [e0]; exact h⟩
      · omega
  | succ k =>
    constructor
    · rintro ⟨h1, g', hg, hl⟩
      refine .inr ⟨k, rfl, ?_, fun j h hj hh => ?_, g', by simpa using hg, by rw [← e1]; exact hl⟩
      · have := h1 0 g (by omega) rfl
        rwa [e0] at this
      · have := h1 (j + 1) h (by omega) (by simpa using hh)
        rwa [e1] at this
    · rintro (⟨h, -⟩ | ⟨k', h, hx, h1, g', hg, hl⟩)
      · omega
      · obtain rfl : k = k' := by omega
        refine ⟨fun j h hj hh => ?_, g', by simpa using hg, by rw [e1]; exact hl⟩
        cases j with
        | zero =>
          simp only [List.getElem?_cons_zero, Option.some.injEq] at hh
          subst hh
          rw [e0]; exact hx
        | succ j =>
          rw [e1]
          exact h1 j h (by omega) (by simpa using hh)

private theorem drop_tail (rd : Reader) (n : Nat) : rd.tail.drop n = rd.drop (n + 1) := by
  rw [← List.drop_one, List.drop_drop, Nat.add_comm]

/-- Reading a block succeeds exactly if each line has exactly one colon and, behind it, the text of a value of its field; the
values are these, and the reader stands behind the block. -/
theorem C89_block_ok (fs : List Field) (rd rd' : Reader) (v : Vals fs) :
    readArgsFromLines fs rd = (.ok v, rd') ↔ Fits fs rd v ∧ rd' = rd.drop fs.length := by
  induction fs generalizing rd with
  | nil => simp [readArgsFromLines, Fits, eq_comm]
  | cons g fs ih =>
    obtain ⟨r, hr⟩ := lineFor_total g rd.head?
    rw [read_one g fs rd r hr]
    obtain ⟨x, v⟩ := v
    cases r with
    | ok y =>
      simp only [Fits, List.length_cons]
      have ih' := ih rd.tail v
      rw [drop_tail] at ih'
      cases hh : readArgsFromLines fs rd.tail with
      | mk q rd1 =>
        rw [hh] at ih'
        cases q with
        | ok w =>
          simp only [Prod.mk.injEq, Res.ok.injEq] at ih' ⊢
          constructor
          · rintro ⟨⟨rfl, rfl⟩, rfl⟩
            obtain ⟨k1, k2⟩ := ih'.1 ⟨rfl, rfl⟩
            exact ⟨⟨hr, k1⟩, k2⟩
          · rintro ⟨⟨k0, k1⟩, k2⟩
            obtain ⟨rfl, e⟩ := ih'.2 ⟨k1, k2⟩
            have := lineFor_unique hr k0
            simp only [Res.ok.injEq] at this
            exact ⟨⟨this, rfl⟩, e⟩
        | err e =>
          simp only [Prod.mk.injEq, reduceCtorEq, false_and, false_iff, not_and] at ih' ⊢
          exact fun k => ih' k.2
        | panic =>
          simp only [Prod.mk.injEq, reduceCtorEq, false_and, false_iff, not_and] at ih' ⊢
          exact fun k => ih' k.2
    | err e =>
      simp only [Prod.mk.injEq, reduceCtorEq, false_and, false_iff, not_and, Fits]
      intro k
      exact absurd (lineFor_unique hr k.1) (by simp)
    | panic =>
      simp only [Prod.mk.injEq, reduceCtorEq, false_and, false_iff, not_and, Fits]
      intro k
      exact absurd (lineFor_unique hr k.1) (by simp)

/-- Reading a block fails exactly with the failure of its first bad line: `InvalidFile` if the file ends there, the error of the
operating system, `InvalidFormat` if the line has no or several colons, a panic if the value is not understood.  The reader
stands behind that line. -/
theorem C89_block_fails (fs : List Field) (rd rd' : Reader) (r : Option ErrorCode) :
    readArgsFromLines fs rd = (failure r, rd') ↔ ∃ k, FirstBad fs rd k r ∧ rd' = rd.drop (k + 1) := by
  induction fs generalizing rd with
  | nil =>
    cases r <;> simp [readArgsFromLines, FirstBad, failure]
  | cons g fs ih =>
    obtain ⟨q, hq⟩ := lineFor_total g rd.head?
    rw [read_one g fs rd q hq]
    have ih' := ih rd.tail
    simp only [drop_tail] at ih'
    simp only [firstBad_cons]
    have rhs : (∃ k, ((k = 0 ∧ LineFor g rd.head? (failure r)) ∨
        ∃ k', k = k' + 1 ∧ (∃ x, LineFor g rd.head? (.ok x)) ∧ FirstBad fs rd.tail k' r) ∧ rd' = rd.drop (k + 1)) ↔
        (LineFor g rd.head? (failure r) ∧ rd' = rd.tail) ∨
        ((∃ x, LineFor g rd.head? (.ok x)) ∧ ∃ k, FirstBad fs rd.tail k r ∧ rd' = rd.drop (k + 1 + 1)) := by
      constructor
      · rintro ⟨k, (⟨rfl, h⟩ | ⟨k', rfl, hx, h⟩), e⟩
        · exact .inl ⟨h, by rw [e, ← drop_tail]; rfl⟩
        · exact .inr ⟨hx, k', h, e⟩
      · rintro (⟨h, e⟩ | ⟨hx, k, h, e⟩)
        · exact ⟨0, .inl ⟨rfl, h⟩, by rw [e, ← drop_tail]; rfl⟩
        · exact ⟨k + 1, .inr ⟨k, rfl, hx, h⟩, e⟩
    rw [rhs, ← ih']
    have nf : ∀ x : g.V, Res.ok x ≠ failure r := by intro x; cases r <;> simp [failure]
    cases q with
    | ok x =>
      have h1 : ¬ LineFor g rd.head? (failure r) := fun h => nf x (lineFor_unique hq h)
      have h2 : ∃ x, LineFor g rd.head? (.ok x) := ⟨x, hq⟩
      simp only [h1, h2, false_and, true_and, false_or]
      cases hh : readArgsFromLines fs rd.tail with
      | mk w rd1 => cases w <;> cases r <;> simp [failure]
    | err e =>
      have h2 : ¬ ∃ x, LineFor g rd.head? (.ok x) := fun ⟨x, h⟩ => absurd (lineFor_unique hq h) (by simp)
      simp only [h2, false_and, or_false]
      constructor
      · intro h
        cases r with
        | some e' =>
          simp only [failure, Prod.mk.injEq, Res.err.injEq] at h
          exact ⟨by rw [failure, ← h.1]; exact hq, h.2.symm⟩
        | none => simp [failure] at h
      · rintro ⟨h, rfl⟩
        have := lineFor_unique hq h
        cases r with
        | some e' => simp only [failure, Res.err.injEq] at this ⊢; rw [this]
        | none => simp [failure] at this
    | panic =>
      have h2 : ¬ ∃ x, LineFor g rd.head? (.ok x) := fun ⟨x, h⟩ => absurd (lineFor_unique hq h) (by simp)
      simp only [h2, false_and, or_false]
      constructor
      · intro h
        cases r with
        | some e' => simp [failure] at h
        | none =>
          simp only [failure, Prod.mk.injEq, true_and] at h
          exact ⟨hq, h.symm⟩
      · rintro ⟨h, rfl⟩
        have := lineFor_unique hq h
        cases r with
        | some e' => simp [failure] at this
        | none => rfl

theorem fits_iff (fs : List Field) (rd : Reader) :
    (∃ v, Fits fs rd v) ↔ ∀ (j : Nat) (h : Field), fs[j]? = some h → ∃ x, LineFor h rd[j]? (.ok x) := by
  induction fs generalizing rd with
  | nil => simp [Fits]
  | cons g fs ih =>
    have e0 : rd[0]? = rd.head? := by cases rd <;> rfl
    have e1 : ∀ j, rd[j + 1]? = rd.tail[j]? := by intro j; cases rd <;> simp
    constructor
    · rintro ⟨⟨x, v⟩, h1, h2⟩ j h hj
      cases j with
      | zero =>
        simp only [List.getElem?_cons_zero, Option.some.injEq] at hj
        subst hj
        exact ⟨x, by rw [e0]; exact h1⟩
      | succ j =>
        rw [e1]
        exact (ih rd.tail).1 ⟨v, h2⟩ j h (by simpa using hj)
    · intro h
      obtain ⟨x, hx⟩ := h 0 g rfl
      obtain ⟨v, hv⟩ := (ih rd.tail).2 fun j k hj => by
        rw [← e1]; exact h (j + 1) k (by simpa using hj)
      exact ⟨(x, v), by rw [← e0]; exact hx, hv⟩

private theorem firstBad_append (fs gs : List Field) (rd : Reader) (k : Nat) (r : Option ErrorCode) :
    FirstBad (fs ++ gs) rd k r ↔ FirstBad fs rd k r ∨
      ((∃ v, Fits fs rd v) ∧ ∃ k', k = fs.length + k' ∧ FirstBad gs (rd.drop fs.length) k' r) := by
  rw [fits_iff]
  constructor
  · rintro ⟨h1, g, hg, hl⟩
    rcases Nat.lt_or_ge k fs.length with hk | hk
    · rw [List.getElem?_append_left hk] at hg
      exact .inl ⟨fun j h hj hh => h1 j h hj (by rw [List.getElem?_append_left (by omega)]; exact hh), g, hg, hl⟩
    · refine .inr ⟨fun j h hj => ?_, k - fs.length, by omega, fun j h hj hh => ?_, g, ?_, ?_⟩
      · obtain ⟨hl', -⟩ := List.getElem?_eq_some_iff.1 hj
        exact h1 j h (by omega) (by rw [List.getElem?_append_left hl']; exact hj)
      · rw [List.getElem?_drop]
        exact h1 (fs.length + j) h (by omega) (by rw [List.getElem?_append_right (by omega)]; simpa using hh)
      · rw [List.getElem?_append_right hk] at hg; exact hg
      · rw [List.getElem?_drop, Nat.add_sub_cancel' hk]; exact hl
  · rintro (⟨h1, g, hg, hl⟩ | ⟨hf, k', rfl, h1, g, hg, hl⟩)
    · obtain ⟨hk, -⟩ := List.getElem?_eq_some_iff.1 hg
      exact ⟨fun j h hj hh => h1 j h hj (by rwa [List.getElem?_append_left (by omega)] at hh), g,
        by rw [List.getElem?_append_left hk]; exact hg, hl⟩
    · refine ⟨fun j h hj hh => ?_, g, by rw [List.getElem?_append_right (by omega)]; simpa using hg, by
        rw [← List.getElem?_drop]; exact hl⟩
      rcases Nat.lt_or_ge j fs.length with hk | hk
      · rw [List.getElem?_append_left hk] at hh
        exact hf j h hh
      · rw [List.getElem?_append_right hk] at hh
        have := h1 (j - fs.length) h (by omega) hh
        rwa [List.getElem?_drop, Nat.add_sub_cancel' hk] at this

theorem res_cases {α : Type} (r : Res α) : (∃ a, r = .ok a) ∨ ∃ e, r = failure e := by
  cases r with
  | ok a => exact .inl ⟨a, rfl⟩
  | err e => exact .inr ⟨some e, rfl⟩
  | panic => exact .inr ⟨none, rfl⟩

theorem fails_ne {α : Type} (a : α) (e : Option ErrorCode) : Res.ok a ≠ failure e := by cases e <;> simp [failure]

private theorem failure_inj {α : Type} {e e' : Option ErrorCode} (h : (failure e : Res α) = failure e') : e = e' := by
  cases e <;> cases e' <;> simp [failure] at h ⊢
  exact h

private theorem readAll_cons_ok {S : Schema} {Ss : List Schema} {rd rd1 : Reader} {v : Vals S.fields}
    (h : readArgsFromLines S.fields rd = (.ok v, rd1)) :
    readAll (S :: Ss) rd = match readAll Ss rd1 with
      | (.ok vs, rd) => (.ok (v, vs), rd)
      | (.err e, rd) => (.err e, rd)
      | (.panic, rd) => (.panic, rd) := by
  rw [readAll, h]; rfl

private theorem readAll_cons_bad {S : Schema} {Ss : List Schema} {rd rd1 : Reader} {e : Option ErrorCode}
    (h : readArgsFromLines S.fields rd = (failure e, rd1)) : readAll (S :: Ss) rd = (failure e, rd1) := by
  rw [readAll, h]
  cases e <;> rfl

theorem readAll_ok (Ss : List Schema) (rd rd' : Reader) (v : AllVals Ss) :
    readAll Ss rd = (.ok v, rd') ↔ FitsAll Ss rd v ∧ rd' = rd.drop (Ss.flatMap Schema.fields).length := by
  induction Ss generalizing rd with
  | nil => simp [readAll, FitsAll, eq_comm]
  | cons S Ss ih =>
    obtain ⟨v1, v2⟩ := v
    cases h : readArgsFromLines S.fields rd with
    | mk q rd1 =>
      simp only [FitsAll, List.flatMap_cons]
      rw [List.length_append (as := S.fields)]
      rcases res_cases q with ⟨w, rfl⟩ | ⟨e, rfl⟩
      · obtain ⟨k1, rfl⟩ := (C89_block_ok _ _ _ _).1 h
        rw [readAll_cons_ok h]
        have ih' := ih (rd.drop S.fields.length) v2
        rw [List.drop_drop] at ih'
        have uniq : ∀ w', Fits S.fields rd w' → w' = w := by
          intro w' hw'
          have := (C89_block_ok _ _ _ _).2 ⟨hw', rfl⟩
          rw [h] at this
          simp only [Prod.mk.injEq, Res.ok.injEq, and_true] at this
          exact this.symm
        cases h2 : readAll Ss (rd.drop S.fields.length) with
        | mk q2 rd2 =>
          rw [h2] at ih'
          cases q2 with
          | ok u =>
            simp only [Prod.mk.injEq, Res.ok.injEq] at ih' ⊢
            constructor
            · rintro ⟨⟨rfl, rfl⟩, rfl⟩
              obtain ⟨a, b⟩ := ih'.1 ⟨rfl, rfl⟩
              exact ⟨⟨k1, a⟩, b⟩
            · rintro ⟨⟨a, b⟩, c⟩
              obtain ⟨rfl, rfl⟩ := ih'.2 ⟨b, c⟩
              exact ⟨⟨(uniq _ a).symm, rfl⟩, rfl⟩
          | err e =>
            simp only [Prod.mk.injEq, reduceCtorEq, false_and, false_iff, not_and] at ih' ⊢
            exact fun k => ih' k.2
          | panic =>
            simp only [Prod.mk.injEq, reduceCtorEq, false_and, false_iff, not_and] at ih' ⊢
            exact fun k => ih' k.2
      · rw [readAll_cons_bad h]
        have : ¬ Fits S.fields rd v1 := by
          intro hf
          have := (C89_block_ok _ _ _ _).2 ⟨hf, rfl⟩
          rw [h] at this
          exact fails_ne _ _ (Prod.mk.inj this).1.symm
        simp only [Prod.mk.injEq, (fails_ne _ _).symm, false_and, this]

private theorem readAll_fails (Ss : List Schema) (rd rd' : Reader) (r : Option ErrorCode) :
    readAll Ss rd = (failure r, rd') ↔ ∃ k, FirstBad (Ss.flatMap Schema.fields) rd k r ∧ rd' = rd.drop (k + 1) := by
  induction Ss generalizing rd with
  | nil => cases r <;> simp [readAll, FirstBad, failure]
  | cons S Ss ih =>
    have ap := fun k => firstBad_append S.fields (Ss.flatMap Schema.fields) rd k r
    simp only [List.flatMap_cons, ap]
    cases h : readArgsFromLines S.fields rd with
    | mk q rd1 =>
      rcases res_cases q with ⟨w, rfl⟩ | ⟨e, rfl⟩
      · obtain ⟨k1, rfl⟩ := (C89_block_ok _ _ _ _).1 h
        rw [readAll_cons_ok h]
        have ih' := ih (rd.drop S.fields.length)
        have no : ∀ k, ¬ FirstBad S.fields rd k r := by
          intro k hk
          have := (C89_block_fails _ _ _ _).2 ⟨k, hk, rfl⟩
          rw [h] at this
          exact fails_ne _ _ (Prod.mk.inj this).1
        have l : (match readAll Ss (rd.drop S.fields.length) with
            | (.ok vs, rd) => ((.ok (w, vs), rd) : Res (AllVals (S :: Ss)) × Reader)
            | (.err e, rd) => (.err e, rd)
            | (.panic, rd) => (.panic, rd)) = (failure r, rd') ↔ readAll Ss (rd.drop S.fields.length) = (failure r, rd') := by
          cases readAll Ss (rd.drop S.fields.length) with
          | mk q2 rd2 => cases q2 <;> cases r <;> simp [failure]
        rw [l, ih']
        have ex : ∃ v, Fits S.fields rd v := ⟨w, k1⟩
        simp only [no, ex, true_and, false_or]
        constructor
        · rintro ⟨k, a, b⟩
          exact ⟨S.fields.length + k, ⟨k, rfl, a⟩, by rw [b, List.drop_drop]; rfl⟩
        · rintro ⟨k, ⟨k', rfl, a⟩, b⟩
          exact ⟨k', a, by rw [b, List.drop_drop]; rfl⟩
      · rw [readAll_cons_bad h]
        have no : ¬ ∃ v, Fits S.fields rd v := by
          rintro ⟨v, hf⟩
          have := (C89_block_ok _ _ _ _).2 ⟨hf, rfl⟩
          rw [h] at this
          exact fails_ne _ _ (Prod.mk.inj this).1.symm
        simp only [no, false_and, or_false]
        rw [← C89_block_fails, h]
        constructor
        · intro k
          obtain ⟨a, rfl⟩ := Prod.mk.inj k
          rw [failure_inj a]
        · intro k
          obtain ⟨a, rfl⟩ := Prod.mk.inj k
          rw [failure_inj a]

/-- A file gives a dataset exactly if, from its second line on, each line has exactly one colon and behind it the text of a value
of its field; the dataset is made of these values, and the reader stands behind the header. -/
theorem C89_file_ok {F : Type} (cs : List (Component F)) (sim : Component F) (rd rd' : Reader) (d : DataSet F) :
    DataSet.fromFile cs sim rd = (.ok d, rd') ↔
      ∃ v s, FitsAll (schemasOf cs) (rd.drop 1) v ∧
        Fits sim.schema.fields ((rd.drop 1).drop ((schemasOf cs).flatMap Schema.fields).length) s ∧
        d = DataSet.new cs sim v s ∧ rd' = rd.drop (1 + (headerFields cs sim).length) := by
  unfold DataSet.fromFile
  cases h : readAll (schemasOf cs) (rd.drop 1) with
  | mk q rd1 =>
    rcases res_cases q with ⟨w, rfl⟩ | ⟨e, rfl⟩
    · obtain ⟨k1, rfl⟩ := (readAll_ok _ _ _ _).1 h
      have uniq : ∀ w', FitsAll (schemasOf cs) (rd.drop 1) w' → w' = w := by
        intro w' hw'
        have := (readAll_ok _ _ _ _).2 ⟨hw', rfl⟩
        rw [h] at this
        simp only [Prod.mk.injEq, Res.ok.injEq, and_true] at this
        exact this.symm
      simp only
      cases h2 : readArgsFromLines sim.schema.fields ((rd.drop 1).drop ((schemasOf cs).flatMap Schema.fields).length) with
      | mk q2 rd2 =>
        rcases res_cases q2 with ⟨u, rfl⟩ | ⟨e, rfl⟩
        · obtain ⟨k2, rfl⟩ := (C89_block_ok _ _ _ _).1 h2
          have e : ((rd.drop 1).drop ((schemasOf cs).flatMap Schema.fields).length).drop sim.schema.fields.length =
              rd.drop (1 + (headerFields cs sim).length) := by
            rw [List.drop_drop, List.drop_drop, headerFields,
              List.length_append (as := (schemasOf cs).flatMap Schema.fields)]
          simp only [Prod.mk.injEq, Res.ok.injEq, e]
          constructor
          · rintro ⟨rfl, rfl⟩
            exact ⟨w, u, k1, k2, rfl, rfl⟩
          · rintro ⟨v, s, a, b, rfl, rfl⟩
            have := (C89_block_ok _ _ _ _).2 ⟨b, rfl⟩
            rw [h2] at this
            simp only [Prod.mk.injEq, Res.ok.injEq, and_true] at this
            rw [uniq v a, this]
            exact ⟨rfl, rfl⟩
        · have no : ∀ s, ¬ Fits sim.schema.fields ((rd.drop 1).drop ((schemasOf cs).flatMap Schema.fields).length) s := by
            intro s hf
            have := (C89_block_ok _ _ _ _).2 ⟨hf, rfl⟩
            rw [h2] at this
            exact fails_ne _ _ (Prod.mk.inj this).1.symm
          simp only [no, false_and, and_false, exists_false, iff_false]
          cases e <;> simp [failure]
    · have no : ∀ v, ¬ FitsAll (schemasOf cs) (rd.drop 1) v := by
        intro s hf
        have := (readAll_ok _ _ _ _).2 ⟨hf, rfl⟩
        rw [h] at this
        exact fails_ne _ _ (Prod.mk.inj this).1.symm
      simp only [no, false_and, exists_false, iff_false]
      cases e <;> simp [failure]

/-- A file that gives no dataset fails with the failure of the first bad line of its header. -/
theorem C89_file_fails {F : Type} (cs : List (Component F)) (sim : Component F) (rd rd' : Reader) (r : Option ErrorCode) :
    DataSet.fromFile cs sim rd = (failure r, rd') ↔
      ∃ k, FirstBad (headerFields cs sim) (rd.drop 1) k r ∧ rd' = rd.drop (k + 2) := by
  unfold DataSet.fromFile headerFields
  have ap := fun rd k => firstBad_append ((schemasOf cs).flatMap Schema.fields) sim.schema.fields rd k r
  simp only [ap]
  have dd : ∀ k, rd.drop (k + 2) = (rd.drop 1).drop (k + 1) := by
    intro k; rw [List.drop_drop]; congr 1; omega
  simp only [dd]
  generalize rd.drop 1 = rd0
  cases h : readAll (schemasOf cs) rd0 with
  | mk q rd1 =>
    have ex : (∃ v, Fits ((schemasOf cs).flatMap Schema.fields) rd0 v) ↔ ∃ w, q = .ok w := by
      constructor
      · intro hv
        rcases res_cases q with ⟨w, rfl⟩ | ⟨e, rfl⟩
        · exact ⟨w, rfl⟩
        · exfalso
          obtain ⟨k, ⟨-, g, hg, hl⟩, -⟩ := (readAll_fails _ _ _ _).1 h
          obtain ⟨x, hx⟩ := (fits_iff _ _).1 hv k g hg
          exact fails_ne _ _ (lineFor_unique hx hl)
      · rintro ⟨w, rfl⟩
        have hno : ¬ ∃ r, (readArgsFromLines ((schemasOf cs).flatMap Schema.fields) rd0).1 = failure r := by
          rintro ⟨r, hr⟩
          obtain ⟨k, hk, -⟩ := (C89_block_fails _ _ _ r).1 (Prod.ext hr rfl)
          have := (readAll_fails (schemasOf cs) rd0 _ r).2 ⟨k, hk, rfl⟩
          rw [h] at this
          exact fails_ne _ _ (Prod.mk.inj this).1
        rcases res_cases (readArgsFromLines ((schemasOf cs).flatMap Schema.fields) rd0).1 with ⟨a, ha⟩ | hr
        · exact ⟨a, ((C89_block_ok _ _ _ a).1 (Prod.ext ha rfl)).1⟩
        · exact absurd hr hno
    rcases res_cases q with ⟨w, rfl⟩ | ⟨e, rfl⟩
    · obtain ⟨k1, rfl⟩ := (readAll_ok _ _ _ _).1 h
      have no : ∀ k, ¬ FirstBad ((schemasOf cs).flatMap Schema.fields) rd0 k r := by
        intro k hk
        have := (readAll_fails _ _ _ _).2 ⟨k, hk, rfl⟩
        rw [h] at this
        exact fails_ne _ _ (Prod.mk.inj this).1
      have ex' := ex.2 ⟨w, rfl⟩
      simp only [no, ex', true_and, false_or]
      have l := C89_block_fails sim.schema.fields (rd0.drop ((schemasOf cs).flatMap Schema.fields).length) rd' r
      have r' : (∃ k, FirstBad sim.schema.fields (rd0.drop ((schemasOf cs).flatMap Schema.fields).length) k r ∧
          rd' = (rd0.drop ((schemasOf cs).flatMap Schema.fields).length).drop (k + 1)) ↔
          ∃ k, (∃ k', k = ((schemasOf cs).flatMap Schema.fields).length + k' ∧
            FirstBad sim.schema.fields (rd0.drop ((schemasOf cs).flatMap Schema.fields).length) k' r) ∧ rd' = rd0.drop (k + 1) := by
        constructor
        · rintro ⟨k, a, b⟩
          exact ⟨_ + k, ⟨k, rfl, a⟩, by rw [b, List.drop_drop]; rfl⟩
        · rintro ⟨k, ⟨k', rfl, a⟩, b⟩
          exact ⟨k', a, by rw [b, List.drop_drop]; rfl⟩
      rw [← r', ← l]
      cases readArgsFromLines sim.schema.fields (rd0.drop ((schemasOf cs).flatMap Schema.fields).length) with
      | mk q2 rd2 => cases q2 <;> cases r <;> simp [failure]
    · have no : ¬ ∃ v, Fits ((schemasOf cs).flatMap Schema.fields) rd0 v := by
        rw [ex]; rintro ⟨w, hw⟩; exact fails_ne _ _ hw.symm
      simp only [no, false_and, or_false]
      rw [← readAll_fails, h]
      cases e <;> cases r <;> simp [failure]

/-! ### concrete cases: a clock (`dt`, `tmax`), values read as natural numbers -/

/-- a value that is not a number in the second line: the first line is fine, so the second one is the first bad one. -/
example : FirstBad (constStepSchema natFmt).fields [.ok (chars! "dt : 3"), .ok (chars! "tmax : x")] 1 none ∧
    FirstBad (constStepSchema natFmt).fields [.ok (chars! "dt : 3")] 1 (some .invalidFile) ∧
    FirstBad (constStepSchema natFmt).fields [.ok (chars! "dt : 3:4")] 0 (some .invalidFormat) := by
  have first : ∀ (rd : Reader), rd[0]? = some (.ok (chars! "dt : 3")) →
      ∀ (j : Nat) (h : Field), j < 1 → (constStepSchema natFmt).fields[j]? = some h → ∃ x, LineFor h rd[j]? (.ok x) := by
    intro rd hrd j h hj hh
    obtain rfl : j = 0 := by omega
    rw [hrd]
    have : h = (constStepSchema natFmt).fields[0] := (Option.some.inj hh).symm
    subst this
    have hp : (constStepSchema natFmt).fields[0].parse (Str.trim (chars! " 3")) = .ok (3 : Nat) := by
      rfl
    have := LineFor.value (g := (constStepSchema natFmt).fields[0]) (chars! "dt ") (chars! " 3") _ (by decide) (by decide) hp
    exact ⟨(3 : Nat), this⟩
  refine ⟨⟨first _ rfl, _, rfl, ?_⟩, ⟨first _ rfl, _, rfl, .missing⟩, ⟨fun j h hj => absurd hj (by omega), _, rfl, .colons _ (by decide)⟩⟩
  refine .garbage (chars! "tmax ") (chars! " x") (by decide) (by decide) fun x hx => ?_
  cases hx

end Moledyn.Props
