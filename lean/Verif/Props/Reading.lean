import Verif.Spec.Reading
import Verif.Props.TypesText
/-
C81: exactly which texts are read as what.
-/
set_option linter.unusedSimpArgs false
namespace Moledyn.Props
open Moledyn

theorem mem_takeWhile {α : Type} {p : α → Bool} {l : List α} {c : α} (h : c ∈ l.takeWhile p) : p c = true := by
  induction l with
  | nil => simp at h
  | cons x l ih =>
    rw [List.takeWhile_cons] at h
    split at h
    · rename_i hx
      rcases List.mem_cons.1 h with rfl | h
      · exact hx
      · exact ih h
    · simp at h

/-- Cutting at blanks finds the words of a text, and a text has only one list of words. -/
theorem C81_words (s : Str) (ws : List Str) : Str.words s = ws ↔ Str.HasWords s ws := by
  have back : ∀ (ws : List Str) (s : Str), Str.HasWords s ws → Str.words s = ws := by
    intro ws
    induction ws with
    | nil => intro s h; exact Str.words_blank h
    | cons w ws ih =>
      rintro s ⟨b, a, rfl, hb, hne, hw, ha, h⟩
      have := ih a h
      rw [List.append_assoc, Str.words_ws_append _ hb]
      cases a with
      | nil =>
        rw [Str.words_nil] at this
        rw [← this, List.append_nil, Str.words_word hw hne]
      | cons c a =>
        have hc : Str.isWs c = true := ha c (by simp)
        rw [Str.words_cons hw hne hc]
        rw [show c :: a = [c] ++ a from rfl, Str.words_ws_append _ (by simpa using hc)] at this
        rw [this]
  have exist : ∀ (n : Nat) (s : Str), s.length ≤ n → ∃ ws, Str.HasWords s ws := by
    intro n
    induction n with
    | zero =>
      intro s hs
      have : s = [] := List.eq_nil_of_length_eq_zero (by omega)
      exact ⟨[], by subst this; intro c hc; simp at hc⟩
    | succ n ih =>
      intro s hs
      by_cases hb : Str.Blank s
      · exact ⟨[], hb⟩
      · have e1 := List.takeWhile_append_dropWhile (p := Str.isWs) (l := s)
        have e2 := List.takeWhile_append_dropWhile (p := fun c => !Str.isWs c) (l := s.dropWhile Str.isWs)
        have hd : s.dropWhile Str.isWs ≠ [] := by
          intro h
          exact hb fun c hc => by
            rw [h, List.append_nil] at e1
            rw [← e1] at hc
            exact mem_takeWhile hc
        have hw : (s.dropWhile Str.isWs).takeWhile (fun c => !Str.isWs c) ≠ [] := by
          cases hds : s.dropWhile Str.isWs with
          | nil => exact absurd hds hd
          | cons c r =>
            have : Str.isWs c = false := by
              have := List.head?_dropWhile_not Str.isWs s
              rw [hds] at this
              simpa using this
            simp [List.takeWhile_cons, this]
        obtain ⟨ws, hws⟩ := ih ((s.dropWhile Str.isWs).dropWhile fun c => !Str.isWs c) (by
          have h1 := congrArg List.length e1
          have h2 := congrArg List.length e2
          have h3 := List.length_pos_iff.2 hw
          simp only [List.length_append] at h1 h2
          omega)
        refine ⟨_ :: ws, s.takeWhile Str.isWs, _, ?_, fun c hc => mem_takeWhile hc, hw,
          fun c hc => by have := mem_takeWhile hc; simpa using this, fun c hc => ?_, hws⟩
        · rw [List.append_assoc, e2, e1]
        · have := List.head?_dropWhile_not (fun c => !Str.isWs c) (s.dropWhile Str.isWs)
          rw [Option.mem_def] at hc
          rw [hc] at this
          simpa using this
  constructor
  · rintro rfl
    obtain ⟨ws, h⟩ := exist _ s le_rfl
    rw [back ws s h]; exact h
  · exact back ws s

theorem digitVal_iff (c : Char) (d : Nat) : Str.digitVal c = some d ↔ decimals[d]? = some c := by
  unfold Str.digitVal
  constructor
  · intro h
    split at h
    · rename_i hc
      simp only [Option.some.injEq] at h
      have : c = Char.ofNat c.toNat := (Char.ofNat_toNat c).symm
      have hd : d ≤ 9 := by omega
      have e : c.toNat = 48 + d := by omega
      rw [e] at this
      subst this
      interval_cases d <;> rfl
    · simp at h
  · intro h
    have hd : d < 10 := by
      have := (List.getElem?_eq_some_iff.1 h).1
      simpa [decimals] using this
    interval_cases d <;> (simp [decimals] at h; subst h; decide)

theorem parseDigits_iff (cs : Str) (acc n : Nat) : Str.parseDigits acc cs = some n ↔
    ∃ ds, List.Forall₂ (fun c d => decimals[d]? = some c) cs ds ∧ n = ds.foldl (fun n d => 10 * n + d) acc := by
  induction cs generalizing acc with
  | nil => simp [Str.parseDigits, eq_comm]
  | cons c cs ih =>
    unfold Str.parseDigits
    cases hc : Str.digitVal c with
    | none =>
      simp only [reduceCtorEq, false_iff, not_exists, not_and]
      intro ds h
      cases h with
      | cons h1 _ => rw [(digitVal_iff _ _).2 h1] at hc; cases hc
    | some d =>
      simp only [ih]
      constructor
      · rintro ⟨ds, h1, h2⟩
        exact ⟨d :: ds, .cons ((digitVal_iff _ _).1 hc) h1, by rw [h2, List.foldl_cons, mul_comm]⟩
      · rintro ⟨ds, h1, h2⟩
        cases h1 with
        | cons h1 h3 =>
          rw [(digitVal_iff _ _).2 h1, Option.some.injEq] at hc
          subst hc
          exact ⟨_, h3, by rw [h2, List.foldl_cons, mul_comm]⟩

/-- A text is read as a whole number exactly if it consists of decimal digits, at least one, with or without a plus sign in
front, and the number is below 2^64. -/
theorem C81_usize (s : Str) (n : Nat) : Str.parseNat s = some n ↔ s.IsNumber n := by
  unfold Str.parseNat Str.IsNumber
  have hplus : ∀ d : Nat, decimals[d]? ≠ some '+' := by
    intro d h
    have := (digitVal_iff _ _).2 h
    revert this
    simp [Str.digitVal]
  have hcs : ∀ (cs : Str) (ds : List Nat), List.Forall₂ (fun c d => decimals[d]? = some c) cs ds → (s = cs ∨ s = '+' :: cs) →
      Str.stripPlus s = cs := by
    rintro cs ds h (rfl | rfl)
    · cases h with
      | nil => rfl
      | @cons c d cs ds h1 h2 =>
        have : c ≠ '+' := by rintro rfl; exact hplus _ h1
        unfold Str.stripPlus
        split
        · rename_i h; simp at h; exact absurd h.1 this
        · rfl
    · rfl
  have hsp : s = Str.stripPlus s ∨ s = '+' :: Str.stripPlus s := by
    unfold Str.stripPlus
    split
    · right; rfl
    · left; rfl
  constructor
  · intro h
    split at h
    · simp at h
    · rename_i hne
      cases hp : Str.parseDigits 0 (Str.stripPlus s) with
      | none => rw [hp] at h; simp at h
      | some m =>
        rw [hp] at h
        simp only at h
        split at h
        · rename_i hm
          simp only [Option.some.injEq] at h
          subst h
          obtain ⟨ds, h1, h2⟩ := (parseDigits_iff _ _ _).1 hp
          exact ⟨_, ds, hsp, hne, h1, h2, hm⟩
        · simp at h
  · rintro ⟨cs, ds, h1, h2, h3, h4, h5⟩
    rw [hcs cs ds h3 h1, if_neg h2, (parseDigits_iff _ _ _).2 ⟨ds, h3, h4⟩]
    exact if_pos h5

theorem dropBytes_iff (n : Nat) (s r : Str) : Str.dropBytes n s = .ok r ↔
    ∃ p, s = p ++ r ∧ (p.map Char.utf8Size).sum = n := by
  induction s generalizing n with
  | nil =>
    cases n with
    | zero =>
      unfold Str.dropBytes
      simp only [Res.ok.injEq]
      constructor
      · rintro rfl; exact ⟨[], rfl, rfl⟩
      · rintro ⟨p, h, -⟩
        exact (List.append_eq_nil_iff.1 h.symm).2.symm
    | succ n =>
      unfold Str.dropBytes
      simp only [reduceCtorEq, false_iff, not_exists, not_and]
      intro p h
      have := (List.append_eq_nil_iff.1 h.symm).1
      subst this
      simp
  | cons c s ih =>
    cases n with
    | zero =>
      unfold Str.dropBytes
      simp only [Res.ok.injEq]
      constructor
      · rintro rfl; exact ⟨[], rfl, rfl⟩
      · rintro ⟨p, h, h'⟩
        cases p with
        | nil => exact h
        | cons d p =>
          simp only [List.map_cons, List.sum_cons] at h'
          have := Char.utf8Size_pos d
          omega
    | succ n =>
      unfold Str.dropBytes
      constructor
      · intro h
        split at h
        · rename_i hc
          obtain ⟨p, rfl, h2⟩ := (ih _).1 h
          exact ⟨c :: p, rfl, by simp only [List.map_cons, List.sum_cons, h2]; omega⟩
        · simp at h
      · rintro ⟨p, h, h'⟩
        cases p with
        | nil => simp at h'
        | cons d p =>
          simp only [List.cons_append, List.cons.injEq] at h
          obtain ⟨rfl, rfl⟩ := h
          simp only [List.map_cons, List.sum_cons] at h'
          rw [if_pos (by omega)]
          exact (ih _).2 ⟨p, rfl, by omega⟩

theorem three_iff (s r : Str) : Str.dropBytes 3 s = .ok r ↔ s.AfterThreeBytes r := dropBytes_iff 3 s r

theorem dropBytes_ne_err (n : Nat) (s : Str) (e : ErrorCode) : Str.dropBytes n s ≠ .err e := by
  induction s generalizing n with
  | nil => cases n <;> simp [Str.dropBytes]
  | cons c s ih =>
    cases n with
    | zero => simp [Str.dropBytes]
    | succ n =>
      unfold Str.dropBytes
      split
      · exact ih _
      · simp

theorem Res.index_ok {α : Type} (l : List α) (n : Nat) (a : α) : Res.index l n = .ok a ↔ l[n]? = some a := by
  unfold Res.index
  cases l[n]? <;> simp

theorem Res.bind_eq_ok {α β : Type} (x : Res α) (f : α → Res β) (b : β) : x.bind f = .ok b ↔ ∃ a, x = .ok a ∧ f a = .ok b := by
  cases x <;> simp

theorem Res.map_eq_ok {α β : Type} (x : Res α) (f : α → β) (b : β) : x.map f = .ok b ↔ ∃ a, x = .ok a ∧ f a = b := by
  cases x <;> simp

theorem orInvalid_ok {α : Type} (o : Option α) (a : α) : Res.orInvalid o = .ok a ↔ o = some a := by
  cases o <;> simp [Res.orInvalid]

theorem expect_ok {α : Type} (o : Option α) (a : α) : Res.expect o = .ok a ↔ o = some a := by
  cases o <;> simp [Res.expect]

theorem expectOk_ok {α : Type} (o : Res α) (a : α) : Res.expectOk o = .ok a ↔ o = .ok a := by
  cases o <;> simp [Res.expectOk]

/-- Movements: `Brownian` and a number as fifth word; anything that starts with `Levy`; or one word that is a number. -/
theorem C81_move_type {F : Type} (f : NumFmt F) (s : Str) (t : MoveType F) :
    MoveType.fromStr f s = .ok t ↔ ∃ ws, Str.HasWords s ws ∧
      ((∃ w c, ws[0]? = some (chars! "Brownian") ∧ ws[4]? = some w ∧ f.parse w = some c ∧ t = .brownian c) ∨
       (ws[0]? = some (chars! "Levy") ∧ t = .levy) ∨
       (∃ w c, ws = [w] ∧ w ≠ chars! "Brownian" ∧ w ≠ chars! "Levy" ∧ f.parse w = some c ∧ t = .brownian c)) := by
  simp only [← C81_words, exists_eq_left']
  unfold MoveType.fromStr
  simp only [Res.bind_eq_ok, Res.index_ok]
  generalize Str.words s = ws
  constructor
  · rintro ⟨w, h0, h⟩
    split at h
    · rename_i h1
      simp only [Res.bind_eq_ok, Res.map_eq_ok, Res.index_ok, expect_ok] at h
      obtain ⟨v, h4, c, hc, rfl⟩ := h
      exact .inl ⟨v, c, h1 ▸ h0, h4, hc, rfl⟩
    · rename_i h1
      split at h
      · rename_i h2
        simp only [Res.ok.injEq] at h
        exact .inr (.inl ⟨h2 ▸ h0, h.symm⟩)
      · rename_i h2
        split at h
        · rename_i h3
          simp only [Res.map_eq_ok, orInvalid_ok] at h
          obtain ⟨c, hc, rfl⟩ := h
          obtain ⟨v, rfl⟩ := List.length_eq_one_iff.1 h3
          simp only [List.getElem?_cons_zero, Option.some.injEq] at h0
          subst h0
          exact .inr (.inr ⟨v, c, rfl, h1, h2, hc, rfl⟩)
        · simp at h
  · rintro (⟨w, c, h0, h4, hc, rfl⟩ | ⟨h0, rfl⟩ | ⟨w, c, rfl, h1, h2, hc, rfl⟩)
    · refine ⟨_, h0, ?_⟩
      rw [if_pos rfl]
      simp only [Res.bind_eq_ok, Res.map_eq_ok, Res.index_ok, expect_ok]
      exact ⟨w, h4, c, hc, rfl⟩
    · refine ⟨_, h0, ?_⟩
      rw [if_neg (by decide), if_pos rfl]
    · refine ⟨w, rfl, ?_⟩
      rw [if_neg h1, if_neg h2, if_pos (by simp)]
      simp only [Res.map_eq_ok, orInvalid_ok]
      exact ⟨c, hc, rfl⟩

theorem trimMatches_iff {p : Char → Bool} (s t : Str) : Str.trimMatches p s = t ↔ s.Stripped (fun c => p c = true) t := by
  constructor
  · rintro rfl
    unfold Str.trimMatches Str.trimStart Str.trimEnd
    have e1 := List.takeWhile_append_dropWhile (p := p) (l := s)
    have e2 := List.takeWhile_append_dropWhile (p := p) (l := (s.dropWhile p).reverse)
    have e3 := congrArg List.reverse e2
    rw [List.reverse_append, List.reverse_reverse] at e3
    refine ⟨s.takeWhile p, ((s.dropWhile p).reverse.takeWhile p).reverse, ?_, fun c hc => mem_takeWhile hc, fun c hc => ?_,
      fun c hc => ?_, fun c hc => ?_⟩
    · rw [List.append_assoc, e3, e1]
    · exact mem_takeWhile (List.mem_reverse.1 hc)
    · have h1 := List.head?_dropWhile_not p s
      have h2 : (s.dropWhile p).head? = some c := by
        rw [← e3, List.head?_append, Option.mem_def.1 hc]; rfl
      rw [h2] at h1
      simpa using h1
    · rw [List.getLast?_reverse] at hc
      have h1 := List.head?_dropWhile_not p (s.dropWhile p).reverse
      rw [Option.mem_def.1 hc] at h1
      simpa using h1
  · rintro ⟨a, b, rfl, ha, hb, h1, h2⟩
    exact Str.trimMatches_core ha hb (fun c hc => by simpa using h1 c hc) fun c hc => by simpa using h2 c hc

theorem splitBy_iff {p : Char → Bool} (s : Str) (ws : List Str) : Str.splitBy p s = ws ↔ s.Cut (fun c => p c = true) ws := by
  have back : ∀ (ws : List Str) (s : Str), s.Cut (fun c => p c = true) ws → Str.splitBy p s = ws := by
    intro ws
    induction ws with
    | nil => intro s h; exact h.elim
    | cons w ws ih =>
      intro s h
      cases ws with
      | nil =>
        obtain ⟨rfl, h⟩ := h
        exact Str.splitBy_clean fun c hc => by simpa using h c hc
      | cons v ws =>
        obtain ⟨c, r, rfl, h1, h2, h3⟩ := h
        rw [Str.splitBy_cons (fun c hc => by simpa using h1 c hc) h2, ih r h3]
  have exist : ∀ s : Str, ∃ w ws, s.Cut (fun c => p c = true) (w :: ws) := by
    intro s
    induction s with
    | nil => exact ⟨[], [], rfl, by simp⟩
    | cons c s ih =>
      obtain ⟨w, ws, h⟩ := ih
      by_cases hc : p c = true
      · exact ⟨[], w :: ws, c, s, rfl, by simp, hc, h⟩
      · cases ws with
        | nil =>
          obtain ⟨rfl, h⟩ := h
          refine ⟨c :: s, [], rfl, fun d hd => ?_⟩
          rcases List.mem_cons.1 hd with rfl | hd
          · exact hc
          · exact h d hd
        | cons v ws =>
          obtain ⟨d, r, rfl, h1, h2, h3⟩ := h
          refine ⟨c :: w, v :: ws, d, r, rfl, fun d hd => ?_, h2, h3⟩
          rcases List.mem_cons.1 hd with rfl | hd
          · exact hc
          · exact h1 d hd
  constructor
  · rintro rfl
    obtain ⟨w, ws, h⟩ := exist s
    rw [back _ s h]; exact h
  · exact back ws s

/-- Positions: blanks at the ends are dropped, then brackets at the ends; the rest is cut at every comma and colon, and a piece
that is not a number counts as 0 (the default). -/
theorem C81_position {T : Type} (f : NumFmt T) (s : Str) (p : Pos T) :
    Pos.fromStr f s = .ok p ↔ ∃ a b ws, s.Stripped (fun c => Str.isWs c = true) a ∧ a.Stripped (fun c => c = '(' ∨ c = ')') b ∧
      b.Cut (fun c => c = ',' ∨ c = ':') ws ∧ p = ws.map fun w => (f.parse w).getD f.dflt := by
  have h1 := fun a b => trimMatches_iff (p := fun c => c == '(' || c == ')') a b
  have h2 := fun a b => splitBy_iff (p := fun c => c == ',' || c == ':') a b
  simp only [Bool.or_eq_true, beq_iff_eq] at h1 h2
  simp only [← h1, ← h2, ← trimMatches_iff]
  unfold Pos.fromStr Str.trim
  simp only [Res.ok.injEq]
  constructor
  · intro h; exact ⟨_, _, _, rfl, rfl, rfl, h.symm⟩
  · rintro ⟨_, _, _, rfl, rfl, rfl, rfl⟩; rfl

/-- Placements: `Uniform`, or another word alone, which is a position (an unreadable coordinate is read as 0, C32); several
words of which the second one is `agents`; or `all` as second and a position as fifth word. -/
theorem C81_init_type {F : Type} (f : NumFmt F) (s : Str) (t : InitType F) :
    InitType.fromStr f s = .ok t ↔ ∃ ws, Str.HasWords s ws ∧
      ((ws = [chars! "Uniform"] ∧ t = .uniform) ∨
       (∃ w p, ws = [w] ∧ w ≠ chars! "Uniform" ∧ Pos.fromStr f w = .ok p ∧ t = .specificPosition p) ∨
       (ws[1]? = some (chars! "agents") ∧ t = .uniform) ∨
       (∃ w p, ws[1]? = some (chars! "all") ∧ ws[4]? = some w ∧ Pos.fromStr f w = .ok p ∧ t = .specificPosition p)) := by
  simp only [← C81_words, exists_eq_left']
  unfold InitType.fromStr
  simp only
  generalize Str.words s = ws
  constructor
  · intro h
    split at h
    · rename_i hl
      obtain ⟨w, rfl⟩ := List.length_eq_one_iff.1 hl
      simp only [Res.bind_eq_ok, Res.index_ok, List.getElem?_cons_zero, Option.some.injEq, exists_eq_left'] at h
      split at h
      · rename_i h1
        simp only [Res.ok.injEq] at h
        exact .inl ⟨by rw [h1], h.symm⟩
      · rename_i h1
        simp only [Res.map_eq_ok] at h
        obtain ⟨p, hp, rfl⟩ := h
        exact .inr (.inl ⟨w, p, rfl, h1, hp, rfl⟩)
    · simp only [Res.bind_eq_ok, Res.index_ok] at h
      obtain ⟨w, h1, h⟩ := h
      split at h
      · rename_i h2
        simp only [Res.bind_eq_ok, Res.map_eq_ok, Res.index_ok, expectOk_ok] at h
        obtain ⟨v, h4, p, hp, rfl⟩ := h
        exact .inr (.inr (.inr ⟨v, p, h2 ▸ h1, h4, hp, rfl⟩))
      · split at h
        · rename_i h2
          simp only [Res.ok.injEq] at h
          exact .inr (.inr (.inl ⟨h2 ▸ h1, h.symm⟩))
        · simp at h
  · rintro (⟨rfl, rfl⟩ | ⟨w, p, rfl, h1, hp, rfl⟩ | ⟨h1, rfl⟩ | ⟨w, p, h1, h4, hp, rfl⟩)
    · rfl
    · rw [if_pos (by simp)]
      simp only [Res.bind_eq_ok, Res.index_ok, List.getElem?_cons_zero, Option.some.injEq, exists_eq_left']
      rw [if_neg h1, hp]
      rfl
    · rw [if_neg (by rintro hl; obtain ⟨v, rfl⟩ := List.length_eq_one_iff.1 hl; simp at h1)]
      simp only [Res.bind_eq_ok, Res.index_ok]
      refine ⟨_, h1, ?_⟩
      rw [if_neg (by decide), if_pos rfl]
    · rw [if_neg (by rintro hl; obtain ⟨v, rfl⟩ := List.length_eq_one_iff.1 hl; simp at h1)]
      simp only [Res.bind_eq_ok, Res.index_ok]
      refine ⟨_, h1, ?_⟩
      rw [if_pos rfl]
      simp only [Res.bind_eq_ok, Res.map_eq_ok, Res.index_ok, expectOk_ok]
      exact ⟨w, h4, p, hp, rfl⟩

/-- Systems: the first word says `Circular`, `Rectangular`, `Lattice` or `Network`; or it is `Continuous` and the second one says
`Circular` or `Rectangular`; for cylinders the first word is a positive number, or `Continuous Cylindrical` is followed by a
fourth word that has a number after three bytes. -/
theorem C81_system_type (s : Str) (t : SystemType) :
    SystemType.fromStr s = .ok t ↔ ∃ ws, Str.HasWords s ws ∧
      (((ws[0]? = some (chars! "Circular") ∨ (ws[0]? = some (chars! "Continuous") ∧ ws[1]? = some (chars! "Circular"))) ∧
          t = .continuousCircular) ∨
       ((ws[0]? = some (chars! "Rectangular") ∨ (ws[0]? = some (chars! "Continuous") ∧ ws[1]? = some (chars! "Rectangular"))) ∧
          t = .continuousRectangular) ∨
       (ws[0]? = some (chars! "Lattice") ∧ t = .lattice) ∨
       (ws[0]? = some (chars! "Network") ∧ t = .network) ∨
       (∃ w d, ws[0]? = some w ∧ w.IsNumber d ∧ 0 < d ∧ t = .continuousCylindrical d) ∨
       (∃ w r d, ws[0]? = some (chars! "Continuous") ∧ ws[1]? = some (chars! "Cylindrical") ∧ ws[3]? = some w ∧
          w.AfterThreeBytes r ∧ r.IsNumber d ∧ t = .continuousCylindrical d)) := by
  simp only [← C81_words, exists_eq_left', ← C81_usize, ← three_iff]
  unfold SystemType.fromStr
  simp only [Res.bind_eq_ok, Res.index_ok]
  generalize Str.words s = ws
  constructor
  · rintro ⟨w, h0, h⟩
    split at h
    · rename_i e; subst e
      simp only [Res.bind_eq_ok, Res.index_ok] at h
      obtain ⟨v, h1, h⟩ := h
      split at h
      · rename_i e; subst e; simp only [Res.ok.injEq] at h; exact .inl ⟨.inr ⟨h0, h1⟩, h.symm⟩
      split at h
      · rename_i e; subst e; simp only [Res.ok.injEq] at h; exact .inr (.inl ⟨.inr ⟨h0, h1⟩, h.symm⟩)
      split at h
      · rename_i e; subst e
        simp only [Res.bind_eq_ok, Res.index_ok, Res.map_eq_ok, orInvalid_ok] at h
        obtain ⟨x, h3, r, hr, d, hd, rfl⟩ := h
        exact .inr (.inr (.inr (.inr (.inr ⟨x, r, d, h0, h1, h3, hr, hd, rfl⟩))))
      · simp at h
    split at h
    · rename_i e; subst e; simp only [Res.ok.injEq] at h; exact .inr (.inr (.inl ⟨h0, h.symm⟩))
    split at h
    · rename_i e; subst e; simp only [Res.ok.injEq] at h; exact .inr (.inr (.inr (.inl ⟨h0, h.symm⟩)))
    split at h
    · rename_i e; subst e; simp only [Res.ok.injEq] at h; exact .inl ⟨.inl h0, h.symm⟩
    split at h
    · rename_i e; subst e; simp only [Res.ok.injEq] at h; exact .inr (.inl ⟨.inl h0, h.symm⟩)
    · simp only [Res.bind_eq_ok, orInvalid_ok] at h
      obtain ⟨d, hd, h⟩ := h
      split at h
      · simp at h
      · simp only [Res.ok.injEq] at h
        exact .inr (.inr (.inr (.inr (.inl ⟨w, d, h0, hd, by omega, h.symm⟩))))
  · rintro (⟨h0 | ⟨h0, h1⟩, rfl⟩ | ⟨h0 | ⟨h0, h1⟩, rfl⟩ | ⟨h0, rfl⟩ | ⟨h0, rfl⟩ | ⟨w, d, h0, hd, hp, rfl⟩ | ⟨w, r, d, h0, h1, h3, hr, hd, rfl⟩)
    · exact ⟨_, h0, rfl⟩
    · refine ⟨_, h0, ?_⟩
      rw [if_pos rfl]
      simp only [Res.bind_eq_ok, Res.index_ok]
      exact ⟨_, h1, rfl⟩
    · exact ⟨_, h0, rfl⟩
    · refine ⟨_, h0, ?_⟩
      rw [if_pos rfl]
      simp only [Res.bind_eq_ok, Res.index_ok]
      exact ⟨_, h1, rfl⟩
    · exact ⟨_, h0, rfl⟩
    · exact ⟨_, h0, rfl⟩
    · refine ⟨_, h0, ?_⟩
      have hne : ∀ l : Str, Str.parseNat l = none → w ≠ l := by rintro l hl rfl; rw [hl] at hd; simp at hd
      rw [if_neg (hne _ rfl), if_neg (hne _ rfl), if_neg (hne _ rfl), if_neg (hne _ rfl), if_neg (hne _ rfl)]
      simp only [Res.bind_eq_ok, orInvalid_ok]
      exact ⟨d, hd, by rw [if_neg (by omega)]⟩
    · refine ⟨_, h0, ?_⟩
      rw [if_pos rfl]
      simp only [Res.bind_eq_ok, Res.index_ok]
      refine ⟨_, h1, ?_⟩
      rw [if_neg (by decide), if_neg (by decide), if_pos rfl]
      simp only [Res.bind_eq_ok, Res.index_ok, Res.map_eq_ok, orInvalid_ok]
      exact ⟨w, h3, r, hr, d, hd, rfl⟩

/-- Boundaries: the first word is `Reflective`, `Periodic` or a positive number; or it is `Mixed`, and the fourth one has a number
after three bytes. -/
theorem C81_boundary_cond (s : Str) (t : BoundaryCond) :
    BoundaryCond.fromStr s = .ok t ↔ ∃ ws, Str.HasWords s ws ∧
      ((ws[0]? = some (chars! "Reflective") ∧ t = .reflection) ∨
       (ws[0]? = some (chars! "Periodic") ∧ t = .periodic) ∨
       (∃ w d, ws[0]? = some w ∧ w.IsNumber d ∧ 0 < d ∧ t = .mixed d) ∨
       (∃ w r d, ws[0]? = some (chars! "Mixed") ∧ ws[3]? = some w ∧ w.AfterThreeBytes r ∧ r.IsNumber d ∧ t = .mixed d)) := by
  simp only [← C81_words, exists_eq_left', ← C81_usize, ← three_iff]
  unfold BoundaryCond.fromStr
  simp only [Res.bind_eq_ok, Res.index_ok]
  generalize Str.words s = ws
  constructor
  · rintro ⟨w, h0, h⟩
    split at h
    · rename_i e; subst e; simp only [Res.ok.injEq] at h; exact .inl ⟨h0, h.symm⟩
    split at h
    · rename_i e; subst e; simp only [Res.ok.injEq] at h; exact .inr (.inl ⟨h0, h.symm⟩)
    split at h
    · rename_i e; subst e
      simp only [Res.bind_eq_ok, Res.index_ok, Res.map_eq_ok, orInvalid_ok] at h
      obtain ⟨x, h3, r, hr, d, hd, rfl⟩ := h
      exact .inr (.inr (.inr ⟨x, r, d, h0, h3, hr, hd, rfl⟩))
    · simp only [Res.bind_eq_ok, orInvalid_ok] at h
      obtain ⟨d, hd, h⟩ := h
      split at h
      · simp at h
      · simp only [Res.ok.injEq] at h
        exact .inr (.inr (.inl ⟨w, d, h0, hd, by omega, h.symm⟩))
  · rintro (⟨h0, rfl⟩ | ⟨h0, rfl⟩ | ⟨w, d, h0, hd, hp, rfl⟩ | ⟨w, r, d, h0, h3, hr, hd, rfl⟩)
    · exact ⟨_, h0, rfl⟩
    · exact ⟨_, h0, rfl⟩
    · refine ⟨_, h0, ?_⟩
      have hne : ∀ l : Str, Str.parseNat l = none → w ≠ l := by rintro l hl rfl; rw [hl] at hd; simp at hd
      rw [if_neg (hne _ rfl), if_neg (hne _ rfl), if_neg (hne _ rfl)]
      simp only [Res.bind_eq_ok, orInvalid_ok]
      exact ⟨d, hd, by rw [if_neg (by omega)]⟩
    · refine ⟨_, h0, ?_⟩
      rw [if_neg (by decide), if_neg (by decide), if_pos rfl]
      simp only [Res.bind_eq_ok, Res.index_ok, Res.map_eq_ok, orInvalid_ok]
      exact ⟨w, h3, r, hr, d, hd, rfl⟩

/-- Time steps: `Constant` and a number as sixth word; `Exponential` and numbers as sixth, eighth and fourteenth word; or, if the
first word is neither, one number alone or three. -/
theorem C81_time_type {F : Type} (f : NumFmt F) (s : Str) (t : TimeType F) :
    TimeType.fromStr f s = .ok t ↔ ∃ ws, Str.HasWords s ws ∧
      ((∃ w c, ws[0]? = some (chars! "Constant") ∧ ws[5]? = some w ∧ f.parse w = some c ∧ t = .constant c) ∨
       (∃ u v w a b n, ws[0]? = some (chars! "Exponential") ∧ ws[5]? = some u ∧ ws[7]? = some v ∧ ws[13]? = some w ∧
          f.parse u = some a ∧ f.parse v = some b ∧ w.IsNumber n ∧ t = .exponential a b n) ∨
       (∃ w c, ws = [w] ∧ w ≠ chars! "Constant" ∧ w ≠ chars! "Exponential" ∧ f.parse w = some c ∧ t = .constant c) ∨
       (∃ u v w a b n, ws = [u, v, w] ∧ u ≠ chars! "Constant" ∧ u ≠ chars! "Exponential" ∧
          f.parse u = some a ∧ f.parse v = some b ∧ w.IsNumber n ∧ t = .exponential a b n)) := by
  simp only [← C81_words, exists_eq_left', ← C81_usize]
  unfold TimeType.fromStr
  simp only [Res.bind_eq_ok, Res.index_ok]
  generalize Str.words s = ws
  constructor
  · rintro ⟨w, h0, h⟩
    split at h
    · rename_i e; subst e
      simp only [Res.bind_eq_ok, Res.map_eq_ok, Res.index_ok, expect_ok] at h
      obtain ⟨v, h5, c, hc, rfl⟩ := h
      exact .inl ⟨v, c, h0, h5, hc, rfl⟩
    split at h
    · rename_i e; subst e
      simp only [Res.bind_eq_ok, Res.map_eq_ok, Res.index_ok, orInvalid_ok] at h
      obtain ⟨u, h5, a, ha, v, h7, b, hb, x, h13, n, hn, rfl⟩ := h
      exact .inr (.inl ⟨u, v, x, a, b, n, h0, h5, h7, h13, ha, hb, hn, rfl⟩)
    · rename_i e1 e2
      split at h
      · simp only [List.getElem?_cons_zero, Option.some.injEq] at h0
        subst h0
        simp only [Res.map_eq_ok, orInvalid_ok] at h
        obtain ⟨c, hc, rfl⟩ := h
        exact .inr (.inr (.inl ⟨_, c, rfl, e1, e2, hc, rfl⟩))
      · simp only [List.getElem?_cons_zero, Option.some.injEq] at h0
        subst h0
        simp only [Res.bind_eq_ok, Res.map_eq_ok, orInvalid_ok] at h
        obtain ⟨a, ha, b, hb, n, hn, rfl⟩ := h
        exact .inr (.inr (.inr ⟨_, _, _, a, b, n, rfl, e1, e2, ha, hb, hn, rfl⟩))
      · simp at h
  · rintro (⟨w, c, h0, h5, hc, rfl⟩ | ⟨u, v, w, a, b, n, h0, h5, h7, h13, ha, hb, hn, rfl⟩ | ⟨w, c, rfl, e1, e2, hc, rfl⟩ |
      ⟨u, v, w, a, b, n, rfl, e1, e2, ha, hb, hn, rfl⟩)
    · refine ⟨_, h0, ?_⟩
      rw [if_pos rfl]
      simp only [Res.bind_eq_ok, Res.map_eq_ok, Res.index_ok, expect_ok]
      exact ⟨w, h5, c, hc, rfl⟩
    · refine ⟨_, h0, ?_⟩
      rw [if_neg (by decide), if_pos rfl]
      simp only [Res.bind_eq_ok, Res.map_eq_ok, Res.index_ok, orInvalid_ok]
      exact ⟨u, h5, a, ha, v, h7, b, hb, w, h13, n, hn, rfl⟩
    · refine ⟨w, rfl, ?_⟩
      rw [if_neg e1, if_neg e2]
      simp only [Res.map_eq_ok, orInvalid_ok]
      exact ⟨c, hc, rfl⟩
    · refine ⟨u, rfl, ?_⟩
      rw [if_neg e1, if_neg e2]
      simp only [Res.bind_eq_ok, Res.map_eq_ok, orInvalid_ok]
      exact ⟨a, ha, b, hb, n, hn, rfl⟩

theorem splitBy_first {p : Char → Bool} (s a : Str) : (Str.splitBy p s)[0]? = some a ↔
    (∀ c ∈ a, p c = false) ∧ ∃ rest, s = a ++ rest ∧ ∀ c ∈ rest.head?, p c = true := by
  induction s generalizing a with
  | nil =>
    simp only [Str.splitBy, List.getElem?_cons_zero, Option.some.injEq]
    constructor
    · rintro rfl; exact ⟨by simp, [], rfl, by simp⟩
    · rintro ⟨-, r, h, -⟩
      exact (List.append_eq_nil_iff.1 h.symm).1.symm
  | cons c s ih =>
    unfold Str.splitBy
    split
    · rename_i hc
      simp only [List.getElem?_cons_zero, Option.some.injEq]
      constructor
      · rintro rfl; exact ⟨by simp, c :: s, rfl, by simpa using hc⟩
      · rintro ⟨ha, r, h, -⟩
        cases a with
        | nil => rfl
        | cons d a =>
          simp only [List.cons_append, List.cons.injEq] at h
          have := ha d (by simp)
          rw [← h.1, hc] at this
          simp at this
    · rename_i hc
      rcases hsp : Str.splitBy p s with _ | ⟨w, ws⟩
      · exact absurd hsp (Str.splitBy_ne_nil p s)
      · simp only [hsp, List.getElem?_cons_zero, Option.some.injEq] at ih ⊢
        constructor
        · rintro rfl
          obtain ⟨h1, r, h2, h3⟩ := (ih w).1 rfl
          refine ⟨fun d hd => ?_, r, by rw [h2]; rfl, h3⟩
          rcases List.mem_cons.1 hd with rfl | hd
          · simpa using hc
          · exact h1 d hd
        · rintro ⟨h1, r, h2, h3⟩
          cases a with
          | nil =>
            rw [List.nil_append] at h2
            subst h2
            exact absurd (h3 c (by simp)) hc
          | cons d a =>
            simp only [List.cons_append, List.cons.injEq] at h2
            obtain ⟨rfl, h2⟩ := h2
            rw [(ih a).2 ⟨fun x hx => h1 x (by simp [hx]), r, h2, h3⟩]

theorem splitBy_second {p : Char → Bool} (s a b : Str) :
    ((Str.splitBy p s)[0]? = some a ∧ (Str.splitBy p s)[1]? = some b) ↔
    (∀ c ∈ a, p c = false) ∧ ∃ c r, s = a ++ c :: r ∧ p c = true ∧ (Str.splitBy p r)[0]? = some b := by
  constructor
  · rintro ⟨h0, h1⟩
    obtain ⟨ha, r, rfl, hr⟩ := (splitBy_first s a).1 h0
    refine ⟨ha, ?_⟩
    cases r with
    | nil => rw [List.append_nil, Str.splitBy_clean ha] at h1; simp at h1
    | cons c r =>
      have hc := hr c (by simp)
      rw [Str.splitBy_cons ha hc] at h1
      exact ⟨c, r, rfl, hc, by simpa using h1⟩
  · rintro ⟨ha, c, r, rfl, hc, hb⟩
    rw [Str.splitBy_cons ha hc]
    exact ⟨rfl, by simpa using hb⟩

theorem splitBy_pair {p : Char → Bool} (s a b : Str) : Str.splitBy p s = [a, b] ↔
    (∀ c ∈ a, p c = false) ∧ (∀ c ∈ b, p c = false) ∧ ∃ c, p c = true ∧ s = a ++ c :: b := by
  constructor
  · intro h
    obtain ⟨ha, c, r, rfl, hc, hb⟩ := (splitBy_second s a b).1 (by rw [h]; exact ⟨rfl, rfl⟩)
    rw [Str.splitBy_cons ha hc] at h
    obtain ⟨hb', r', rfl, hr⟩ := (splitBy_first r b).1 hb
    cases r' with
    | nil => rw [List.append_nil]; exact ⟨ha, hb', c, hc, rfl⟩
    | cons d r' =>
      rw [Str.splitBy_cons hb' (hr d (by simp))] at h
      have := Str.splitBy_ne_nil p r'
      simp [this] at h
  · rintro ⟨ha, hb, c, hc, rfl⟩
    rw [Str.splitBy_cons ha hc, Str.splitBy_clean hb]

theorem clean_brackets (a : Str) : (∀ c ∈ a, (c == '(' || c == ')') = false) ↔ '(' ∉ a ∧ ')' ∉ a := by
  simp only [Bool.or_eq_false_iff, beq_eq_false_iff_ne]
  constructor
  · intro h; exact ⟨fun hc => (h _ hc).1 rfl, fun hc => (h _ hc).2 rfl⟩
  · rintro ⟨h1, h2⟩ c hc
    exact ⟨by rintro rfl; exact h1 hc, by rintro rfl; exact h2 hc⟩

theorem name_iff (s a : Str) : (Str.splitBy (fun c => c == '(' || c == ')') s)[0]? = some a ↔ s.Name a := by
  rw [splitBy_first, clean_brackets]
  unfold Str.Name
  simp only [Bool.or_eq_true, beq_iff_eq, and_assoc]

theorem nameArg_iff (s a b : Str) : ((Str.splitBy (fun c => c == '(' || c == ')') s)[0]? = some a ∧
    (Str.splitBy (fun c => c == '(' || c == ')') s)[1]? = some b) ↔ s.NameArg a b := by
  rw [splitBy_second, clean_brackets]
  unfold Str.NameArg
  simp only [splitBy_first, clean_brackets, Bool.or_eq_true, beq_iff_eq]
  constructor
  · rintro ⟨⟨h1, h2⟩, c, r, rfl, hc, ⟨h3, h4⟩, rest, rfl, hr⟩
    exact ⟨c, rest, rfl, hc, h1, h2, h3, h4, hr⟩
  · rintro ⟨c, rest, rfl, hc, h1, h2, h3, h4, hr⟩
    exact ⟨⟨h1, h2⟩, c, _, rfl, hc, ⟨h3, h4⟩, rest, rfl, hr⟩

/-- Interactions: one word, `Exponential(n,x)`, `Coulomb2D`, `Coulomb3D` or `LennardJones(x)`, whatever comes after the brackets;
or several words, namely ten words starting with `Exponential`, of which the fifth and the last are the numbers, five words
starting with `Coulomb`, of which the fourth is the dimension, or seven words starting with `Lennard` and ending with the
number. -/
theorem C81_interact_type {F : Type} (f : NumFmt F) (s : Str) (t : InteractType F) :
    InteractType.fromStr f s = .ok t ↔ ∃ ws, Str.HasWords s ws ∧
      ((∃ w u v n g, ws = [w] ∧ w.NameArg (chars! "Exponential") (u ++ ',' :: v) ∧ ',' ∉ u ∧ ',' ∉ v ∧ u.IsNumber n ∧
          f.parse v = some g ∧ t = .exponential n g) ∨
       (∃ w, ws = [w] ∧ w.Name (chars! "Coulomb2D") ∧ t = .coulomb2D) ∨
       (∃ w, ws = [w] ∧ w.Name (chars! "Coulomb3D") ∧ t = .coulomb3D) ∨
       (∃ w u a, ws = [w] ∧ w.NameArg (chars! "LennardJones") u ∧ f.parse u = some a ∧ t = .lennardJones a) ∨
       (∃ u v n g, ws.length = 10 ∧ ws[0]? = some (chars! "Exponential") ∧ ws[4]? = some u ∧ ws[9]? = some v ∧ u.IsNumber n ∧
          f.parse v = some g ∧ t = .exponential n g) ∨
       (ws.length = 5 ∧ ws[0]? = some (chars! "Coulomb") ∧ ws[3]? = some (chars! "2") ∧ t = .coulomb2D) ∨
       (ws.length = 5 ∧ ws[0]? = some (chars! "Coulomb") ∧ ws[3]? = some (chars! "3") ∧ t = .coulomb3D) ∨
       (∃ v a, ws.length = 7 ∧ ws[0]? = some (chars! "Lennard") ∧ ws[6]? = some v ∧ f.parse v = some a ∧
          t = .lennardJones a)) := by
  simp only [← C81_words, exists_eq_left', ← C81_usize, ← name_iff, ← nameArg_iff]
  unfold InteractType.fromStr
  simp only
  generalize Str.words s = ws
  constructor
  · intro h
    split at h
    · rename_i hl
      obtain ⟨w, rfl⟩ := List.length_eq_one_iff.1 hl
      simp only [Res.bind_eq_ok, Res.index_ok, List.getElem?_cons_zero, Option.some.injEq, exists_eq_left'] at h
      unfold InteractType.fromWord at h
      simp only [Res.bind_eq_ok, Res.index_ok] at h
      obtain ⟨name, h0, h⟩ := h
      split at h
      · rename_i e; subst e
        simp only [Res.bind_eq_ok, Res.index_ok] at h
        obtain ⟨a, h1, h⟩ := h
        split at h
        · rename_i u v hs
          simp only [Res.bind_eq_ok, Res.map_eq_ok, orInvalid_ok] at h
          obtain ⟨n, hn, g, hg, rfl⟩ := h
          obtain ⟨hu, hv, c, hc, rfl⟩ := (splitBy_pair _ _ _).1 hs
          simp only [beq_iff_eq] at hc
          subst hc
          exact .inl ⟨w, u, v, n, g, rfl, ⟨h0, h1⟩, fun q => by simpa using hu _ q, fun q => by simpa using hv _ q, hn, hg, rfl⟩
        · simp at h
      split at h
      · rename_i e; subst e; simp only [Res.ok.injEq] at h; exact .inr (.inl ⟨w, rfl, h0, h.symm⟩)
      split at h
      · rename_i e; subst e; simp only [Res.ok.injEq] at h; exact .inr (.inr (.inl ⟨w, rfl, h0, h.symm⟩))
      split at h
      · rename_i e; subst e
        simp only [Res.bind_eq_ok, Res.index_ok, Res.map_eq_ok, orInvalid_ok] at h
        obtain ⟨u, h1, a, ha, rfl⟩ := h
        exact .inr (.inr (.inr (.inl ⟨w, u, a, rfl, ⟨h0, h1⟩, ha, rfl⟩)))
      · simp at h
    · unfold InteractType.fromWords at h
      simp only [Res.bind_eq_ok, Res.index_ok] at h
      obtain ⟨w, h0, h⟩ := h
      split at h
      · rename_i e; subst e
        split at h
        · simp at h
        · rename_i hl
          simp only [Res.bind_eq_ok, Res.index_ok, Res.map_eq_ok, orInvalid_ok] at h
          obtain ⟨u, h4, n, hn, v, h9, g, hg, rfl⟩ := h
          exact .inr (.inr (.inr (.inr (.inl ⟨u, v, n, g, not_not.1 hl, h0, h4, h9, hn, hg, rfl⟩))))
      split at h
      · rename_i e; subst e
        split at h
        · simp at h
        · rename_i hl
          simp only [Res.bind_eq_ok, Res.index_ok] at h
          obtain ⟨u, h3, h⟩ := h
          split at h
          · rename_i e; subst e; simp only [Res.ok.injEq] at h
            exact .inr (.inr (.inr (.inr (.inr (.inl ⟨not_not.1 hl, h0, h3, h.symm⟩)))))
          split at h
          · rename_i e; subst e; simp only [Res.ok.injEq] at h
            exact .inr (.inr (.inr (.inr (.inr (.inr (.inl ⟨not_not.1 hl, h0, h3, h.symm⟩))))))
          · simp at h
      split at h
      · rename_i e; subst e
        split at h
        · simp at h
        · rename_i hl
          simp only [Res.bind_eq_ok, Res.index_ok, Res.map_eq_ok, orInvalid_ok] at h
          obtain ⟨u, h6, a, ha, rfl⟩ := h
          exact .inr (.inr (.inr (.inr (.inr (.inr (.inr ⟨u, a, not_not.1 hl, h0, h6, ha, rfl⟩))))))
      · simp at h
  · rintro (⟨w, u, v, n, g, rfl, ⟨h0, h1⟩, hu, hv, hn, hg, rfl⟩ | ⟨w, rfl, h0, rfl⟩ | ⟨w, rfl, h0, rfl⟩ |
      ⟨w, u, a, rfl, ⟨h0, h1⟩, ha, rfl⟩ | ⟨u, v, n, g, hl, h0, h4, h9, hn, hg, rfl⟩ | ⟨hl, h0, h3, rfl⟩ | ⟨hl, h0, h3, rfl⟩ |
      ⟨u, a, hl, h0, h6, ha, rfl⟩)
    · rw [if_pos (by simp)]
      simp only [Res.bind_eq_ok, Res.index_ok, List.getElem?_cons_zero, Option.some.injEq, exists_eq_left']
      unfold InteractType.fromWord
      simp only [Res.bind_eq_ok, Res.index_ok]
      refine ⟨_, h0, ?_⟩
      rw [if_pos rfl]
      simp only [Res.bind_eq_ok, Res.index_ok]
      refine ⟨_, h1, ?_⟩
      rw [(splitBy_pair _ u v).2 ⟨fun c hc => by simp only [beq_eq_false_iff_ne]; rintro rfl; exact hu hc,
        fun c hc => by simp only [beq_eq_false_iff_ne]; rintro rfl; exact hv hc, ',', rfl, rfl⟩]
      simp only [Res.bind_eq_ok, Res.map_eq_ok, orInvalid_ok]
      exact ⟨n, hn, g, hg, rfl⟩
    · rw [if_pos (by simp)]
      simp only [Res.bind_eq_ok, Res.index_ok, List.getElem?_cons_zero, Option.some.injEq, exists_eq_left']
      unfold InteractType.fromWord
      simp only [Res.bind_eq_ok, Res.index_ok]
      exact ⟨_, h0, rfl⟩
    · rw [if_pos (by simp)]
      simp only [Res.bind_eq_ok, Res.index_ok, List.getElem?_cons_zero, Option.some.injEq, exists_eq_left']
      unfold InteractType.fromWord
      simp only [Res.bind_eq_ok, Res.index_ok]
      exact ⟨_, h0, rfl⟩
    · rw [if_pos (by simp)]
      simp only [Res.bind_eq_ok, Res.index_ok, List.getElem?_cons_zero, Option.some.injEq, exists_eq_left']
      unfold InteractType.fromWord
      simp only [Res.bind_eq_ok, Res.index_ok]
      refine ⟨_, h0, ?_⟩
      rw [if_neg (by decide), if_neg (by decide), if_neg (by decide), if_pos rfl]
      simp only [Res.bind_eq_ok, Res.index_ok, Res.map_eq_ok, orInvalid_ok]
      exact ⟨u, h1, a, ha, rfl⟩
    · rw [if_neg (by omega)]
      unfold InteractType.fromWords
      simp only [Res.bind_eq_ok, Res.index_ok]
      refine ⟨_, h0, ?_⟩
      rw [if_pos rfl, if_neg (not_not.2 hl)]
      simp only [Res.bind_eq_ok, Res.index_ok, Res.map_eq_ok, orInvalid_ok]
      exact ⟨u, h4, n, hn, v, h9, g, hg, rfl⟩
    · rw [if_neg (by omega)]
      unfold InteractType.fromWords
      simp only [Res.bind_eq_ok, Res.index_ok]
      refine ⟨_, h0, ?_⟩
      rw [if_neg (by decide), if_pos rfl, if_neg (not_not.2 hl)]
      simp only [Res.bind_eq_ok, Res.index_ok]
      exact ⟨_, h3, rfl⟩
    · rw [if_neg (by omega)]
      unfold InteractType.fromWords
      simp only [Res.bind_eq_ok, Res.index_ok]
      refine ⟨_, h0, ?_⟩
      rw [if_neg (by decide), if_pos rfl, if_neg (not_not.2 hl)]
      simp only [Res.bind_eq_ok, Res.index_ok]
      exact ⟨_, h3, rfl⟩
    · rw [if_neg (by omega)]
      unfold InteractType.fromWords
      simp only [Res.bind_eq_ok, Res.index_ok]
      refine ⟨_, h0, ?_⟩
      rw [if_neg (by decide), if_neg (by decide), if_pos rfl, if_neg (not_not.2 hl)]
      simp only [Res.bind_eq_ok, Res.index_ok, Res.map_eq_ok, orInvalid_ok]
      exact ⟨u, h6, a, ha, rfl⟩

/-- the only error is `InvalidArgumentInput`. -/
def OnlyInvalid {α : Type} (x : Res α) : Prop := ∀ e, x = .err e → e = .invalidArgumentInput

theorem OnlyInvalid.bind {α β : Type} {x : Res α} {g : α → Res β} (h : OnlyInvalid x) (hg : ∀ a, OnlyInvalid (g a)) :
    OnlyInvalid (x.bind g) := by
  intro e he
  cases x with
  | ok a => exact hg a e he
  | err e' => simp at he; subst he; exact h _ rfl
  | panic => simp at he

theorem OnlyInvalid.map {α β : Type} {x : Res α} {g : α → β} (h : OnlyInvalid x) : OnlyInvalid (x.map g) := by
  intro e he
  cases x with
  | ok a => simp at he
  | err e' => simp at he; subst he; exact h _ rfl
  | panic => simp at he

theorem OnlyInvalid.index {α : Type} (l : List α) (n : Nat) : OnlyInvalid (Res.index l n) := by
  intro e he; unfold Res.index at he; cases h : l[n]? <;> simp [h] at he
theorem OnlyInvalid.ok {α : Type} (a : α) : OnlyInvalid (Res.ok a) := by intro e he; simp at he
theorem OnlyInvalid.err {α : Type} : OnlyInvalid (Res.err .invalidArgumentInput : Res α) := by intro e he; simp at he; exact he.symm
theorem OnlyInvalid.or {α : Type} (o : Option α) : OnlyInvalid (Res.orInvalid o) := by
  intro e he; cases o <;> simp [Res.orInvalid] at he; exact he.symm
theorem OnlyInvalid.expect {α : Type} (o : Option α) : OnlyInvalid (Res.expect o) := by
  intro e he; cases o <;> simp [Res.expect] at he
theorem OnlyInvalid.expectOk {α : Type} (o : Res α) : OnlyInvalid (Res.expectOk o) := by
  intro e he; cases o <;> simp [Res.expectOk] at he
theorem OnlyInvalid.drop (n : Nat) (s : Str) : OnlyInvalid (Str.dropBytes n s) := by
  intro e he; exact absurd he (dropBytes_ne_err n s e)

/-- A text that is refused is refused with `InvalidArgumentInput`. -/
theorem C81_errors {F : Type} (f : NumFmt F) (s : Str) (e : ErrorCode) :
    (MoveType.fromStr f s = .err e → e = .invalidArgumentInput) ∧
    (InitType.fromStr f s = .err e → e = .invalidArgumentInput) ∧
    (InteractType.fromStr f s = .err e → e = .invalidArgumentInput) ∧
    (SystemType.fromStr s = .err e → e = .invalidArgumentInput) ∧
    (BoundaryCond.fromStr s = .err e → e = .invalidArgumentInput) ∧
    (TimeType.fromStr f s = .err e → e = .invalidArgumentInput) := by
  have hpos : ∀ w, OnlyInvalid (Pos.fromStr f w) := by
    intro w e he
    obtain ⟨p, hp, -⟩ := C32_never_rejects f w
    rw [hp] at he
    simp at he
  refine ⟨?_, ?_, ?_, ?_, ?_, ?_⟩
  · revert e
    refine OnlyInvalid.bind (.index _ _) fun w => ?_
    split
    · exact .bind (.index _ _) fun _ => .map (.expect _)
    split
    · exact .ok _
    split
    · exact .map (.or _)
    · exact .err
  · revert e
    show OnlyInvalid _
    unfold InitType.fromStr
    simp only
    split
    · refine .bind (.index _ _) fun w => ?_
      split
      · exact .ok _
      · exact .map (hpos _)
    · refine .bind (.index _ _) fun w => ?_
      split
      · exact .bind (.index _ _) fun _ => .map (.expectOk _)
      split
      · exact .ok _
      · exact .err
  · revert e
    show OnlyInvalid _
    unfold InteractType.fromStr
    simp only
    split
    · refine .bind (.index _ _) fun w => ?_
      unfold InteractType.fromWord
      refine .bind (.index _ _) fun w => ?_
      split
      · refine .bind (.index _ _) fun a => ?_
        split
        · exact .bind (.or _) fun _ => .map (.or _)
        · exact .err
      split
      · exact .ok _
      split
      · exact .ok _
      split
      · exact .bind (.index _ _) fun _ => .map (.or _)
      · exact .err
    · unfold InteractType.fromWords
      refine .bind (.index _ _) fun w => ?_
      split
      · split
        · exact .err
        · exact .bind (.index _ _) fun _ => .bind (.or _) fun _ => .bind (.index _ _) fun _ => .map (.or _)
      split
      · split
        · exact .err
        · refine .bind (.index _ _) fun w => ?_
          split
          · exact .ok _
          split
          · exact .ok _
          · exact .err
      split
      · split
        · exact .err
        · exact .bind (.index _ _) fun _ => .map (.or _)
      · exact .err
  · revert e
    refine OnlyInvalid.bind (.index _ _) fun w => ?_
    split
    · refine .bind (.index _ _) fun w => ?_
      split
      · exact .ok _
      split
      · exact .ok _
      split
      · exact .bind (.index _ _) fun _ => .bind (.drop _ _) fun _ => .map (.or _)
      · exact .err
    split
    · exact .ok _
    split
    · exact .ok _
    split
    · exact .ok _
    split
    · exact .ok _
    · refine .bind (.or _) fun d => ?_
      split
      · exact .err
      · exact .ok _
  · revert e
    refine OnlyInvalid.bind (.index _ _) fun w => ?_
    split
    · exact .ok _
    split
    · exact .ok _
    split
    · exact .bind (.index _ _) fun _ => .bind (.drop _ _) fun _ => .map (.or _)
    · refine .bind (.or _) fun d => ?_
      split
      · exact .err
      · exact .ok _
  · revert e
    refine OnlyInvalid.bind (.index _ _) fun w => ?_
    split
    · exact .bind (.index _ _) fun _ => .map (.expect _)
    split
    · exact .bind (.index _ _) fun _ => .bind (.or _) fun _ => .bind (.index _ _) fun _ => .bind (.or _) fun _ =>
        .bind (.index _ _) fun _ => .map (.or _)
    · split
      · exact .map (.or _)
      · exact .bind (.or _) fun _ => .bind (.or _) fun _ => .map (.or _)
      · exact .err

/-- Two words: blanks before, between and after them do not matter. -/
example : Str.HasWords (chars! "  Levy \t walk ") [chars! "Levy", chars! "walk"] :=
  (C81_words _ _).1 (by decide +kernel)

/-- `(1:2,x)` with blanks around it is the position (1, 2, 0). -/
example : Pos.fromStr natFmt (chars! " (1:2,x) ") = .ok [1, 2, 0] := by decide +kernel

/-- `+007` is 7. -/
example : Str.IsNumber (chars! "+007") 7 := ⟨chars! "007", [0, 0, 7], .inr rfl, by decide, .cons rfl (.cons rfl (.cons rfl .nil)), rfl, by norm_num⟩

/-- A second word makes a number unreadable as a movement: `1.0 Brownian` is refused. -/
example : MoveType.fromStr natFmt (chars! "1 Brownian") = .err .invalidArgumentInput := by decide +kernel

/-- Whatever comes after the brackets is ignored: `LennardJones(5)xyz` is read. -/
example : InteractType.fromStr natFmt (chars! "LennardJones(5)xyz") = .ok (.lennardJones 5) :=
  (C81_interact_type natFmt _ _).2 ⟨[chars! "LennardJones(5)xyz"], (C81_words _ _).1 (by decide +kernel),
    .inr (.inr (.inr (.inl ⟨_, chars! "5", 5, rfl, ⟨'(', chars! ")xyz", rfl, .inl rfl, by decide, by decide, by decide, by decide, by simp⟩,
      rfl, rfl⟩)))⟩

/-- The cylinder of the long form: three bytes (`0..`) and a number. -/
example : SystemType.fromStr (chars! "Continuous Cylindrical x abc7") = .ok (.continuousCylindrical 7) :=
  (C81_system_type _ _).2 ⟨[chars! "Continuous", chars! "Cylindrical", chars! "x", chars! "abc7"],
    (C81_words _ _).1 (by decide +kernel), .inr (.inr (.inr (.inr (.inr ⟨chars! "abc7", chars! "7", 7, rfl, rfl, rfl,
      ⟨chars! "abc", rfl, by decide⟩, ⟨chars! "7", [7], .inl rfl, by decide, .cons rfl .nil, rfl, by norm_num⟩, rfl⟩))))⟩

end Moledyn.Props
