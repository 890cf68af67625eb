import Verif.Lemmas.Text
import Verif.Props.Position
/-
C41: type tags survive printing and parsing.
-/
set_option linter.unusedSimpArgs false
namespace Moledyn.Props
open Moledyn

/-! ### tags without parameters -/

/-- `AgentType`: a text is read as tag `t` exactly when it is the text printed for `t`; every other text
is rejected with `InvalidArgumentInput`. -/
theorem C41_agent_type (s : Str) (t : AgentType) :
    (AgentType.fromStr s = .ok t ↔ s = t.display) ∧
    ((∀ t : AgentType, s ≠ t.display) → AgentType.fromStr s = .err .invalidArgumentInput) := by
  have key : ∀ t : AgentType, AgentType.fromStr t.display = .ok t := by
    intro t; cases t <;> rfl
  refine ⟨⟨fun h => ?_, fun h => h ▸ key t⟩, fun h => ?_⟩
  · unfold AgentType.fromStr at h
    cases hf : AgentType.all.find? fun t => t.text = s with
    | none => rw [hf] at h; simp [Res.orInvalid] at h
    | some u =>
      rw [hf] at h
      have hu := List.find?_some hf
      simp only [Res.orInvalid, Res.ok.injEq] at h
      subst h
      simpa [AgentType.display] using (of_decide_eq_true hu).symm
  · unfold AgentType.fromStr
    rw [List.find?_eq_none.2]
    · rfl
    · intro t _ ht
      exact h t (of_decide_eq_true ht).symm

/-- `TargetType`: likewise. -/
theorem C41_target_type (s : Str) (t : TargetType) :
    (TargetType.fromStr s = .ok t ↔ s = t.display) ∧
    ((∀ t : TargetType, s ≠ t.display) → TargetType.fromStr s = .err .invalidArgumentInput) := by
  have key : ∀ t : TargetType, TargetType.fromStr t.display = .ok t := by
    intro t; cases t <;> rfl
  refine ⟨⟨fun h => ?_, fun h => h ▸ key t⟩, fun h => ?_⟩
  · unfold TargetType.fromStr at h
    cases hf : TargetType.all.find? fun t => t.text = s with
    | none => rw [hf] at h; simp [Res.orInvalid] at h
    | some u =>
      rw [hf] at h
      have hu := List.find?_some hf
      simp only [Res.orInvalid, Res.ok.injEq] at h
      subst h
      simpa [TargetType.display] using (of_decide_eq_true hu).symm
  · unfold TargetType.fromStr
    rw [List.find?_eq_none.2]
    · rfl
    · intro t _ ht
      exact h t (of_decide_eq_true ht).symm

example : AgentType.fromStr (chars! "Active Interacting Agent in Lattice system.")
    = .ok .latticeActiveInteracting := rfl
example : AgentType.fromStr (chars! "Agent") = .err .invalidArgumentInput := rfl

/-! ### movement -/

/-- the parameters of a movement are numbers the format can print faithfully. -/
def MoveOk {F : Type} (ok : F → Prop) : MoveType F → Prop
  | .brownian c => ok c
  | .levy => True

theorem wordLike_ne_nil {T : Type} {f : NumFmt T} {ok : T → Prop} (hf : f.WordLike ok) {x : T}
    (hx : ok x) : f.print x ≠ [] := by
  obtain ⟨c, r, h, _⟩ := hf.numericHead x hx
  rw [h]; simp

theorem wordLike_ne {T : Type} {f : NumFmt T} {ok : T → Prop} (hf : f.WordLike ok) {x : T}
    (hx : ok x) {c : Char} {r : Str} (hc : c.isDigit = false ∧ c ≠ '-') : f.print x ≠ c :: r := by
  obtain ⟨d, r', h, hd⟩ := hf.numericHead x hx
  rw [h]
  intro h'
  injection h' with h1 h2
  subst h1
  rcases hd with hd | hd
  · rw [hc.1] at hd; cases hd
  · exact hc.2 hd

/-- `MoveType`: the printed text is read back as the same movement, and a bare number is read as
Brownian motion with that coefficient. -/
theorem C41_move_type {F : Type} (f : NumFmt F) (ok : F → Prop) (hf : f.WordLike ok) :
    (∀ t : MoveType F, MoveOk ok t → MoveType.fromStr f (t.display f) = .ok t) ∧
    (∀ c, ok c → MoveType.fromStr f (f.print c) = .ok (.brownian c)) := by
  constructor
  · intro t ht
    cases t with
    | levy => rfl
    | brownian c =>
      have hw : Str.words ((MoveType.brownian c).display f) =
          [(chars! "Brownian"), (chars! "with"), (chars! "diffusion"), (chars! "coefficient"), f.print c] := by
        rw [MoveType.display, Str.words_lit (chars! "Brownian with diffusion coefficient") _ (by simp),
          Str.words_word (hf.noBlank c ht) (wordLike_ne_nil hf ht)]
        rfl
      simp [MoveType.fromStr, hw, Res.index, hf.roundtrip c ht, Res.expect]
  · intro c hc
    have hw := Str.words_word (hf.noBlank c hc) (wordLike_ne_nil hf hc)
    have h1 : f.print c ≠ (chars! "Brownian") := by
      have := wordLike_ne hf hc (c := 'B') (r := (chars! "rownian")) (by decide)
      simpa using this
    have h2 : f.print c ≠ (chars! "Levy") := by
      have := wordLike_ne hf hc (c := 'L') (r := (chars! "evy")) (by decide)
      simpa using this
    simp [MoveType.fromStr, hw, Res.index, h1, h2, hf.roundtrip c hc, Res.orInvalid]


/-- When reading a movement crashes: exactly when there is no word at all, or the first word is
`Brownian` and the fifth word is missing or not a number. -/
theorem C41_move_type_panics_iff {F : Type} (f : NumFmt F) (s : Str) :
    MoveType.fromStr f s = .panic ↔
      Str.Blank s ∨ ((Str.words s).head? = some (chars! "Brownian") ∧
        ∀ w, (Str.words s)[4]? = some w → f.parse w = none) := by
  rw [← Str.words_eq_nil_iff]
  unfold MoveType.fromStr
  cases hw : Str.words s with
  | nil => simp [Res.index]
  | cons w ws =>
    simp only [Res.index, List.getElem?_cons_zero, Res.bind_ok, reduceCtorEq, List.head?_cons,
      Option.some.injEq, false_or]
    by_cases h1 : w = (chars! "Brownian")
    · simp only [h1, if_true, true_and]
      cases h4 : ((chars! "Brownian") :: ws)[4]? with
      | none => simp
      | some v => cases hp : f.parse v <;> simp [hp, Res.expect]
    · simp only [h1, if_false, false_and, iff_false]
      by_cases h2 : w = (chars! "Levy")
      · simp [h2]
      · simp only [h2, if_false]
        split
        · cases hp : f.parse w <;> simp [Res.orInvalid]
        · simp

/-! ### initial placement -/

/-- the coordinates of an initial position exist and can be printed faithfully. -/
def InitOk {F : Type} (ok : F → Prop) : InitType F → Prop
  | .specificPosition p => p ≠ [] ∧ ∀ x ∈ p, ok x
  | .uniform => True

theorem display_fold_clean {F : Type} {f : NumFmt F} {ok : F → Prop} (hf : f.Faithful ok) (xs : List F)
    (hx : ∀ x ∈ xs, ok x) (a : Str) (ha : ∀ c ∈ a, Str.isWs c = false) :
    (∀ c ∈ xs.foldl (fun acc y => acc ++ [','] ++ f.print y) a, Str.isWs c = false) ∧
    ∃ r, xs.foldl (fun acc y => acc ++ [','] ++ f.print y) a = a ++ r := by
  induction xs generalizing a with
  | nil => exact ⟨ha, [], by simp⟩
  | cons x xs ih =>
    have hx' : ok x := hx x (by simp)
    have := ih (fun y hy => hx y (by simp [hy])) (a ++ [','] ++ f.print x) (by
      intro c hc
      simp only [List.mem_append, List.mem_singleton] at hc
      rcases hc with (hc | rfl) | hc
      · exact ha c hc
      · decide
      · exact hf.noBlank x hx' c hc)
    refine ⟨this.1, ?_⟩
    obtain ⟨r, hr⟩ := this.2
    exact ⟨[','] ++ f.print x ++ r, by rw [List.foldl_cons, hr]; simp only [List.append_assoc]⟩

theorem pos_display_word {F : Type} {f : NumFmt F} {ok : F → Prop} (hf : f.WordLike ok) {p : Pos F}
    (hne : p ≠ []) (hp : ∀ x ∈ p, ok x) :
    ∃ s, Pos.display f p = .ok s ∧ (∀ c ∈ s, Str.isWs c = false) ∧ s ≠ [] ∧
      (∃ c r, s = c :: r ∧ (c.isDigit = true ∨ c = '-')) ∧ Pos.fromStr f s = .ok p := by
  cases p with
  | nil => exact absurd rfl hne
  | cons x xs =>
    have hx : ok x := hp x (by simp)
    obtain ⟨h1, r, h2⟩ := display_fold_clean hf.toFaithful xs (fun y hy => hp y (by simp [hy]))
      (f.print x) (hf.noBlank x hx)
    obtain ⟨c, r', h3, h4⟩ := hf.numericHead x hx
    refine ⟨_, rfl, h1, ?_, ⟨c, r' ++ r, ?_, h4⟩, ?_⟩
    · rw [h2, h3]; simp
    · rw [h2, h3]; simp
    · obtain ⟨s, hs1, hs2⟩ := (C31_display_roundtrip f ok hf.toFaithful (x :: xs) hp).1 (by simp)
      rw [Pos.display] at hs1
      injection hs1 with hs1
      rw [hs1]; exact hs2

/-- `InitType`: printing and reading gives the same placement for every non-empty position; the printed
position alone is read as that placement, and `Uniform` as the uniform one. -/
theorem C41_init_type {F : Type} (f : NumFmt F) (ok : F → Prop) (hf : f.WordLike ok) :
    (∀ t : InitType F, InitOk ok t →
      ∃ s, t.display f = .ok s ∧ InitType.fromStr f s = .ok t) ∧
    (∀ p : Pos F, p ≠ [] → (∀ x ∈ p, ok x) →
      ∃ s, Pos.display f p = .ok s ∧ InitType.fromStr f s = .ok (.specificPosition p)) ∧
    InitType.fromStr f (chars! "Uniform") = .ok .uniform := by
  refine ⟨?_, ?_, by rfl⟩
  · intro t ht
    cases t with
    | uniform => exact ⟨_, rfl, rfl⟩
    | specificPosition p =>
      obtain ⟨s, h1, h2, h3, _, h5⟩ := pos_display_word hf ht.1 ht.2
      refine ⟨(chars! "Initialize all agents at ") ++ s,
        by simp only [InitType.display, h1, Res.map_ok], ?_⟩
      have hw : Str.words ((chars! "Initialize all agents at ") ++ s) =
          [(chars! "Initialize"), (chars! "all"), (chars! "agents"), (chars! "at"), s] := by
        rw [Str.words_lit (chars! "Initialize all agents at") _ (by simp), Str.words_word h2 h3]
        rfl
      rw [InitType.fromStr, hw]
      simp [Res.index, h5, Res.expectOk]
  · intro p hne hp
    obtain ⟨s, h1, h2, h3, ⟨c, r, h4, h6⟩, h5⟩ := pos_display_word hf hne hp
    refine ⟨s, h1, ?_⟩
    have hU : s ≠ (chars! "Uniform") := by
      intro h
      rw [h4] at h
      simp only [String.reduceToList, List.cons.injEq] at h
      rw [h.1] at h6
      revert h6; decide
    simp [InitType.fromStr, Str.words_word h2 h3, Res.index, hU, h5]

/-- An empty position cannot be printed at all (the printer panics), so such a placement has no text
form. -/
theorem C41_init_type_empty {F : Type} (f : NumFmt F) :
    InitType.display f (.specificPosition ([] : Pos F)) = .panic := rfl

/-- When reading a placement fails: it crashes exactly on a text with no word, or whose second word is
`all` and which has fewer than five words; a single word is never rejected (unreadable coordinates
become the default number), two words or more are rejected unless the second is `all` or `agents`. -/
theorem C41_init_type_failures {F : Type} (f : NumFmt F) (s : Str) :
    (InitType.fromStr f s = .panic ↔
      Str.Blank s ∨ ((Str.words s)[1]? = some (chars! "all") ∧ (Str.words s).length < 5)) ∧
    ((Str.words s).length = 1 → ∃ t, InitType.fromStr f s = .ok t) ∧
    (∀ w, (Str.words s)[1]? = some w → w ≠ (chars! "all") → w ≠ (chars! "agents") →
      InitType.fromStr f s = .err .invalidArgumentInput) := by
  rw [← Str.words_eq_nil_iff]
  unfold InitType.fromStr
  cases hw : Str.words s with
  | nil => simp [Res.index]
  | cons w ws =>
    cases ws with
    | nil =>
      refine ⟨?_, fun _ => ?_, by simp⟩
      · by_cases h : w = (chars! "Uniform") <;> simp [Res.index, h, Pos.fromStr]
      · by_cases h : w = (chars! "Uniform") <;> simp [Res.index, h, Pos.fromStr]
    | cons v ws =>
      refine ⟨?_, by simp, ?_⟩
      · simp only [Res.index, List.length_cons, Nat.reduceEqDiff, if_false, List.getElem?_cons_succ,
          List.getElem?_cons_zero, Res.bind_ok, reduceCtorEq, Option.some.injEq, false_or,
          Nat.add_eq_right, Nat.add_eq_zero_iff, and_false]
        by_cases h : v = (chars! "all")
        · simp only [h, if_true, true_and]
          cases h4 : ws[2]? with
          | none =>
            have : ws.length ≤ 2 := by simpa using h4
            simp only [Res.bind_panic, true_iff]; omega
          | some x =>
            obtain ⟨hl, _⟩ := List.getElem?_eq_some_iff.1 h4
            simp only [Res.bind_ok, Pos.fromStr, Res.expectOk, Res.map_ok, reduceCtorEq, false_iff]
            omega
        · simp only [h, if_false, false_and, iff_false]
          by_cases h2 : v = (chars! "agents") <;> simp [h2]
      · intro w' hw' h1 h2
        simp only [List.getElem?_cons_succ, List.getElem?_cons_zero, Option.some.injEq] at hw'
        subst hw'
        simp only [Res.index, List.length_cons, List.getElem?_cons_succ, List.getElem?_cons_zero,
          Res.bind_ok, h1, h2, if_false]
        simp

/-! ### interaction -/

/-- the parameters of an interaction can be printed faithfully. -/
def InteractOk {F : Type} (ok : F → Prop) : InteractType F → Prop
  | .exponential dim gamma => dim < 2 ^ 64 ∧ ok gamma
  | .lennardJones a => ok a
  | _ => True

theorem splitBy_two {p : Char → Bool} {a b : Str} {c : Char} (ha : ∀ x ∈ a, p x = false)
    (hb : ∀ x ∈ b, p x = false) (hc : p c = true) : Str.splitBy p (a ++ c :: b) = [a, b] := by
  rw [Str.splitBy_cons ha hc, Str.splitBy_clean hb]

theorem printNat_punct {n : Nat} {x : Char} (hx : x ∈ Str.printNat n) :
    x ≠ ',' ∧ x ≠ ':' ∧ x ≠ '(' ∧ x ≠ ')' := by
  obtain ⟨d, hd, rfl⟩ := Str.printNat_mem hx
  have := Str.digitChar_props hd
  exact ⟨this.2.1, this.2.2.1, this.2.2.2.1, this.2.2.2.2.1⟩

theorem index_lt {α : Type} {l : List α} {i : Nat} (h : i < l.length) : ∃ w, Res.index l i = .ok w :=
  ⟨l[i], by simp [Res.index, h]⟩

theorem orInvalid_ne_panic {α : Type} (o : Option α) : Res.orInvalid o ≠ .panic := by
  cases o <;> simp [Res.orInvalid]

theorem orInvalid_map_ne_panic {α β : Type} (o : Option α) (g : α → β) :
    (Res.orInvalid o).map g ≠ .panic := by
  cases o <;> simp [Res.orInvalid]

/-- `InteractType`: the printed sentence is read back as the same interaction, and so are the short
forms `Exponential(dim,gamma)`, `Coulomb2D`, `Coulomb3D` and `LennardJones(a)`. -/
theorem C41_interact_type {F : Type} (f : NumFmt F) (ok : F → Prop) (hf : f.WordLike ok) :
    (∀ t : InteractType F, InteractOk ok t → InteractType.fromStr f (t.display f) = .ok t) ∧
    (∀ dim gamma, dim < 2 ^ 64 → ok gamma →
      InteractType.fromStr f ((chars! "Exponential(") ++ Str.printNat dim ++ [','] ++ f.print gamma ++ [')'])
        = .ok (.exponential dim gamma)) ∧
    InteractType.fromStr f (chars! "Coulomb2D") = .ok .coulomb2D ∧
    InteractType.fromStr f (chars! "Coulomb3D") = .ok .coulomb3D ∧
    (∀ a, ok a → InteractType.fromStr f ((chars! "LennardJones(") ++ f.print a ++ [')'])
        = .ok (.lennardJones a)) := by
  have paren : ∀ x, ok x → ∀ c ∈ f.print x, (c == '(' || c == ')') = false := by
    intro x hx c hc
    obtain ⟨_, _, h3, h4⟩ := hf.noPunct x hx c hc
    simp [h3, h4]
  have comma : ∀ x, ok x → ∀ c ∈ f.print x, (c == ',') = false := by
    intro x hx c hc
    simp [(hf.noPunct x hx c hc).1]
  refine ⟨?_, ?_, by rfl, by rfl, ?_⟩
  · intro t ht
    cases t with
    | exponential dim gamma =>
      have hw : Str.words ((InteractType.exponential dim gamma).display f) =
          [(chars! "Exponential"), (chars! "form"), (chars! "interaction"), (chars! "in"),
            Str.printNat dim, (chars! "D"), (chars! "with"), (chars! "typical"), (chars! "length"),
            f.print gamma] := by
        rw [InteractType.display, List.append_assoc, List.append_assoc,
          Str.words_lit (chars! "Exponential form interaction in") _ (by rfl)]
        have : (chars! " D with typical length ") ++ f.print gamma =
            ' ' :: ((chars! "D with typical length ") ++ f.print gamma) := rfl
        rw [this, Str.words_cons Str.printNat_not_ws (Str.printNat_ne_nil dim) (by decide),
          Str.words_lit (chars! "D with typical length") _ (by rfl),
          Str.words_word (hf.noBlank _ ht.2) (wordLike_ne_nil hf ht.2)]
        rfl
      simp [InteractType.fromStr, InteractType.fromWords, hw, Res.index, Str.parse_printNat ht.1,
        hf.roundtrip _ ht.2, Res.orInvalid]
    | coulomb2D => rfl
    | coulomb3D => rfl
    | lennardJones a =>
      have hw : Str.words ((InteractType.lennardJones a).display f) =
          [(chars! "Lennard"), (chars! "Jones"), (chars! "potential"), (chars! "with"),
            (chars! "particle"), (chars! "size"), f.print a] := by
        rw [InteractType.display, Str.words_lit (chars! "Lennard Jones potential with particle size") _ (by rfl),
          Str.words_word (hf.noBlank _ ht) (wordLike_ne_nil hf ht)]
        rfl
      simp [InteractType.fromStr, InteractType.fromWords, hw, Res.index, hf.roundtrip _ ht, Res.orInvalid]
  · intro dim gamma hd hg
    have hcl : ∀ c ∈ (chars! "Exponential(") ++ Str.printNat dim ++ [','] ++ f.print gamma ++ [')'],
        Str.isWs c = false := by
      intro c hc
      simp only [List.mem_append] at hc
      rcases hc with (((hc | hc) | hc) | hc) | hc
      · revert c; decide
      · exact Str.printNat_not_ws c hc
      · revert c; decide
      · exact hf.noBlank _ hg c hc
      · revert c; decide
    have hs : Str.splitBy (fun c => c == '(' || c == ')')
        ((chars! "Exponential(") ++ Str.printNat dim ++ [','] ++ f.print gamma ++ [')']) =
        [(chars! "Exponential"), Str.printNat dim ++ ',' :: f.print gamma, []] := by
      have e : (chars! "Exponential(") ++ Str.printNat dim ++ [','] ++ f.print gamma ++ [')'] =
          (chars! "Exponential") ++ '(' :: ((Str.printNat dim ++ ',' :: f.print gamma) ++ ')' :: []) := by
        simp
      rw [e, Str.splitBy_cons (by decide) (by decide), splitBy_two ?_ (by simp) (by decide)]
      intro x hx
      simp only [List.mem_append, List.mem_cons] at hx
      rcases hx with hx | rfl | hx
      · obtain ⟨_, _, h3, h4⟩ := printNat_punct hx
        simp [h3, h4]
      · decide
      · exact paren _ hg x hx
    have hs2 : Str.splitBy (· == ',') (Str.printNat dim ++ ',' :: f.print gamma) =
        [Str.printNat dim, f.print gamma] :=
      splitBy_two (fun x hx => by simp [(printNat_punct hx).1]) (comma _ hg) (by decide)
    rw [InteractType.fromStr, Str.words_word hcl (by simp)]
    simp only [List.length_singleton, if_true, Res.index, List.getElem?_cons_zero, Res.bind_ok,
      InteractType.fromWord, hs, List.getElem?_cons_succ, hs2, Str.parse_printNat hd,
      hf.roundtrip _ hg, Res.orInvalid, Res.map_ok]
  · intro a ha
    have hcl : ∀ c ∈ (chars! "LennardJones(") ++ f.print a ++ [')'], Str.isWs c = false := by
      intro c hc
      simp only [List.mem_append] at hc
      rcases hc with (hc | hc) | hc
      · revert c; decide
      · exact hf.noBlank _ ha c hc
      · revert c; decide
    have hs : Str.splitBy (fun c => c == '(' || c == ')')
        ((chars! "LennardJones(") ++ f.print a ++ [')']) =
        [(chars! "LennardJones"), f.print a, []] := by
      have e : (chars! "LennardJones(") ++ f.print a ++ [')'] =
          (chars! "LennardJones") ++ '(' :: (f.print a ++ ')' :: []) := by simp
      rw [e, Str.splitBy_cons (by decide) (by decide), splitBy_two (paren _ ha) (by simp) (by decide)]
    rw [InteractType.fromStr, Str.words_word hcl (by simp)]
    simp only [List.length_singleton, if_true, Res.index, List.getElem?_cons_zero, Res.bind_ok,
      InteractType.fromWord, hs]
    simp [hf.roundtrip _ ha, Res.orInvalid]

/-- When reading an interaction crashes: exactly on a text with no word, or on the bare word
`Exponential` or `LennardJones` (no parenthesis). -/
theorem C41_interact_type_panics_iff {F : Type} (f : NumFmt F) (s : Str) :
    InteractType.fromStr f s = .panic ↔
      Str.Blank s ∨ Str.words s = [(chars! "Exponential")] ∨ Str.words s = [(chars! "LennardJones")] := by
  rw [← Str.words_eq_nil_iff]
  unfold InteractType.fromStr
  cases hw : Str.words s with
  | nil => simp [Res.index, InteractType.fromWords]
  | cons w ws =>
    cases ws with
    | nil =>
      simp only [List.length_singleton, if_true, Res.index, List.getElem?_cons_zero, Res.bind_ok,
        InteractType.fromWord, reduceCtorEq, false_or, List.cons.injEq, and_true]
      cases hs : Str.splitBy (fun c => c == '(' || c == ')') w with
      | nil => exact absurd hs (Str.splitBy_ne_nil _ _)
      | cons a as =>
        have single : as = [] → w = a := by
          intro h
          subst h
          by_contra hne
          have hl := Str.length_splitBy (fun c => c == '(' || c == ')') w
          rw [hs] at hl
          have hc : w.countP (fun c => c == '(' || c == ')') = 0 := by simpa using hl.symm
          have : ∀ x ∈ w, (fun c => c == '(' || c == ')') x = false := by
            intro x hx
            have := List.countP_eq_zero.1 hc x hx
            simpa using this
          rw [Str.splitBy_clean this] at hs
          simp at hs
          exact hne hs
        have nosingle : ∀ b bs, as = b :: bs → w ≠ (chars! "Exponential") ∧ w ≠ (chars! "LennardJones") := by
          intro b bs h
          constructor <;> intro hw' <;> subst hw' <;> subst h <;> revert hs <;> simp [Str.splitBy]
        cases as with
        | nil =>
          rw [single rfl]
          by_cases h1 : a = (chars! "Exponential")
          · simp [h1]
          · by_cases h2 : a = (chars! "LennardJones")
            · subst h2; simp
            · simp only [List.getElem?_cons_zero, Res.bind_ok, h1, if_false, h2]
              split
              · simp
              · split <;> simp
        | cons b bs =>
          obtain ⟨n1, n2⟩ := nosingle b bs rfl
          simp only [n1, n2, or_self, iff_false, List.getElem?_cons_zero, List.getElem?_cons_succ,
            Res.bind_ok]
          split
          · split
            · rename_i a0 a1 _
              cases Str.parseNat a0 <;> cases f.parse a1 <;> simp [Res.orInvalid]
            · simp
          · split
            · simp
            · split
              · simp
              · split
                · cases f.parse b <;> simp [Res.orInvalid]
                · simp
    | cons v ws =>
      have h1 : (w :: v :: ws).length ≠ 1 := by simp
      rw [if_neg h1]
      simp only [reduceCtorEq, List.cons.injEq, false_or, and_false, or_self, iff_false]
      have h0 : w :: v :: ws ≠ [] := by simp
      generalize w :: v :: ws = l at h0 h1 ⊢
      unfold InteractType.fromWords
      obtain ⟨w0, hw0⟩ := index_lt (l := l) (i := 0) (List.length_pos_iff.2 h0)
      rw [hw0]
      simp only [Res.bind_ok]
      split
      · split
        · simp
        · rename_i hl
          have hl : l.length = 10 := by simpa using hl
          obtain ⟨w4, hw4⟩ := index_lt (l := l) (i := 4) (by omega)
          obtain ⟨w9, hw9⟩ := index_lt (l := l) (i := 9) (by omega)
          rw [hw4, hw9]
          cases h : Str.parseNat w4
          · simp [Res.orInvalid, h]
          · simpa [Res.orInvalid, h] using orInvalid_map_ne_panic _ _
      · split
        · split
          · simp
          · rename_i hl
            have hl : l.length = 5 := by simpa using hl
            obtain ⟨w3, hw3⟩ := index_lt (l := l) (i := 3) (by omega)
            rw [hw3]
            simp only [Res.bind_ok]
            split
            · simp
            · split <;> simp
        · split
          · split
            · simp
            · rename_i hl
              have hl : l.length = 7 := by simpa using hl
              obtain ⟨w6, hw6⟩ := index_lt (l := l) (i := 6) (by omega)
              rw [hw6]
              exact orInvalid_map_ne_panic _ _
          · simp

/-! ### system type -/

/-- the dimension of a cylindrical system is a 64-bit number. -/
def SystemTypeOk : SystemType → Prop
  | .continuousCylindrical d => d < 2 ^ 64
  | _ => True

theorem parseNat_alpha {c : Char} {r : Str} (h1 : Str.digitVal c = none) (h2 : c ≠ '+') :
    Str.parseNat (c :: r) = none := by
  have : Str.stripPlus (c :: r) = c :: r := by
    unfold Str.stripPlus
    split
    · rename_i h; injection h with h _; exact absurd h h2
    · rfl
  simp [Str.parseNat, this, Str.parseDigits, h1]

/-- a printed number is none of the keywords. -/
theorem printNat_ne {n : Nat} {c : Char} {r : Str} (hc : Str.digitVal c = none) :
    Str.printNat n ≠ c :: r := by
  intro h
  obtain ⟨d, hd, he⟩ := Str.printNat_mem (n := n) (c := c) (by rw [h]; simp)
  rw [he, Str.digitVal_digitChar hd] at hc
  cases hc

/-- `SystemType`: the printed text is read back as the same type; the short forms are `Circular`,
`Rectangular` and a positive number (the dimension of the circular part of a cylinder). -/
theorem C41_system_type :
    (∀ t, SystemTypeOk t → SystemType.fromStr t.display = .ok t) ∧
    SystemType.fromStr (chars! "Circular") = .ok .continuousCircular ∧
    SystemType.fromStr (chars! "Rectangular") = .ok .continuousRectangular ∧
    (∀ d, 0 < d → d < 2 ^ 64 → SystemType.fromStr (Str.printNat d) = .ok (.continuousCylindrical d)) ∧
    SystemType.fromStr (chars! "0") = .err .invalidArgumentInput := by
  refine ⟨?_, by rfl, by rfl, ?_, by rfl⟩
  · intro t ht
    cases t with
    | continuousCylindrical d =>
      have hw : ∃ ws, Str.words (SystemType.continuousCylindrical d).display =
          (chars! "Continuous") :: (chars! "Cylindrical") :: (chars! "system.") ::
            ('0' :: '.' :: '.' :: Str.printNat d) :: ws := by
        rw [SystemType.display]
        have e : (chars! "Continuous Cylindrical system. 0..") ++ Str.printNat d ++
              (chars! " : Circular, ") ++ Str.printNat d ++ (chars! ".. : Rectangular") =
            (chars! "Continuous Cylindrical system. ") ++ (('0' :: '.' :: '.' :: Str.printNat d) ++
              ' ' :: ((chars! ": Circular, ") ++ Str.printNat d ++ (chars! ".. : Rectangular"))) := by
          simp
        rw [e, Str.words_lit (chars! "Continuous Cylindrical system.") _ (by rfl),
          Str.words_cons ?_ (by simp) (by decide)]
        · exact ⟨_, rfl⟩
        · intro c hc
          simp only [List.mem_cons] at hc
          rcases hc with rfl | rfl | rfl | hc
          · decide
          · decide
          · decide
          · exact Str.printNat_not_ws c hc
      obtain ⟨ws, hw⟩ := hw
      rw [SystemType.fromStr, hw]
      have h3 : Str.dropBytes 3 ('0' :: '.' :: '.' :: Str.printNat d) = .ok (Str.printNat d) :=
        Str.dropBytes_ascii3 (by decide) (by decide) (by decide) _
      simp [Res.index, h3, Str.parse_printNat ht, Res.orInvalid]
    | _ => rfl
  · intro d hd hd'
    have hw := Str.words_word (w := Str.printNat d) Str.printNat_not_ws (Str.printNat_ne_nil d)
    rw [SystemType.fromStr, hw]
    have h1 : Str.printNat d ≠ (chars! "Continuous") := printNat_ne (by decide)
    have h2 : Str.printNat d ≠ (chars! "Lattice") := printNat_ne (by decide)
    have h3 : Str.printNat d ≠ (chars! "Network") := printNat_ne (by decide)
    have h4 : Str.printNat d ≠ (chars! "Circular") := printNat_ne (by decide)
    have h5 : Str.printNat d ≠ (chars! "Rectangular") := printNat_ne (by decide)
    have h6 : d ≠ 0 := by omega
    simp [Res.index, h1, h2, h3, h4, h5, h6, Str.parse_printNat hd', Res.orInvalid]

/-- A text is read as a cylinder of dimension zero only in the long form: the number of the long form is
not checked. -/
theorem C41_system_type_zero :
    SystemType.fromStr (SystemType.continuousCylindrical 0).display = .ok (.continuousCylindrical 0) :=
  C41_system_type.1 _ (by simp [SystemTypeOk])

/-- When reading a system type crashes: on a text with no word, on the single word `Continuous`, and on
`Continuous Cylindrical ...` without a fourth word or with a fourth word that has no character boundary
after three bytes. -/
theorem C41_system_type_panics_iff (s : Str) :
    SystemType.fromStr s = .panic ↔
      Str.Blank s ∨ Str.words s = [(chars! "Continuous")] ∨
      ((Str.words s)[0]? = some (chars! "Continuous") ∧ (Str.words s)[1]? = some (chars! "Cylindrical") ∧
        ∀ w, (Str.words s)[3]? = some w → Str.dropBytes 3 w = .panic) := by
  rw [← Str.words_eq_nil_iff]
  unfold SystemType.fromStr
  have drop_err : ∀ n w e, Str.dropBytes n w ≠ .err e := by
    intro n w e
    induction w generalizing n with
    | nil => cases n <;> simp [Str.dropBytes]
    | cons c w ih =>
      cases n with
      | zero => simp [Str.dropBytes]
      | succ n =>
        unfold Str.dropBytes
        split
        · exact ih _
        · simp
  cases hw : Str.words s with
  | nil => simp [Res.index]
  | cons w ws =>
    by_cases h1 : w = (chars! "Continuous")
    · cases ws with
      | nil => simp [Res.index, h1]
      | cons v ws =>
        by_cases h2 : v = (chars! "Cylindrical")
        · subst h1; subst h2
          simp only [Res.index, List.getElem?_cons_zero, List.getElem?_cons_succ, Res.bind_ok]
          cases h3 : ws[1]? with
          | none => simp
          | some x =>
            simp only [Res.bind_ok]
            cases hd : Str.dropBytes 3 x with
            | ok r => simpa [hd] using orInvalid_map_ne_panic _ _
            | err e => exact absurd hd (drop_err _ _ _)
            | panic => simp [hd]
        · subst h1
          simp only [Res.index, List.getElem?_cons_zero, List.getElem?_cons_succ, Res.bind_ok, if_true, h2,
            if_false, Option.some.injEq, false_and, and_false, List.cons.injEq, reduceCtorEq, or_self,
            iff_false]
          split
          · simp
          · split <;> simp
    · simp only [Res.index, List.getElem?_cons_zero, Res.bind_ok, h1, if_false, Option.some.injEq,
        false_and, List.cons.injEq, reduceCtorEq, or_self, iff_false]
      split
      · simp
      · split
        · simp
        · split
          · simp
          · split
            · simp
            · cases Str.parseNat w with
              | none => simp [Res.orInvalid]
              | some d =>
                simp only [Res.orInvalid, Res.bind_ok]
                split <;> simp

/-! ### boundary condition -/

/-- the dimension of a mixed boundary is a 64-bit number. -/
def BoundaryOk : BoundaryCond → Prop
  | .mixed d => d < 2 ^ 64
  | _ => True

/-- `BoundaryCond`: the printed text is read back as the same condition; the short forms are `Periodic`,
`Reflective` and a positive number. -/
theorem C41_boundary_cond :
    (∀ t, BoundaryOk t → BoundaryCond.fromStr t.display = .ok t) ∧
    BoundaryCond.fromStr (chars! "Periodic") = .ok .periodic ∧
    BoundaryCond.fromStr (chars! "Reflective") = .ok .reflection ∧
    (∀ d, 0 < d → d < 2 ^ 64 → BoundaryCond.fromStr (Str.printNat d) = .ok (.mixed d)) ∧
    BoundaryCond.fromStr (chars! "0") = .err .invalidArgumentInput := by
  refine ⟨?_, by rfl, by rfl, ?_, by rfl⟩
  · intro t ht
    cases t with
    | mixed d =>
      have hw : ∃ ws, Str.words (BoundaryCond.mixed d).display =
          (chars! "Mixed") :: (chars! "Boundary") :: (chars! "Condition.") ::
            ('0' :: '.' :: '.' :: Str.printNat d) :: ws := by
        rw [BoundaryCond.display]
        have e : (chars! "Mixed Boundary Condition. 0..") ++ Str.printNat d ++
              (chars! " : Reflection, ") ++ Str.printNat d ++ (chars! ".. : Periodic") =
            (chars! "Mixed Boundary Condition. ") ++ (('0' :: '.' :: '.' :: Str.printNat d) ++
              ' ' :: ((chars! ": Reflection, ") ++ Str.printNat d ++ (chars! ".. : Periodic"))) := by
          simp
        rw [e, Str.words_lit (chars! "Mixed Boundary Condition.") _ (by rfl),
          Str.words_cons ?_ (by simp) (by decide)]
        · exact ⟨_, rfl⟩
        · intro c hc
          simp only [List.mem_cons] at hc
          rcases hc with rfl | rfl | rfl | hc
          · decide
          · decide
          · decide
          · exact Str.printNat_not_ws c hc
      obtain ⟨ws, hw⟩ := hw
      rw [BoundaryCond.fromStr, hw]
      have h3 : Str.dropBytes 3 ('0' :: '.' :: '.' :: Str.printNat d) = .ok (Str.printNat d) :=
        Str.dropBytes_ascii3 (by decide) (by decide) (by decide) _
      simp [Res.index, h3, Str.parse_printNat ht, Res.orInvalid]
    | _ => rfl
  · intro d hd hd'
    have hw := Str.words_word (w := Str.printNat d) Str.printNat_not_ws (Str.printNat_ne_nil d)
    rw [BoundaryCond.fromStr, hw]
    have h1 : Str.printNat d ≠ (chars! "Reflective") := printNat_ne (by decide)
    have h2 : Str.printNat d ≠ (chars! "Periodic") := printNat_ne (by decide)
    have h3 : Str.printNat d ≠ (chars! "Mixed") := printNat_ne (by decide)
    have h6 : d ≠ 0 := by omega
    simp [Res.index, h1, h2, h3, h6, Str.parse_printNat hd', Res.orInvalid]

/-- When reading a boundary condition crashes: on a text with no word, and on `Mixed ...` without a
fourth word or with a fourth word that cannot be cut after three bytes. -/
theorem C41_boundary_cond_panics_iff (s : Str) :
    BoundaryCond.fromStr s = .panic ↔
      Str.Blank s ∨ ((Str.words s)[0]? = some (chars! "Mixed") ∧
        ∀ w, (Str.words s)[3]? = some w → Str.dropBytes 3 w = .panic) := by
  rw [← Str.words_eq_nil_iff]
  unfold BoundaryCond.fromStr
  have drop_err : ∀ n w e, Str.dropBytes n w ≠ .err e := by
    intro n w e
    induction w generalizing n with
    | nil => cases n <;> simp [Str.dropBytes]
    | cons c w ih =>
      cases n with
      | zero => simp [Str.dropBytes]
      | succ n =>
        unfold Str.dropBytes
        split
        · exact ih _
        · simp
  cases hw : Str.words s with
  | nil => simp [Res.index]
  | cons w ws =>
    by_cases h1 : w = (chars! "Mixed")
    · subst h1
      simp only [Res.index, List.getElem?_cons_zero, List.getElem?_cons_succ, Res.bind_ok]
      cases h3 : ws[2]? with
      | none => simp
      | some x =>
        simp only [Res.bind_ok]
        cases hd : Str.dropBytes 3 x with
        | ok r => simpa [hd] using orInvalid_map_ne_panic _ _
        | err e => exact absurd hd (drop_err _ _ _)
        | panic => simp [hd]
    · simp only [Res.index, List.getElem?_cons_zero, Res.bind_ok, h1, if_false, Option.some.injEq,
        false_and, reduceCtorEq, or_self, iff_false]
      split
      · simp
      · split
        · simp
        · cases Str.parseNat w with
          | none => simp [Res.orInvalid]
          | some d =>
            simp only [Res.orInvalid, Res.bind_ok]
            split <;> simp

/-! ### time step type -/

/-- the parameters can be printed. -/
def TimeOk {F : Type} (ok : F → Prop) : TimeType F → Prop
  | .constant dt => ok dt
  | .exponential a b n => ok a ∧ ok b ∧ n < 2 ^ 64

/-- the same type with its step sizes rounded by `r`. -/
def TimeRound {F : Type} (r : F → F) : TimeType F → TimeType F
  | .constant dt => .constant (r dt)
  | .exponential a b n => .exponential (r a) (r b) n

/-- `TimeType`: the printed text is read back as the same type with its step sizes rounded to the
printed digits; hence exactly the same type when the step sizes have no more digits than are printed. -/
theorem C41_time_type {F : Type} (f : NumFmt F) (e5 : F → Str) (r : F → F) (ok : F → Prop)
    (he : ReadsAs f e5 r ok) (t : TimeType F) (ht : TimeOk ok t) :
    TimeType.fromStr f (t.display e5) = .ok (TimeRound r t) := by
  cases t with
  | constant dt =>
    have hw : Str.words ((TimeType.constant dt).display e5) =
        [(chars! "Constant"), (chars! "Time"), (chars! "step"), (chars! "with"), (chars! "size"),
          e5 dt] := by
      rw [TimeType.display, Str.words_lit (chars! "Constant Time step with size") _ (by rfl),
        Str.words_word (he.noBlank _ ht) (he.nonempty _ ht)]
      rfl
    simp [TimeType.fromStr, hw, Res.index, he.reads _ ht, Res.expect, TimeRound]
  | exponential a b n =>
    obtain ⟨ha, hb, hn⟩ := ht
    have hw : Str.words ((TimeType.exponential a b n).display e5) =
        [(chars! "Exponential"), (chars! "time"), (chars! "step"), (chars! "increase"), (chars! "from"),
          e5 a, (chars! "to"), e5 b, (chars! "Each"), (chars! "increase"), (chars! "occurs"),
          (chars! "in"), (chars! "every"), Str.printNat n, (chars! "step")] := by
      rw [TimeType.display]
      have e : (chars! "Exponential time step increase from ") ++ e5 a ++ (chars! " to ") ++ e5 b ++
            (chars! " Each increase occurs in every ") ++ Str.printNat n ++ (chars! " step") =
          (chars! "Exponential time step increase from ") ++ (e5 a ++ ' ' :: ((chars! "to ") ++
            (e5 b ++ ' ' :: ((chars! "Each increase occurs in every ") ++
              (Str.printNat n ++ ' ' :: (chars! "step")))))) := by simp
      rw [e, Str.words_lit (chars! "Exponential time step increase from") _ (by rfl),
        Str.words_cons (he.noBlank _ ha) (he.nonempty _ ha) (by decide),
        Str.words_lit (chars! "to") _ (by rfl),
        Str.words_cons (he.noBlank _ hb) (he.nonempty _ hb) (by decide),
        Str.words_lit (chars! "Each increase occurs in every") _ (by rfl),
        Str.words_cons Str.printNat_not_ws (Str.printNat_ne_nil n) (by decide)]
      rfl
    simp [TimeType.fromStr, hw, Res.index, he.reads _ ha, he.reads _ hb, Str.parse_printNat hn,
      Res.orInvalid, TimeRound]

/-- Short forms of `TimeType`: one number is a constant step, three words are an exponential one. -/
theorem C41_time_type_short {F : Type} (f : NumFmt F) (ok : F → Prop) (hf : f.WordLike ok) (a b : F)
    (n : Nat) (ha : ok a) (hb : ok b) (hn : n < 2 ^ 64) :
    TimeType.fromStr f (f.print a) = .ok (.constant a) ∧
    TimeType.fromStr f (f.print a ++ [' '] ++ f.print b ++ [' '] ++ Str.printNat n)
      = .ok (.exponential a b n) := by
  have h1 : f.print a ≠ (chars! "Constant") := wordLike_ne hf ha (by decide)
  have h2 : f.print a ≠ (chars! "Exponential") := wordLike_ne hf ha (by decide)
  constructor
  · rw [TimeType.fromStr, Str.words_word (hf.noBlank _ ha) (wordLike_ne_nil hf ha)]
    simp [Res.index, h1, h2, hf.roundtrip _ ha, Res.orInvalid]
  · have hw : Str.words (f.print a ++ [' '] ++ f.print b ++ [' '] ++ Str.printNat n) =
        [f.print a, f.print b, Str.printNat n] := by
      have e : f.print a ++ [' '] ++ f.print b ++ [' '] ++ Str.printNat n =
          f.print a ++ ' ' :: (f.print b ++ ' ' :: Str.printNat n) := by simp
      rw [e, Str.words_cons (hf.noBlank _ ha) (wordLike_ne_nil hf ha) (by decide),
        Str.words_cons (hf.noBlank _ hb) (wordLike_ne_nil hf hb) (by decide),
        Str.words_word Str.printNat_not_ws (Str.printNat_ne_nil n)]
    rw [TimeType.fromStr, hw]
    simp [Res.index, h1, h2, hf.roundtrip _ ha, hf.roundtrip _ hb, Str.parse_printNat hn, Res.orInvalid]

/-- When reading a time step type crashes: on a text with no word, on `Constant ...` without a readable
sixth word, and on `Exponential ...` cut off before the last number it needs. -/
theorem C41_time_type_panics_iff {F : Type} (f : NumFmt F) (s : Str) :
    TimeType.fromStr f s = .panic ↔
      Str.Blank s ∨
      ((Str.words s)[0]? = some (chars! "Constant") ∧ ∀ w, (Str.words s)[5]? = some w → f.parse w = none) ∨
      ((Str.words s)[0]? = some (chars! "Exponential") ∧
        ∀ w, (Str.words s)[5]? = some w → f.parse w ≠ none ∧
          ∀ v, (Str.words s)[7]? = some v → f.parse v ≠ none ∧ (Str.words s)[13]? = none) := by
  rw [← Str.words_eq_nil_iff]
  unfold TimeType.fromStr
  cases hw : Str.words s with
  | nil => simp [Res.index]
  | cons w ws =>
    by_cases h1 : w = (chars! "Constant")
    · subst h1
      simp only [Res.index, List.getElem?_cons_zero, List.getElem?_cons_succ, Res.bind_ok, if_true]
      cases h5 : ws[4]? with
      | none => simp
      | some x => cases hp : f.parse x <;> simp [hp, Res.expect]
    · by_cases h2 : w = (chars! "Exponential")
      · subst h2
        simp only [Res.index, List.getElem?_cons_zero, List.getElem?_cons_succ, Res.bind_ok, h1, if_false,
          if_true]
        cases h5 : ws[4]? with
        | none => simp
        | some x =>
          cases hp : f.parse x with
          | none => simp [hp, Res.orInvalid]
          | some a =>
            cases h7 : ws[6]? with
            | none => simp [hp, Res.orInvalid]
            | some y =>
              cases hq : f.parse y with
              | none => simp [hp, hq, Res.orInvalid]
              | some b =>
                cases h13 : ws[12]? with
                | none => simp [hp, hq, Res.orInvalid]
                | some z => cases hz : Str.parseNat z <;> simp [hp, hq, hz, Res.orInvalid]
      · simp only [Res.index, List.getElem?_cons_zero, Res.bind_ok, h1, h2, if_false, Option.some.injEq,
          false_and, reduceCtorEq, or_self, iff_false]
        split
        · exact orInvalid_map_ne_panic _ _
        · rename_i x y z _
          cases f.parse x <;> cases f.parse y <;> cases Str.parseNat z <;> simp [Res.orInvalid]
        · simp

/-! ### the hypotheses can be met, and concrete cases -/

/-- `usize` text is word-like. -/
theorem natFmt_wordLike : natFmt.WordLike (· < 2 ^ 64) where
  toFaithful := C31_usize_faithful
  numericHead n _ := by
    cases h : Str.printNat n with
    | nil => exact absurd h (Str.printNat_ne_nil n)
    | cons c r =>
      refine ⟨c, r, h, .inl ?_⟩
      obtain ⟨d, hd, rfl⟩ := Str.printNat_mem (n := n) (c := c) (by rw [h]; simp)
      interval_cases d <;> decide

/-- an exact printer reads as itself. -/
theorem natFmt_readsAs : ReadsAs natFmt natFmt.print id (· < 2 ^ 64) where
  reads _ h := Str.parse_printNat h
  noBlank _ _ := Str.printNat_not_ws
  nonempty n _ := Str.printNat_ne_nil n

example : MoveType.fromStr natFmt ((MoveType.brownian 12).display natFmt) = .ok (.brownian 12) :=
  (C41_move_type natFmt _ natFmt_wordLike).1 _ (by norm_num [MoveOk])
example : TimeType.fromStr natFmt ((TimeType.exponential 1 20 100).display natFmt.print)
    = .ok (.exponential 1 20 100) :=
  C41_time_type natFmt natFmt.print id _ natFmt_readsAs _ (by norm_num [TimeOk])
example : MoveType.fromStr natFmt (chars! "Brownian motion") = .panic := by rfl
example : MoveType.fromStr natFmt (chars! "Ballistic") = .err .invalidArgumentInput := by rfl
example : InitType.fromStr natFmt (chars! "Nonsense") = .ok (.specificPosition [0]) := by rfl
example : InteractType.fromStr natFmt (chars! "Exponential") = .panic := by rfl
example : SystemType.fromStr (chars! "Continuous") = .panic := by rfl
example : BoundaryCond.fromStr (chars! "Mixed 3") = .panic := by rfl
example : TimeType.fromStr natFmt (chars! "Constant 1") = .panic := by rfl

end Moledyn.Props
