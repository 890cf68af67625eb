import Verif.Lemmas.Argument
import Verif.Props.TypesText
/-
C42: configuration blocks are read back as written.
-/
set_option linter.unusedSimpArgs false
namespace Moledyn.Props
open Moledyn

/-- Every block of printable values is read back, for every padding width and whatever follows. -/
theorem C42_reads_back (fs : List Field) (v : Vals fs) (hn : ∀ f ∈ fs, f.NameOk)
    (hv : Vals.Printable fs v) : ReadsBack fs v := by
  intro width rest
  induction fs with
  | nil => exact ⟨[], rfl, rfl⟩
  | cons f fs ih =>
    obtain ⟨⟨s, hs1, hs2, hs3, hs4⟩, hv2⟩ := hv
    obtain ⟨txt, h1, h2⟩ := ih v.2 (fun g hg => hn g (by simp [hg])) hv2
    obtain ⟨hc, hl⟩ := hn f (by simp)
    refine ⟨Str.padRight width f.name ++ [':', ' '] ++ s ++ ['\n'] ++ txt,
      by simp [printConfiguration, hs1, h1], ?_⟩
    have e : Str.padRight width f.name ++ [':', ' '] ++ s ++ ['\n'] ++ txt ++ rest =
        (Str.padRight width f.name ++ [':', ' '] ++ s) ++ '\n' :: (txt ++ rest) := by simp
    rw [e, Str.lines_cons (Str.noNL_line hl hs3)]
    have hr : f.read (Str.stripCR (' ' :: s)) = .ok v.1 := by
      rw [Field.read, Str.trim_stripCR, Str.trim_cons_ws (by decide), hs4]
      rfl
    simp only [Reader.ofLines, List.map_cons, readArgsFromLines, Str.split_line hc hs2, hr]
    have h2' : readArgsFromLines fs ((Str.lines (txt ++ rest)).map Except.ok) = _ := h2
    rw [h2']
    rfl

/-- A block with a value whose text contains a colon can never be read back: the reader reports
`InvalidFormat`. -/
theorem C42_colon_never_reads_back (fs : List Field) (v : Vals fs) (hn : ∀ f ∈ fs, f.NameOk)
    (hv : Vals.PrintableUpToColon fs v) : NeverReadsBack fs v := by
  intro width rest txt htxt
  induction fs generalizing txt with
  | nil => exact hv.elim
  | cons f fs ih =>
    obtain ⟨hc, hl⟩ := hn f (by simp)
    simp only [printConfiguration, Res.bind_eq_ok] at htxt
    obtain ⟨s, hs, htxt⟩ := htxt
    cases hp : printConfiguration width fs v.2 with
    | err e => rw [hp] at htxt; simp at htxt
    | panic => rw [hp] at htxt; simp at htxt
    | ok t =>
      rw [hp] at htxt
      simp only [Res.map_ok, Res.ok.injEq] at htxt
      have e : txt ++ rest = (Str.padRight width f.name ++ [':', ' '] ++ s) ++ '\n' :: (t ++ rest) := by
        rw [← htxt]; simp
      rw [e]
      rcases hv with ⟨s', h1, h2, h3⟩ | ⟨⟨s', h1, h2, h3, h4⟩, hv⟩
      · rw [hs] at h1; injection h1 with h1; subst h1
        rw [Str.lines_cons (Str.noNL_line hl h3)]
        have hlen : (Str.splitBy (· == ':')
            (Str.stripCR (Str.padRight width f.name ++ [':', ' '] ++ s))).length ≠ 2 := by
          have e2 : Str.padRight width f.name ++ [':', ' '] ++ s =
            (Str.padRight width f.name ++ [':']) ++ (' ' :: s) := by simp
          rw [Str.length_splitBy, e2, Str.stripCR_append _ (by simp), List.countP_append,
            List.countP_append]
          have : 0 < List.countP (· == ':') (Str.stripCR (' ' :: s)) := by
            rw [List.countP_pos_iff]
            refine ⟨':', ?_, by simp⟩
            rcases Str.stripCR_cases (' ' :: s) with h | ⟨u, hu1, hu2⟩
            · rw [h]; simp [h2]
            · rw [hu2]
              have : ':' ∈ u ++ ['\r'] := by rw [← hu1]; simp [h2]
              simpa using this
          simp only [List.countP_singleton, beq_self_eq_true, if_true]
          omega
        simp only [Reader.ofLines, List.map_cons, readArgsFromLines]
        split
        · rename_i _ w heq
          rw [heq] at hlen
          simp at hlen
        · rfl
      · rw [hs] at h1; injection h1 with h1; subst h1
        rw [Str.lines_cons (Str.noNL_line hl h3)]
        have hr : f.read (Str.stripCR (' ' :: s)) = .ok v.1 := by
          rw [Field.read, Str.trim_stripCR, Str.trim_cons_ws (by decide), h4]
          rfl
        simp only [Reader.ofLines, List.map_cons, readArgsFromLines, Str.split_line hc h2, hr]
        have := ih v.2 (fun g hg => hn g (by simp [hg])) hv t hp
        cases h : readArgsFromLines fs ((Str.lines (t ++ rest)).map Except.ok) with
        | mk r rd =>
          simp only [Reader.ofLines] at this
          rw [h] at this
          simp only at this
          rw [this]

/-! ### which values are printable -/

theorem clean_not_nl {s : Str} (h : ∀ c ∈ s, Str.isWs c = false) : '\n' ∉ s := by
  intro hc
  have := h _ hc
  revert this; decide

theorem trim_clean {s : Str} (h : ∀ c ∈ s, Str.isWs c = false) : Str.trim s = s := by
  apply Str.trim_id
  · intro c hc; exact h c (List.mem_of_mem_head? hc)
  · intro c hc; exact h c (List.mem_of_mem_getLast? hc)

section Fields
variable {F : Type} {f : NumFmt F} {ok : F → Prop}

theorem printable_real (hf : f.WordLike ok) (name : Str) {x : F} (hx : ok x) :
    (Field.real f name).Printable x :=
  ⟨f.print x, rfl, fun h => (hf.noPunct x hx _ h).2.1 rfl, clean_not_nl (hf.noBlank x hx), by
    rw [trim_clean (hf.noBlank x hx)]
    simp [Field.real, hf.roundtrip x hx, Res.orInvalid]⟩

theorem printable_usize (name : Str) {n : Nat} (hn : n < 2 ^ 64) : (Field.usize name).Printable n :=
  ⟨Str.printNat n, rfl, fun h => (printNat_punct h).2.1 rfl, clean_not_nl Str.printNat_not_ws, by
    rw [trim_clean Str.printNat_not_ws]
    simp [Field.usize, Str.parse_printNat hn, Res.orInvalid]⟩

theorem parseU128_printNat {n : Nat} (h : n < 2 ^ 128) : Str.parseU128 (Str.printNat n) = some n := by
  obtain ⟨ds, hne, hd, hp, hv⟩ := Str.printNat_digits n
  have hbody : Str.stripPlus (Str.printNat n) = Str.printNat n := by
    unfold Str.stripPlus
    split
    · rename_i r hr
      exact absurd hr (printNat_ne (by decide))
    · rfl
  unfold Str.parseU128
  rw [hbody]
  simp only [if_neg (Str.printNat_ne_nil n)]
  rw [hp, Str.parseDigits_digits ds hd, hv]
  simp only [if_pos h]

theorem printable_u128 (name : Str) {n : Nat} (hn : n < 2 ^ 128) : (Field.u128 name).Printable n :=
  ⟨Str.printNat n, rfl, fun h => (printNat_punct h).2.1 rfl, clean_not_nl Str.printNat_not_ws, by
    rw [trim_clean Str.printNat_not_ws]
    simp [Field.u128, parseU128_printNat hn, Res.orInvalid]⟩

theorem printable_string (name : Str) {s : Str} (h1 : ':' ∉ s) (h2 : '\n' ∉ s) (h3 : Str.trim s = s) :
    (Field.string name).Printable s := ⟨s, rfl, h1, h2, by rw [h3]; rfl⟩

theorem display_fold_noColon (hf : f.Faithful ok) (xs : List F) (hx : ∀ x ∈ xs, ok x) (a : Str)
    (ha : ':' ∉ a) : ':' ∉ xs.foldl (fun acc y => acc ++ [','] ++ f.print y) a := by
  induction xs generalizing a with
  | nil => exact ha
  | cons x xs ih =>
    refine ih (fun y hy => hx y (by simp [hy])) _ ?_
    intro h
    simp only [List.mem_append, List.mem_singleton] at h
    rcases h with (h | h) | h
    · exact ha h
    · exact absurd h (by decide)
    · exact (hf.noPunct x (hx x (by simp)) _ h).2.1 rfl

theorem display_noColon (hf : f.Faithful ok) {p : Pos F} (hp : ∀ x ∈ p, ok x) {s : Str}
    (h : Pos.display f p = .ok s) : ':' ∉ s := by
  cases p with
  | nil => simp [Pos.display] at h
  | cons x xs =>
    simp only [Pos.display, Res.ok.injEq] at h
    rw [← h]
    exact display_fold_noColon hf xs (fun y hy => hp y (by simp [hy])) _
      (fun h => (hf.noPunct x (hp x (by simp)) _ h).2.1 rfl)

theorem printable_position (hf : f.WordLike ok) (name : Str) {p : Pos F} (hne : p ≠ [])
    (hp : ∀ x ∈ p, ok x) : (Field.position f name).Printable p := by
  obtain ⟨s, h1, h2, _, _, h5⟩ := pos_display_word hf hne hp
  exact ⟨s, h1, display_noColon hf.toFaithful hp h1, clean_not_nl h2, by rw [trim_clean h2]; exact h5⟩

theorem printable_agentType (name : Str) (t : AgentType) : (Field.agentType name).Printable t := by
  refine ⟨t.display, rfl, ?_, ?_, ?_⟩
  · cases t <;> decide
  · cases t <;> decide
  · have : Str.trim t.display = t.display := by cases t <;> rfl
    rw [this]; exact ((C41_agent_type _ t).1).2 rfl

theorem printable_targetType (name : Str) (t : TargetType) : (Field.targetType name).Printable t := by
  refine ⟨t.display, rfl, ?_, ?_, ?_⟩
  · cases t <;> decide
  · cases t <;> decide
  · have : Str.trim t.display = t.display := by cases t <;> rfl
    rw [this]; exact ((C41_target_type _ t).1).2 rfl

theorem printable_systemType (name : Str) (t : SystemType) (ht : ∀ d, t ≠ .continuousCylindrical d) :
    (Field.systemType name).Printable t := by
  cases t with
  | continuousCylindrical d => exact absurd rfl (ht d)
  | _ => exact ⟨_, rfl, by decide, by decide, by rfl⟩

theorem printable_boundaryCond (name : Str) (t : BoundaryCond) (ht : ∀ d, t ≠ .mixed d) :
    (Field.boundaryCond name).Printable t := by
  cases t with
  | mixed d => exact absurd rfl (ht d)
  | _ => exact ⟨_, rfl, by decide, by decide, by rfl⟩

theorem trim_sentence {c : Char} {a s : Str} (hc : Str.isWs c = false) (hs : ∀ c ∈ s, Str.isWs c = false)
    (hne : s ≠ []) : Str.trim (c :: a ++ s) = c :: a ++ s := by
  apply Str.trim_id
  · intro d hd
    simp at hd; subst hd; exact hc
  · intro d hd
    rw [List.getLast?_append_of_ne_nil _ hne] at hd
    exact hs d (List.mem_of_mem_getLast? hd)

theorem printable_moveType (hf : f.WordLike ok) (name : Str) (t : MoveType F) (ht : MoveOk ok t) :
    (Field.moveType f name).Printable t := by
  have h := (C41_move_type f ok hf).1 t ht
  cases t with
  | levy => exact ⟨_, rfl, by simp [MoveType.display], by simp [MoveType.display], by rfl⟩
  | brownian c =>
    refine ⟨_, rfl, ?_, ?_, ?_⟩
    · intro hc
      simp only [MoveType.display, List.mem_append] at hc
      rcases hc with hc | hc
      · revert hc; decide
      · exact (hf.noPunct c ht _ hc).2.1 rfl
    · intro hc
      simp only [MoveType.display, List.mem_append] at hc
      rcases hc with hc | hc
      · revert hc; decide
      · exact clean_not_nl (hf.noBlank c ht) hc
    · have : Str.trim ((MoveType.brownian c).display f) = (MoveType.brownian c).display f :=
        trim_sentence (by decide) (hf.noBlank c ht) (wordLike_ne_nil hf ht)
      rw [this]; exact h

theorem printable_initType (hf : f.WordLike ok) (name : Str) (t : InitType F) (ht : InitOk ok t) :
    (Field.initType f name).Printable t := by
  obtain ⟨s, hs, hr⟩ := (C41_init_type f ok hf).1 t ht
  cases t with
  | uniform => exact ⟨_, rfl, by decide, by decide, by rfl⟩
  | specificPosition p =>
    obtain ⟨w, h1, h2, h3, _, _⟩ := pos_display_word hf ht.1 ht.2
    simp only [InitType.display, h1, Res.map_ok, Res.ok.injEq] at hs
    refine ⟨s, by simp only [Field.initType, InitType.display, h1, Res.map_ok, hs], ?_, ?_, ?_⟩
    · rw [← hs]
      intro hc
      simp only [List.mem_append] at hc
      rcases hc with hc | hc
      · revert hc; decide
      · exact display_noColon hf.toFaithful ht.2 h1 hc
    · rw [← hs]
      intro hc
      simp only [List.mem_append] at hc
      rcases hc with hc | hc
      · revert hc; decide
      · exact clean_not_nl h2 hc
    · have : Str.trim s = s := by
        rw [← hs]; exact trim_sentence (by decide) h2 h3
      rw [this]; exact hr

/-! ### the structures of the crate -/

/-- All names of the crate's structures are identifiers. -/
theorem names_ok (f : NumFmt F) :
    ∀ S ∈ [circSchema f, cubicSchema f, cylSchema f, bulkTargetSchema f, indepSchema f, mergeSchema f,
      expSchema f, ljSchema f, constStepSchema f, expStepSchema f, variableSimSchema,
      parVariableSimSchema, processSimSchema f], ∀ g ∈ S.fields, g.NameOk := by
  intro S hS g hg
  have key : ∀ n ∈ S.fields.map Field.name, ':' ∉ n ∧ '\n' ∉ n := by
    simp only [List.mem_cons, List.not_mem_nil, or_false] at hS
    rcases hS with rfl | rfl | rfl | rfl | rfl | rfl | rfl | rfl | rfl | rfl | rfl | rfl | rfl <;>
      (simp only [Schema.fields, Schema.varFields, circSchema, cubicSchema, cylSchema, bulkTargetSchema,
        indepSchema, mergeSchema, expSchema, ljSchema, constStepSchema, expStepSchema,
        variableSimSchema, parVariableSimSchema, processSimSchema, List.map_cons, List.map_nil,
        List.cons_append, List.nil_append, Field.real, Field.usize, Field.u128, Field.string,
        Field.position, Field.systemType, Field.boundaryCond, Field.targetType, Field.agentType,
        Field.moveType, Field.initType]; decide)
  exact key g.name (List.mem_map_of_mem hg)

end Fields

/-- an output directory that survives: no colon, no line feed, no blanks at the ends. -/
def DirOk (s : Str) : Prop := ':' ∉ s ∧ '\n' ∉ s ∧ Str.trim s = s

section Structures
variable {F : Type} (f : NumFmt F) (ok : F → Prop)

/-- Systems: circle and box (without mixed boundary) are read back exactly. -/
theorem C42_systems (hf : f.WordLike ok) (t : SystemType) (b : BoundaryCond) (size : F) (dim : Nat)
    (ht : ∀ d, t ≠ .continuousCylindrical d) (hb : ∀ d, b ≠ .mixed d) (hs : ok size)
    (hd : dim < 2 ^ 64) :
    ReadsBack (circSchema f).fields (t, (b, (size, (dim, ())))) ∧
    ReadsBack (cubicSchema f).fields (t, (b, (size, (dim, ())))) := by
  have h : Vals.Printable (circSchema f).fields (t, (b, (size, (dim, ())))) :=
    ⟨printable_systemType _ t ht, printable_boundaryCond _ b hb, printable_real hf _ hs,
      printable_usize _ hd, trivial⟩
  exact ⟨C42_reads_back _ _ (names_ok f _ (by simp)) h, C42_reads_back _ _ (names_ok f _ (by simp)) h⟩

/-- Targets are read back exactly. -/
theorem C42_targets (hf : f.WordLike ok) (t : TargetType) (p : Pos F) (size : F) (hne : p ≠ [])
    (hp : ∀ x ∈ p, ok x) (hs : ok size) :
    ReadsBack (bulkTargetSchema f).fields (t, (p, (size, ()))) :=
  C42_reads_back _ _ (names_ok f _ (by simp))
    ⟨printable_targetType _ t, printable_position hf _ hne hp, printable_real hf _ hs, trivial⟩

/-- Agents of all four kinds are read back exactly. -/
theorem C42_agents (hf : f.WordLike ok) (t : AgentType) (m : MoveType F) (i : InitType F)
    (hm : MoveOk ok m) (hi : InitOk ok i) (n size dim : Nat) (hn : n < 2 ^ 64) (hsz : size < 2 ^ 64)
    (hdim : dim < 2 ^ 64) (x y : F) (hx : ok x) (hy : ok y) :
    ReadsBack (indepSchema f).fields (t, (m, (i, (n, ())))) ∧
    ReadsBack (mergeSchema f).fields (t, (size, (m, (i, (x, (y, (n, ()))))))) ∧
    ReadsBack (expSchema f).fields (t, (m, (i, (x, (dim, (y, (n, ()))))))) ∧
    ReadsBack (ljSchema f).fields (t, (m, (i, (x, (y, (n, ())))))) := by
  have a := printable_agentType (chars! "agent_type") t
  have b := printable_moveType hf (chars! "mtype") m hm
  have c := printable_initType hf (chars! "itype") i hi
  have d := printable_usize (chars! "num_agent") hn
  exact ⟨C42_reads_back _ _ (names_ok f _ (by simp)) ⟨a, b, c, d, trivial⟩,
    C42_reads_back _ _ (names_ok f _ (by simp))
      ⟨a, printable_usize _ hsz, b, c, printable_real hf _ hx, printable_real hf _ hy, d, trivial⟩,
    C42_reads_back _ _ (names_ok f _ (by simp))
      ⟨a, b, c, printable_real hf _ hx, printable_usize _ hdim, printable_real hf _ hy, d, trivial⟩,
    C42_reads_back _ _ (names_ok f _ (by simp))
      ⟨a, b, c, printable_real hf _ hx, printable_real hf _ hy, d, trivial⟩⟩

/-- Clocks are read back exactly. -/
theorem C42_clocks (hf : f.WordLike ok) (x y z : F) (n : Nat) (hx : ok x) (hy : ok y) (hz : ok z)
    (hn : n < 2 ^ 64) :
    ReadsBack (constStepSchema f).fields (x, (z, ())) ∧
    ReadsBack (expStepSchema f).fields (x, (y, (n, (z, ())))) :=
  ⟨C42_reads_back _ _ (names_ok f _ (by simp)) ⟨printable_real hf _ hx, printable_real hf _ hz, trivial⟩,
   C42_reads_back _ _ (names_ok f _ (by simp)) ⟨printable_real hf _ hx, printable_real hf _ hy,
     printable_usize _ hn, printable_real hf _ hz, trivial⟩⟩

/-- Simulation parameters are read back exactly when the output directory is a plain path. -/
theorem C42_simulations (hf : f.WordLike ok) (ens idx thr seed : Nat) (period : F) (dir : Str)
    (he : ens < 2 ^ 64) (hi : idx < 2 ^ 64) (ht : thr < 2 ^ 64) (hs : seed < 2 ^ 128) (hp : ok period)
    (hd : DirOk dir) :
    ReadsBack variableSimSchema.fields (ens, (idx, (seed, (dir, ())))) ∧
    ReadsBack parVariableSimSchema.fields (ens, (seed, (thr, (dir, ())))) ∧
    ReadsBack (processSimSchema f).fields (ens, (period, (idx, (seed, (dir, ()))))) := by
  have d := printable_string (chars! "output_dir") hd.1 hd.2.1 hd.2.2
  exact ⟨C42_reads_back _ _ (names_ok f _ (by simp))
      ⟨printable_usize _ he, printable_usize _ hi, printable_u128 _ hs, d, trivial⟩,
    C42_reads_back _ _ (names_ok f _ (by simp))
      ⟨printable_usize _ he, printable_u128 _ hs, printable_usize _ ht, d, trivial⟩,
    C42_reads_back _ _ (names_ok f _ (by simp))
      ⟨printable_usize _ he, printable_real hf _ hp, printable_usize _ hi, printable_u128 _ hs, d,
        trivial⟩⟩

theorem colon_cyl (name : Str) (d : Nat) :
    (Field.systemType name).HasColon (SystemType.continuousCylindrical d) := by
  refine ⟨_, rfl, ?_, ?_⟩
  · simp [SystemType.display]
  · intro h
    simp only [SystemType.display, List.mem_append] at h
    rcases h with (((h | h) | h) | h) | h
    · revert h; decide
    · exact clean_not_nl Str.printNat_not_ws h
    · revert h; decide
    · exact clean_not_nl Str.printNat_not_ws h
    · revert h; decide

theorem colon_mixed (name : Str) (d : Nat) :
    (Field.boundaryCond name).HasColon (BoundaryCond.mixed d) := by
  refine ⟨_, rfl, ?_, ?_⟩
  · simp [BoundaryCond.display]
  · intro h
    simp only [BoundaryCond.display, List.mem_append] at h
    rcases h with (((h | h) | h) | h) | h
    · revert h; decide
    · exact clean_not_nl Str.printNat_not_ws h
    · revert h; decide
    · exact clean_not_nl Str.printNat_not_ws h
    · revert h; decide

/-- No configuration of a cylindrical system, and none of a box with a mixed boundary, can be read back
from the file the simulation writes: the text of the type contains a colon. -/
theorem C42_cylinder_and_mixed_never (t : SystemType) (ht : ∀ d, t ≠ .continuousCylindrical d)
    (d : Nat) (b : BoundaryCond) (r l : F) (dim : Nat) :
    NeverReadsBack (cylSchema f).fields (SystemType.continuousCylindrical d, (b, (r, (l, (dim, ()))))) ∧
    NeverReadsBack (cubicSchema f).fields (t, (BoundaryCond.mixed d, (r, (dim, ())))) :=
  ⟨C42_colon_never_reads_back _ _ (names_ok f _ (by simp)) (.inl (colon_cyl _ d)),
   C42_colon_never_reads_back _ _ (names_ok f _ (by simp))
    (.inr ⟨printable_systemType _ t ht, .inl (colon_mixed _ d)⟩)⟩

/-- Nor can a simulation whose output directory contains a colon. -/
theorem C42_colon_in_path_never (ens idx seed : Nat) (dir : Str) (he : ens < 2 ^ 64)
    (hi : idx < 2 ^ 64) (hs : seed < 2 ^ 128) (hc : ':' ∈ dir) (hn : '\n' ∉ dir) :
    NeverReadsBack variableSimSchema.fields (ens, (idx, (seed, (dir, ())))) :=
  C42_colon_never_reads_back _ _ (names_ok natFmt _ (by simp))
    (.inr ⟨printable_usize _ he, .inr ⟨printable_usize _ hi, .inr ⟨printable_u128 _ hs,
      .inl ⟨dir, rfl, hc, hn⟩⟩⟩⟩)

end Structures

/-! ### failures of the reader -/

/-- A file that ends inside the block is reported as `InvalidFile`; nothing is invented. -/
theorem C42_truncated (f : Field) (fs : List Field) :
    (readArgsFromLines (f :: fs) []).1 = .err .invalidFile := rfl

/-- The reader never consumes more lines than there are fields, and on success exactly as many. -/
theorem C42_consumes (fs : List Field) (rd : Reader) :
    ∃ k ≤ fs.length, (readArgsFromLines fs rd).2 = rd.drop k ∧
      (∀ v, (readArgsFromLines fs rd).1 = .ok v → k = fs.length ∧ fs.length ≤ rd.length) := by
  induction fs generalizing rd with
  | nil => exact ⟨0, le_refl _, rfl, fun v _ => ⟨rfl, Nat.zero_le _⟩⟩
  | cons f fs ih =>
    cases rd with
    | nil => exact ⟨0, by simp, rfl, fun v h => by cases h⟩
    | cons l rd =>
      cases l with
      | error t => exact ⟨1, by simp, rfl, fun v h => by cases h⟩
      | ok list =>
        simp only [readArgsFromLines]
        split
        · split
          · obtain ⟨k, hk, h1, h2⟩ := ih rd
            refine ⟨k + 1, by simpa using hk, ?_, ?_⟩
            · cases h : readArgsFromLines fs rd with
              | mk r rd' =>
                rw [h] at h1
                cases r <;> simpa using h1
            · cases h : readArgsFromLines fs rd with
              | mk r rd' =>
                rw [h] at h2
                cases r with
                | ok v =>
                  intro _ _
                  have := h2 v rfl
                  simp only [List.length_cons]
                  omega
                | err e => intro v h'; simp at h'
                | panic => intro v h'; simp at h'
          · exact ⟨1, by simp, rfl, fun v h => by cases h⟩
          · exact ⟨1, by simp, rfl, fun v h => by cases h⟩
        · exact ⟨1, by simp, rfl, fun v h => by cases h⟩

/-! ### concrete cases -/

example : printConfiguration 10 (circSchema natFmt).fields
    (SystemType.continuousCircular, (BoundaryCond.reflection, ((10 : Nat), ((2 : Nat), ())))) =
    .ok (chars! "sys_type  : Continuous Circular system.\nbctype    : Reflective Boundary Condtion\nsys_size  : 10\ndim       : 2\n") := by
  decide +kernel

example : ReadsBack (circSchema natFmt).fields
    (SystemType.continuousCircular, (BoundaryCond.reflection, ((10 : Nat), ((2 : Nat), ())))) :=
  (C42_systems natFmt _ natFmt_wordLike _ _ _ _ (by simp) (by simp) (by norm_num) (by norm_num)).1

example : DirOk (chars! "results/run 1") := by unfold DirOk; decide

end Moledyn.Props
