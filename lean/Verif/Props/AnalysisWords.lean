import Verif.Props.FileNames
/-
C43: the words of the command line as seen by the analyses.  C42: names in a block are not checked.
C51: a concrete directory.
-/
set_option linter.unusedSimpArgs false
namespace Moledyn.Props
open Moledyn
variable {F : Type}

/-- The words mean: window `mn..mx`, then either a number of bins (turned into bin sizes) or both bin sizes,
then the directory. -/
theorem C43_time_words [Fl F] (f : NumFmt F) (ws : List Str) (r : AnalysisArgs F) :
    timeArgs f ws = .ok r ↔ r.numVar = 0 ∧
      ((∃ a0 a1 a2 n, ws = [a0, a1, a2, r.dir] ∧ f.parse a0 = some r.mn ∧ f.parse a1 = some r.mx ∧
          Str.parseNat a2 = some n ∧ Bins.convertNumBinToBinSize r.mn r.mx n = .ok (r.b, r.l)) ∨
       (∃ a0 a1 a2 a3, ws = [a0, a1, a2, a3, r.dir] ∧ f.parse a0 = some r.mn ∧ f.parse a1 = some r.mx ∧
          f.parse a2 = some r.b ∧ f.parse a3 = some r.l)) := by
  obtain ⟨nv, mn, mx, b, l, dir⟩ := r
  rcases ws with _ | ⟨a0, _ | ⟨a1, _ | ⟨a2, _ | ⟨a3, _ | ⟨a4, _ | ⟨a5, ws⟩⟩⟩⟩⟩⟩
  · simp [timeArgs]
  · simp [timeArgs]
  · simp [timeArgs]
  · simp [timeArgs]
  · simp only [timeArgs]
    cases h0 : f.parse a0 <;> cases h1 : f.parse a1 <;> cases h2 : Str.parseNat a2 <;>
      simp [Res.expect, h0, h1, h2]
    rename_i x y n
    cases hc : Bins.convertNumBinToBinSize x y n with
    | ok p =>
      obtain ⟨p1, p2⟩ := p
      simp
      constructor
      · rintro ⟨rfl, rfl, rfl, rfl, rfl, rfl⟩; simp_all
      · rintro ⟨rfl, rfl, rfl, rfl, h⟩; simp_all
    | err e =>
      simp
      rintro rfl rfl rfl rfl; simp [hc]
    | panic =>
      simp
      rintro rfl rfl rfl rfl; simp [hc]
  · simp only [timeArgs]
    cases h0 : f.parse a0 <;> cases h1 : f.parse a1 <;> cases h2 : f.parse a2 <;> cases h3 : f.parse a3 <;>
      simp [Res.expect, h0, h1, h2, h3]
    constructor
    · rintro ⟨rfl, rfl, rfl, rfl, rfl, rfl⟩; simp_all
    · rintro ⟨rfl, rfl, rfl, rfl, rfl, rfl⟩; simp_all
  · simp [timeArgs]

/-- The same for the vector analysis, with the number of variables in front. -/
theorem C43_vec_words [Fl F] (f : NumFmt F) (ws : List Str) (r : AnalysisArgs F) :
    vecArgs f ws = .ok r ↔ ∃ n0 rest q, ws = n0 :: rest ∧ Str.parseNat n0 = some r.numVar ∧
      timeArgs f rest = .ok q ∧ (q.mn, q.mx, q.b, q.l, q.dir) = (r.mn, r.mx, r.b, r.l, r.dir) := by
  have key : ∀ n0 rest, (vecArgs f (n0 :: rest) = .err .invalidNumberOfArguments ∧ rest.length ≠ 4 ∧ rest.length ≠ 5) ∨
      vecArgs f (n0 :: rest) = (Res.expect (Str.parseNat n0)).bind fun k =>
        (timeArgs f rest).map fun q => { q with numVar := k } := by
    intro n0 rest
    rcases rest with _ | ⟨a1, _ | ⟨a2, _ | ⟨a3, _ | ⟨a4, _ | ⟨a5, _ | ⟨a6, rest⟩⟩⟩⟩⟩⟩
    · exact .inl ⟨rfl, by simp, by simp⟩
    · exact .inl ⟨rfl, by simp, by simp⟩
    · exact .inl ⟨rfl, by simp, by simp⟩
    · exact .inl ⟨rfl, by simp, by simp⟩
    · right
      simp only [vecArgs, timeArgs]
      cases Str.parseNat n0 <;> cases f.parse a1 <;> cases f.parse a2 <;> cases Str.parseNat a3 <;>
        simp [Res.expect]
      rename_i x y n
      cases Bins.convertNumBinToBinSize x y n <;> simp
    · right
      simp only [vecArgs, timeArgs]
      cases Str.parseNat n0 <;> cases f.parse a1 <;> cases f.parse a2 <;> cases f.parse a3 <;>
        cases f.parse a4 <;> simp [Res.expect]
    · exact .inl ⟨rfl, by simp, by simp⟩
  obtain ⟨nv, mn, mx, b, l, dir⟩ := r
  rcases ws with _ | ⟨n0, rest⟩
  · simp [vecArgs]
  constructor
  · intro h
    rcases key n0 rest with ⟨k, -⟩ | k
    · rw [k] at h; cases h
    rw [k] at h
    cases h0 : Str.parseNat n0 with
    | none => rw [h0] at h; simp [Res.expect] at h
    | some k =>
      rw [h0] at h
      cases hq : timeArgs f rest with
      | err e => rw [hq] at h; simp [Res.expect] at h
      | panic => rw [hq] at h; simp [Res.expect] at h
      | ok q =>
        rw [hq] at h
        simp only [Res.expect, Res.bind_ok, Res.map_ok, Res.ok.injEq, AnalysisArgs.mk.injEq] at h
        exact ⟨n0, rest, q, rfl, by rw [h0, h.1], hq, by simp [h]⟩
  · rintro ⟨n0', rest', q, e, h0, hq, e2⟩
    simp only [List.cons.injEq] at e
    obtain ⟨rfl, rfl⟩ := e
    rcases key n0 rest with ⟨k, k4, k5⟩ | k
    · rcases ((C43_time_words f rest q).1 hq).2 with ⟨a0, a1, a2, n, rfl, -⟩ | ⟨a0, a1, a2, a3, rfl, -⟩
      · exact absurd rfl k4
      · exact absurd rfl k5
    · rw [k, h0, hq]
      simp at e2
      simp [Res.expect, e2]

/-- `setup_simulation!` with `TimeAnalysis` or `ProcessAnalysis`: whatever reaches the analysis is never refused
for its number of words, so the analysis understands the words or panics, unless the window and the number
of bins are refused. -/
theorem C43_time_words_reach [Fl F] (f : NumFmt F) (args ws : List Str) (skip : Nat) (Ss : List Schema)
    (h : setupSimulation args skip timeAnalysisNumArgs Ss = .ok (.analyze ws)) :
    (ws.length = 4 ∨ ws.length = 5) ∧
    ((∃ r, timeArgs f ws = .ok r) ∨ timeArgs f ws = .panic ∨
      ∃ a0 a1 a2 dir mn mx n, ws = [a0, a1, a2, dir] ∧ f.parse a0 = some mn ∧ f.parse a1 = some mx ∧
        Str.parseNat a2 = some n ∧ timeArgs f ws = (Bins.convertNumBinToBinSize mn mx n).map
          fun r => (⟨0, mn, mx, r.1, r.2, dir⟩ : AnalysisArgs F)) := by
  obtain ⟨hl, rfl⟩ := (C43_setup_analyzes args skip _ Ss ws).1 h
  have hw : (args.drop skip).length = 4 ∨ (args.drop skip).length = 5 := by
    simp [timeAnalysisNumArgs] at hl ⊢; omega
  refine ⟨hw, ?_⟩
  generalize args.drop skip = ws at hw
  rcases ws with _ | ⟨a0, _ | ⟨a1, _ | ⟨a2, _ | ⟨a3, _ | ⟨a4, _ | ⟨a5, ws⟩⟩⟩⟩⟩⟩ <;> simp at hw
  · simp only [timeArgs]
    cases h0 : f.parse a0 <;> cases h1 : f.parse a1 <;> cases h2 : Str.parseNat a2 <;>
      simp [Res.expect, h0, h1, h2]
  · simp only [timeArgs]
    cases h0 : f.parse a0 <;> cases h1 : f.parse a1 <;> cases h2 : f.parse a2 <;> cases h3 : f.parse a3 <;>
      simp [Res.expect, h0, h1, h2, h3]

/-- Finding: `setup_simulation!` with `TimeVecAnalysis` passes four or five words on, but that analysis takes
five or six: the four-word call it announces is always refused, and the call with two bin sizes (six words)
never reaches it. -/
theorem C43_vec_words_never [Fl F] (f : NumFmt F) (args ws : List Str) (skip : Nat) (Ss : List Schema)
    (h : setupSimulation args skip timeVecAnalysisNumArgs Ss = .ok (.analyze ws)) :
    (ws.length = timeVecAnalysisNumArgs → vecArgs f ws = .err .invalidNumberOfArguments) ∧ ws.length ≠ 6 := by
  obtain ⟨hl, rfl⟩ := (C43_setup_analyzes args skip _ Ss ws).1 h
  have hw : (args.drop skip).length = 4 ∨ (args.drop skip).length = 5 := by
    simp [timeVecAnalysisNumArgs] at hl ⊢; omega
  refine ⟨fun h4 => ?_, by omega⟩
  simp only [timeVecAnalysisNumArgs] at h4
  generalize args.drop skip = ws at h4
  rcases ws with _ | ⟨a0, _ | ⟨a1, _ | ⟨a2, _ | ⟨a3, _ | ⟨a4, ws⟩⟩⟩⟩⟩ <;> simp at h4
  rfl

/-- Finding: `setup_simulation_fixed!` gives the analysis the words to be skipped as well.  With one word to
skip (the name of the program) the analysis either refuses the words or takes the name of the program for
the start of the window, and so panics unless the program is called by a number. -/
theorem C43_fixed_words [Fl F] (f : NumFmt F) (prog : Str) (rest ws : List Str) (Ss : List Schema)
    (hp : f.parse prog = none)
    (h : setupSimulationFixed (prog :: rest) 1 timeAnalysisNumArgs Ss = .ok (.analyze ws)) :
    timeArgs f ws = .panic ∨ timeArgs f ws = .err .invalidNumberOfArguments := by
  rw [C43_fixed] at h
  cases hs : setupSimulation (prog :: rest) 1 timeAnalysisNumArgs Ss with
  | err e => rw [hs] at h; cases h
  | panic => rw [hs] at h; cases h
  | ok o =>
    rw [hs] at h
    cases o with
    | simulate v => simp at h
    | analyze w =>
      obtain ⟨hl, -⟩ := (C43_setup_analyzes _ _ _ Ss w).1 hs
      simp only [Res.map_ok, Res.ok.injEq, SetupOut.analyze.injEq] at h
      subst h
      simp [timeAnalysisNumArgs] at hl
      rcases rest with _ | ⟨a0, _ | ⟨a1, _ | ⟨a2, _ | ⟨a3, _ | ⟨a4, _ | ⟨a5, ws⟩⟩⟩⟩⟩⟩ <;> simp at hl
      · left; simp [timeArgs, hp, Res.expect]
      · right; rfl

/-- Finding: the reader of a block does not look at the name of a value: the text before the colon can be
anything.  So a block with other values in the same places is taken for the expected one. -/
theorem C42_names_not_checked (fs : List Field) (a b w : Str) (rd : Reader) (ha : ':' ∉ a) (hb : ':' ∉ b) :
    readArgsFromLines fs (.ok (a ++ ':' :: w) :: rd) = readArgsFromLines fs (.ok (b ++ ':' :: w) :: rd) ∨ fs = [] := by
  cases fs with
  | nil => exact .inr rfl
  | cons f fs =>
    left
    have e : ∀ c : Str, ':' ∉ c → Str.splitBy (· == ':') (c ++ ':' :: w) = c :: Str.splitBy (· == ':') w := by
      intro c hc
      exact Str.splitBy_cons (fun x hx => by
        have : x ≠ ':' := fun h => hc (h ▸ hx)
        simpa using this) (by simp)
    simp only [readArgsFromLines, e a ha, e b hb]
    cases Str.splitBy (· == ':') w with
    | nil => rfl
    | cons x l => cases l <;> rfl

/-! ### a concrete directory -/

/-- two circles and a clock. -/
def demoComponents : List (Component Nat) := [circComponent natFmt, constStepComponent natFmt]

/-- a result file. -/
def demoFile (size idx : Str) (data : List Str) : Reader := Reader.ofLines
  ([descriptionsLine, chars! "sys_type: Continuous Circular system.", chars! "bctype: Reflective Boundary Condtion",
    chars! "sys_size: " ++ size, chars! "dim : 2", chars! "dt: 1", chars! "tmax : 9",
    chars! "num_ensemble : 3", chars! "idx_set: " ++ idx, chars! "seed: 4", chars! "output_dir: out",
    dataStartsLine] ++ data)

/-- an analyzer that keeps the numbers it is given. -/
def listAnalyzer : Analyzer (List Nat) where
  fresh := .ok []
  line a s := (Res.expect (natFmt.parse (Str.trim s))).map fun x => a ++ [x]
  skip _ := false

/-- three result files of two groups, a sub-directory, a foreign file: the data of the first and the last file
are put together. -/
example : (Analyzer.loop listAnalyzer (fun a b => decide (a.vars.map (fun v => v.2.display natFmt) =
      b.vars.map (fun v => v.2.display natFmt)))
    (DataSet.fromFile demoComponents variableSimComponent) []
    [.file (demoFile (chars! "10") (chars! "1") [chars! "5", chars! "6 "]), .dir,
     .file (demoFile (chars! "20") (chars! "1") [chars! "7"]), .file (Reader.ofLines [chars! "x", chars! "notes"]),
     .file (demoFile (chars! "10") (chars! "2") [chars! "8"])]).map (List.map Prod.snd) = .ok [[5, 6, 8], [7]] := by
  rfl

/-- Finding: a foreign file in the directory whose second line has the form `name: text`, with a text that is not
understood as the first value of the first structure, is not passed over: the whole analysis panics or
fails. -/
theorem C51_foreign_file_fatal {A K : Type} [DecidableEq K] (z : Analyzer A) (cls : DataSet F → K)
    (c : Component F) (cs : List (Component F)) (sim : Component F) (g : Field) (fs : List Field)
    (hc : c.schema.fields = g :: fs) (l name w : Str) (rest : Reader) (hn : ':' ∉ name) (hw : ':' ∉ w)
    (hbad : ∀ x, g.parse (Str.trim w) ≠ .ok x) (es : List Entry)
    (he : Entry.file (.ok l :: .ok (name ++ ':' :: w) :: rest) ∈ es) (m : List (DataSet F × A)) :
    z.loop (fun a b => decide (cls a = cls b)) (DataSet.fromFile (c :: cs) sim) [] es ≠ .ok m := by
  intro h
  refine ((C51_succeeds_iff z cls _ es).1 ⟨m, h⟩).1 _ he ?_
  have hs : Str.splitBy (· == ':') (name ++ ':' :: w) = [name, w] := by
    have nc : ∀ c : Str, ':' ∉ c → ∀ x ∈ c, (x == ':') = false := fun c hc x hx => by
      have : x ≠ ':' := fun h => hc (h ▸ hx)
      simpa using this
    rw [Str.splitBy_cons (nc name hn) (by simp), Str.splitBy_clean (nc w hw)]
  have hr : g.read w = .panic := by
    unfold Field.read
    cases hp : g.parse (Str.trim w) with
    | ok x => exact absurd hp (hbad x)
    | err e => rfl
    | panic => rfl
  have h1 : ∀ gs, gs = g :: fs → ∃ rd, readArgsFromLines gs (.ok (name ++ ':' :: w) :: rest) = (.panic, rd) := by
    rintro gs rfl
    exact ⟨rest, by simp only [readArgsFromLines, hs, hr]⟩
  obtain ⟨rd, h2⟩ := h1 c.schema.fields hc
  have h3 : readAll (schemasOf (c :: cs)) (.ok (name ++ ':' :: w) :: rest) = (.panic, rd) := by
    show readAll (c.schema :: schemasOf cs) _ = _
    simp only [readAll, h2]
  simp [Entry.fatal, DataSet.fromFile, h3]

example : Analyzer.loop listAnalyzer (fun a b => decide (a.vars.length = b.vars.length))
    (DataSet.fromFile demoComponents variableSimComponent) []
    [.file (demoFile (chars! "10") (chars! "1") [chars! "5"]),
     .file (Reader.ofLines [chars! "x", chars! "note: see below"])] = .panic := by
  rfl

end Moledyn.Props
