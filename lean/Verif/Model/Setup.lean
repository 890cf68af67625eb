import Verif.Model.Argument
/-
Model of src/setup.rs: command line handling and the header of a result file.
-/
namespace Moledyn

/-- Values of several argument structures (src/setup.rs:37-47). -/
@[reducible] def AllVals : List Schema → Type
  | [] => Unit
  | S :: Ss => Vals S.fields × AllVals Ss

/-- `define_total_num_args!`, src/setup.rs:27-33. -/
def totalNumArgs (Ss : List Schema) : Nat := (Ss.map Schema.numArgs).sum

/-- `&args[i..i+n]`: panics when the slice does not fit (src/setup.rs:37-47). -/
def slice {α : Type} (args : List α) (i n : Nat) : Res (List α) :=
  if i + n ≤ args.length then .ok ((args.drop i).take n) else .panic

/-- `read_arguments!`, src/setup.rs:37-45, starting at index `idx`. -/
def readArguments (args : List Str) : (Ss : List Schema) → (idx : Nat) → Res (AllVals Ss)
  | [], _ => .ok ()
  | S :: Ss, idx =>
    (slice args idx S.numArgs).bind fun a =>
      (S.readArgsFromVec a).bind fun v =>
        (readArguments args Ss (idx + S.numArgs)).map fun vs => (v, vs)

/-- What `setup_simulation!` goes on with: the analysis is run with these words, or the simulation with
these values (src/setup.rs:75-95). -/
inductive SetupOut (Ss : List Schema) where
  | analyze (words : List Str)
  | simulate (v : AllVals Ss)

/-- `setup_simulation!`, src/setup.rs:75-93; `args` are all words of the command line, `skip` the number
of words to skip, `analysisArgs` is `NUM_ARGS` of the analysis.  `args.len() - NUM_SKIP` panics below
zero (checked arithmetic of a debug build; a release build wraps around and goes on to report
`InvalidNumberOfArguments`).  The usage text printed by `export_simulation_item!`, src/setup.rs:7-25,
goes to stderr (see `helpText` in Model/Help.lean); the macro ends with `InvalidNumberOfArguments`. -/
def setupSimulation (args : List Str) (skip analysisArgs : Nat) (Ss : List Schema) : Res (SetupOut Ss) :=
  if args.length < skip then .panic
  else if args.length - skip = analysisArgs ∨ args.length - skip = analysisArgs + 1 then
    .ok (.analyze (args.drop skip))
  else if args.length - skip ≠ totalNumArgs Ss then .err .invalidNumberOfArguments
  else (readArguments args Ss skip).map .simulate

/-- `setup_simulation_fixed!`, src/setup.rs:97-115: the same, but the analysis is given all words,
including those to be skipped. -/
def setupSimulationFixed (args : List Str) (skip analysisArgs : Nat) (Ss : List Schema) :
    Res (SetupOut Ss) :=
  if args.length < skip then .panic
  else if args.length - skip = analysisArgs ∨ args.length - skip = analysisArgs + 1 then
    .ok (.analyze args)
  else if args.length - skip ≠ totalNumArgs Ss then .err .invalidNumberOfArguments
  else (readArguments args Ss skip).map .simulate

/-- the blocks of all structures one after the other, src/setup.rs:63-65. -/
def printAll (width : Nat) : (Ss : List Schema) → AllVals Ss → Res Str
  | [], _ => .ok []
  | S :: Ss, v =>
    (printConfiguration width S.fields v.1).bind fun a =>
      (printAll width Ss v.2).map fun b => a ++ b

/-- first line of a result file, src/setup.rs:61. -/
def descriptionsLine : Str := chars! "========================    DESCRIPTIONS    =========================="

/-- last line of the header, src/setup.rs:66. -/
def dataStartsLine : Str := chars! "========================     DATA STARTS    =========================="

/-- The header `export_simulation_info!` writes, src/setup.rs:49-70.  Creating the directory and the
file, and their failures, are not modelled. -/
def fileHeader (width : Nat) (Ss : List Schema) (v : AllVals Ss) : Res Str :=
  (printAll width Ss v).map fun b => descriptionsLine ++ ['\n'] ++ b ++ dataStartsLine ++ ['\n']

/-- the argument blocks read by `from_file`, src/analysis.rs:63-66. -/
def readAll : (Ss : List Schema) → Reader → Res (AllVals Ss) × Reader
  | [], rd => (.ok (), rd)
  | S :: Ss, rd =>
    match readArgsFromLines S.fields rd with
    | (.ok v, rd) =>
      match readAll Ss rd with
      | (.ok vs, rd) => (.ok (v, vs), rd)
      | (.err e, rd) => (.err e, rd)
      | (.panic, rd) => (.panic, rd)
    | (.err e, rd) => (.err e, rd)
    | (.panic, rd) => (.panic, rd)

/-- `from_file`, src/analysis.rs:56-70, on a file that could be opened: the first line is dropped
unread (`lines.next()`), then the blocks are read. -/
def readFile (Ss : List Schema) (rd : Reader) : Res (AllVals Ss) × Reader := readAll Ss (rd.drop 1)

/-- `TimeAnalysis::NUM_ARGS`, src/analysis.rs:425. -/
def timeAnalysisNumArgs : Nat := 4

/-- `TimeVecAnalysis::NUM_ARGS`, src/analysis.rs:750. -/
def timeVecAnalysisNumArgs : Nat := 4

/-- `ProcessAnalysis::NUM_ARGS`, src/analysis.rs:1148. -/
def processAnalysisNumArgs : Nat := 4

end Moledyn
