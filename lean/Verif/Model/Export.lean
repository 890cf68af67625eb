import Verif.Model.Dataset
/-
Model of what `analyze` writes (src/analysis.rs): the directory for the results, the summary table, the two
distribution files of every group; and of the whole of `analyze`.

`pe` is `{:e}` of a `f64`.  The file system is seen through `exist` (`Path::exists`) and `listing` (the entries
of a directory, `none` if there is no such directory); what is written is returned as a list of paths and
texts.  Failing writes, and what is left on disk by an analysis that fails half way: Verif/Model/AnalysisDisk.
-/
namespace Moledyn
variable {F : Type}

/-- `{:w$}` of a number: padded with blanks on the left (Rust std) (src/analysis.rs:447-480). -/
def Str.padLeft (width : Nat) (s : Str) : Str := List.replicate (width - s.length) ' ' ++ s

/-- the loop `i = 2, 3, ..` of `analyze`: first name `base_i` that does not exist, src/analysis.rs:541-551
(also 907-917, 1286-1296).  Fuelled. -/
def freshName (exist : Str → Bool) (base : Str) : Nat → Nat → Option Str
  | 0, _ => none
  | fuel + 1, i =>
    let new := base ++ chars! "_" ++ Str.printNat i
    if exist new then freshName exist base fuel (i + 1) else some new

/-- the directory for the results: `<data_dir>/analysis_<date>`, with a number if that exists,
src/analysis.rs:537-553 (also 903-919, 1282-1298). -/
def summaryDir (exist : Str → Bool) (dataDir date : Str) (fuel : Nat) : Option Str :=
  let dir := dataDir ++ chars! "/analysis_" ++ date
  if exist dir then freshName exist dir fuel 2 else some dir

/-- a file that is written: path and text.  `File::create` truncates, so the last one written counts
(src/analysis.rs:482-499). -/
structure Written where
  path : Str
  text : Str
deriving DecidableEq

/-! ### texts -/

section Texts
variable (pe : F → Str) (prec : Nat)

/-- a row `time <tab> count <tab> density`, src/analysis.rs:463, 479. -/
def timeRowText (r : F × Nat × F) : Str :=
  Str.padLeft prec (pe r.1) ++ ['\t'] ++ Str.padLeft prec (Str.printNat r.2.1) ++ ['\t'] ++
    Str.padLeft prec (pe r.2.2) ++ ['\n']

/-- a row of a vector analysis, src/analysis.rs:792-804, 823-835. -/
def vecRowText (r : F × List (Nat × F)) : Str :=
  Str.padLeft prec (pe r.1) ++ ['\t'] ++
    (r.2.map fun c => Str.padLeft prec (Str.printNat c.1) ++ ['\t'] ++ Str.padLeft prec (pe c.2) ++ ['\t']).flatten ++
    ['\n']

/-- a row of a process analysis, src/analysis.rs:1195, 1217. -/
def processRowText (r : F × Nat × F × F) : Str :=
  Str.padLeft prec (pe r.1) ++ ['\t'] ++ Str.padLeft prec (Str.printNat r.2.1) ++ ['\t'] ++
    Str.padLeft prec (pe r.2.2.1) ++ ['\t'] ++ Str.padLeft prec (pe r.2.2.2) ++ ['\n']

/-- `TimeAnalysis::export_mean_stddev`, src/analysis.rs:447-449: mean, spread, number of ensembles. -/
def TimeAnalysis.exportMeanStddev (a : TimeAnalysis F) : Str :=
  Str.padRight prec (pe a.mean) ++ ['\t'] ++ Str.padRight prec (pe a.stddev) ++ ['\t'] ++
    Str.padRight prec (Str.printNat a.ensemble)

/-- `TimeVecAnalysis::export_mean_stddev`, src/analysis.rs:773-780: number of ensembles, then mean and spread
of every variable. -/
def TimeVecAnalysis.exportMeanStddev (a : TimeVecAnalysis F) : Str :=
  Str.padRight prec (Str.printNat a.ensemble) ++ ['\t'] ++
    ((a.means.zip a.stddevs).map fun m =>
      Str.padRight prec (pe m.1) ++ ['\t'] ++ Str.padRight prec (pe m.2) ++ ['\t']).flatten

/-- `ProcessAnalysis::export_mean_stddev`, src/analysis.rs:1175-1180. -/
def ProcessAnalysis.exportMeanStddev (a : ProcessAnalysis F) : Str :=
  Str.padRight prec (pe a.longTermMean) ++ ['\t'] ++ Str.padRight prec (pe a.longTermStddev) ++ ['\t', ' '] ++
    Str.padRight prec (Str.printNat a.ensemble) ++ ['\t']
end Texts

/-! ### the whole of `analyze` -/

/-- What differs between the three analyses when they write: the labels of `export_form`, the summary line, the
two distribution texts (`none`: the loop does not end), the name of the summary file
(src/analysis.rs:482-499, 844-862, 1226-1244). -/
structure Exporter (A : Type) where
  labels : List Str
  summaryName : Str
  draw : A → A × Res Unit
  brief : A → Str
  linear : A → Option (Res Str)
  log : A → Option (Res Str)

/-- what an analysis leaves behind: the directory, the summary table and the distribution files in the order
in which they are written (src/analysis.rs:536-563, 601-611). -/
structure AnalysisOutput where
  dir : Str
  summary : Written
  files : List Written
deriving DecidableEq

namespace Exporter
variable {A : Type}

/-- `export` of one group after `draw`, src/analysis.rs:482-499, 844-861, 1226-1243, with the line of the
summary written before it (lines 606, 974, 1357). -/
def one (x : Exporter A) (f : NumFmt F) (pe : F → Str) (width : Nat) (pre dir : Str) (d : DataSet F) (a : A) :
    Option (Res (Str × List Written)) :=
  match x.draw a with
  | (a, .ok ()) =>
    let name := d.exportFileRemovedIdx f pre
    match x.linear a with
    | none => none
    | some (.ok lin) =>
      match x.log a with
      | none => none
      | some (.ok log) =>
        some (.ok (d.exportData pe width ++ x.brief a ++ ['\n'],
          [⟨dir ++ chars! "/linear_distribution/" ++ name, lin⟩,
           ⟨dir ++ chars! "/logarithmic_distribution/" ++ name, log⟩]))
      | some (.err e) => some (.err e)
      | some .panic => some .panic
    | some (.err e) => some (.err e)
    | some .panic => some .panic
  | (_, .err e) => some (.err e)
  | (_, .panic) => some .panic

/-- the loop over the groups, src/analysis.rs:601-608 (also 967-977, 1350-1360).  The order of the groups is
that of the map. -/
def all (x : Exporter A) (skip : A → Bool) (f : NumFmt F) (pe : F → Str) (width : Nat) (pre dir : Str) :
    List (DataSet F × A) → Option (Res (Str × List Written))
  | [] => some (.ok ([], []))
  | (d, a) :: m =>
    if skip a then all x skip f pe width pre dir m
    else match one x f pe width pre dir d a with
      | some (.ok r) => (all x skip f pe width pre dir m).map fun q => q.map fun s => (r.1 ++ s.1, r.2 ++ s.2)
      | q => q
end Exporter

section Analyze
variable [Fl F] {A : Type}

/-- `analyze` once the words are understood, src/analysis.rs:536-610 (also 902-979, 1281-1362).
`names` are the names of the variables of the dataset.  `create_dir_all` makes missing directories, so a
missing data directory is made, and then holds nothing but the directory for the results. -/
def analyzeDir (z : Analyzer A) (x : Exporter A) (f : NumFmt F) (pe : F → Str) (dh : List Nat → Nat)
    (fromFile : Reader → Res (DataSet F) × Reader) (names : List Str) (exist : Str → Bool)
    (listing : Str → Option (List Entry)) (date : Str) (width : Nat) (pre dataDir : Str) (fuel : Nat) :
    Option (Res AnalysisOutput) :=
  (summaryDir exist dataDir date fuel).bind fun dir =>
    match z.loop (DataSet.eqv dh) fromFile [] (((listing dataDir).getD []) ++ [Entry.dir]) with
    | .ok m =>
      (x.all z.skip f pe width pre dir m).map fun q => q.map fun r =>
        ⟨dir, ⟨dir ++ chars! "/" ++ x.summaryName,
          DataSet.exportForm width names ++ DataSet.exportForm width x.labels ++ ['\n'] ++ r.1⟩, r.2⟩
    | .err e => some (.err e)
    | .panic => some .panic

/-- `TimeAnalysis`: src/analysis.rs:444-499; the summary is `brief_result.dat`, line 555. -/
def timeExporter (pe : F → Str) (prec : Nat) : Exporter (TimeAnalysis F) where
  labels := [chars! "ensemble", chars! "mean", chars! "stddev"]
  summaryName := chars! "brief_result.dat"
  draw := TimeAnalysis.draw
  brief := TimeAnalysis.exportMeanStddev pe prec
  linear a := some (a.exportRows.map fun r => (r.map (timeRowText pe prec)).flatten)
  log a := some (a.exportLogRows.map fun r => (r.map (timeRowText pe prec)).flatten)

/-- `TimeVecAnalysis`: src/analysis.rs:770-861; summary file: line 921. -/
def vecExporter (pe : F → Str) (prec fuel : Nat) : Exporter (TimeVecAnalysis F) where
  labels := [chars! "ensemble", chars! "meantime", chars! "stddev"]
  summaryName := chars! "brief_result.dat"
  draw := TimeVecAnalysis.draw
  brief := TimeVecAnalysis.exportMeanStddev pe prec
  linear a := (a.exportRows fuel).map fun q => q.map fun r => (r.map (vecRowText pe prec)).flatten
  log a := (a.exportLogRows fuel).map fun q => q.map fun r => (r.map (vecRowText pe prec)).flatten

/-- `ProcessAnalysis`: src/analysis.rs:1172-1243; the summary is `brief_data.dat`, line 1300. -/
def processExporter (pe : F → Str) (prec fuel : Nat) : Exporter (ProcessAnalysis F) where
  labels := [chars! "ensemble", chars! "long_term_mean", chars! "long_term_stddev"]
  summaryName := chars! "brief_data.dat"
  draw := ProcessAnalysis.draw
  brief := ProcessAnalysis.exportMeanStddev pe prec
  linear a := (a.exportRows fuel).map fun q => q.map fun r => (r.map (processRowText pe prec)).flatten
  log a := (a.exportLogRows fuel).map fun q => q.map fun r => (r.map (processRowText pe prec)).flatten

/-- `TimeAnalysis::analyze`, src/analysis.rs:501-610. -/
def timeAnalyze (f : NumFmt F) (pe : F → Str) (dh : List Nat → Nat)
    (fromFile : Reader → Res (DataSet F) × Reader) (names : List Str) (exist : Str → Bool)
    (listing : Str → Option (List Entry)) (date : Str) (args : List Str) (width : Nat) (pre : Str) (fuel : Nat) :
    Option (Res AnalysisOutput) :=
  match timeArgs f args with
  | .ok w => analyzeDir (timeAnalyzer f w.mn w.mx w.b w.l) (timeExporter pe width) f pe dh fromFile names exist
      listing date width pre w.dir fuel
  | .err e => some (.err e)
  | .panic => some .panic

/-- `TimeVecAnalysis::analyze`, src/analysis.rs:864-979. -/
def vecAnalyze (f : NumFmt F) (pe : F → Str) (dh : List Nat → Nat)
    (fromFile : Reader → Res (DataSet F) × Reader) (names : List Str) (exist : Str → Bool)
    (listing : Str → Option (List Entry)) (date : Str) (args : List Str) (width : Nat) (pre : Str) (fuel : Nat) :
    Option (Res AnalysisOutput) :=
  match vecArgs f args with
  | .ok w => analyzeDir (vecAnalyzer f w.numVar w.mn w.mx w.b w.l) (vecExporter pe width fuel) f pe dh fromFile
      names exist listing date width pre w.dir fuel
  | .err e => some (.err e)
  | .panic => some .panic

/-- `ProcessAnalysis::analyze`, src/analysis.rs:1246-1362. -/
def processAnalyze (f : NumFmt F) (pe : F → Str) (dh : List Nat → Nat)
    (fromFile : Reader → Res (DataSet F) × Reader) (names : List Str) (exist : Str → Bool)
    (listing : Str → Option (List Entry)) (date : Str) (args : List Str) (width : Nat) (pre : Str) (fuel : Nat) :
    Option (Res AnalysisOutput) :=
  match timeArgs f args with
  | .ok w => analyzeDir (processAnalyzer f w.mn w.mx w.b w.l) (processExporter pe width fuel) f pe dh fromFile
      names exist listing date width pre w.dir fuel
  | .err e => some (.err e)
  | .panic => some .panic
end Analyze

end Moledyn
