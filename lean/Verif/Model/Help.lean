import Verif.Model.Setup
/-
Model of the help that a program prints when it is given a wrong number of words (src/setup.rs:5-25), with the texts of the
three analyses (src/analysis.rs:436-442, 762-769, 1165-1171).
-/
namespace Moledyn

/-- what `impl_fn_brief_info!` and `impl_fn_info!` are given by an analysis: description, and names with explanations,
src/argument.rs:65-96. -/
structure AnalysisHelp where
  desc : Str
  vars : List (Str × Str)

namespace AnalysisHelp
/-- `brief_info` of an analysis, src/argument.rs:83-96. -/
def briefInfo (h : AnalysisHelp) : Str :=
  h.desc ++ chars! " arguments : " ++ (h.vars.map fun v => ['('] ++ v.1 ++ [')', ' ']).flatten

/-- `info` of an analysis, src/argument.rs:65-81. -/
def info (h : AnalysisHelp) (width : Nat) : Str :=
  (h.vars.map fun v => Str.padRight width v.1 ++ [':', ' '] ++ v.2 ++ ['\n']).flatten
end AnalysisHelp

/-- the texts of `TimeAnalysis`, src/analysis.rs:436-442. -/
def timeHelp : AnalysisHelp := ⟨chars! "Single Time",
  [(chars! "min_time", chars! "Minimal time for Histogram"), (chars! "max_time", chars! "Maximal time for Histogram"),
   (chars! "bin_size", chars! "Bin size for Linear Histogram"), (chars! "lbin_size", chars! "Bin size for Logarithmic Histogram"),
   (chars! "output_dir", chars! "Directory for data files")]⟩

/-- the texts of `TimeVecAnalysis`, src/analysis.rs:762-769. -/
def vecHelp : AnalysisHelp := ⟨chars! "Vector of Time",
  (chars! "num_var", chars! "Number of data for each ensemble") :: timeHelp.vars⟩

/-- the texts of `ProcessAnalysis`, src/analysis.rs:1165-1171. -/
def processHelp : AnalysisHelp := ⟨chars! "Random Process analysis", timeHelp.vars⟩

/-- heading of the overview, src/setup.rs:13. -/
def overviewLine : Str := chars! "======================= OVERVIEW OF ARGUMENTS =========================="

/-- heading of the explanations, src/setup.rs:16. -/
def explanationsLine : Str := chars! "========================    DESCRIPTIONS     =========================="

/-- heading of the part on the analysis, src/setup.rs:19. -/
def forAnalysisLine : Str := chars! "========================    FOR ANALYSIS    ==========================="

/-- What `export_simulation_item!` prints on the error output before it returns `InvalidNumberOfArguments`,
src/setup.rs:5-25. -/
def helpText (args : List Str) (skip width : Nat) (analysis : AnalysisHelp) (Ss : List Schema) : Str :=
  Str.printNat (args.length - skip) ++ chars! " arguments given." ++ ['\n'] ++ chars! "Given Arguments : " ++
  ((args.drop skip).map fun x => x ++ chars! "  ").flatten ++ ['\n'] ++
  chars! "You should give " ++ Str.printNat (totalNumArgs Ss) ++ chars! " arguments like below" ++ ['\n'] ++
  overviewLine ++ ['\n'] ++ (Ss.map fun S => S.briefInfo ++ ['\n']).flatten ++
  explanationsLine ++ ['\n'] ++ (Ss.map fun S => S.info width ++ ['\n']).flatten ++
  forAnalysisLine ++ ['\n'] ++ analysis.briefInfo ++ ['\n'] ++ analysis.info width

end Moledyn
