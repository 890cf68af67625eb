import Verif.Spec.Runs
/-
Vocabulary for directories with the result files of runs that write several numbers per line, or a path (pairs of time and
value) per line.
-/
namespace Moledyn
variable {F : Type}

/-- One run of a simulation: all its parameters, and one result per ensemble. -/
structure RunOf (cs : List (Component F)) (sim : Component F) (X : Type) where
  vals : AllVals (schemasOf cs)
  simVals : Vals sim.schema.fields
  rows : List X

namespace RunOf
variable {cs : List (Component F)} {sim : Component F} {X : Type}

/-- the recorded variables. -/
def dataset (r : RunOf cs sim X) : DataSet F := DataSet.new cs sim r.vals r.simVals

/-- all parameters can be printed. -/
def Printable (r : RunOf cs sim X) : Prop :=
  AllVals.Printable (schemasOf cs) r.vals ∧ Vals.Printable sim.schema.fields r.simVals

/-- the results, one per line. -/
def dataText (line : X → Str) (r : RunOf cs sim X) : Str := (r.rows.map fun v => line v ++ ['\n']).flatten

/-- the entry is the result file of the run: the header written by `export_simulation_info!` and the data. -/
def File (width : Nat) (line : X → Str) (r : RunOf cs sim X) (e : Entry) : Prop :=
  ∃ h, fileHeader width (schemasOf cs ++ [sim.schema]) (AllVals.snoc r.vals r.simVals) = .ok h ∧
    e = .file (Reader.ofLines (Str.lines (h ++ r.dataText line)))

/-- all results of the runs whose recorded variables are those of `g`. -/
def pooled [Fl F] (runs : List (RunOf cs sim X)) (g : RunOf cs sim X) : List X :=
  ((runs.filter fun r => r.dataset.key = g.dataset.key).map fun r => r.rows).flatten
end RunOf

/-- the directory: for every entry, the run it is the result file of, or nothing if it is passed over. -/
def DirectoryOf {cs : List (Component F)} {sim : Component F} {X : Type} (width : Nat) (line : X → Str)
    (slots : List (Option (RunOf cs sim X))) (es : List Entry) : Prop :=
  List.Forall₂ (fun s e => match s with
    | some r => r.File width line e
    | none => e.Harmless (DataSet.fromFile cs sim)) slots es

/-- a line of text (without the end of line) that consists of the given words. -/
def LineOf (line : Str) (ws : List Str) : Prop := Str.words line = ws ∧ '\n' ∉ line

/-- a pair as it is written in a path: `(t,x)`. -/
def pairText (pd : F → Str) (p : F × F) : Str := ['('] ++ pd p.1 ++ [','] ++ pd p.2 ++ [')']

open Classical TimeVecAnalysis in
/-- the rows of a linear distribution of several variables: bin centre, then number of samples in the bin and density for
every variable; only bins whose centre is in the window and where some density is above 1e-15. -/
noncomputable def vecLinearRows (B : Bins ℝ) (n : Nat) (samples : List (List ℝ)) : List (ℝ × List (Nat × ℝ)) :=
  (List.range B.numBin).filterMap fun i =>
    let number k := howMany (fun t => B.InWindow t ∧ B.InBin i t) (valuesOf k samples)
    let density k := (number k / samples.length : ℝ) / B.binSize
    let centre := B.minTime + (i + 1 / 2) * B.binSize
    if centre ≤ B.maxTime ∧ ∃ k < n, 1 / 10 ^ 15 < density k
    then some (centre, (List.range n).map fun k => (number k, density k)) else none

open Classical TimeVecAnalysis in
/-- likewise of a logarithmic one. -/
noncomputable def vecLogRows (B : Bins ℝ) (n : Nat) (samples : List (List ℝ)) : List (ℝ × List (Nat × ℝ)) :=
  (List.range B.numLbin).filterMap fun i =>
    let number k := howMany (fun t => B.InWindow t ∧ B.InLogBin i t) (valuesOf k samples)
    let density k := (number k / samples.length : ℝ) / B.logWidth i
    let centre := B.minTime * Real.sqrt B.lbinSize * B.lbinSize ^ i
    if centre ≤ B.maxTime ∧ ∃ k < n, 1 / 10 ^ 15 < density k
    then some (centre, (List.range n).map fun k => (number k, density k)) else none

open Classical in
/-- the rows of the course of a quantity: bin centre, number of values with a time in the bin, their mean and standard
deviation; only bins whose centre is in the window, that are not empty and whose mean is above 1e-15. -/
noncomputable def processLinearRows (B : Bins ℝ) (pairs : List (ℝ × ℝ)) : List (ℝ × Nat × ℝ × ℝ) :=
  (List.range B.numBin).filterMap fun i =>
    let vs := valuesAt (fun t => B.InWindow t ∧ B.InBin i t) pairs
    let centre := B.minTime + (i + 1 / 2) * B.binSize
    if centre ≤ B.maxTime ∧ vs ≠ [] ∧ 1 / 10 ^ 15 < sampleMean vs
    then some (centre, vs.length, sampleMean vs, Real.sqrt (sampleVariance vs)) else none

open Classical in
/-- likewise with logarithmic bins. -/
noncomputable def processLogRows (B : Bins ℝ) (pairs : List (ℝ × ℝ)) : List (ℝ × Nat × ℝ × ℝ) :=
  (List.range B.numLbin).filterMap fun i =>
    let vs := valuesAt (fun t => B.InWindow t ∧ B.InLogBin i t) pairs
    let centre := B.minTime * Real.sqrt B.lbinSize * B.lbinSize ^ i
    if centre ≤ B.maxTime ∧ vs ≠ [] ∧ 1 / 10 ^ 15 < sampleMean vs
    then some (centre, vs.length, sampleMean vs, Real.sqrt (sampleVariance vs)) else none

end Moledyn
