import Verif.Spec.Export
/-
Vocabulary for a directory of result files: runs of a simulation, the files they leave, what they have in common.
-/
namespace Moledyn
variable {F : Type}

/-- One run of a simulation: all its parameters, and the numbers it produced. -/
structure Run (cs : List (Component F)) (sim : Component F) where
  vals : AllVals (schemasOf cs)
  simVals : Vals sim.schema.fields
  samples : List F

namespace Run
variable {cs : List (Component F)} {sim : Component F}

/-- the recorded variables. -/
def dataset (r : Run cs sim) : DataSet F := DataSet.new cs sim r.vals r.simVals

/-- all parameters can be printed. -/
def Printable (r : Run cs sim) : Prop :=
  AllVals.Printable (schemasOf cs) r.vals ∧ Vals.Printable sim.schema.fields r.simVals

/-- the text with the numbers, one per line, each written by `pd`. -/
def dataText (pd : F → Str) (r : Run cs sim) : Str := (r.samples.map fun t => pd t ++ ['\n']).flatten

/-- the entry is the result file of the run: the header written by `export_simulation_info!` and the data. -/
def File (width : Nat) (pd : F → Str) (r : Run cs sim) (e : Entry) : Prop :=
  ∃ h, fileHeader width (schemasOf cs ++ [sim.schema]) (AllVals.snoc r.vals r.simVals) = .ok h ∧
    e = .file (Reader.ofLines (Str.lines (h ++ r.dataText pd)))

/-- all numbers, as they are read back, of the runs whose recorded variables are those of `g`. -/
def pooled [Fl F] (rd : F → F) (runs : List (Run cs sim)) (g : Run cs sim) : List F :=
  ((runs.filter fun r => r.dataset.key = g.dataset.key).map fun r => r.samples.map rd).flatten
end Run

/-- an entry that is passed over: neither a readable result file nor an obstacle. -/
def Entry.Harmless {D : Type} (fromFile : Reader → Res D × Reader) (e : Entry) : Prop :=
  e.contributes fromFile = none ∧ ¬ e.fatal fromFile

/-- the directory: for every entry, the run it is the result file of, or nothing if it is passed over. -/
def Directory {cs : List (Component F)} {sim : Component F} (width : Nat) (pd : F → Str)
    (slots : List (Option (Run cs sim))) (es : List Entry) : Prop :=
  List.Forall₂ (fun s e => match s with
    | some r => r.File width pd e
    | none => e.Harmless (DataSet.fromFile cs sim)) slots es

/-- the rows of a linear distribution: bin centre, number of samples in the bin, density; densities below 1e-15
are left out. -/
noncomputable def linearRows (B : Bins ℝ) (samples : List ℝ) : List (ℝ × Nat × ℝ) :=
  (List.range B.numBin).filterMap fun i =>
    let n := howMany (fun t => B.InWindow t ∧ B.InBin i t) samples
    let density := (n / samples.length : ℝ) / B.binSize
    if |density| < 1 / 10 ^ 15 then none else some (B.minTime + (i + 1 / 2) * B.binSize, n, density)

/-- likewise of a logarithmic one, with geometric centres. -/
noncomputable def logRows (B : Bins ℝ) (samples : List ℝ) : List (ℝ × Nat × ℝ) :=
  (List.range B.numLbin).filterMap fun i =>
    let n := howMany (fun t => B.InWindow t ∧ B.InLogBin i t) samples
    let density := (n / samples.length : ℝ) / B.logWidth i
    if |density| < 1 / 10 ^ 15 then none
    else some (B.minTime * Real.sqrt B.lbinSize * B.lbinSize ^ i, n, density)

end Moledyn
