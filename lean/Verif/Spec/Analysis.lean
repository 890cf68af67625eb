import Verif.Model.Analysis
/-
Vocabulary for the analyses: windows, bins, sample statistics, and feeding a sequence of samples.
-/
namespace Moledyn

/-- `t` is in the analysed window. -/
def Bins.InWindow (b : Bins ℝ) (t : ℝ) : Prop := b.minTime ≤ t ∧ t ≤ b.maxTime

/-- `t` is in linear bin `i`: bins of width `bin_size` starting at `min_time`. -/
def Bins.InBin (b : Bins ℝ) (i : Nat) (t : ℝ) : Prop :=
  b.minTime + i * b.binSize ≤ t ∧ t < b.minTime + (i + 1) * b.binSize

/-- `t` is in logarithmic bin `i`: bins between consecutive powers of `lbin_size` times `min_time`. -/
def Bins.InLogBin (b : Bins ℝ) (i : Nat) (t : ℝ) : Prop :=
  b.minTime * b.lbinSize ^ i ≤ t ∧ t < b.minTime * b.lbinSize ^ (i + 1)

/-- width of logarithmic bin `i`. -/
noncomputable def Bins.logWidth (b : Bins ℝ) (i : Nat) : ℝ :=
  b.minTime * b.lbinSize ^ (i + 1) - b.minTime * b.lbinSize ^ i

open Classical in
/-- how many of the samples satisfy `P`. -/
noncomputable def howMany (P : ℝ → Prop) (samples : List ℝ) : Nat := samples.countP fun t => decide (P t)

/-- arithmetic mean. -/
noncomputable def sampleMean (l : List ℝ) : ℝ := l.sum / l.length

/-- mean squared deviation from the mean. -/
noncomputable def sampleVariance (l : List ℝ) : ℝ :=
  (l.map fun x => (x - sampleMean l) ^ 2).sum / l.length

open Classical in
/-- the values of the pairs (time, value) whose time satisfies `P`, in order. -/
noncomputable def valuesAt (P : ℝ → Prop) (pairs : List (ℝ × ℝ)) : List ℝ :=
  (pairs.filter fun p => decide (P p.1)).map (·.2)

variable {F : Type} [Fl F]

namespace TimeAnalysis
/-- an analysis prepared as `analyze` does: new, bins set, vectors allocated. -/
def prepared (b : Bins F) : TimeAnalysis F := allocateVectors { (new : TimeAnalysis F) with bins := b }

/-- feeding samples one after the other, stopping at a panic. -/
def feed (a : TimeAnalysis F) : List F → TimeAnalysis F × Res Unit
  | [] => (a, .ok ())
  | t :: ts => match a.addEnsemble t with
    | (a', .ok ()) => feed a' ts
    | (a', r) => (a', r)

/-- feeding samples and then drawing. -/
def report (a : TimeAnalysis F) (samples : List F) : TimeAnalysis F × Res Unit :=
  match a.feed samples with
  | (a', .ok ()) => a'.draw
  | (a', r) => (a', r)

/-- everything a program can make of a prepared analysis. -/
inductive Reach (b : Bins F) : TimeAnalysis F → Prop
  | prepared : Reach b (prepared b)
  | add {a} (t : F) : Reach b a → Reach b (a.addEnsemble t).1
  | draw {a} : Reach b a → Reach b a.draw.1
  | clear {a} : Reach b a → Reach b a.clear
end TimeAnalysis

namespace TimeVecAnalysis
/-- the values given for variable `k`, in order. -/
def valuesOf {F : Type} (k : Nat) (ensembles : List (List F)) : List F := ensembles.filterMap (·[k]?)

/-- an analysis of `numVar` values prepared as `analyze` does. -/
def prepared (numVar : Nat) (b : Bins F) : TimeVecAnalysis F :=
  allocateVectors { (new numVar : TimeVecAnalysis F) with bins := b }

/-- feeding ensembles one after the other, stopping at a panic. -/
def feed (a : TimeVecAnalysis F) : List (List F) → TimeVecAnalysis F × Res Unit
  | [] => (a, .ok ())
  | t :: ts => match a.addEnsemble t with
    | (a', .ok ()) => feed a' ts
    | (a', r) => (a', r)

/-- feeding ensembles and then drawing. -/
def report (a : TimeVecAnalysis F) (samples : List (List F)) : TimeVecAnalysis F × Res Unit :=
  match a.feed samples with
  | (a', .ok ()) => a'.draw
  | (a', r) => (a', r)

/-- what the analysis holds about its `k`-th variable, as a single-variable analysis. -/
def column (a : TimeVecAnalysis F) (k : Nat) : Option (TimeAnalysis F) := do
  let m ← a.means[k]?
  let s ← a.stddevs[k]?
  let h ← a.hist[k]?
  let lh ← a.lhist[k]?
  let c ← a.count[k]?
  let lc ← a.lcount[k]?
  return ⟨m, s, a.ensemble, a.bins, h, lh, c, lc⟩
end TimeVecAnalysis

namespace ProcessAnalysis
/-- an analysis prepared as `analyze` does. -/
def prepared (b : Bins F) : ProcessAnalysis F := allocateVectors { (new : ProcessAnalysis F) with bins := b }

/-- feeding pairs (time, value) one after the other, stopping at a panic. -/
def feed (a : ProcessAnalysis F) : List (F × F) → ProcessAnalysis F × Res Unit
  | [] => (a, .ok ())
  | p :: ps => match a.addPair p.1 p.2 with
    | (a', .ok ()) => feed a' ps
    | (a', r) => (a', r)

/-- feeding pairs and then drawing. -/
def report (a : ProcessAnalysis F) (pairs : List (F × F)) : ProcessAnalysis F × Res Unit :=
  match a.feed pairs with
  | (a', .ok ()) => a'.draw
  | (a', r) => (a', r)
end ProcessAnalysis

end Moledyn
