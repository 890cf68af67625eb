import Verif.Model.Str
import Mathlib.Data.Real.Basic
/-
What the programs of tests/random_vec.rs and tests/random_histogram.rs are expected to produce.
-/
namespace Moledyn

/-- a text with one line `x<TAB>y` per point. -/
def pointText {T : Type} (f : NumFmt T) (ps : List (T × T)) : Str :=
  ps.flatMap fun p => f.print p.1 ++ ['\t'] ++ f.print p.2 ++ ['\n']

/-- the numbers taken two at a time. -/
def pairs {T : Type} : List T → List (T × T)
  | x :: y :: r => (x, y) :: pairs r
  | _ => []

/-- bin number `i` of a histogram with the given bounds: from one bound up to, but without, the next; the last bin has both
its ends. -/
def histBin (bounds : List ℝ) (i : Nat) : Set ℝ :=
  {x | bounds.getD i 0 ≤ x ∧ (x < bounds.getD (i + 1) 0 ∨ i + 2 = bounds.length ∧ x = bounds.getD (i + 1) 0)}

end Moledyn
