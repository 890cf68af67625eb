import Verif.Spec.MergeLaw
import Mathlib.Data.Nat.Notation
import Mathlib.Data.Fin.Basic
/-
Vocabulary for searchers that are followed side by side: in every turn each makes one step, one after the other, until the
first of them comes to an end.
-/
namespace Moledyn

/-- `n + 1` searches have the outcomes `ys 0, ..., ys n`: `(k, true)` if the target is found with step `k`, `(k, false)` if
step `k` was too large.  This is the outcome of the one that ends first; if several end in the same turn, of the first of
them. -/
def firstOf : (n : ℕ) → (Fin (n + 1) → ℕ × Bool) → ℕ × Bool
  | 0, ys => ys 0
  | n + 1, ys =>
    let rest := firstOf n fun i => ys i.succ
    if (ys 0).1 ≤ rest.1 then ys 0 else rest

/-- The outcome of a search that is given up after `M` turns. -/
def limited (M : ℕ) (y : ℕ × Bool) : ℕ × Ending :=
  if y.1 ≤ M then (y.1, if y.2 then .found else .tooFar) else (M, .clock)

end Moledyn
