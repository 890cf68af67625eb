import Verif.Spec.MergeLaw
/-
Vocabulary for searches that may be given up when a clock ends: which of several ends first.
-/
namespace Moledyn

/-- the outcome `y` comes before `z` or in the same turn: it has the smaller number of turns; of the same number, a search that
is given up after its turns is the later one. -/
def notAfter (y z : ℕ × Ending) : Prop := y.1 < z.1 ∨ y.1 = z.1 ∧ (y.2 = .clock → z.2 = .clock)

instance (y z : ℕ × Ending) : Decidable (notAfter y z) := by unfold notAfter; infer_instance

/-- `n + 1` searches have the outcomes `ys 0, ..., ys n`.  This is the outcome of the one that ends first; if several end at
the same time, of the first of them. -/
def firstEnd : (n : ℕ) → (Fin (n + 1) → ℕ × Ending) → ℕ × Ending
  | 0, ys => ys 0
  | n + 1, ys =>
    let rest := firstEnd n fun i => ys i.succ
    if notAfter (ys 0) rest then ys 0 else rest

end Moledyn
