import Verif.Spec.SearchLaw
/-
Several searches of which only the fastest counts, and which are given up when they cannot be the fastest any more.
-/
namespace Moledyn
open MeasureTheory

/-- The rule, applied to the outcomes (number of steps, success) of complete searches, `m` steps being the record so far: a
search that fails within the record makes the whole fail; one that succeeds within the record sets a new one; others do not
count. -/
def race : ℕ → List (ℕ × Bool) → ℕ × Bool
  | m, [] => (m, true)
  | m, (k, ok) :: ys => if k ≤ m then (if ok then race k ys else (k, false)) else race m ys

/-- what the program writes for an outcome of the race: the time, `f64::MAX` at most, or the error. -/
noncomputable def written (dt : ℝ) (y : ℕ × Bool) : Res ℝ :=
  if y.2 then .ok (min (y.1 * dt) Fl.maxVal) else .err .tooLargeTimeStep

/-- the distribution of the outcome of the race of `n` independent searches with the distribution `ρ`. -/
noncomputable def raceLaw (ρ : Measure (ℕ × Bool)) (m n : ℕ) : Measure (ℕ × Bool) :=
  (Measure.pi fun _ : Fin n => ρ).map fun x => race m (List.ofFn x)

end Moledyn
