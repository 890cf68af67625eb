import Verif.Spec.MergeLaw
import Verif.Spec.Time
/-
Vocabulary for ensembles of searches by merging searchers with an exponential clock.
-/
namespace Moledyn
open MeasureTheory

/-- The turns of an exponential clock: the step of turn `k` (from 0), while the time before it is at most `tmax`. -/
noncomputable def expTurns (dtMin dtMax inc : ℝ) (length : ℕ) (tmax : ℝ) (k : ℕ) : Option ℝ :=
  if expTime dtMin dtMax inc length k ≤ tmax then some (expStepSize dtMin dtMax inc length k) else none

/-- merging searchers in `d` dimensions with the radius `radius` and the exponent `alpha`, as `new_uniform` makes them and as
the programs leave them: of any size, anywhere. -/
def MergeTeam (d : ℕ) (radius alpha : ℝ) (v : List (MergeAgent ℝ)) : Prop :=
  ∀ a ∈ v, ∃ (D : ℝ) (x : Fin d → ℝ) (m : ℕ), a = ⟨.continuousPassiveInteracting, .brownian D, .uniform, d, List.ofFn x, radius, m, alpha⟩

/-- What `num` searches give together: the mean of their times, if all find the target; otherwise the error of the first that
does not. -/
noncomputable def meanReported (time : ℕ → ℝ) (num : ℕ) (ys : Fin num → ℕ × Ending) : Res ℝ :=
  match (List.ofFn ys).find? fun y => y.2 ≠ .found with
  | some y => mergeReported time y
  | none => .ok ((∑ i, time (ys i).1) / num)

/-- A random procedure that may report an error, seen from outside: with probability one it ends, and what it reports is
`out x`, where `x` has the distribution `μ`. -/
def Reports {G α X : Type} [MeasurableSpace G] [MeasurableSpace X] (P : Measure G) (prog : Nat → G → Option (Res α × G))
    (out : X → Res α) (μ : Measure X) : Prop :=
  ∃ f : G → X, MeasurePreserving f P μ ∧ ∀ᵐ g ∂P, ∃ n, ∀ loops ≥ n, (prog loops g).map Prod.fst = some (out (f g))

end Moledyn
