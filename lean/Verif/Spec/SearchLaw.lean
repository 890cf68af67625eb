import Verif.Spec.Law
import Verif.Spec.System
/-
Vocabulary for a random search: a walker in a room with walls makes independent steps, for example normally
distributed ones, until it is in the target.
-/
namespace Moledyn
open MeasureTheory ProbabilityTheory
open scoped ENNReal

variable {G : Type}

/-- The normal distribution in `d` dimensions: independent coordinates, each with mean 0 and variance `v`. -/
noncomputable def normalLaw (d : Nat) (v : ℝ) : Measure (Fin d → ℝ) := Measure.pi fun _ => gaussianReal 0 v.toNNReal

instance (d : Nat) (v : ℝ) : IsProbabilityMeasure (normalLaw d v) := by unfold normalLaw; infer_instance

/-- The distribution of a step with independent coordinates, each a number with the distribution `ν`, times `σ`. -/
noncomputable def stepLaw (d : Nat) (ν : Measure ℝ) (σ : ℝ) : Measure (Fin d → ℝ) := Measure.pi fun _ => ν.map (· * σ)

/-- A distribution of numbers up to `b`, each of which may be as near as one likes to any number near 0. -/
structure BoundedSpread (ν : Measure ℝ) (b : ℝ) : Prop where
  prob : IsProbabilityMeasure ν
  bounded : ν {z | b < |z|} = 0
  spread : ∃ a > 0, ∀ m, |m| ≤ a → ∀ ε > 0, ν {z | |z - m| < ε} ≠ 0

/-- A bounded room `S`, as `check_bc` treats it: a walker that would come to `y` is put at `put y`; if this is in `S` all is
well, otherwise the step was too large.  Nothing happens to a walker that stays in `S`; there are steps that are too
large. -/
structure Walls (sys : SysOps G ℝ) {d : Nat} (S : Set (Fin d → ℝ)) (put : (Fin d → ℝ) → Fin d → ℝ) : Prop where
  measurable : Measurable put
  room_measurable : MeasurableSet S
  bounded : ∃ M, ∀ x ∈ S, ∀ i, |x i| ≤ M
  inside : ∀ y ∈ S, put y = y
  tooFar : ∃ c ε, 0 < ε ∧ ∀ y ∈ nearSet c ε, put y ∉ S
  step_ok : ∀ x dx : Fin d → ℝ, put (x + dx) ∈ S →
    sys.checkBc (List.ofFn x) (List.ofFn dx) = (List.ofFn (put (x + dx)), .ok ())
  step_err : ∀ x dx : Fin d → ℝ, put (x + dx) ∉ S →
    sys.checkBc (List.ofFn x) (List.ofFn dx) = (List.ofFn (put (x + dx)), .err .tooLargeTimeStep)

variable {d : Nat}

/-- One step: if the position has the distribution `π`, this is its distribution after a step with the
distribution `μ` and the walls. -/
noncomputable def walked (put : (Fin d → ℝ) → Fin d → ℝ) (μ : Measure (Fin d → ℝ)) (π : Measure (Fin d → ℝ)) : Measure (Fin d → ℝ) :=
  (π.prod μ).map fun p => put (p.1 + p.2)

/-- The walkers that are still searching after `n` steps: those that have been in the room and outside the target at every
step so far. -/
noncomputable def searching (put : (Fin d → ℝ) → Fin d → ℝ) (S T : Set (Fin d → ℝ)) (μ : Measure (Fin d → ℝ)) (π : Measure (Fin d → ℝ)) (n : Nat) :
    Measure (Fin d → ℝ) :=
  (fun π => (walked put μ π).restrict (S \ T))^[n] π

/-- The distribution of the outcome of a search: `(n, true)` if the target is found with step `n`, `(n, false)` if step `n`
was too large. -/
noncomputable def searchLaw (put : (Fin d → ℝ) → Fin d → ℝ) (S T : Set (Fin d → ℝ)) (μ : Measure (Fin d → ℝ)) (π : Measure (Fin d → ℝ)) :
    Measure (ℕ × Bool) :=
  Measure.sum fun n =>
    walked put μ (searching put S T μ π n) (S ∩ T) • Measure.dirac (n + 1, true) +
      walked put μ (searching put S T μ π n) Sᶜ • Measure.dirac (n + 1, false)

/-- what a program reports for an outcome: the time that has passed, or the error. -/
noncomputable def reported (dt : ℝ) (y : ℕ × Bool) : Res ℝ := if y.2 then .ok (y.1 * dt) else .err .tooLargeTimeStep

/-! ### the walls of the three systems -/

/-- mirrors at `L` and `-L`. -/
noncomputable def mirrorPut (L x : ℝ) : ℝ := if L < x then 2 * L - x else if x < -L then -2 * L - x else x
/-- `L` and `-L` are the same point. -/
noncomputable def periodicPut (L x : ℝ) : ℝ := if L < x then x - 2 * L else if x < -L then x + 2 * L else x

open Classical in
/-- a cube. -/
noncomputable def cubePut (bc : BoundaryCond) (L : ℝ) (y : Fin d → ℝ) : Fin d → ℝ := fun i =>
  if bc.mirrored i then mirrorPut L (y i) else periodicPut L (y i)

/-- the squared distance from the centre, in the first `k` directions. -/
noncomputable def axisSq (k : Nat) (y : Fin d → ℝ) : ℝ := ∑ i, if i.1 < k then y i ^ 2 else 0

/-- a cylinder: a mirror at distance `R` from the axis, and ends that are the same point. -/
noncomputable def cylPut (k : Nat) (R L : ℝ) (y : Fin d → ℝ) : Fin d → ℝ := fun i =>
  if i.1 < k then
    (if R < Real.sqrt (axisSq k y) then (2 * R - Real.sqrt (axisSq k y)) * (y i / Real.sqrt (axisSq k y)) else y i)
  else periodicPut L (y i)

/-- a ball: a mirror at distance `R` from the centre. -/
noncomputable def ballPut (R : ℝ) (y : Fin d → ℝ) : Fin d → ℝ := fun i =>
  if R < Real.sqrt (∑ i, y i ^ 2) then (2 * R - Real.sqrt (∑ i, y i ^ 2)) * (y i / Real.sqrt (∑ i, y i ^ 2)) else y i

/-- As `Samples`, for a procedure that may also report an error: the result is `out x`, where `x` has the distribution `μ`
and does not depend on the state the generator is left in, which again has the distribution `P`. -/
def Yields {α X : Type} [MeasurableSpace G] [MeasurableSpace X] (P : Measure G) (prog : Nat → G → Option (Res α × G))
    (out : X → Res α) (μ : Measure X) : Prop :=
  ∃ f : G → X × G, MeasurePreserving f P (μ.prod P) ∧
    ∀ᵐ g ∂P, ∃ n, ∀ loops ≥ n, prog loops g = some (out (f g).1, (f g).2)

end Moledyn
