import Verif.Model.Agent
import Mathlib.MeasureTheory.Constructions.Pi
import Mathlib.MeasureTheory.Measure.Lebesgue.Basic
import Mathlib.Probability.Distributions.Gaussian.Real
/-
Vocabulary for the distribution of what the program draws.  The generator is idealised: its numbers are exactly uniform
on (0, 1), or exactly standard normal, and independent.
-/
namespace Moledyn
open MeasureTheory ProbabilityTheory

variable {G : Type} [MeasurableSpace G]

/-- The uniform distribution on (0, 1). -/
noncomputable def unitLaw : Measure ℝ := volume.restrict (Set.Ioo 0 1)

/-- A random number generator that draws independent numbers.  If its state has the distribution `P`, a call returns a number
that is uniform on (0, 1) (or, for the numbers that are meant to be normal, has the distribution `ν`), and leaves a state that
again has the distribution `P` and does not depend on the number. -/
structure IndepRng (rng : RngOps G ℝ) (P : Measure G) (ν : Measure ℝ) : Prop where
  prob : IsProbabilityMeasure P
  uniform : MeasurePreserving rng.uniform P (unitLaw.prod P)
  gaussian : MeasurePreserving rng.gaussian P (ν.prod P)

/-- An ideal random number generator: the normal numbers are standard normal. -/
abbrev IdealRng (rng : RngOps G ℝ) (P : Measure G) : Prop := IndepRng rng P (gaussianReal 0 1)

/-- The uniform distribution on a set `S` of points with `d` coordinates: proportional to the volume. -/
noncomputable def uniformLaw {d : Nat} (S : Set (Fin d → ℝ)) : Measure (Fin d → ℝ) := (volume S)⁻¹ • volume.restrict S

/-- A random procedure `prog` (with a number of loops as first argument) draws its result from the distribution `μ`: with
probability one it comes to an end; the result is `out x`, where `x` has the distribution `μ` and does not depend on the
state the generator is left in, which again has the distribution `P`. -/
def Samples {α X : Type} [MeasurableSpace X] (P : Measure G) (prog : Nat → G → Option (Res α × G)) (out : X → α)
    (μ : Measure X) : Prop :=
  ∃ f : G → X × G, MeasurePreserving f P (μ.prod P) ∧
    ∀ᵐ g ∂P, ∃ n, ∀ loops ≥ n, prog loops g = some (.ok (out (f g).1), (f g).2)

/-- A procedure that writes a position into a vector given to it: as `Samples`, with the same position in every vector of
the right dimension. -/
def DrawsInto (P : Measure G) (draw : Nat → G → Pos ℝ → Option ((Pos ℝ × Res Unit) × G)) (d : Nat)
    (μ : Measure (Fin d → ℝ)) : Prop :=
  ∃ f : G → (Fin d → ℝ) × G, MeasurePreserving f P (μ.prod P) ∧
    ∀ᵐ g ∂P, ∃ n, ∀ loops ≥ n, ∀ vec : Pos ℝ, vec.length = d →
      draw loops g vec = some ((List.ofFn (f g).1, .ok ()), (f g).2)

/-- A system whose `random_pos_to_vec` gives every point of `S` the same chance, and whose `position_out_of_system` has the
right dimension. -/
structure Room (P : Measure G) (sys : SysOps G ℝ) (d : Nat) (S : Set (Fin d → ℝ)) : Prop where
  draws : DrawsInto P sys.randomPosToVec d (uniformLaw S)
  outDim : sys.positionOut.length = d
  outToVec : ∀ v, (sys.positionOutToVec v).2 = .ok () → (sys.positionOutToVec v).1.length = d
  measurable : MeasurableSet S
  volume_finite : volume S ≠ ⊤

/-- the points nearer than `r` to `c`. -/
def nearSet {d : Nat} (c : Fin d → ℝ) (r : ℝ) : Set (Fin d → ℝ) := {x | Real.sqrt (∑ i, (x i - c i) ^ 2) < r}

end Moledyn
