import Verif.Spec.System
/-
How far apart two points are, in exact arithmetic.
-/
namespace Moledyn

/-- the distance of two points of the same dimension. -/
noncomputable def apart (a b : List ℝ) : ℝ := radius (List.zipWith (· - ·) a b)

end Moledyn
