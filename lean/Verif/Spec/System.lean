import Verif.Model.System
/-
Vocabulary for the domains, independent of the code.
-/
namespace Moledyn

/-- distance of a point from the origin. -/
noncomputable def radius (p : List ℝ) : ℝ := Real.sqrt ((p.map fun x => x ^ 2).sum)

/-- `y` is where a coordinate that would be at `x` ends up in `[-L, L]` with a mirror at each end:
untouched inside, mirrored about the wall `L` (resp. `-L`) it crossed outside. -/
def MirrorImage (L x y : ℝ) : Prop :=
  (|x| ≤ L → y = x) ∧ (L < x → y - L = L - x) ∧ (x < -L → y + L = -L - x)

/-- `y` is where a coordinate that would be at `x` ends up on `[-L, L]` with ends identified: untouched
inside, shifted by one period `2L` outside. -/
def PeriodicImage (L x y : ℝ) : Prop :=
  (|x| ≤ L → y = x) ∧ (L < x → y = x - 2 * L) ∧ (x < -L → y = x + 2 * L)

/-- `y` is where a point that would be at `x` ends up in the ball of radius `R` reflecting along the
radius: untouched inside, otherwise the point of the line through the origin and `x` whose signed
distance from the origin, in the direction of `x`, is `2R - |x|`. -/
def RadialImage (R : ℝ) (x y : List ℝ) : Prop :=
  (radius x ≤ R → y = x) ∧ (R < radius x → y = x.map fun c => (2 * R - radius x) * (c / radius x))

/-- axis `i` is mirrored (rather than periodic) under the boundary condition. -/
def BoundaryCond.mirrored : BoundaryCond → Nat → Prop
  | .reflection, _ => True
  | .periodic, _ => False
  | .mixed d, i => i < d

/-- the point reached from `p` after the fraction `u` of the displacement `v`. -/
def along (p v : List ℝ) (u : ℝ) : List ℝ := List.zipWith (fun a b => a + u * b) p v

/-- scalar product. -/
def dot (a b : List ℝ) : ℝ := (List.zipWith (· * ·) a b).sum

/-- mirror image of `z` in the plane through `s` perpendicular to `s` (the tangent plane at `s` of the
sphere around the origin through `s`). -/
noncomputable def mirrorAt (s z : List ℝ) : List ℝ :=
  List.zipWith (fun zc sc => zc - 2 * (dot (List.zipWith (· - ·) z s) s / dot s s) * sc) z s

end Moledyn
