import Verif.Model.Position
/-
Model of src/random_mod/mod.rs.  The generator itself (Pcg64, `Open01`, `StandardNormal` of the crates
rand, rand_pcg and rand_distr) is an arbitrary state machine delivering numbers here; Model/Pcg has `Pcg64` and `Open01`.
-/
namespace Moledyn

/-- The generator: state `G`; `uniform` is `rng.sample(Open01)`, `gaussian` is
`rng.sample(StandardNormal)` (src/random_mod/mod.rs:27-32, 75-80).  Any functions at all are allowed. -/
structure RngOps (G F : Type) where
  uniform : G → F × G
  gaussian : G → F × G

namespace Random
variable {G F : Type} [Fl F]

/-- one draw per coordinate, in order; `f old draw` is the new coordinate.  The shape shared by the
`for x in &mut vec.coordinate` loops of src/random_mod/mod.rs. -/
def sweep (draw : G → F × G) (f : F → F → F) : Pos F → G → Pos F × G
  | [], g => ([], g)
  | x :: xs, g =>
    let d := draw g
    let r := sweep draw f xs d.2
    (f x d.1 :: r.1, r.2)

/-- `get_uniform_vec`, src/random_mod/mod.rs:34-44. -/
def getUniformVec (rng : RngOps G F) (g : G) (dim : Nat) : Pos F × G :=
  sweep rng.uniform (fun _ r => r) (List.replicate dim Fl.zero) g

/-- `get_uniform_to_vec`, src/random_mod/mod.rs:46-56. -/
def getUniformToVec (rng : RngOps G F) (g : G) (vec : Pos F) : Pos F × G :=
  sweep rng.uniform (fun _ r => r) (vec.clear Fl.zero) g

/-- `get_uniform_to_vec_nonstandard`, src/random_mod/mod.rs:58-73. -/
def getUniformToVecNonstandard (rng : RngOps G F) (g : G) (vec : Pos F) (min max : F) : Pos F × G :=
  sweep rng.uniform (fun x r => x + r * (max - min) + min) vec g

/-- `get_gaussian_vec`, src/random_mod/mod.rs:82-92. -/
def getGaussianVec (rng : RngOps G F) (g : G) (dim : Nat) : Pos F × G :=
  sweep rng.gaussian (fun _ r => r) (List.replicate dim Fl.zero) g

/-- `get_gaussian_to_vec`, src/random_mod/mod.rs:94-105. -/
def getGaussianToVec (rng : RngOps G F) (g : G) (vec : Pos F) : Pos F × G :=
  sweep rng.gaussian (fun _ r => r) (vec.clear Fl.zero) g

/-- `get_gaussian_to_vec_nonstandard`, src/random_mod/mod.rs:107-121. -/
def getGaussianToVecNonstandard (rng : RngOps G F) (g : G) (vec : Pos F) (mean stddev : F) : Pos F × G :=
  sweep rng.gaussian (fun x r => x + r * stddev + mean) vec g

end Random
end Moledyn
