import Verif.Model.System
/-
A particle that is moved again and again, every move being accepted.
-/
namespace Moledyn
variable {F : Type}

/-- `q` is where the displacements `zs` lead from `p`, every one accepted by `check_bc`. -/
inductive Follows (checkBc : Pos F → Pos F → Pos F × Res Unit) : Pos F → List (Pos F) → Pos F → Prop
  | stay (p) : Follows checkBc p [] p
  | step {p z q zs r} : checkBc p z = (q, .ok ()) → Follows checkBc q zs r → Follows checkBc p (z :: zs) r

end Moledyn
