import Verif.Model.Position
/-
Model of src/target_mod/cont_bulk.rs (cont_boundary.rs is commented out of src/target_mod/mod.rs:25 and is
not compiled).
-/
namespace Moledyn
variable {F : Type} [Fl F]

/-- `TargetType`, src/target_mod/mod.rs:33-40. -/
inductive TargetType where
  | continuousInBulk
  | continuousAtBoundary
  | latticeInBulk
  | latticeAtBoundary
  | networkSingleNode
deriving DecidableEq, Repr

/-- `ContBulkTarget`, src/target_mod/cont_bulk.rs:5-10. -/
structure BulkTarget (F : Type) where
  targetType : TargetType
  targetPos : Pos F
  targetSize : F

namespace BulkTarget

/-- `ContBulkTarget::new`, src/target_mod/cont_bulk.rs:14-21 (no check of any kind). -/
def new (pos : Pos F) (r : F) : BulkTarget F := ⟨.continuousInBulk, pos, r⟩

/-- `ContBulkTarget::distance`, src/target_mod/cont_bulk.rs:24-26. -/
def distance (t : BulkTarget F) (other : Pos F) : Res F := t.targetPos.distance other

/-- `ContBulkTarget::convert_from`, src/target_mod/cont_bulk.rs:36-43. -/
def convertFrom (targetType : TargetType) (targetPos : Pos F) (targetSize : F) : BulkTarget F :=
  ⟨targetType, targetPos, targetSize⟩

/-- `check_find`, src/target_mod/cont_bulk.rs:52-60. -/
def checkFind (t : BulkTarget F) (pos : Pos F) : Res Bool :=
  (t.distance pos).bind fun d => if Fl.lt d t.targetSize then .ok true else .ok false

end BulkTarget
end Moledyn
