import Verif.Model.Position
/-
Model of the type tags of src/agent_mod/types.rs (their text forms are in Model/TypesText.lean).
-/
namespace Moledyn

/-- `AgentType`, src/agent_mod/types.rs:10-24. -/
inductive AgentType where
  | continuousPassiveIndependent
  | continuousPassiveInteracting
  | continuousActiveIndependent
  | continuousActiveInteracting
  | latticePassiveIndependent
  | latticePassiveInteracting
  | latticeActiveIndependent
  | latticeActiveInteracting
  | networkPassiveIndependent
  | networkPassiveInteracting
  | networkActiveIndependent
  | networkActiveInteracting
deriving DecidableEq, Repr

namespace AgentType
/-- `in_lattice`, src/agent_mod/types.rs:28-36. -/
def inLattice : AgentType → Bool
  | latticePassiveIndependent | latticePassiveInteracting
  | latticeActiveIndependent | latticeActiveInteracting => true
  | _ => false
/-- `in_continous`, src/agent_mod/types.rs:39-47. -/
def inContinous : AgentType → Bool
  | continuousPassiveIndependent | continuousPassiveInteracting
  | continuousActiveIndependent | continuousActiveInteracting => true
  | _ => false
/-- `in_network`, src/agent_mod/types.rs:50-58. -/
def inNetwork : AgentType → Bool
  | networkPassiveIndependent | networkPassiveInteracting
  | networkActiveIndependent | networkActiveInteracting => true
  | _ => false
/-- `is_passive`, src/agent_mod/types.rs:61-71. -/
def isPassive : AgentType → Bool
  | continuousPassiveIndependent | continuousPassiveInteracting
  | latticePassiveIndependent | latticePassiveInteracting
  | networkPassiveIndependent | networkPassiveInteracting => true
  | _ => false
/-- `is_active`, src/agent_mod/types.rs:74-84. -/
def isActive : AgentType → Bool
  | continuousActiveIndependent | continuousActiveInteracting
  | latticeActiveIndependent | latticeActiveInteracting
  | networkActiveIndependent | networkActiveInteracting => true
  | _ => false
/-- `is_independent`, src/agent_mod/types.rs:87-97. -/
def isIndependent : AgentType → Bool
  | continuousPassiveIndependent | continuousActiveIndependent
  | latticePassiveIndependent | latticeActiveIndependent
  | networkPassiveIndependent | networkActiveIndependent => true
  | _ => false
/-- `is_interacting`, src/agent_mod/types.rs:100-110. -/
def isInteracting : AgentType → Bool
  | continuousPassiveInteracting | continuousActiveInteracting
  | latticePassiveInteracting | latticeActiveInteracting
  | networkPassiveInteracting | networkActiveInteracting => true
  | _ => false
end AgentType

/-- `MoveType`, src/agent_mod/types.rs:151-155. -/
inductive MoveType (F : Type) where
  | brownian (coeffDiff : F)
  | levy
deriving DecidableEq, Repr

/-- `InitType<T>`, src/agent_mod/types.rs:202-206. -/
inductive InitType (F : Type) where
  | specificPosition (pos : Pos F)
  | uniform
deriving DecidableEq, Repr

/-- `InteractType`, src/agent_mod/types.rs:260-273. -/
inductive InteractType (F : Type) where
  | exponential (dim : Nat) (gamma : F)
  | coulomb2D
  | coulomb3D
  | lennardJones (ptlSize : F)
deriving DecidableEq, Repr

/-- `From<InteractType> for f64`, src/agent_mod/types.rs:372-380. -/
def InteractType.toF {F : Type} [Fl F] : InteractType F → F
  | .exponential _ gamma => gamma
  | .lennardJones ptlSize => ptlSize
  | _ => Fl.zero

end Moledyn
