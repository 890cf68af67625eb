import Verif.Model.Dataset
import Verif.Model.Position
/-
Model of what the macros of src/macros.rs and the compiler's `derive` add to the structures of the crate:
`new` and `clear` of argument structures, the `Default` values, and the derived `PartialOrd`.
-/
namespace Moledyn
variable {F : Type}

/-! ### Default values -/

/-- `AgentType::default()`, src/agent_mod/types.rs:141-145. -/
def AgentType.dflt : AgentType := .continuousPassiveIndependent
/-- `MoveType::default()`, src/agent_mod/types.rs:191-195. -/
def MoveType.dflt [Fl F] : MoveType F := .brownian Fl.one
/-- `InitType::default()`, src/agent_mod/types.rs:244-248. -/
def InitType.dflt : InitType F := .uniform
/-- `InteractType::default()`, src/agent_mod/types.rs:366-370. -/
def InteractType.dflt [Fl F] : InteractType F := .exponential 2 (Fl.lit (1 / 10))
/-- `SystemType::default()`, src/system_mod/mod.rs:102-106. -/
def SystemType.dflt : SystemType := .continuousCircular
/-- `BoundaryCond::default()`, src/system_mod/mod.rs:158-162. -/
def BoundaryCond.dflt : BoundaryCond := .reflection
/-- `TargetType::default()`, src/target_mod/mod.rs:55-59. -/
def TargetType.dflt : TargetType := .continuousInBulk
/-- `Position::default()`, derived at src/position.rs:9: no coordinates. -/
def Pos.dflt : Pos F := []

/-! ### `new` and `clear` of argument structures -/

namespace Vals

/-- overwrite the fields of the first list (src/macros.rs:109-111, the loop over `$type_name`). -/
def setFront : {fs gs : List Field} → Vals fs → Vals (fs ++ gs) → Vals (fs ++ gs)
  | [], _, _, self => self
  | _ :: _, _, v, self => (v.1, setFront v.2 self.2)

/-- overwrite the fields of the second list (src/macros.rs:112-114, the loop over `$var`). -/
def setBack : {fs gs : List Field} → Vals gs → Vals (fs ++ gs) → Vals (fs ++ gs)
  | [], _, w, _ => w
  | _ :: _, _, w, self => (self.1, setBack w self.2)

end Vals

/-- `new` of an argument structure, src/macros.rs:99-106: the fixed values of the type fields, the given ones of the
others. -/
def Schema.new (S : Schema) (v : Vals S.varFields) : Vals S.fields := Vals.append S.defaults v

/-- `clear` of an argument structure, src/macros.rs:108-115: every type field gets its fixed value, every other field
`Default::default()` of its type (`zeros`, see `cleared` below). -/
def Schema.clear (S : Schema) (zeros : Vals S.varFields) (self : Vals S.fields) : Vals S.fields :=
  Vals.setBack zeros (Vals.setFront S.defaults self)

section Cleared
variable [Fl F] (f : NumFmt F)

/-- defaults of src/system_mod/cont_circ.rs:32-36. -/
def circZeros : Vals (circSchema f).varFields := ((Fl.zero : F), ((0 : Nat), ()))
/-- defaults of src/system_mod/cont_cubic.rs:38-42. -/
def cubicZeros : Vals (cubicSchema f).varFields := (BoundaryCond.dflt, ((Fl.zero : F), ((0 : Nat), ())))
/-- defaults of src/system_mod/cont_cyl.rs:34-39: the type of the system is a variable there. -/
def cylZeros : Vals (cylSchema f).varFields :=
  (SystemType.dflt, (BoundaryCond.dflt, ((Fl.zero : F), ((Fl.zero : F), ((0 : Nat), ())))))
/-- defaults of src/target_mod/cont_bulk.rs:28-31. -/
def bulkTargetZeros : Vals (bulkTargetSchema f).varFields := ((Pos.dflt : Pos F), ((Fl.zero : F), ()))
/-- defaults of src/agent_mod/cont_passive_indep.rs:81-85. -/
def indepZeros : Vals (indepSchema f).varFields := (MoveType.dflt, (InitType.dflt, ((0 : Nat), ())))
/-- defaults of src/agent_mod/cont_passive_merge.rs:107-114. -/
def mergeZeros : Vals (mergeSchema f).varFields :=
  (MoveType.dflt, (InitType.dflt, ((Fl.zero : F), ((Fl.zero : F), ((0 : Nat), ())))))
/-- defaults of src/agent_mod/cont_passive_exp.rs:149-156. -/
def expZeros : Vals (expSchema f).varFields :=
  (MoveType.dflt, (InitType.dflt, ((Fl.zero : F), ((0 : Nat), ((Fl.zero : F), ((0 : Nat), ()))))))
/-- defaults of src/agent_mod/cont_passive_lj.rs:132-138. -/
def ljZeros : Vals (ljSchema f).varFields :=
  (MoveType.dflt, (InitType.dflt, ((Fl.zero : F), ((Fl.zero : F), ((0 : Nat), ())))))
/-- defaults of src/time_mod/mod.rs:167-169. -/
def constStepZeros : Vals (constStepSchema f).varFields := ((Fl.zero : F), ((Fl.zero : F), ()))
/-- defaults of src/time_mod/mod.rs:334-338. -/
def expStepZeros : Vals (expStepSchema f).varFields := ((Fl.zero : F), ((Fl.zero : F), ((0 : Nat), ((Fl.zero : F), ()))))
/-- defaults of src/setup.rs:124-128. -/
def variableSimZeros : Vals variableSimSchema.varFields := ((0 : Nat), ((0 : Nat), ((0 : Nat), (([] : Str), ()))))
/-- defaults of src/setup.rs:149-153. -/
def parVariableSimZeros : Vals parVariableSimSchema.varFields :=
  ((0 : Nat), ((0 : Nat), ((0 : Nat), (([] : Str), ()))))
/-- defaults of src/setup.rs:175-180. -/
def processSimZeros : Vals (processSimSchema f).varFields :=
  ((0 : Nat), ((Fl.zero : F), ((0 : Nat), ((0 : Nat), (([] : Str), ())))))

end Cleared

/-! ### the derived order -/

/-- `f64::partial_cmp` (used by the derives at src/position.rs:9 and src/macros.rs:66, 80): from `<=` both ways; two
numbers of which neither is at most the other (a NaN) are not comparable. -/
def cmpF [Fl F] (a b : F) : Option Ordering :=
  match Fl.le a b, Fl.le b a with
  | true, true => some .eq
  | true, false => some .lt
  | false, true => some .gt
  | false, false => none

/-- the derived lexicographic comparison: the first comparison that is not "equal" decides (src/position.rs:9,
src/macros.rs:66, 80); if all are equal the shorter list is smaller (vectors). -/
def lexCmp {α : Type} (c : α → α → Option Ordering) : List α → List α → Option Ordering
  | [], [] => some .eq
  | [], _ :: _ => some .lt
  | _ :: _, [] => some .gt
  | a :: as, b :: bs =>
    match c a b with
    | some .eq => lexCmp c as bs
    | r => r

/-- `PartialOrd` of `Position<f64>`, derived at src/position.rs:9: that of the vector of coordinates. -/
def Pos.partialCmp [Fl F] (a b : Pos F) : Option Ordering := lexCmp cmpF a b

/-- comparison of two values of one variable (src/macros.rs:80: the types of the two are the same). -/
def DataVar.partialCmp [Fl F] : DataVar F → DataVar F → Option Ordering
  | .real x, .real y => cmpF x y
  | .nat m, .nat n => some (compare m n)
  | _, _ => none

/-- `PartialOrd` of a data set, derived by `define_structure_wo_eq!`, src/macros.rs:78-88 as used at
src/analysis.rs:35: all variables in order, those of the simulation part last. -/
def DataSet.partialCmp [Fl F] (a b : DataSet F) : Option Ordering :=
  lexCmp DataVar.partialCmp ((a.vars ++ a.simVars).map Prod.snd) ((b.vars ++ b.simVars).map Prod.snd)

end Moledyn
