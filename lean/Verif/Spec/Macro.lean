import Verif.Model.Macro
/-
Vocabulary for C75: what tokens `simulation!` expects, and what its identifiers stand for.
-/
namespace Moledyn

/-- What belongs at place `k` (counted from 0) among the tokens: first a literal, then commas and identifiers in turn. -/
def Tok.Belongs (k : Nat) : Tok → Bool
  | .literal _ => k == 0
  | .comma => k % 2 == 1
  | .ident _ => k % 2 == 0 && k != 0
  | .other _ => false

/-- Token number `n` (counted from 1) is there, does not belong there, and all earlier tokens do. -/
def FirstMisfit (toks : List Tok) (n : Nat) : Prop :=
  ∃ k t, n = k + 1 ∧ toks[k]? = some t ∧ t.Belongs k = false ∧
    ∀ j < k, ∀ u, toks[j]? = some u → u.Belongs j = true

/-- The systems that can be named in `simulation!`, with their argument structures. -/
def namedSystems {F : Type} (f : NumFmt F) : List (Str × Schema) :=
  [(chars! "ContCircSystem", circSchema f), (chars! "ContCubicSystem", cubicSchema f),
   (chars! "ContCylindricalSystem", cylSchema f)]

/-- The targets. -/
def namedTargets {F : Type} (f : NumFmt F) : List (Str × Schema) := [(chars! "ContBulkTarget", bulkTargetSchema f)]

/-- The agents. -/
def namedAgents {F : Type} (f : NumFmt F) : List (Str × Schema) :=
  [(chars! "ContPassiveIndepAgent", indepSchema f), (chars! "ContPassiveMergeAgent", mergeSchema f),
   (chars! "ContPassiveExpAgent", expSchema f), (chars! "ContPassiveLJAgent", ljSchema f)]

/-- The clocks. -/
def namedClocks {F : Type} (f : NumFmt F) : List (Str × Schema) :=
  [(chars! "ConstStep", constStepSchema f), (chars! "ExponentialStep", expStepSchema f)]

/-- The kinds of simulation. -/
def namedSimulations {F : Type} (f : NumFmt F) : List (Str × Schema) :=
  [(chars! "VariableSimulation", variableSimSchema), (chars! "ParVariableSimulation", parVariableSimSchema),
   (chars! "ProcessSimulation", processSimSchema f)]

end Moledyn
