import Verif.Model.Setup
import Verif.Spec.Argument
/-
Vocabulary for command lines: which words give which values.
-/
namespace Moledyn

/-- the words, one per field and in the order of the fields, are the texts of the values. -/
def WordsGive : (fs : List Field) → List Str → Vals fs → Prop
  | [], [], _ => True
  | f :: fs, w :: ws, v => f.parse (Str.trim w) = .ok v.1 ∧ WordsGive fs ws v.2
  | _, _, _ => False

/-- the words give the values of one structure: the fields of fixed value first, then one word per
remaining field. -/
def Schema.Gets (S : Schema) (ws : List Str) (v : Vals S.fields) : Prop :=
  ∃ u, WordsGive S.varFields ws u ∧ v = Vals.append S.defaults u

/-- the words are cut into consecutive pieces, one per structure, nothing is left over, and every piece
gives the values of its structure. -/
def Pieces : (Ss : List Schema) → List Str → AllVals Ss → Prop
  | [], ws, _ => ws = []
  | S :: Ss, ws, v => ∃ a b, ws = a ++ b ∧ S.Gets a v.1 ∧ Pieces Ss b v.2

/-- the number of arguments a structure announces is the number of words it uses. -/
def Schema.Announces (S : Schema) : Prop := S.numArgs = S.vars.length

/-- all values of all structures are printable. -/
def AllVals.Printable : (Ss : List Schema) → AllVals Ss → Prop
  | [], _ => True
  | S :: Ss, v => Vals.Printable S.fields v.1 ∧ AllVals.Printable Ss v.2

/-- The structures of the crate. -/
def systemsOf {F : Type} (f : NumFmt F) : List Schema := [circSchema f, cubicSchema f, cylSchema f]
def targetsOf {F : Type} (f : NumFmt F) : List Schema := [bulkTargetSchema f]
def agentsOf {F : Type} (f : NumFmt F) : List Schema :=
  [indepSchema f, mergeSchema f, expSchema f, ljSchema f]
def clocksOf {F : Type} (f : NumFmt F) : List Schema := [constStepSchema f, expStepSchema f]
def simulationsOf {F : Type} (f : NumFmt F) : List Schema :=
  [variableSimSchema, parVariableSimSchema, processSimSchema f]

end Moledyn
