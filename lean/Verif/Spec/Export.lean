import Verif.Model.Export
import Verif.Spec.Dataset
/-
Vocabulary for what an analysis writes.
-/
namespace Moledyn

/-- `<base>_<i>`. -/
def numbered (base : Str) (i : Nat) : Str := base ++ chars! "_" ++ Str.printNat i

/-- the path lies in the directory. -/
def Inside (dir path : Str) : Prop := ∃ name, path = dir ++ chars! "/" ++ name

/-- is the entry a sub-directory. -/
def Entry.isDir : Entry → Bool
  | .dir => true
  | _ => false

/-- everything that is written. -/
def AnalysisOutput.written (o : AnalysisOutput) : List Written := o.summary :: o.files

end Moledyn

namespace Moledyn
variable {F : Type}

/-- the text of a recorded variable in the summary table. -/
def DataVar.cell (pe : F → Str) : DataVar F → Str
  | .real x => pe x
  | .nat n => Str.printNat n

/-- a text that is one word. -/
def Str.IsWord (s : Str) : Prop := s ≠ [] ∧ ∀ c ∈ s, Str.isWs c = false

/-- every number is written as one word. -/
def WritesWords (pe : F → Str) : Prop := ∀ x, Str.IsWord (pe x)

end Moledyn
