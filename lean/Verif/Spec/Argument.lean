import Verif.Model.Argument
import Verif.Spec.Text
/-
Vocabulary for configuration blocks and command lines.
-/
namespace Moledyn

/-- The value `v` of field `f` prints as a text without `:` and line feed that the field reads back. -/
def Field.Printable (f : Field) (v : f.V) : Prop :=
  ∃ s, f.print v = .ok s ∧ ':' ∉ s ∧ '\n' ∉ s ∧ f.parse (Str.trim s) = .ok v

/-- every value of the block is printable. -/
def Vals.Printable : (fs : List Field) → Vals fs → Prop
  | [], _ => True
  | f :: fs, v => f.Printable v.1 ∧ Vals.Printable fs v.2

/-- the name of a field is an identifier; all that matters is that it has no `:` and no line feed. -/
def Field.NameOk (f : Field) : Prop := ':' ∉ f.name ∧ '\n' ∉ f.name

/-- the printed value of a field is one line that contains a `:`. -/
def Field.HasColon (f : Field) (v : f.V) : Prop := ∃ s, f.print v = .ok s ∧ ':' ∈ s ∧ '\n' ∉ s

/-- some value of the block prints with a `:`, and the values before it are printable. -/
def Vals.PrintableUpToColon : (fs : List Field) → Vals fs → Prop
  | [], _ => False
  | f :: fs, v => f.HasColon v.1 ∨ (f.Printable v.1 ∧ Vals.PrintableUpToColon fs v.2)

/-- The block written for the values `v` is read back as `v`, whatever the padding width, and the reader
stands exactly behind the block, whatever follows it in the file. -/
def ReadsBack (fs : List Field) (v : Vals fs) : Prop :=
  ∀ (width : Nat) (rest : Str), ∃ txt, printConfiguration width fs v = .ok txt ∧
    readArgsFromLines fs (Reader.ofLines (Str.lines (txt ++ rest))) =
      (.ok v, Reader.ofLines (Str.lines rest))

/-- The block written for the values `v` can never be read back: the reader reports `InvalidFormat`. -/
def NeverReadsBack (fs : List Field) (v : Vals fs) : Prop :=
  ∀ (width : Nat) (rest txt : Str), printConfiguration width fs v = .ok txt →
    (readArgsFromLines fs (Reader.ofLines (Str.lines (txt ++ rest)))).1 = .err .invalidFormat

end Moledyn
