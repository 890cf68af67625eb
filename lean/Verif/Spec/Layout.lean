import Verif.Spec.Reading
import Verif.Spec.Export
/-
Vocabulary for tables in text files.
-/
namespace Moledyn

/-- the text stands at the right end of a cell of the given width, with blanks before it; a longer text makes the cell longer. -/
def Str.RightAligned (width : Nat) (text cell : Str) : Prop :=
  ∃ blanks, cell = blanks ++ text ∧ (∀ c ∈ blanks, c = ' ') ∧ cell.length = max width text.length

/-- the line consists of cells of the given width with these texts, one tab between any two. -/
def Str.TableLine (width : Nat) (texts : List Str) (line : Str) : Prop :=
  ∃ cells, Str.Cut (· = '\t') line cells ∧ List.Forall₂ (Str.RightAligned width) texts cells

/-- the same, with a tab after the last cell, too. -/
def Str.TableLineTab (width : Nat) (texts : List Str) (line : Str) : Prop :=
  ∃ l, line = l ++ ['\t'] ∧ Str.TableLine width texts l

end Moledyn
