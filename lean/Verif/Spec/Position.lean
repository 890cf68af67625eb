import Verif.Model.Position
/-
Vocabulary for the text properties of positions.
-/
namespace Moledyn

/-- A number printer/parser pair that round-trips on the numbers satisfying `ok` and whose output has
no blank, separator or parenthesis. -/
structure NumFmt.Faithful {T : Type} (f : NumFmt T) (ok : T → Prop) : Prop where
  roundtrip : ∀ x, ok x → f.parse (f.print x) = some x
  noBlank : ∀ x, ok x → ∀ c ∈ f.print x, Str.isWs c = false
  noPunct : ∀ x, ok x → ∀ c ∈ f.print x, c ≠ ',' ∧ c ≠ ':' ∧ c ≠ '(' ∧ c ≠ ')'

namespace Pos

/-- The printed coordinates `x`, `y₁`, ... with given separators before `y₁`, `y₂`, .... -/
def withSeps {T : Type} (f : NumFmt T) (x : T) : List (Char × T) → Str
  | [] => f.print x
  | (c, y) :: r => f.print x ++ c :: withSeps f y r

end Pos
end Moledyn
