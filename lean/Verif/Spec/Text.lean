import Verif.Spec.Position
/-
Vocabulary for the text properties of type tags and argument blocks.
-/
namespace Moledyn

/-- A number format whose output is one word that starts like a number (digit or sign): the formats
`{}` and `{:.5e}` of every finite `f64`, and `{}` of `usize`. -/
structure NumFmt.WordLike {T : Type} (f : NumFmt T) (ok : T → Prop) : Prop extends f.Faithful ok where
  numericHead : ∀ x, ok x → ∃ c r, f.print x = c :: r ∧ (c.isDigit = true ∨ c = '-')

/-- `{:.5e}`: the printed text is one word that the parser reads as the value `r x` (the number
rounded to six significant digits). -/
structure ReadsAs {T : Type} (f : NumFmt T) (e5 : T → Str) (r : T → T) (ok : T → Prop) : Prop where
  reads : ∀ x, ok x → f.parse (e5 x) = some (r x)
  noBlank : ∀ x, ok x → ∀ c ∈ e5 x, Str.isWs c = false
  nonempty : ∀ x, ok x → e5 x ≠ []

/-- only blanks. -/
def Str.Blank (s : Str) : Prop := ∀ c ∈ s, Str.isWs c = true

end Moledyn
