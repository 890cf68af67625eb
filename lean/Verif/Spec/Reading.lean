import Verif.Spec.Text
import Verif.Model.TypesText
/-
Vocabulary for the texts that the parsers of the crate accept.
-/
namespace Moledyn

/-- the text consists of these words, one after the other, with blanks before, between and after them. -/
def Str.HasWords : Str → List Str → Prop
  | s, [] => Str.Blank s
  | s, w :: ws => ∃ before after, s = before ++ w ++ after ∧ Str.Blank before ∧ w ≠ [] ∧ (∀ c ∈ w, Str.isWs c = false) ∧
      (∀ c ∈ after.head?, Str.isWs c = true) ∧ Str.HasWords after ws

/-- the ten decimal digits. -/
def decimals : List Char := ['0', '1', '2', '3', '4', '5', '6', '7', '8', '9']

/-- the value of a string of digits, the most significant one first. -/
def digitsValue (ds : List Nat) : Nat := ds.foldl (fun n d => 10 * n + d) 0

/-- the text is a decimal number below 2^64: digits, at least one, and perhaps a plus sign before them. -/
def Str.IsNumber (s : Str) (n : Nat) : Prop :=
  ∃ cs ds, (s = cs ∨ s = '+' :: cs) ∧ cs ≠ [] ∧ List.Forall₂ (fun c d => decimals[d]? = some c) cs ds ∧
    n = digitsValue ds ∧ n < 2 ^ 64

/-- what is left of a text after its first three bytes. -/
def Str.AfterThreeBytes (s r : Str) : Prop := ∃ p, s = p ++ r ∧ (p.map Char.utf8Size).sum = 3

/-- `name(argument)`: the first argument in brackets, opening and closing ones being the same, whatever comes after it. -/
def Str.NameArg (s name arg : Str) : Prop :=
  ∃ b rest, s = name ++ b :: (arg ++ rest) ∧ (b = '(' ∨ b = ')') ∧ '(' ∉ name ∧ ')' ∉ name ∧ '(' ∉ arg ∧ ')' ∉ arg ∧
    ∀ c ∈ rest.head?, c = '(' ∨ c = ')'

/-- a name alone, or followed by brackets. -/
def Str.Name (s name : Str) : Prop :=
  '(' ∉ name ∧ ')' ∉ name ∧ ∃ rest, s = name ++ rest ∧ ∀ c ∈ rest.head?, c = '(' ∨ c = ')'

/-- `inner` is the text without the characters of the class `p` at its two ends. -/
def Str.Stripped (p : Char → Prop) (s inner : Str) : Prop :=
  ∃ a b, s = a ++ inner ++ b ∧ (∀ c ∈ a, p c) ∧ (∀ c ∈ b, p c) ∧ (∀ c ∈ inner.head?, ¬ p c) ∧ (∀ c ∈ inner.getLast?, ¬ p c)

/-- the text consists of these pieces, with one character of the class `p` between any two, and none in them. -/
def Str.Cut (p : Char → Prop) : Str → List Str → Prop
  | _, [] => False
  | s, [w] => s = w ∧ ∀ c ∈ w, ¬ p c
  | s, w :: v :: ws => ∃ c r, s = w ++ c :: r ∧ (∀ c ∈ w, ¬ p c) ∧ p c ∧ Str.Cut p r (v :: ws)

end Moledyn
