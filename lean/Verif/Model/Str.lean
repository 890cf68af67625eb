import Verif.Model.Basic
import Mathlib.Data.Nat.Digits.Defs
/-
The string functions of the Rust standard library used by the crate, on lists of characters.
-/
namespace Moledyn

/-- strings are lists of characters (`&str` and `String` everywhere, e.g. src/argument.rs:100-160). -/
abbrev Str := List Char

/-- `chars! "abc"` is the list `['a', 'b', 'c']` (a literal of type `Str`). -/
syntax "chars! " str : term

macro_rules
  | `(chars! $s:str) => do
    let mut t ← `(([] : List Char))
    for c in s.getString.toList.reverse do
      t ← `(List.cons $(Lean.Syntax.mkCharLit c) $t)
    return t

namespace Str

/-- `char::is_whitespace` (Unicode White_Space)
(used by `trim` and `split_whitespace`, e.g. src/argument.rs:113, 153). -/
def isWs (c : Char) : Bool :=
  (0x9 ≤ c.toNat && c.toNat ≤ 0xD) || c.toNat == 0x20 || c.toNat == 0x85 || c.toNat == 0xA0 ||
  c.toNat == 0x1680 || (0x2000 ≤ c.toNat && c.toNat ≤ 0x200A) || c.toNat == 0x2028 ||
  c.toNat == 0x2029 || c.toNat == 0x202F || c.toNat == 0x205F || c.toNat == 0x3000

/-- `trim_start_matches(p)` (used by src/position.rs:121-122). -/
def trimStart (p : Char → Bool) (s : Str) : Str := s.dropWhile p

/-- `trim_end_matches(p)` (used by src/position.rs:121-122). -/
def trimEnd (p : Char → Bool) (s : Str) : Str := (s.reverse.dropWhile p).reverse

/-- `trim_matches(p)`; `trim()` is `trimMatches isWs` (src/position.rs:121-122). -/
def trimMatches (p : Char → Bool) (s : Str) : Str := trimEnd p (trimStart p s)

/-- `trim()` (src/argument.rs:113, 153, src/position.rs:121, src/analysis.rs:594). -/
def trim (s : Str) : Str := trimMatches isWs s

/-- `split(p)`: pieces between separators; always at least one piece
(src/argument.rs:147, src/position.rs:123, src/agent_mod/types.rs:299, 303). -/
def splitBy (p : Char → Bool) : Str → List Str
  | [] => [[]]
  | c :: s =>
    if p c then [] :: splitBy p s
    else
      match splitBy p s with
      | [] => [[c]]
      | w :: ws => (c :: w) :: ws

/-- `split_whitespace()`
(src/agent_mod/types.rs:173, 225, 297, src/system_mod/mod.rs:72, 138, src/time_mod/mod.rs:64). -/
def words (s : Str) : List Str := (splitBy isWs s).filter (· ≠ [])

/-- pieces joined by a separator (src/position.rs:356-365). -/
def join (sep : Str) : List Str → Str
  | [] => []
  | [w] => w
  | w :: ws => w ++ sep ++ join sep ws

/-- decimal digits of `usize` as printed by `{}` (used by `{}`, e.g. src/argument.rs:129). -/
def digitChar (d : Nat) : Char := Char.ofNat (48 + d)

/-- `{}` of a `usize` (e.g. src/argument.rs:129). -/
def printNat (n : Nat) : Str :=
  if n = 0 then ['0'] else ((Nat.digits 10 n).map digitChar).reverse

/-- one decimal digit (used by `parse`, src/argument.rs:114, 154). -/
def digitVal (c : Char) : Option Nat :=
  if 48 ≤ c.toNat ∧ c.toNat ≤ 57 then some (c.toNat - 48) else none

/-- digits to number, most significant first (used by `parse`, src/argument.rs:114, 154). -/
def parseDigits (acc : Nat) : Str → Option Nat
  | [] => some acc
  | c :: s =>
    match digitVal c with
    | none => none
    | some d => parseDigits (acc * 10 + d) s

/-- an optional leading `+` is skipped (used by `parse`, src/argument.rs:114, 154). -/
def stripPlus : Str → Str
  | '+' :: r => r
  | r => r

/-- `parse::<usize>()`: an optional `+`, then at least one digit, and the value must fit in 64 bits
(the running value only grows, so checking the final value is the same as checking every step)
(src/argument.rs:114, 154). -/
def parseNat (s : Str) : Option Nat :=
  if stripPlus s = [] then none
  else
    match parseDigits 0 (stripPlus s) with
    | none => none
    | some n => if n < 2 ^ 64 then some n else none

end Str

/-- Printing and parsing of a scalar type (`Display` and `FromStr` of `f64`, `i32`, ...), kept
abstract; `dflt` is `Default::default()` (src/argument.rs:114, 129, 154, src/position.rs:117-130, 355-365). -/
structure NumFmt (T : Type) where
  print : T → Str
  parse : Str → Option T
  dflt : T

/-- `usize` as an instance (src/argument.rs:114, 129, 154). -/
def natFmt : NumFmt Nat := { print := Str.printNat, parse := Str.parseNat, dflt := 0 }

end Moledyn
