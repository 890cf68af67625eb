import Verif.Model.Position
import Verif.Model.Argument
/-
Model of the container side of src/position.rs.
-/
namespace Moledyn.Pos

variable {T : Type}

/-- `push`, src/position.rs:21-23. -/
def push (p : Pos T) (x : T) : Pos T := p ++ [x]

/-- `Extend::extend`, src/position.rs:26-32: the elements are pushed one after the other. -/
def extend (p : Pos T) : List T → Pos T
  | [] => p
  | x :: xs => extend (push p x) xs

/-- `pos[i]`, src/position.rs:34-40. -/
def index (p : Pos T) (i : Nat) : Res T :=
  match p[i]? with
  | some x => .ok x
  | none => .panic

/-- `pos[i] = x`, src/position.rs:42-46. -/
def setIndex (p : Pos T) (i : Nat) (x : T) : Res (Pos T) :=
  if i < p.length then .ok (p.set i x) else .panic

/-- `pos[a..b]`, src/position.rs:48-54: panics when `a > b` or `b` is beyond the end. -/
def range (p : Pos T) (a b : Nat) : Res (List T) :=
  if a ≤ b ∧ b ≤ p.length then .ok ((p.take b).drop a) else .panic

/-- `pos[..b]`, src/position.rs:56-62. -/
def rangeTo (p : Pos T) (b : Nat) : Res (List T) := if b ≤ p.length then .ok (p.take b) else .panic

/-- `pos[a..]`, src/position.rs:64-70. -/
def rangeFrom (p : Pos T) (a : Nat) : Res (List T) := if a ≤ p.length then .ok (p.drop a) else .panic

/-- `{0:1$e}` of a position, src/position.rs:367-378: the width is passed on to every coordinate, which is padded with
blanks on its right (`<`) by itself. -/
def displayPadded (f : NumFmt T) (width : Nat) (p : Pos T) : Res Str :=
  display { f with print := fun x => Str.padRight width (f.print x) } p

end Moledyn.Pos
