import Verif.Model.Fl
import Verif.Model.Str
/-
Model of src/position.rs.
-/
namespace Moledyn

/-- `Position<T>`, src/position.rs:9-12: a wrapped vector of coordinates. -/
abbrev Pos (T : Type) := List T

namespace Pos

/-- `Position::dim`, src/position.rs:73-76. -/
def dim {T : Type} (p : Pos T) : Nat := p.length

/-- `Position::clear`, src/position.rs:104-115. -/
def clear {T : Type} (dflt : T) (p : Pos T) : Pos T := p.map fun _ => dflt

section Real
variable {F : Type} [Fl F]

/-- `Position<f64>::norm`, src/position.rs:133-140. -/
def norm (p : Pos F) : F := Fl.sqrt (p.foldl (fun res x => res + x * x) Fl.zero)

/-- `Position<f64>::distance`, src/position.rs:142-156. -/
def distance (a b : Pos F) : Res F :=
  if a.dim ≠ b.dim then .err .invalidDimension
  else .ok (Fl.sqrt ((a.zip b).foldl (fun r q => r + (q.1 - q.2) * (q.1 - q.2)) Fl.zero))

/-- `Position<f64>::inner_product`, src/position.rs:158-169. -/
def innerProduct (a b : Pos F) : Res F :=
  if a.dim ≠ b.dim then .err .invalidDimension
  else .ok ((a.zip b).foldl (fun res q => res + q.1 * q.2) Fl.zero)

end Real

section Generic
variable {T : Type}

/-- `&a + &b`, src/position.rs:206-246 (both impls): panics on a dimension mismatch. -/
def add [Add T] (a b : Pos T) : Res (Pos T) :=
  if a.dim ≠ b.dim then .panic else .ok (List.zipWith (· + ·) a b)

/-- `&a - &b`, src/position.rs:248-286 (both impls). -/
def sub [Sub T] (a b : Pos T) : Res (Pos T) :=
  if a.dim ≠ b.dim then .panic else .ok (List.zipWith (· - ·) a b)

/-- `scalar_mul`, src/position.rs:310-318. -/
def scalarMul [Mul T] (a : Pos T) (s : T) : Pos T := a.map (· * s)

/-- `mut_scalar_mul`, src/position.rs:320-324. -/
def mutScalarMul [Mul T] (a : Pos T) (s : T) : Pos T := a.map (· * s)

/-- the index loop shared by `mut_add` and `mut_sub`: coordinate by coordinate, panicking when `other`
has no coordinate of that index (the coordinates before it are already updated) (src/position.rs:326-341). -/
def mutZip (op : T → T → T) : Pos T → Pos T → Pos T × Res Unit
  | [], _ => ([], .ok ())
  | x :: xs, [] => (x :: xs, .panic)
  | x :: xs, y :: ys => let r := mutZip op xs ys; (op x y :: r.1, r.2)

/-- `mut_add`, src/position.rs:326-332. -/
def mutAdd [Add T] (a b : Pos T) : Pos T × Res Unit := mutZip (· + ·) a b

/-- `mut_sub`, src/position.rs:334-340. -/
def mutSub [Sub T] (a b : Pos T) : Pos T × Res Unit := mutZip (· - ·) a b

/-- `mut_add_bench`, src/position.rs:343-353: stops at the shorter vector. -/
def mutAddBench [Add T] : Pos T → Pos T → Pos T
  | [], _ => []
  | x :: xs, [] => x :: xs
  | x :: xs, y :: ys => (x + y) :: mutAddBench xs ys

end Generic

/-! ### text form -/

/-- `FromStr for Position<T>`, src/position.rs:117-130. -/
def fromStr {T : Type} (f : NumFmt T) (s : Str) : Res (Pos T) :=
  let body := Str.trimMatches (fun c => c == '(' || c == ')') (Str.trim s)
  .ok ((Str.splitBy (fun c => c == ',' || c == ':') body).map fun x => (f.parse x).getD f.dflt)

/-- `Display for Position<T>`, src/position.rs:355-365 (and `LowerExp`, 367-377, with the exponent
printer in `f`): panics on an empty vector. -/
def display {T : Type} (f : NumFmt T) : Pos T → Res Str
  | [] => .panic
  | x :: xs => .ok (xs.foldl (fun acc y => acc ++ [','] ++ f.print y) (f.print x))

/-! ### integer positions -/

/-- a signed 32-bit result: panics on overflow (debug build; a release build wraps around)
(src/position.rs:181-204). -/
def chk32 (x : ℤ) : Res ℤ := if -2 ^ 31 ≤ x ∧ x < 2 ^ 31 then .ok x else .panic

/-- `Position<i32>::norm`, src/position.rs:173-179: each coordinate is converted first, so nothing overflows. -/
def normI {F : Type} [Fl F] (ofInt : ℤ → F) (a : Pos ℤ) : F :=
  Fl.sqrt (a.foldl (fun r x => r + ofInt x * ofInt x) Fl.zero)

/-- `Position<i32>::taxi_distance`, src/position.rs:193-203. -/
def taxiDistance (a b : Pos ℤ) : Res ℤ :=
  if a.dim ≠ b.dim then .err .invalidDimension
  else (a.zip b).foldl (fun (acc : Res ℤ) q => acc.bind fun r =>
    (chk32 (q.1 - q.2)).bind fun d => (chk32 |d|).bind fun e => chk32 (r + e)) (.ok 0)

/-- `Position<i32>::distance`, src/position.rs:181-191. -/
def distanceI {F : Type} [Fl F] (ofInt : ℤ → F) (a b : Pos ℤ) : Res F :=
  if a.dim ≠ b.dim then .err .invalidDimension
  else ((a.zip b).foldl (fun (acc : Res F) q => acc.bind fun r =>
    (chk32 (q.1 - q.2)).bind fun d => (chk32 (d * d)).bind fun e => .ok (r + ofInt e))
      (Res.ok Fl.zero)).map Fl.sqrt

end Pos
end Moledyn
