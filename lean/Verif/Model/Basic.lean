/-
Outcomes of the modelled functions.
-/
namespace Moledyn

/-- `ErrorCode`, src/error.rs:84-121.  `Message` carries its text, `Io` wraps an operating-system
error that is not modelled further (simplification: an opaque tag). -/
inductive ErrorCode where
  | message (msg : String)
  | io (tag : Nat)
  | invalidDimension
  | invalidType
  | invalidConfiguration
  | invalidNumberOfArguments
  | invalidArgumentInput
  | invalidFormat
  | invalidFile
  | tooLargeTimeStep
  | featureNotProvided
  | unexpectedEnd
deriving DecidableEq, Repr

/-- Result of a call: `Ok(a)`, `Err(e)`, or a panic (`panic!`, `unwrap`/`expect` on failure, index out
of bounds).  src/error.rs:16 for `Result`; panics are Rust's. -/
inductive Res (α : Type) where
  | ok (a : α)
  | err (e : ErrorCode)
  | panic
deriving DecidableEq, Repr

namespace Res
variable {α β : Type}

/-- the `?` operator / sequencing (e.g. src/analysis.rs:65-68). -/
def bind (x : Res α) (f : α → Res β) : Res β :=
  match x with
  | ok a => f a
  | err e => err e
  | panic => panic

/-- `Result::map` (e.g. src/error.rs:100-130). -/
def map (f : α → β) (x : Res α) : Res β :=
  match x with
  | ok a => ok (f a)
  | err e => err e
  | panic => panic

/-- Indexing `v[i]` of a slice: panics out of bounds (e.g. src/position.rs:37-75). -/
def index (v : List α) (i : Nat) : Res α :=
  match v[i]? with
  | some a => ok a
  | none => panic

instance : Monad Res where
  pure := Res.ok
  bind := Res.bind

@[simp] theorem bind_ok (a : α) (f : α → Res β) : (Res.ok a).bind f = f a := rfl
@[simp] theorem bind_err (e : ErrorCode) (f : α → Res β) : (Res.err e).bind f = .err e := rfl
@[simp] theorem bind_panic (f : α → Res β) : (Res.panic : Res α).bind f = .panic := rfl
@[simp] theorem bind_eq (x : Res α) (f : α → Res β) : (x >>= f) = x.bind f := rfl
@[simp] theorem pure_eq (a : α) : (pure a : Res α) = .ok a := rfl
@[simp] theorem map_ok (f : α → β) (a : α) : (Res.ok a).map f = .ok (f a) := rfl
@[simp] theorem map_err (f : α → β) (e : ErrorCode) : (Res.err e : Res α).map f = .err e := rfl
@[simp] theorem map_panic (f : α → β) : (Res.panic : Res α).map f = .panic := rfl

theorem bind_eq_ok {x : Res α} {f : α → Res β} {b : β} :
    x.bind f = .ok b ↔ ∃ a, x = .ok a ∧ f a = .ok b := by
  cases x <;> simp

end Res
end Moledyn
