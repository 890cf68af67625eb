import Verif.Model.Error
/-
C44: equality of errors is equality of categories.
-/
namespace Moledyn.Props
open Moledyn ErrorCode

/-- The English meaning of the three categories, independent of `classify`: an error is an io error
when it wraps an operating-system error, a data error when it is a free-text message, and a syntax
error when it is one of the codes of the crate. -/
def IsIoErr (e : ErrorCode) : Prop := ∃ t, e = .io t
/-- free-text message. -/
def IsDataErr (e : ErrorCode) : Prop := ∃ m, e = .message m
/-- one of the crate's own codes. -/
def IsSyntaxErr (e : ErrorCode) : Prop := (∀ t, e ≠ .io t) ∧ ∀ m, e ≠ .message m

/-- The three tests answer what their names say. -/
theorem C44_tests (e : ErrorCode) :
    (e.isIo = true ↔ IsIoErr e) ∧ (e.isData = true ↔ IsDataErr e) ∧
    (e.isSyntax = true ↔ IsSyntaxErr e) := by
  cases e <;> simp [isIo, isData, isSyntax, classify, IsIoErr, IsDataErr, IsSyntaxErr]

/-- Every error passes exactly one of the three tests. -/
theorem C44_exactly_one (e : ErrorCode) :
    (e.isIo = true ∧ e.isData = false ∧ e.isSyntax = false) ∨
    (e.isIo = false ∧ e.isData = true ∧ e.isSyntax = false) ∨
    (e.isIo = false ∧ e.isData = false ∧ e.isSyntax = true) := by
  cases e <;> simp [isIo, isData, isSyntax, classify]

/-- Two errors compare equal exactly when they are both io errors, both data errors or both syntax
errors. -/
theorem C44_eq_iff (a b : ErrorCode) :
    errEq a b = true ↔
      (IsIoErr a ∧ IsIoErr b) ∨ (IsDataErr a ∧ IsDataErr b) ∨ (IsSyntaxErr a ∧ IsSyntaxErr b) := by
  cases a <;> cases b <;> simp [errEq, classify, IsIoErr, IsDataErr, IsSyntaxErr]

/-- Equality of errors is an equivalence relation. -/
theorem C44_equivalence : Equivalence (fun a b : ErrorCode => errEq a b = true) where
  refl a := by simp [errEq]
  symm h := by simp only [errEq, beq_iff_eq] at *; exact h.symm
  trans h1 h2 := by simp only [errEq, beq_iff_eq] at *; exact h1.trans h2

/-- The constructors give the category they are named after; the syntax constructor only when it is
given one of the crate's own codes. -/
theorem C44_constructors (m : String) (t : Nat) (c : ErrorCode) :
    (makeMsg m).classify = .data ∧ (makeIo t).classify = .io ∧
    ((makeSyntax c).classify = .syntax ↔ IsSyntaxErr c) := by
  refine ⟨rfl, rfl, ?_⟩
  have := (C44_tests c).2.2
  simpa [isSyntax, makeSyntax] using this

/-- Consequence: equality cannot tell the crate's own errors apart, although their messages differ: a
test `assert_eq!(r, Err(TooLargeTimeStep))` also accepts `Err(InvalidDimension)`. -/
theorem C44_syntax_errors_indistinguishable (ioText : Nat → Str) :
    errEq .invalidDimension .tooLargeTimeStep = true ∧
    display ioText .invalidDimension ≠ display ioText .tooLargeTimeStep ∧
    ∀ a b, IsSyntaxErr a → IsSyntaxErr b → errEq a b = true :=
  ⟨rfl, fun h => by
    unfold display at h
    simp at h, fun a b ha hb => (C44_eq_iff a b).2 (.inr (.inr ⟨ha, hb⟩))⟩

/-- The printed text identifies the crate's own codes: two syntax errors with the same text are the
same code. -/
theorem C44_display_injective (ioText : Nat → Str) (a b : ErrorCode) (ha : IsSyntaxErr a)
    (hb : IsSyntaxErr b) (h : display ioText a = display ioText b) : a = b := by
  cases a <;> first
    | (exact absurd rfl (ha.1 _)) | (exact absurd rfl (ha.2 _)) |
      (cases b <;> first
        | rfl | (exact absurd rfl (hb.1 _)) | (exact absurd rfl (hb.2 _)) |
          (unfold display at h; simp at h))

/-- A message is printed as given. -/
theorem C44_display_message (ioText : Nat → Str) (m : String) :
    display ioText (makeMsg m) = m.toList := rfl

example : IsSyntaxErr .invalidFile ∧ IsSyntaxErr .unexpectedEnd ∧ IsIoErr (.io 3) ∧
    IsDataErr (.message "x") := by simp [IsSyntaxErr, IsIoErr, IsDataErr]
example : errEq (.io 3) (.io 5) = true ∧ errEq (.io 3) (.message "x") = false := by decide

end Moledyn.Props
