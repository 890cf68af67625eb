import Verif.Model.Str
/-
Model of src/error.rs: classification, equality and printing of errors.
-/
namespace Moledyn

/-- `Category`, src/error.rs:76-82. -/
inductive Category where
  | io
  | data
  | syntax
deriving DecidableEq, Repr

namespace ErrorCode

/-- `Error::classify`, src/error.rs:37-52 (`Error` is a box around an `ErrorCode`, src/error.rs:6-11;
the box is not modelled). -/
def classify : ErrorCode → Category
  | .message _ => .data
  | .io _ => .io
  | .invalidDimension
  | .invalidType
  | .invalidConfiguration
  | .invalidNumberOfArguments
  | .invalidArgumentInput
  | .invalidFormat
  | .invalidFile
  | .tooLargeTimeStep
  | .featureNotProvided
  | .unexpectedEnd => .syntax

/-- `Error::is_io`, src/error.rs:54-56. -/
def isIo (e : ErrorCode) : Bool := e.classify == .io

/-- `Error::is_data`, src/error.rs:58-60. -/
def isData (e : ErrorCode) : Bool := e.classify == .data

/-- `Error::is_syntax`, src/error.rs:62-64. -/
def isSyntax (e : ErrorCode) : Bool := e.classify == .syntax

/-- `PartialEq for Error`, src/error.rs:67-73. -/
def errEq (a b : ErrorCode) : Bool := a.classify == b.classify

/-- `Display for ErrorCode` and for `Error`, src/error.rs:123-146.  The text of a wrapped
operating-system error is a parameter. -/
def display (ioText : Nat → Str) : ErrorCode → Str
  | .message msg => msg.toList
  | .io t => ioText t
  | .invalidType => (chars! "Invalid Type input")
  | .invalidDimension => (chars! "Invalid Dimension of vectors")
  | .invalidConfiguration => (chars! "Invalid Configuration is given")
  | .invalidNumberOfArguments => (chars! "Number of Arguments is invalid")
  | .invalidArgumentInput => (chars! "Given argument is invalid")
  | .invalidFormat => (chars! "Invalid Format")
  | .invalidFile => (chars! "Invalid File")
  | .tooLargeTimeStep => (chars! "Time step is too large")
  | .featureNotProvided => (chars! "Functionality is not provided yet")
  | .unexpectedEnd => (chars! "Function ends unexpectedly")

/-- `Error::make_error_msg`, src/error.rs:19-23. -/
def makeMsg (s : String) : ErrorCode := .message s

/-- `Error::make_error_io`, src/error.rs:25-29. -/
def makeIo (t : Nat) : ErrorCode := .io t

/-- `Error::make_error_syntax`, src/error.rs:31-35: wraps any code, whatever its category. -/
def makeSyntax (c : ErrorCode) : ErrorCode := c

end ErrorCode
end Moledyn
