import Verif.Spec.Setup
import Verif.Spec.Text
import Verif.Model.Help
/-
Vocabulary for the help message.
-/
namespace Moledyn

/-- the words a text puts in round brackets. -/
def bracketed (s : Str) : List Str := ((Str.splitBy (· == '(') s).drop 1).map fun piece => piece.takeWhile (· != ')')

/-- the names of all arguments, in the order of the command line. -/
def argumentNames (Ss : List Schema) : List Str := (Ss.map fun S => S.vars.map fun v => v.1.name).flatten

/-- a text for one line, without carriage return at its end. -/
def PlainLine (s : Str) : Prop := '\n' ∉ s ∧ '\r' ∉ s

/-- the texts of the structure can be shown in the help: a line each, and no brackets where names are marked by them. -/
structure Schema.Shown (S : Schema) : Prop where
  desc : PlainLine S.desc ∧ '(' ∉ S.desc
  name : ∀ v ∈ S.vars, PlainLine v.1.name ∧ '(' ∉ v.1.name ∧ ')' ∉ v.1.name
  text : ∀ v ∈ S.vars, PlainLine v.2

/-- likewise for an analysis. -/
structure AnalysisHelp.Shown (h : AnalysisHelp) : Prop where
  desc : PlainLine h.desc ∧ '(' ∉ h.desc
  name : ∀ v ∈ h.vars, PlainLine v.1 ∧ '(' ∉ v.1 ∧ ')' ∉ v.1
  text : ∀ v ∈ h.vars, PlainLine v.2

/-- the line that explains an argument: its name, and the explanation after a colon. -/
def Explains (line name text : Str) : Prop :=
  ∃ blanks, Str.Blank blanks ∧ line = name ++ blanks ++ chars! ": " ++ text

end Moledyn
