import Verif.Model.Agent
import Verif.Spec.System
/-
Vocabulary for agents.
-/
namespace Moledyn
variable {G F : Type} [Fl F]

/-- whatever the generator does, a random position delivered by the system has dimension `n` and is inside. -/
def SysOps.DrawsInside (sys : SysOps G F) (n : Nat) : Prop :=
  ∀ fuel g vec p g', sys.randomPosToVec fuel g vec = some ((p, .ok ()), g') →
    p.length = n ∧ sys.checkInclusion p = .ok true

/-- the system's two ways of producing a point outside agree and have dimension `n`. -/
def SysOps.OutsideDim (sys : SysOps G F) (n : Nat) : Prop :=
  sys.positionOut.length = n ∧
  ∀ vec, (vec.length = n → sys.positionOutToVec vec = (sys.positionOut, .ok ())) ∧
         (vec.length ≠ n → ∃ e, sys.positionOutToVec vec = (vec, .err e))

/-- a drawing of a position of dimension `n` that returns, returns a position of dimension `n`. -/
def SysOps.Draws (sys : SysOps G F) (n : Nat) : Prop :=
  ∀ inner g vec r, vec.length = n → sys.randomPosToVec inner g vec = some r → ∃ p g', r = ((p, .ok ()), g') ∧ p.length = n

/-- an agent is placed exactly if the target has the dimension of the system; otherwise the dimension is blamed. -/
def Placed (t : BulkTarget F) (n : Nat) {A : Type} (r : Res A) : Prop :=
  (t.targetPos.length = n ∧ ∃ a, r = .ok a) ∨ (t.targetPos.length ≠ n ∧ r = .err .invalidDimension)

/-- the exponential agents a program can hold: built by one of the three constructors, possibly renewed any
number of times, in any systems, and displaced arbitrarily. -/
inductive ExpAgent.Built (G : Type) : ExpAgent F → Prop
  | new {it mt pos st a} : ExpAgent.new it mt pos st = .ok a → Built G a
  | newUniform {sys : SysOps G F} {t i f g it mt st a g'} :
      ExpAgent.newUniform sys t i f g it mt st = some (.ok a, g') → Built G a
  | convertFrom {mt it ga d st n l a} : ExpAgent.convertFrom mt it ga d st n = .ok l → a ∈ l → Built G a
  | renew {sys : SysOps G F} {t i f g a b r g'} : Built G a →
      ExpAgent.renewUniform sys t i f g a = some ((b, r), g') → Built G b
  | move {a} (p : Pos F) : Built G a → Built G { a with pos := p }

/-- the Lennard-Jones agents a program can hold. -/
inductive LJAgent.Built (G : Type) : LJAgent F → Prop
  | new {it mt pos st a} : LJAgent.new it mt pos st = .ok a → Built G a
  | newUniform {sys : SysOps G F} {t i f g it mt st a g'} :
      LJAgent.newUniform sys t i f g it mt st = some (.ok a, g') → Built G a
  | convertFrom {mt it ps st n a} : a ∈ LJAgent.convertFrom mt it ps st n → Built G a
  | renew {sys : SysOps G F} {t i f g a b r g'} : Built G a →
      LJAgent.renewUniform sys t i f g a = some ((b, r), g') → Built G b
  | move {a} (p : Pos F) : Built G a → Built G { a with pos := p }

/-- a history of successful calls on one merging agent; the log records the size added by each call, or
`none` for a renewal. -/
inductive MergeAgent.History (G : Type) : MergeAgent F → List (Option Nat) → MergeAgent F → Prop
  | nil (a) : History G a [] a
  | addSize {a log b c} (k : Nat) : History G a log b → b.addSize k = (c, .ok ()) →
      History G a (log ++ [some k]) c
  | merge {a log b c} (o : MergeAgent F) : History G a log b → b.merge o = (c, .ok ()) →
      History G a (log ++ [some o.size]) c
  | renew {a log b c} {sys : SysOps G F} {t i f g g'} : History G a log b →
      b.renewUniform sys t i f g = some ((c, .ok ()), g') → History G a (log ++ [none]) c

/-- the size a log of additions and renewals leads to. -/
def sizeAfter (start : Nat) (log : List (Option Nat)) : Nat :=
  log.foldl (fun s e => match e with | some k => s + k | none => 1) start

end Moledyn
