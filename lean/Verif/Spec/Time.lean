import Verif.Model.Time
/-
Vocabulary for the clocks: the k-th call, reachable clocks, the documented schedule.
-/
namespace Moledyn

/-- the state of an iterator after `k` calls of `next`. -/
def stateAfter {S O : Type} (next : S → S × O) : Nat → S → S
  | 0, s => s
  | k + 1, s => stateAfter next k (next s).1

/-- what call number `k` (counting from 0) of `next` returns. -/
def output {S O : Type} (next : S → S × O) (k : Nat) (s : S) : O := (next (stateAfter next k s)).2

/-- A constant clock obtained from a constructor and any calls of its methods. -/
inductive ConstStep.Reachable {F : Type} [Fl F] : ConstStep F → Prop
  | new {dt c} : ConstStep.new dt = .ok c → Reachable c
  | convert {dt tmax c} : ConstStep.convertFrom dt tmax = .ok c → Reachable c
  | next {c} : Reachable c → Reachable c.next.1
  | renew {c} : Reachable c → Reachable c.renew
  | setTmax {c} (t : F) : Reachable c → Reachable (c.setTmax t).1

/-- An exponential clock obtained from a constructor and any calls of its methods. -/
inductive ExpStep.Reachable {F : Type} [Fl F] : ExpStep F → Prop
  | new {a b l c} : ExpStep.new a b l = .ok c → Reachable c
  | convert {a b l tmax c} : ExpStep.convertFrom a b l tmax = .ok c → Reachable c
  | next {c} : Reachable c → Reachable c.next.1
  | renew {c} : Reachable c → Reachable c.renew.1
  | setTmax {c} (t : F) : Reachable c → Reachable (c.setTmax t).1
  | setInc {c} (x : F) : Reachable c → Reachable (c.setInc x).1

/-- A constant clock that has only been built and configured. -/
inductive ConstStep.Fresh {F : Type} [Fl F] : ConstStep F → Prop
  | new {dt c} : ConstStep.new dt = .ok c → Fresh c
  | convert {dt tmax c} : ConstStep.convertFrom dt tmax = .ok c → Fresh c
  | setTmax {c} (t : F) : Fresh c → Fresh (c.setTmax t).1

/-- An exponential clock that has only been built and configured. -/
inductive ExpStep.Fresh {F : Type} [Fl F] : ExpStep F → Prop
  | new {a b l c} : ExpStep.new a b l = .ok c → Fresh c
  | convert {a b l tmax c} : ExpStep.convertFrom a b l tmax = .ok c → Fresh c
  | setTmax {c} (t : F) : Fresh c → Fresh (c.setTmax t).1
  | setInc {c} (x : F) : Fresh c → Fresh (c.setInc x).1

/-- step size of item `n` in the documented schedule: multiply by `inc` every `length` items, never
beyond `dtMax`. -/
noncomputable def expStepSize (dtMin dtMax inc : ℝ) (length n : Nat) : ℝ :=
  min (dtMin * inc ^ (n / length)) dtMax

/-- time of item `n` in the documented schedule. -/
noncomputable def expTime (dtMin dtMax inc : ℝ) (length : Nat) : Nat → ℝ
  | 0 => 0
  | n + 1 => expTime dtMin dtMax inc length n + expStepSize dtMin dtMax inc length n

end Moledyn
