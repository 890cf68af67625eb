import Verif.Model.Fl
import Verif.Model.Basic
/-
Model of src/time_mod/mod.rs: the two clocks.
-/
namespace Moledyn
variable {F : Type} [Fl F]

/-- `TimeType`, src/time_mod/mod.rs:43-47. -/
inductive TimeType (F : Type) where
  | constant (dt : F)
  | exponential (dtMin dtMax : F) (length : Nat)
deriving DecidableEq

/-- `ConstStep`, src/time_mod/mod.rs:95-101. -/
structure ConstStep (F : Type) where
  titype : TimeType F
  current : F
  dt : F
  tmax : F
deriving DecidableEq

namespace ConstStep

/-- `ConstStep::new`, src/time_mod/mod.rs:103-116. -/
def new (dt : F) : Res (ConstStep F) :=
  if Fl.lt dt (Fl.lit (1 / 10 ^ 15)) then .err .invalidArgumentInput
  else .ok { titype := .constant dt, current := Fl.zero, dt := dt, tmax := Fl.maxVal }

/-- `TimeIterator::renew for ConstStep`, src/time_mod/mod.rs:127-129. -/
def renew (c : ConstStep F) : ConstStep F := { c with current := Fl.zero }

/-- `TimeIterator::set_tmax for ConstStep`, src/time_mod/mod.rs:131-143. -/
def setTmax (c : ConstStep F) (tmax : F) : ConstStep F × Res Unit :=
  if Fl.lt tmax Fl.zero then (c, .err .invalidArgumentInput)
  else if Fl.lt tmax (Fl.lit (1 / 10 ^ 10)) then ({ c with tmax := Fl.maxVal }, .ok ())
  else ({ c with tmax := tmax }, .ok ())

/-- `Iterator::next for ConstStep`, src/time_mod/mod.rs:152-165. -/
def next (c : ConstStep F) : ConstStep F × Res (Option F) :=
  let time := c.current
  if Fl.le time c.tmax then ({ c with current := c.current + c.dt }, .ok (some time))
  else (c, .ok none)

/-- `ConstStep::convert_from`, src/time_mod/mod.rs:172-193. -/
def convertFrom (dt tmax : F) : Res (ConstStep F) :=
  if Fl.lt tmax Fl.zero || Fl.lt dt Fl.zero then .panic
  else
    .ok { titype := .constant dt, current := Fl.zero, dt := dt
          tmax := if Fl.lt tmax (Fl.lit (1 / 10 ^ 10)) then Fl.maxVal else tmax }

end ConstStep

/-- `ExponentialStep`, src/time_mod/mod.rs:198-206. -/
structure ExpStep (F : Type) where
  titype : TimeType F
  current : F
  dt : F
  inc : F
  tmax : F
  count : Nat
deriving DecidableEq

namespace ExpStep

/-- `ExponentialStep::new`, src/time_mod/mod.rs:208-234. -/
def new (dtMin dtMax : F) (length : Nat) : Res (ExpStep F) :=
  if Fl.lt dtMin (Fl.lit (1 / 10 ^ 15)) || Fl.gt dtMin dtMax || length == 0 then
    .err .invalidArgumentInput
  else
    let inc : F :=
      if length = 1 then Fl.lit (12 / 10)
      else if length < 10 then Fl.ofNat length / Fl.two
      else Fl.lit 10
    .ok { titype := .exponential dtMin dtMax length, current := Fl.zero, dt := dtMin, inc := inc
          tmax := Fl.maxVal, count := 0 }

/-- `ExponentialStep::set_inc`, src/time_mod/mod.rs:236-256. -/
def setInc (c : ExpStep F) (inc : F) : ExpStep F × Res Unit :=
  if Fl.le inc Fl.one then (c, .err .invalidArgumentInput)
  else
    match c.titype with
    | .exponential _ _ length =>
      if Fl.gt (inc * Fl.two) (Fl.ofNat length) then
        ({ c with inc := Fl.ofNat length / Fl.two }, .ok ())
      else ({ c with inc := inc }, .ok ())
    | .constant _ => (c, .err .invalidType)

/-- `TimeIterator::renew for ExponentialStep`, src/time_mod/mod.rs:269-281. -/
def renew (c : ExpStep F) : ExpStep F × Res Unit :=
  match c.titype with
  | .exponential dtMin _ _ => ({ c with current := Fl.zero, count := 0, dt := dtMin }, .ok ())
  | .constant _ => ({ c with current := Fl.zero, count := 0 }, .panic)

/-- `TimeIterator::set_tmax for ExponentialStep`, src/time_mod/mod.rs:283-295. -/
def setTmax (c : ExpStep F) (tmax : F) : ExpStep F × Res Unit :=
  if Fl.lt tmax Fl.zero then (c, .err .invalidArgumentInput)
  else if Fl.lt tmax (Fl.lit (1 / 10 ^ 15)) then ({ c with tmax := Fl.maxVal }, .ok ())
  else ({ c with tmax := tmax }, .ok ())

/-- the step-size update at the start of `next`, src/time_mod/mod.rs:310-316. -/
def bump (c : ExpStep F) (dtMax : F) (length : Nat) : ExpStep F :=
  if Fl.lt c.dt dtMax && c.count == length then
    let dt' := c.dt * c.inc
    { c with count := 0, dt := if Fl.gt dt' dtMax then dtMax else dt' }
  else c

/-- `Iterator::next for ExponentialStep`, src/time_mod/mod.rs:304-332 (`count` is not checked for
overflow of `usize`). -/
def next (c : ExpStep F) : ExpStep F × Res (Option F) :=
  match c.titype with
  | .exponential _ dtMax length =>
    let c1 := c.bump dtMax length
    let time := c1.current
    if Fl.le time c1.tmax then
      ({ c1 with current := c1.current + c1.dt, count := c1.count + 1 }, .ok (some time))
    else (c1, .ok none)
  | .constant _ => (c, .panic)

/-- `ExponentialStep::convert_from`, src/time_mod/mod.rs:341-366. -/
def convertFrom (dtMin dtMax : F) (length : Nat) (tmax : F) : Res (ExpStep F) :=
  if Fl.lt tmax Fl.zero || Fl.lt dtMin Fl.zero || Fl.gt dtMin dtMax || decide (length < 10) then .panic
  else
    .ok { titype := .exponential dtMin dtMax length, current := Fl.zero, dt := dtMin
          inc := Fl.lit (12 / 10)
          tmax := if Fl.lt tmax (Fl.lit (1 / 10 ^ 15)) then Fl.maxVal else tmax, count := 0 }

end ExpStep

/-- `TimeDiffIterator<T>`, src/time_mod/mod.rs:26-29; `into_diff` clones the clock
(src/time_mod/mod.rs:145-149 and 297-301). -/
structure TimeDiff (T : Type) where
  timeiter : T

/-- `into_diff`, src/time_mod/mod.rs:145-149, 297-301: takes `&self`, the clock itself is unchanged. -/
def intoDiff {T : Type} (c : T) : TimeDiff T := ⟨c⟩

/-- `Iterator::next for TimeDiffIterator`, src/time_mod/mod.rs:32-41, over any clock. -/
def TimeDiff.next {T : Type} (tnext : T → T × Res (Option F)) (tdt : T → F) (d : TimeDiff T) :
    TimeDiff T × Res (Option (F × F)) :=
  let r := tnext d.timeiter
  (⟨r.1⟩, r.2.map fun o => o.map fun time => (time, tdt r.1))

end Moledyn
