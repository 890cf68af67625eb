import Verif.Spec.LargeNLaw
/-
Vocabulary for searchers that push each other away, as a random process: in every turn each searcher makes one step, one
after the other, with the forces there were at the beginning of the turn.
-/
namespace Moledyn
open MeasureTheory ProbabilityTheory
open scoped ENNReal

/-- the length of a vector. -/
noncomputable def lengthOf {d : Nat} (v : Fin d → ℝ) : ℝ := Real.sqrt (∑ k, v k ^ 2)

/-- The force on searcher `i` when the searchers are at `x`: each other one pushes it away, with a force that depends on their
distance. -/
noncomputable def forceOn {n d : Nat} (force : ℝ → ℝ) (x : Fin n → Fin d → ℝ) (i : Fin n) (k : Fin d) : ℝ :=
  ∑ j, if j = i then 0 else force (lengthOf (x i - x j)) * ((x i k - x j k) / lengthOf (x i - x j))

/-- a step, shortened to `limit` if it is longer. -/
noncomputable def shortened {d : Nat} (limit : ℝ) (v : Fin d → ℝ) : Fin d → ℝ :=
  if limit < lengthOf v then fun k => v k * (limit / lengthOf v) else v

/-- What there is around the searchers: the walls and the room (as in `Walls`), the target, the diffusion constant, the force
between two, the longest step, and the turns: `clk k` is the time step of the turn after `k` turns, if there is one. -/
structure PushWorld (d : Nat) where
  put : (Fin d → ℝ) → Fin d → ℝ
  room : Set (Fin d → ℝ)
  target : Set (Fin d → ℝ)
  dif : ℝ
  force : ℝ → ℝ
  limit : ℝ
  clk : ℕ → Option ℝ

/-- a search, but for the positions: the number of turns that are over, the number of searchers that have made their step in
this turn, and the ending. -/
structure PushCtl where
  turns : ℕ
  next : ℕ
  over : Option Ending
deriving DecidableEq

instance : MeasurableSpace PushCtl := ⊤

/-- the search, where the searchers were at the beginning of the turn, and where they are. -/
abbrev PushState (n d : Nat) := PushCtl × (Fin n → Fin d → ℝ) × (Fin n → Fin d → ℝ)

/-- where searcher `i` comes with the numbers `z`. -/
noncomputable def pushTo {n d : Nat} (W : PushWorld d) (turns : ℕ) (x0 x : Fin n → Fin d → ℝ) (i : Fin n) (z : Fin d → ℝ) : Fin d → ℝ :=
  W.put (x i + shortened W.limit fun k => forceOn W.force x0 i k * (W.clk turns).getD 0 + z k * Real.sqrt (2 * W.dif * (W.clk turns).getD 0))

open Classical in
/-- One searcher makes a step, given the independent numbers `z`. -/
noncomputable def pushMove {n d : Nat} (W : PushWorld d) (x : PushState n d) (z : Fin d → ℝ) : PushState n d :=
  if h : x.1.next < n then
    let p := pushTo W x.1.turns x.2.1 x.2.2 ⟨x.1.next, h⟩ z
    let y := Function.update x.2.2 ⟨x.1.next, h⟩ p
    if p ∉ W.room then ({ x.1 with over := some .tooFar }, x.2.1, y)
    else if p ∈ W.target then ({ x.1 with over := some .found }, x.2.1, y)
    else if x.1.next + 1 = n then (⟨x.1.turns + 1, 0, if (W.clk (x.1.turns + 1)).isNone then some .clock else none⟩, y, y)
    else ({ x.1 with next := x.1.next + 1 }, x.2.1, y)
  else x

/-- `n` searchers at `y`. -/
def pushStart {n d : Nat} (y : Fin n → Fin d → ℝ) : PushState n d := (⟨0, 0, none⟩, y, y)

/-- the number of the turn in which the search ended, counted from 1, and the ending. -/
def pushOutcome {n d : Nat} (x : PushState n d) : ℕ × Ending :=
  (if x.1.over = some .clock then x.1.turns else x.1.turns + 1, x.1.over.getD .clock)

/-- The distribution of the outcome of a process that begins at `start y`, where `y` has the distribution `π`, makes steps `T`
with numbers of the distribution `μ` while it is in `on`, and then has the outcome `res`. -/
noncomputable def endLaw {X Y Z V : Type} [MeasurableSpace X] [MeasurableSpace Y] [MeasurableSpace Z] [MeasurableSpace V] (start : Y → X) (T : X → Z → X)
    (on : Set X) (res : X → V) (μ : Measure Z) (π : Measure Y) : Measure V :=
  Measure.sum fun k => ((drawn T μ ((fun κ => (drawn T μ κ).restrict on)^[k] (π.map start))).restrict onᶜ).map res

/-- The distribution of the outcome of a search by searchers that push each other away. -/
noncomputable def pushLaw {n d : Nat} (W : PushWorld d) (μ : Measure (Fin d → ℝ)) (π : Measure (Fin n → Fin d → ℝ)) : Measure (ℕ × Ending) :=
  endLaw pushStart (pushMove W) {x | x.1.over = none} pushOutcome μ π

/-- The turns of an exponential clock whose first item is left out: turn `k` (from 0) has the step number `k + 1`, while the
time before that step is at most `tmax`. -/
noncomputable def laterTurns (dtMin dtMax inc : ℝ) (length : ℕ) (tmax : ℝ) (k : ℕ) : Option ℝ := expTurns dtMin dtMax inc length tmax (k + 1)

/-- what is written for an outcome, if the turn number `k` is at `time k`. -/
noncomputable def pushReported (time : ℕ → ℝ) (y : ℕ × Ending) : Res ℝ :=
  match y.2 with
  | .found => .ok (time y.1)
  | .tooFar => .err .tooLargeTimeStep
  | .clock => .ok 0

/-- the lines written for a list of outcomes, and how the program ends. -/
noncomputable def linesReported (time : ℕ → ℝ) : List (ℕ × Ending) → List ℝ × Res Unit
  | [] => ([], .ok ())
  | y :: ys =>
    match pushReported time y with
    | .ok t => (t :: (linesReported time ys).1, (linesReported time ys).2)
    | .err e => ([], .err e)
    | .panic => ([], .panic)

/-- the force of the agents of examples/mfpt_exp.rs at the distance `r`. -/
noncomputable def expForce (gamma strength r : ℝ) : ℝ := strength / gamma * Real.exp (-r / gamma)

end Moledyn
