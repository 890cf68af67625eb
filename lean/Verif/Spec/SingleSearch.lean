import Verif.Model.SingleSearch
import Verif.Spec.Random
import Verif.Spec.System
import Verif.Spec.Time
/-
Vocabulary for the programs that follow one walker at a time, and for ensembles.
-/
namespace Moledyn
variable {G F S : Type}

/-- where a repeated step leads: the state after `k` turns. -/
def afterTurns (turn : S → S × Res Unit) (k : Nat) (s : S) : S := (fun s => (turn s).1)^[k] s

/-- the search started in `s` succeeds exactly at turn `k`: before, the test always said "not found" and the turn
went through; then it says "found". -/
def FoundAt (found : S → Res Bool) (turn : S → S × Res Unit) (k : Nat) (s : S) : Prop :=
  (∀ j < k, found (afterTurns turn j s) = .ok false ∧ (turn (afterTurns turn j s)).2 = .ok ()) ∧
  found (afterTurns turn k s) = .ok true

/-- `dt` added up `k` times, starting from zero. -/
def clockAfter [Fl F] (dt : F) (k : Nat) : F := (fun t => t + dt)^[k] Fl.zero

/-- runs one after the other, each from the state the previous one left; `ts` are their results. -/
inductive OneByOne (run : S → Option (Res F × S)) : S → List F → S → Prop
  | nil (s) : OneByOne run s [] s
  | cons {s t s1 ts s2} : run s = some (.ok t, s1) → OneByOne run s1 ts s2 → OneByOne run s (t :: ts) s2

/-- the `m`-th number (from 0) a generator in state `g` delivers. -/
def nthDraw (draw : G → F × G) (g : G) (m : Nat) : F := (draw (advanced draw m g)).1

/-- the mean square distance from the origin after `k` steps, over `ensembles` walks of `steps` steps in `dim`
dimensions, when coordinate `c` of step `i` of walk `j` is the amplitude times the next number of one stream. -/
noncomputable def meanSquare (amplitude : ℝ) (draw : G → ℝ × G) (g : G) (dim steps ensembles k : Nat) : ℝ :=
  (∑ j ∈ Finset.range ensembles, ∑ c ∈ Finset.range dim,
    (∑ i ∈ Finset.range k, amplitude * nthDraw draw g (j * (steps * dim) + (i * dim + c))) ^ 2) / ensembles

/-- every agent of a list renewed in its turn, with one generator: the agents a simulation starts from. -/
def renewEach {α : Type} (renew : α → G → Option ((α × Res Unit) × G)) :
    List α → G → Option ((List α × Res Unit) × G)
  | [], g => some (([], .ok ()), g)
  | a :: as, g =>
    match renew a g with
    | none => none
    | some ((b, .ok ()), g1) => (renewEach renew as g1).map fun r => ((b :: r.1.1, r.1.2), r.2)
    | some ((b, r), g1) => some ((b :: as, r), g1)

/-- the step size that call number `j` of a clock of pairs (time, step size) hands out (0 when it hands out none). -/
noncomputable def stepSize {C : Type} (tick : C → C × Res (Option (ℝ × ℝ))) (c : C) (j : Nat) : ℝ :=
  match output tick j c with
  | .ok (some p) => p.2
  | _ => 0

/-- the time for which the agents have been moved after `m` steps: the sum of the step sizes. -/
noncomputable def simulatedTime {C : Type} (tick : C → C × Res (Option (ℝ × ℝ))) (c : C) (m : Nat) : ℝ :=
  ∑ j ∈ Finset.range m, stepSize tick c j

end Moledyn
