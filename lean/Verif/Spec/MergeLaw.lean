import Verif.Spec.SearchLaw
/-
Vocabulary for searchers that merge when they meet, as a random process: in every turn each searcher makes one step, one
after the other; then those that are close merge.
-/
namespace Moledyn
open MeasureTheory ProbabilityTheory
open scoped ENNReal

/-- The searchers that are there, in order: `(i, m)` is searcher number `i`, which has merged from `m`. -/
abbrev Crowd (n : Nat) := List (Fin n × ℕ)

/-- The searchers merge: the first takes in all that are close to it; then the next of those that are left takes in those of
the later ones that are close to it; and so on. -/
def absorb {n : Nat} (close : Fin n → Fin n → Bool) : Crowd n → Crowd n
  | [] => []
  | (i, m) :: rest =>
    (i, m + ((rest.filter fun a => close i a.1).map (·.2)).sum) :: absorb close (rest.filter fun a => !close i a.1)
termination_by l => l.length
decreasing_by
  simp only [List.unattach_filter, List.unattach_attach, List.length_cons, Nat.lt_succ_iff]
  exact List.length_filter_le _ _

/-- how a search may end: the target is found, a step was too large for the room, or there is no further turn. -/
inductive Ending where
  | found
  | tooFar
  | clock
deriving DecidableEq, Repr

/-- a merging search, but for the positions: the number of turns that are over, the searchers that have made their step in
this turn, those that have not, and the ending. -/
structure MergeCtl (n : Nat) where
  turns : ℕ
  done : Crowd n
  todo : Crowd n
  over : Option Ending
deriving DecidableEq

instance (n : Nat) : MeasurableSpace (MergeCtl n) := ⊤
instance : MeasurableSpace Ending := ⊤

/-- the searchers and where they are. -/
abbrev MergeState (n d : Nat) := MergeCtl n × (Fin n → Fin d → ℝ)

/-- What there is around the searchers: the walls and the room (as in `Walls`), the target, the diffusion constant of a
searcher that has merged from `m`, the distance below which two merge, and the turns: `clk k` is the time step of the turn
after `k` turns, if there is one. -/
structure MergeWorld (d : Nat) where
  put : (Fin d → ℝ) → Fin d → ℝ
  room : Set (Fin d → ℝ)
  target : Set (Fin d → ℝ)
  dif : ℕ → ℝ
  reach : ℝ
  clk : ℕ → Option ℝ

open Classical in
/-- One searcher makes a step, given the independent numbers `z`; if it was the last in the turn, those that are close
merge. -/
noncomputable def mergeMove {n d : Nat} (W : MergeWorld d) (x : MergeState n d) (z : Fin d → ℝ) : MergeState n d :=
  match x.1.todo with
  | [] => x
  | (i, m) :: rest =>
    let p := W.put (x.2 i + fun j => z j * Real.sqrt (2 * W.dif m * (W.clk x.1.turns).getD 0))
    let y := Function.update x.2 i p
    if p ∉ W.room then ({ x.1 with over := some .tooFar }, y)
    else if p ∈ W.target then ({ x.1 with over := some .found }, y)
    else if rest = [] then
      (⟨x.1.turns + 1, [], absorb (fun i j => decide (y i ∈ nearSet (y j) W.reach)) (x.1.done ++ [(i, m)]),
        if (W.clk (x.1.turns + 1)).isNone then some .clock else none⟩, y)
    else ({ x.1 with done := x.1.done ++ [(i, m)], todo := rest }, y)

/-- the diffusion constant of a searcher that has merged from `m`. -/
noncomputable def slowedTo (D alpha : ℝ) (m : ℕ) : ℝ := if m = 1 then D else (m : ℝ) ^ (-alpha)

/-- the walls, the room, the target; searchers with the diffusion constant `D`, the radius `radius` and the exponent `alpha`;
and the turns. -/
noncomputable abbrev worldOf {d : Nat} (put : (Fin d → ℝ) → Fin d → ℝ) (S T : Set (Fin d → ℝ)) (D alpha radius : ℝ) (clk : ℕ → Option ℝ) :
    MergeWorld d := ⟨put, S, T, slowedTo D alpha, 2 * radius, clk⟩

/-- what a program reports for an outcome, if the turn number `k` is at `time k`. -/
noncomputable def mergeReported (time : ℕ → ℝ) (y : ℕ × Ending) : Res ℝ :=
  match y.2 with
  | .found => .ok (time y.1)
  | .tooFar => .err .tooLargeTimeStep
  | .clock => .err .unexpectedEnd

/-- `n` single searchers at `y`. -/
def mergeStart {n d : Nat} (y : Fin n → Fin d → ℝ) : MergeState n d := (⟨0, [], List.ofFn fun i => (i, 1), none⟩, y)

/-- the number of the turn in which the search ended, counted from 1, and the ending. -/
def mergeOutcome {n d : Nat} (x : MergeState n d) : ℕ × Ending :=
  (if x.1.over = some .clock then x.1.turns else x.1.turns + 1, x.1.over.getD .clock)

/-- the distribution of the state after a step with the distribution `μ`. -/
noncomputable def drawn {X Z : Type} [MeasurableSpace X] [MeasurableSpace Z] (T : X → Z → X) (μ : Measure Z) (π : Measure X) : Measure X :=
  (π.prod μ).map fun p => T p.1 p.2

/-- the searches that are not over. -/
def searchesOn (n d : Nat) : Set (MergeState n d) := {x | x.1.over = none}

/-- The distribution of the outcome of a merging search: the positions of the `n` searchers at the start have the
distribution `π`, the numbers for each step the distribution `μ`. -/
noncomputable def mergeLaw {n d : Nat} (W : MergeWorld d) (μ : Measure (Fin d → ℝ)) (π : Measure (Fin n → Fin d → ℝ)) : Measure (ℕ × Ending) :=
  Measure.sum fun k => ((drawn (mergeMove W) μ ((fun κ => (drawn (mergeMove W) μ κ).restrict (searchesOn n d))^[k]
    (π.map mergeStart))).restrict (searchesOn n d)ᶜ).map mergeOutcome

end Moledyn
