import Verif.Model.Simulation
import Verif.Spec.LinkedList
import Verif.Spec.System
/-
Vocabulary for the properties of whole simulations.
-/
namespace Moledyn
variable {G F S C α : Type} [Fl F]

/-- the live slots of a list, as a fresh sweep over it reports them. -/
def liveSlots (l : LList α) : List Nat := (l.intoIter.collect (l.contents.length + 1)).1

/-- the agents that are alive. -/
def liveAgents (l : LList α) : List α := (liveSlots l).filterMap fun i => l.contents[i]?

/-- one of the three systems of the library. -/
def LibrarySystem (rng : RngOps G F) (sys : SysOps G F) : Prop :=
  (∃ s : Cubic F, sys = s.ops rng) ∨ (∃ s : Circ F, sys = s.ops rng) ∨ (∃ s : Cyl F, sys = s.ops rng)

/-- the merging distance of tests/merge_fpt.rs (one radius for all) or of tests/large_n_simulation.rs (the
radius of the first agent). -/
def LibraryRadius (rad : MergeAgent F → F) : Prop :=
  (∃ r, rad = fun _ => r) ∨ rad = fun a => a.ptlRadius

/-- no two live agents are closer than two radii. -/
def NoOverlap (rad : MergeAgent F → F) (l : LList (MergeAgent F)) : Prop :=
  (liveAgents l).Pairwise fun a b =>
    ∃ d, a.pos.distance b.pos = .ok d ∧ Fl.lt d (Fl.two * rad a) = false

/-- the outcome of a loop is not a failure: an answer, or still running. -/
def NoFailure {β : Type} (o : Option (Res β)) : Prop := o = none ∨ ∃ b, o = some (.ok b)

/-! ### forces between agents -/

/-- coordinate `k` of the point in slot `i` of a list of points (0 when there is none). -/
def bufAt (c : List (Pos ℝ)) (i k : Nat) : ℝ := ((c[i]?).getD []).getD k 0

/-- how far agent `a` pushes agent `b` away in the time `dt`, coordinate `k`: the force of `a` at their
distance, along the unit vector from `a` to `b`, times `dt`. -/
noncomputable def pushOf (dt : ℝ) (a b : ExpAgent ℝ) (k : Nat) : ℝ :=
  let r := radius (List.zipWith (· - ·) b.pos a.pos)
  a.force r * ((b.pos.getD k 0 - a.pos.getD k 0) / r) * dt

/-- the push between two slots of a list of agents. -/
noncomputable def pushBetween (dt : ℝ) (c : List (ExpAgent ℝ)) (i j k : Nat) : ℝ :=
  match c[i]?, c[j]? with
  | some a, some b => pushOf dt a b k
  | _, _ => 0

/-- what the agent in slot `i` gets from all live agents: an earlier one pushes it away, and it is pushed back
by the push it exerts on each later one. -/
noncomputable def totalPush (dt : ℝ) (c : List (ExpAgent ℝ)) (live : List Nat) (i k : Nat) : ℝ :=
  (live.map fun j => if j < i then pushBetween dt c j i k else if i < j then - pushBetween dt c i j k else 0).sum

/-- the interaction energy of the live agents: for each pair the potential of its first agent at their
distance. -/
noncomputable def pairEnergy (c : List (ExpAgent ℝ)) (live : List Nat) : ℝ :=
  ((LList.pairsOf live).map fun p =>
    match c[p.1]?, c[p.2]? with
    | some a, some b => a.potential (radius (List.zipWith (· - ·) b.pos a.pos))
    | _, _ => 0).sum

/-- move the agent in slot `i` by `h` along coordinate `k`. -/
def nudge (c : List (ExpAgent ℝ)) (i k : Nat) (h : ℝ) : List (ExpAgent ℝ) :=
  c.modify i fun a => { a with pos := a.pos.modify k (· + h) }

end Moledyn
