import Verif.Spec.SingleSearch
import Verif.Spec.Simulation
/-
Vocabulary for C118: how many turns the searches of a program take, one after the other.
-/
namespace Moledyn
variable {G F S : Type}

/-- searches one after the other, each from the state the previous one left: `takes s k s'` says that the search from `s` has the
outcome `k` (its number of turns, in most programs) and leaves `s'`; the list are the outcomes. -/
inductive Successive {κ : Type} (takes : S → κ → S → Prop) : S → List κ → S → Prop
  | nil (s) : Successive takes s [] s
  | cons {s k s1 ks s2} : takes s k s1 → Successive takes s1 ks s2 → Successive takes s (k :: ks) s2

/-- a searcher is placed at random with the generator in state `g` and then finds the target after `k` turns and not before;
the generator is left in the state `g'`. -/
def OneTakes [Fl F] (rng : RngOps G F) (sys : SysOps G F) (target : TargetOps F) (inner loops : Nat) (mtype : MoveType F) (dt : F)
    (g : G) (k : Nat) (g' : G) : Prop :=
  ∃ a g1, IndepAgent.newUniform sys target inner loops g mtype = some (.ok a, g1) ∧
    FoundAt (fun s : IndepAgent F × G => target.checkFind s.1.pos) (freshTurn rng sys dt) k (a, g1) ∧
    g' = (afterTurns (freshTurn rng sys dt) k (a, g1)).2

/-- `N` searchers are placed and followed one after the other; the fastest takes `k` turns. -/
def FastestTakes [Fl F] (rng : RngOps G F) (sys : SysOps G F) (target : TargetOps F) (inner loops : Nat) (mtype : MoveType F) (dt : F)
    (N : Nat) (g : G) (k : Nat) (g' : G) : Prop :=
  ∃ ks : List Nat, ks.length = N ∧ Successive (OneTakes rng sys target inner loops mtype dt) g ks g' ∧ k ∈ ks ∧ ∀ j ∈ ks, k ≤ j

/-- `N` searchers are placed in a list and moved in turns; after `k` rounds, `k > 0`, one of them is on the target, and none was
there before. -/
def ListTakes [Fl F] (rng : RngOps G F) (sys : SysOps G F) (target : TargetOps F) (inner loops fuel : Nat) (mtype : MoveType F) (dt : F)
    (N : Nat) (g : G) (k : Nat) (g' : G) : Prop :=
  ∃ (v : List (IndepAgent F)) (g1 : G), v.length = N ∧
    OneByOne (fun g => IndepAgent.newUniform sys target inner loops g mtype) g v g1 ∧
    let after := fun m => (searchLoop (countingTick dt) (walkStep (IndepAgent.walker rng) sys target fuel) m Fl.zero
      (LList.from' v, g1)).1.2
    0 < k ∧ g' = (after k).2 ∧ (∃ a ∈ liveAgents (after k).1, target.checkFind a.pos = .ok true) ∧
    ∀ m < k, ∀ a ∈ liveAgents (after m).1, target.checkFind a.pos = .ok false

/-- the same for searchers that merge. -/
def MergeTakes [Fl F] (rng : RngOps G F) (sys : SysOps G F) (target : TargetOps F) (inner loops fuel : Nat) (mtype : MoveType F)
    (radius alpha dt : F) (N : Nat) (g : G) (k : Nat) (g' : G) : Prop :=
  ∃ (v : List (MergeAgent F)) (g1 : G), v.length = N ∧
    OneByOne (fun g => MergeAgent.newUniform sys target inner loops g mtype radius alpha) g v g1 ∧
    let after := fun m => (searchLoop (countingTick dt) (mergeStep rng sys target (fun _ => radius) fuel) m Fl.zero
      ⟨LList.from' v, g1, []⟩).1.2
    0 < k ∧ g' = (after k).rng ∧ (∃ a ∈ liveAgents (after k).list, target.checkFind a.pos = .ok true) ∧
    ∀ m < k, ∀ a ∈ liveAgents (after m).list, target.checkFind a.pos = .ok false

/-- the searchers `v` are revived and placed anew, one after the other, and move with the steps of the clock; after `k` rounds,
`k > 0`, one of them is on the target, and none was there before. -/
def LargeTakes [Fl F] (rng : RngOps G F) (sys : SysOps G F) (target : TargetOps F) (inner loops fuel : Nat) (clock : ExpStep F)
    (v : List (MergeAgent F)) (g : G) (k : Nat) (g' : G) : Prop :=
  ∃ (placed : List (MergeAgent F)) (g1 : G),
    renewEach (fun a g => a.renewUniform sys target inner loops g) v g = some ((placed, .ok ()), g1) ∧
    let after := fun m => (searchLoop (TimeDiff.next ExpStep.next (fun c => c.dt)) (mergeStep rng sys target (fun a => a.ptlRadius) fuel) m
      (intoDiff clock) ⟨LList.from' placed, g1, []⟩).1.2
    0 < k ∧ g' = (after k).rng ∧ (∃ a ∈ liveAgents (after k).list, target.checkFind a.pos = .ok true) ∧
    ∀ m < k, ∀ a ∈ liveAgents (after m).list, target.checkFind a.pos = .ok false

/-- the average of numbers of turns. -/
noncomputable def meanTurns (ks : List Nat) : ℝ := (ks.sum : ℝ) / ks.length

end Moledyn
