import Verif.Spec.TurnCounts
import Verif.Model.ExpProgram
/-
Vocabulary for C120: one search of examples/mfpt_exp.rs.
-/
namespace Moledyn
variable {G F : Type}

/-- the agents `v` are placed anew, one after the other, with the generator in state `g`, and move with the steps of the clock, the first
of which is skipped; the outcome is `(k, true)`: after `k` turns, `k > 0`, one of them is on the target and none was there before, or
`(k, false)`: the search is left after `k` turns and none was on the target at any time, the start included.  The generator is left in
the state `g'`. -/
def ExpTakes [Fl F] (rng : RngOps G F) (sys : SysOps G F) (target : TargetOps F) (limit : F) (inner loops fuel : Nat) (clock : ExpStep F)
    (n : Nat) (v : List (ExpAgent F)) (g : G) (out : Nat × Bool) (g' : G) : Prop :=
  ∃ (placed : List (ExpAgent F)) (g1 : G), renewContents sys target inner loops v g = some ((placed, .ok ()), g1) ∧
    let after := fun m => (searchLoop (skipOne (TimeDiff.next ExpStep.next (fun c => c.dt))) (expStep rng sys target limit fuel) m
      (false, intoDiff clock) (expStart placed n g1)).1.2
    g' = (after out.1).rng ∧
    (∀ m < out.1, ∀ a ∈ liveAgents (after m).list, target.checkFind a.pos = .ok false) ∧
    (out.2 = true → 0 < out.1 ∧ ∃ a ∈ liveAgents (after out.1).list, target.checkFind a.pos = .ok true) ∧
    (out.2 = false → ∀ a ∈ liveAgents (after out.1).list, target.checkFind a.pos = .ok false)

end Moledyn
