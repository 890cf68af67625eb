import Verif.Model.SingleSearch
/-
The program of tests/large_n_simulation.rs from the agents on.
-/
namespace Moledyn
variable {G F : Type} [Fl F]

/-- `ensemble_n_ptl_fpt`, tests/large_n_simulation.rs:31-54: make `n` merging walkers, then `num` ensembles with the same
agents, list and clock; report the mean. -/
def largeNProgram (rng : RngOps G F) (sys : SysOps G F) (target : TargetOps F) (inner loops fuel steps : Nat)
    (mtype : MoveType F) (radius alpha : F) (clock : ExpStep F) (n num : Nat) (g : G) : Option (Res F × G) :=
  match makeAgents (fun g => MergeAgent.newUniform sys target inner loops g mtype radius alpha) n g with
  | none => none
  | some (.err e, g1) => some (.err e, g1)
  | some (.panic, g1) => some (.panic, g1)
  | some (.ok v, g1) =>
    (ensembleMean (largeNRun rng sys target inner loops fuel steps) num (LList.from' v, clock, g1)).map fun r => (r.1, r.2.2.2)

end Moledyn
