import Verif.Spec.Symmetry
import Verif.Spec.LargeNLaw
import Verif.Model.ExpProgram
import Verif.Model.LargeN
/-
Vocabulary for searchers that merge or push each other away, and targets that are images of each other.
-/
namespace Moledyn
open MeasureTheory
variable {G : Type}

/-- The searches by searchers that notice each other are the same for two targets, up to chance: the mean of an ensemble of merging searches
(tests/merge_fpt.rs), a merging search with an exponential clock from searchers left anywhere (tests/large_n_simulation.rs), and the lines of a
program with searchers that push each other away and how it ends (examples/mfpt_exp.rs). -/
structure SameCrowds [MeasurableSpace G] (P : Measure G) (rng : RngOps G ℝ) (sys : SysOps G ℝ) (d : Nat) (t t' : BulkTarget ℝ) : Prop where
  merging : ∀ (D dt alpha radius : ℝ) (n num : ℕ), 0 < D → 0 < dt → 0 < n →
    SameChances P (fun loops g => ensembleMean (mergeRun rng sys t.ops loops loops loops loops (.brownian D) radius alpha dt n) num g)
      (fun loops g => ensembleMean (mergeRun rng sys t'.ops loops loops loops loops (.brownian D) radius alpha dt n) num g)
  clocked : ∀ (clock : ExpStep ℝ) (a b : ℝ) (l : ℕ) (alpha radius : ℝ) (v : List (MergeAgent ℝ)), clock.Fresh → clock.titype = .exponential a b l → 0 < a →
    1 ≤ clock.inc → 0 ≤ clock.tmax → MergeTeam d radius alpha v → v ≠ [] →
    SameChances P (fun loops g => (largeNRun rng sys t.ops loops loops loops loops (LList.from' v, clock, g)).map fun r => (r.1, r.2.2.2))
      (fun loops g => (largeNRun rng sys t'.ops loops loops loops loops (LList.from' v, clock, g)).map fun r => (r.1, r.2.2.2))
  pushing : ∀ (clock : ExpStep ℝ) (a b : ℝ) (l : ℕ) (limit D gamma strength : ℝ) (itype : InitType ℝ) (n k : ℕ) (v : List (ExpAgent ℝ)), clock.Fresh →
    clock.titype = .exponential a b l → 0 < a → 1 ≤ clock.inc → a ≤ clock.tmax → 0 < limit → 0 < n →
    ExpAgent.convertFrom (.brownian D) itype gamma d strength n = .ok v →
    SameChances P (fun loops g => (expLoop (expRun rng sys t.ops limit loops loops loops loops clock) k (expStart v d g)).map fun r => (Res.ok r.1, r.2.rng))
      (fun loops g => (expLoop (expRun rng sys t'.ops limit loops loops loops loops clock) k (expStart v d g)).map fun r => (Res.ok r.1, r.2.rng))

end Moledyn
