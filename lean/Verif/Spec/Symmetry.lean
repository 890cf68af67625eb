import Verif.Spec.SearchLaw
import Verif.Model.SingleSearch
/-
Vocabulary for symmetries: targets that are images of each other, and programs that give the same results with the same
chances.
-/
namespace Moledyn
open MeasureTheory
variable {G : Type}

/-- Two procedures report the same results with the same chances: with probability one both come to an end (with enough loops), and for
every set of results the chance that the first reports one of them is the chance that the second does. -/
def SameChances {α : Type} [MeasurableSpace G] (P : Measure G) (prog prog' : Nat → G → Option (Res α × G)) : Prop :=
  ∃ r r' : G → Res α,
    (∀ᵐ g ∂P, ∃ n, ∀ loops ≥ n, (prog loops g).map (·.1) = some (r g)) ∧
    (∀ᵐ g ∂P, ∃ n, ∀ loops ≥ n, (prog' loops g).map (·.1) = some (r' g)) ∧
    ∀ B : Set (Res α), P (r ⁻¹' B) = P (r' ⁻¹' B)

/-- The searches for two targets are the same up to chance: one search, the mean of an ensemble of any size, and the shortest time of any
number of searchers (`DataAnalysis` of single_ptl_rts.rs and rts_n_searcher.rs). -/
structure SameSearches [MeasurableSpace G] (P : Measure G) (rng : RngOps G ℝ) (sys : SysOps G ℝ) (t t' : BulkTarget ℝ) (D dt : ℝ) : Prop where
  one : SameChances P (fun loops g => oneSearcher rng sys t.ops loops loops loops (.brownian D) dt g)
    (fun loops g => oneSearcher rng sys t'.ops loops loops loops (.brownian D) dt g)
  mean : ∀ n : ℕ, SameChances P (fun loops g => ensembleMean (oneSearcher rng sys t.ops loops loops loops (.brownian D) dt) n g)
    (fun loops g => ensembleMean (oneSearcher rng sys t'.ops loops loops loops (.brownian D) dt) n g)
  many : ∀ n : ℕ, SameChances P (fun loops g => nSearchersFpt rng sys t.ops loops loops loops (.brownian D) dt n g)
    (fun loops g => nSearchersFpt rng sys t'.ops loops loops loops (.brownian D) dt n g)

/-- Two points of a cube that are images of each other: the axes may be exchanged, as long as the walls are of the same kind, and
reflected. -/
def SameInCube {n : Nat} (bc : BoundaryCond) (c c' : Fin n → ℝ) : Prop :=
  ∃ p : Equiv.Perm (Fin n), (∀ i, bc.mirrored (p i) ↔ bc.mirrored i) ∧ ∀ i, |c' i| = |c (p i)|

/-- In a ball: at the same distance from the centre. -/
def SameInBall {n : Nat} (c c' : Fin n → ℝ) : Prop := ∑ i, c' i ^ 2 = ∑ i, c i ^ 2

/-- In a cylinder, the first `k` directions across: at the same distance from the axis, and in the directions along the axis at the same
place up to the order and the signs. -/
def SameInCyl {n : Nat} (k : Nat) (c c' : Fin n → ℝ) : Prop :=
  axisSq k c' = axisSq k c ∧
    ∃ p : Equiv.Perm (Fin n), (∀ i, (p i).1 < k ↔ i.1 < k) ∧ ∀ i : Fin n, k ≤ i.1 → |c' i| = |c (p i)|

/-- Images of each other by exchanging and reflecting axes, the first `k` among themselves. -/
def SameAxes {n : Nat} (k : Nat) (c c' : Fin n → ℝ) : Prop :=
  ∃ p : Equiv.Perm (Fin n), (∀ i, (p i).1 < k ↔ i.1 < k) ∧ ∀ i, |c' i| = |c (p i)|

end Moledyn
