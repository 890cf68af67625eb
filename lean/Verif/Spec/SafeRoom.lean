import Verif.Model.SingleSearch
import Verif.Spec.Agent
/-
Vocabulary for searches that cannot fail.
-/
namespace Moledyn
variable {G F : Type} [Fl F]

/-- A room (positions `p` with `I p`, all of dimension `d`) in which steps that are `small` in every direction are safe: `check_bc`
accepts them and the walker is in the room again.  Agents are placed in the room. -/
structure SafeRoom (sys : SysOps G F) (d : Nat) (I : Pos F → Prop) (small : F → Prop) : Prop where
  dim : ∀ p, I p → p.length = d
  step : ∀ p z, I p → z.length = d → (∀ x ∈ z, small x) → (sys.checkBc p z).2 = .ok () ∧ I (sys.checkBc p z).1
  place : ∀ inner g vec r, vec.length = d → sys.randomPosToVec inner g vec = some r → r.1.2 = .ok () ∧ I r.1.1
  outside : sys.OutsideDim d

/-- A program that does not fail: if it returns, then with a result. -/
def Succeeds {α S : Type} (r : Option (Res α × S)) : Prop := ∀ x, r = some x → ∃ v, x.1 = .ok v

/-- A program that writes one number after the other and does not fail: if it returns, then `n` numbers have been written. -/
def WritesAll {S : Type} (n : Nat) (r : Option ((List F × Res Unit) × S)) : Prop := ∀ x, r = some x → x.1.2 = .ok () ∧ x.1.1.length = n

/-- Normal numbers of at most `B`. -/
def BoundedNormals (rng : RngOps G ℝ) (B : ℝ) : Prop := ∀ g, |(rng.gaussian g).1| ≤ B

end Moledyn
