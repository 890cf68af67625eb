import Verif.Spec.Simulation
/-
Vocabulary for searchers that do not meet.
-/
namespace Moledyn
variable {F : Type}

/-- the independent searcher at the place of a merging searcher, moving as it does. -/
def MergeAgent.plain (a : MergeAgent F) : IndepAgent F := ⟨.continuousPassiveIndependent, a.mtype, a.itype, a.dim, a.pos⟩

/-- no two places of dimension `d` are ever found to be closer than two radii. -/
def NeverClose [Fl F] (d : Nat) (radius : F) : Prop :=
  ∀ p q : Pos F, p.length = d → q.length = d → ∀ x, p.distance q = .ok x → Fl.lt x (Fl.two * radius) = false

end Moledyn
