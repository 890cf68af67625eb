import Verif.Spec.Time
import Verif.Model.BundledPrograms
/-
Vocabulary for comparing a search with a time limit to the same search with a later one.
-/
namespace Moledyn
variable {F : Type}

/-- `o` is what a search with a time limit says and `o'` what the same search with a later limit says (`none`: still
running).  A time reported under the limit is `within` it; and both say the same, unless the first one ended
because its clock did and the second one does not report a time within the limit. -/
def CutOff (within : F → Prop) (o o' : Option (Res (Option F))) : Prop :=
  (∀ t, o = some (.ok (some t)) → within t) ∧
  (o' = o ∨ (o = some (.ok none) ∧ ∀ t, o' = some (.ok (some t)) → ¬ within t))

end Moledyn
