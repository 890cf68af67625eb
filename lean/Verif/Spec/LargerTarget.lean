import Verif.Spec.Time
import Verif.Model.BundledPrograms
/-
Vocabulary for comparing two targets on the same random numbers.
-/
namespace Moledyn
variable {F C S : Type}

/-- `big` covers `small`: wherever `big` does not report "found", it gives the same answer as `small` (so it reports
"found" at every position where `small` does). -/
def Covers (big small : TargetOps F) : Prop :=
  ∀ p, big.checkFind p = .ok true ∨ big.checkFind p = small.checkFind p

/-- Two runs of a search driven by the clock `tick`, started at `c`; `o`, `o'` are what they say, `none` for "still
running".  Either both say the same, or the second one reports the time of some turn `k'` of the clock, and if the
first one reports a time too, then it is the time of that or a later turn. -/
def FoundNoLater (tick : C → C × Res (Option (F × F))) (c : C) (o o' : Option (Res (Option F))) : Prop :=
  o' = o ∨ ∃ k' t' d', o' = some (.ok (some t')) ∧ output tick k' c = .ok (some (t', d')) ∧
    ∀ t, o = some (.ok (some t)) → ∃ k d, k' ≤ k ∧ output tick k c = .ok (some (t, d))

/-- `o'` is what `o` is, or a reported time that is not larger than the one `o` reports (if it reports any). -/
def TimeNoLater (le : F → F → Prop) (o o' : Option (Res (Option F))) : Prop :=
  o' = o ∨ ∃ t', o' = some (.ok (some t')) ∧ ∀ t, o = some (.ok (some t)) → le t' t

/-- the clock's times never decrease. -/
def InOrder (le : F → F → Prop) (tick : C → C × Res (Option (F × F))) (c : C) : Prop :=
  ∀ j k s t d e, j ≤ k → output tick j c = .ok (some (s, d)) → output tick k c = .ok (some (t, e)) → le s t

end Moledyn
