import Verif.Model.OutFile
import Verif.Spec.RunRows
/-
Vocabulary for C98: programs that stop in the middle.
-/
namespace Moledyn

namespace OutFile
/-- everything the calls hand over, in order. -/
def written (ops : List Op) : Str := (ops.map fun | .write s => s | .flush => []).flatten

/-- The program stopped (killed, power failure, failing write) after `i` finished calls, possibly during the next one: the file
holds `d`, which is what it held after `i` calls and a beginning of what the next call adds to it. -/
def StopsAt (cap : Nat) (old : Str) (ops : List Op) (i : Nat) (d : Str) : Prop :=
  (exec cap (create old) (ops.take i)).disk <+: d ∧ d <+: (exec cap (create old) (ops.take (i + 1))).disk
end OutFile

/-- lines of text, each ended by a line feed. -/
def textOf (ls : List Str) : Str := (ls.map fun l => l ++ ['\n']).flatten

/-- the run that has only got as far as its first `k` results. -/
def RunOf.first {F X : Type} {cs : List (Component F)} {sim : Component F} (k : Nat) (r : RunOf cs sim X) : RunOf cs sim X := ⟨r.vals, r.simVals, r.rows.take k⟩

end Moledyn
