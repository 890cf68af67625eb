import Verif.Model.AnalysisDisk
/-
Vocabulary for C103: what an analysis has left on the disk.
-/
namespace Moledyn
variable {F A : Type}

/-- the disk after the files have been written one after the other. -/
def Files.lay (fs : Files) (ws : List Written) : Files := ws.foldl (fun fs w => fs.set w.path w.text) fs

/-- `Begun vs ws`: the files `ws` were to be written one after the other; those in `vs` have been written: the first ones of
`ws`, all of them whole except perhaps the last, of which there is a beginning. -/
inductive Begun : List Written → List Written → Prop
  | none (ws : List Written) : Begun [] ws
  | cut (w : Written) (t : Str) (ws : List Written) : t <+: w.text → Begun [⟨w.path, t⟩] (w :: ws)
  | next (w : Written) (vs ws : List Written) : Begun vs ws → Begun (w :: vs) (w :: ws)

/-- the pieces of a text in which `write_fmt` hands it over. -/
def HandsOver (pieces : Str → List Str) : Prop := ∀ s, (pieces s).flatten = s

/-- the system makes progress: no call fails, every write takes at least one character. -/
def Progress (rs : List Answer) : Prop := ∀ r ∈ rs, ∃ n, r = .done (n + 1)

/-- `tag` is the error of the first call that failed: all answers before it were not failures; a write that takes nothing is an
error of its own. -/
def FirstError (rs : List Answer) (tag : Nat) : Prop :=
  ∃ pre a rest, rs = pre ++ a :: rest ∧ (∀ b ∈ pre, ∃ n, b = .done n) ∧ (a = .fail tag ∨ a = .done 0 ∧ tag = writeZero)

/-- the row-by-row description of the two loops agrees with the one in `x`. -/
def Exporter.Agrees (x : Exporter A) (e : RowWriter A) : Prop :=
  ∀ a, x.linear a = (e.linear a).last.map (fun r => r.map fun _ => (e.linear a).rows.flatten) ∧
    x.log a = (e.log a).last.map (fun r => r.map fun _ => (e.log a).rows.flatten)

/-- the result of every group that is written is shorter than the buffer. -/
def Exporter.ShortResults (x : Exporter A) (skip : A → Bool) (cap : Nat) (m : List (DataSet F × A)) : Prop :=
  ∀ p ∈ m, skip p.2 = false → (x.brief (x.draw p.2).1).length + 1 < cap

end Moledyn
