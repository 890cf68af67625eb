import Verif.Spec.Crash
import Verif.Props.EndToEndRows
import Verif.Props.Headers
import Verif.Props.EndToEndDemo
/-
C98: what a simulation that stopped in the middle leaves, and what the analysis makes of it.
-/
set_option linter.unusedSimpArgs false
namespace Moledyn.Props
open Moledyn OutFile
variable {F A X : Type}

/-! ### the file on disk -/

theorem written_append (a b : List Op) : written (a ++ b) = written a ++ written b := by
  simp [written]

theorem written_nil : written [] = [] := rfl
theorem written_write (s : Str) (ops : List Op) : written (.write s :: ops) = s ++ written ops := rfl
theorem written_flush (ops : List Op) : written (.flush :: ops) = written ops := rfl

private theorem step_total (cap : Nat) (w : OutFile) (op : Op) :
    (step cap w op).disk ++ (step cap w op).buf = w.disk ++ w.buf ++ written [op] ∧ w.disk <+: (step cap w op).disk := by
  cases op with
  | flush => simp [step, written]
  | write s =>
    simp only [step, written]
    split <;> split <;> simp

theorem exec_total (cap : Nat) (w : OutFile) (ops : List Op) :
    (exec cap w ops).disk ++ (exec cap w ops).buf = w.disk ++ w.buf ++ written ops ∧ w.disk <+: (exec cap w ops).disk := by
  induction ops generalizing w with
  | nil => simp [exec, written]
  | cons o ops ih =>
    obtain ⟨h1, h2⟩ := step_total cap w o
    obtain ⟨i1, i2⟩ := ih (step cap w o)
    have e : exec cap w (o :: ops) = exec cap (step cap w o) ops := rfl
    rw [e]
    refine ⟨?_, h2.trans i2⟩
    rw [i1, h1, show o :: ops = [o] ++ ops from rfl, written_append]
    simp

theorem exec_append (cap : Nat) (w : OutFile) (a b : List Op) :
    exec cap w (a ++ b) = exec cap (exec cap w a) b := by simp [exec]

/-- Whatever the size of the buffer and the moment at which the program stops: the file holds a beginning of what the program
has handed over up to and including the call it stopped in; and everything handed over before a finished `flush`. Nothing
of what the file held before is left. -/
theorem C98_file_on_disk (cap : Nat) (old : Str) (ops : List Op) (i : Nat) (d : Str) (h : StopsAt cap old ops i d) :
    d <+: written (ops.take (i + 1)) ∧
    ∀ a b, ops.take i = a ++ .flush :: b → written a <+: d := by
  obtain ⟨h1, h2⟩ := h
  have c : create old = ⟨[], []⟩ := rfl
  constructor
  · obtain ⟨t, -⟩ := exec_total cap (create old) (ops.take (i + 1))
    rw [c] at t h2
    refine h2.trans ⟨(exec cap ⟨[], []⟩ (ops.take (i + 1))).buf, ?_⟩
    rw [t]; simp
  · intro a b hab
    refine List.IsPrefix.trans ?_ h1
    rw [hab, show a ++ Op.flush :: b = (a ++ [Op.flush]) ++ b by simp, exec_append]
    refine List.IsPrefix.trans ?_ (exec_total cap _ b).2
    rw [exec_append]
    obtain ⟨t, -⟩ := exec_total cap (create old) a
    rw [c] at t ⊢
    show _ <+: (exec cap ⟨[], []⟩ a).disk ++ (exec cap ⟨[], []⟩ a).buf
    rw [t]; simp

private theorem written_header (blocks : List Str) :
    written ([.write (descriptionsLine ++ ['\n'])] ++ blocks.map Op.write ++ [.write (dataStartsLine ++ ['\n']), .flush]) =
      descriptionsLine ++ ['\n'] ++ blocks.flatten ++ dataStartsLine ++ ['\n'] := by
  have : written (blocks.map Op.write) = blocks.flatten := by
    induction blocks with
    | nil => rfl
    | cons b bs ih => rw [List.map_cons, written_write, ih]; rfl
  rw [written_append, written_append, this]
  simp only [written_write, written_flush, written_nil]
  simp

private theorem written_results (ls : List Str) :
    written (ls.flatMap fun l => [Op.write l, Op.write ['\n'], Op.flush]) = textOf ls := by
  induction ls with
  | nil => rfl
  | cons l ls ih =>
    rw [List.flatMap_cons, written_append, ih]
    simp [written, textOf]

theorem written_output (blocks ls : List Str) :
    written (outputOps blocks ls) = descriptionsLine ++ ['\n'] ++ blocks.flatten ++ dataStartsLine ++ ['\n'] ++ textOf ls := by
  rw [outputOps, written_append, written_header, written_results]

theorem output_split (blocks a b : List Str) :
    outputOps blocks (a ++ b) = outputOps blocks a ++ b.flatMap fun l => [Op.write l, Op.write ['\n'], Op.flush] := by
  simp [outputOps]

theorem output_last (blocks a : List Str) : ∃ c, outputOps blocks a = c ++ [.flush] := by
  rcases List.eq_nil_or_concat a with rfl | ⟨a, l, rfl⟩
  · exact ⟨[.write (descriptionsLine ++ ['\n'])] ++ blocks.map .write ++ [.write (dataStartsLine ++ ['\n'])], by simp [outputOps]⟩
  · rw [List.concat_eq_append, output_split]
    exact ⟨outputOps blocks a ++ [.write l, .write ['\n']], by simp⟩

/-- A simulation that writes the lines `results`: no finished ensemble is lost and at most one line is cut.  If it stops after the
calls for the first `n` ensembles, the file holds the whole header and the first `n` lines; if it stops before the end of the
calls for the first `n`, it holds nothing beyond the first `n` lines. -/
theorem C98_finished_ensembles_kept (cap : Nat) (old : Str) (blocks results : List Str) (i : Nat) (d : Str)
    (h : StopsAt cap old (outputOps blocks results) i d) (n : Nat) :
    ((outputOps blocks (results.take n)).length ≤ i → written (outputOps blocks (results.take n)) <+: d) ∧
    (i < (outputOps blocks (results.take n)).length → d <+: written (outputOps blocks (results.take n))) := by
  obtain ⟨h1, h2⟩ := C98_file_on_disk cap old _ i d h
  have hs : outputOps blocks results = outputOps blocks (results.take n) ++
      (results.drop n).flatMap fun l => [Op.write l, Op.write ['\n'], Op.flush] := by
    rw [← output_split, List.take_append_drop]
  constructor
  · intro hi
    obtain ⟨c, hc⟩ := output_last blocks (results.take n)
    have := h2 c (((results.drop n).flatMap fun l => [Op.write l, Op.write ['\n'], Op.flush]).take
      (i - (outputOps blocks (results.take n)).length)) (by
        rw [hs, List.take_append, List.take_of_length_le hi]
        rw [hc]; simp)
    rw [hc, written_append]
    simpa [written] using this
  · intro hi
    refine h1.trans ?_
    rw [hs, List.take_append_of_le_length (by omega)]
    conv_rhs => rw [← List.take_append_drop (i + 1) (outputOps blocks (results.take n)), written_append]
    exact List.prefix_append _ _

/-! ### cut texts -/

theorem lines_open {w : Str} (hw : '\n' ∉ w) : Str.lines w = if w = [] then [] else [w] := by
  unfold Str.lines
  rw [Str.splitBy_clean (fun c hc => by
    have : c ≠ '\n' := fun h => hw (h ▸ hc)
    simp [this])]
  rfl

theorem lines_text (ls : List Str) (h : ∀ l ∈ ls, '\n' ∉ l) (rest : Str) :
    Str.lines (textOf ls ++ rest) = ls.map Str.stripCR ++ Str.lines rest := by
  induction ls with
  | nil => rfl
  | cons l ls ih =>
    have e : textOf (l :: ls) ++ rest = l ++ '\n' :: (textOf ls ++ rest) := by simp [textOf]
    rw [e, Str.lines_cons (h l (by simp)), ih (fun l hl => h l (by simp [hl]))]
    rfl

theorem prefix_append_cases {α : Type} {P a b : List α} (h : P <+: a ++ b) : P <+: a ∨ ∃ Q, P = a ++ Q ∧ Q <+: b := by
  rcases List.prefix_or_prefix_of_prefix h (List.prefix_append a b) with h' | ⟨Q, rfl⟩
  · exact .inl h'
  · exact .inr ⟨Q, rfl, (List.prefix_append_right_inj a).1 h⟩

/-- a beginning of a text of lines: some whole lines and a beginning of the next one (without its line feed). -/
theorem prefix_text (ls : List Str) (P : Str) (h : P <+: textOf ls) :
    ∃ k w, k ≤ ls.length ∧ P = textOf (ls.take k) ++ w ∧ (w = [] ∨ ∃ l, ls[k]? = some l ∧ w <+: l) := by
  induction ls generalizing P with
  | nil =>
    have : P = [] := List.prefix_nil.1 h
    exact ⟨0, [], by simp, by simp [this, textOf], .inl rfl⟩
  | cons l ls ih =>
    have e : textOf (l :: ls) = (l ++ ['\n']) ++ textOf ls := by simp [textOf]
    rw [e] at h
    rcases prefix_append_cases h with h | ⟨Q, rfl, hQ⟩
    · rcases List.prefix_concat_iff.1 (by simpa using h) with h | h
      · exact ⟨1, [], by simp, by simp [textOf, h], .inl rfl⟩
      · exact ⟨0, P, by simp, by simp [textOf], .inr ⟨l, rfl, h⟩⟩
    · obtain ⟨k, w, hk, rfl, hw⟩ := ih Q hQ
      exact ⟨k + 1, w, by simpa using hk, by simp [textOf], by simpa using hw⟩

end Moledyn.Props
