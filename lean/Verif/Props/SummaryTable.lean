import Verif.Props.AnalyzeOutput
/-
C63: the columns of the summary table.
-/
set_option linter.unusedSimpArgs false
namespace Moledyn.Props
open Moledyn
variable {F A : Type}

theorem isWord_printNat (n : Nat) : Str.IsWord (Str.printNat n) := ⟨Str.printNat_ne_nil n, Str.printNat_not_ws⟩

theorem padRight_ws {w : Nat} {s t : Str} {c : Char} (hc : Str.isWs c = true) (hs : Str.IsWord s) :
    Str.words (Str.padRight w s ++ c :: t) = s :: Str.words t := by
  unfold Str.padRight
  cases hn : w - s.length with
  | zero => simp only [List.replicate_zero, List.append_nil]; exact Str.words_cons hs.2 hs.1 hc
  | succ n =>
    have e : s ++ List.replicate (n + 1) ' ' ++ c :: t = s ++ ' ' :: (List.replicate n ' ' ++ [c] ++ t) := by
      simp [List.replicate_succ]
    rw [e, Str.words_cons hs.2 hs.1 (by decide), Str.words_ws_append]
    intro d hd
    simp only [List.mem_append, List.mem_replicate, List.mem_singleton] at hd
    rcases hd with ⟨-, rfl⟩ | rfl
    · decide
    · exact hc

theorem padRight_end {w : Nat} {s : Str} (hs : Str.IsWord s) : Str.words (Str.padRight w s) = [s] := by
  unfold Str.padRight
  cases hn : w - s.length with
  | zero => simp only [List.replicate_zero, List.append_nil]; exact Str.words_word hs.2 hs.1
  | succ n =>
    rw [List.replicate_succ, Str.words_cons hs.2 hs.1 (by decide)]
    rw [Str.words_blank]
    intro c hc
    simp only [List.mem_replicate] at hc
    rw [hc.2]; decide

theorem exportData_cells (pe : F → Str) (width : Nat) (d : DataSet F) :
    d.exportData pe width = (d.vars.map fun v => Str.padRight width (v.2.cell pe) ++ ['\t']).flatten := by
  unfold DataSet.exportData
  congr 1

theorem isWord_cell {pe : F → Str} (hpe : WritesWords pe) (v : DataVar F) : Str.IsWord (v.cell pe) := by
  cases v with
  | real x => exact hpe x
  | nat n => exact isWord_printNat n

theorem words_exportData (pe : F → Str) (hpe : WritesWords pe) (width : Nat) (d : DataSet F) (t : Str) :
    Str.words (d.exportData pe width ++ t) = d.vars.map (fun v => v.2.cell pe) ++ Str.words t := by
  rw [exportData_cells]
  induction d.vars with
  | nil => rfl
  | cons v l ih =>
    simp only [List.map_cons, List.flatten_cons, List.append_assoc, List.cons_append, List.nil_append]
    rw [padRight_ws (by decide) (isWord_cell hpe v.2), ih]

/-- The line of a group in the summary of a first-passage-time analysis: the recorded variables in order, then
mean, spread, number of samples; each is a word of its own, whatever the width of the columns. -/
theorem C63_time_line (pe : F → Str) (hpe : WritesWords pe) (width prec : Nat) (d : DataSet F) (a : TimeAnalysis F) :
    Str.words (d.exportData pe width ++ a.exportMeanStddev pe prec) =
      d.vars.map (fun v => v.2.cell pe) ++ [pe a.mean, pe a.stddev, Str.printNat a.ensemble] := by
  rw [words_exportData pe hpe]
  unfold TimeAnalysis.exportMeanStddev
  simp only [List.append_assoc, List.cons_append, List.nil_append]
  rw [padRight_ws (by decide) (hpe _), padRight_ws (by decide) (hpe _), padRight_end (isWord_printNat _)]

/-- That of a process analysis: likewise. -/
theorem C63_process_line (pe : F → Str) (hpe : WritesWords pe) (width prec : Nat) (d : DataSet F)
    (a : ProcessAnalysis F) :
    Str.words (d.exportData pe width ++ a.exportMeanStddev pe prec) =
      d.vars.map (fun v => v.2.cell pe) ++ [pe a.longTermMean, pe a.longTermStddev, Str.printNat a.ensemble] := by
  rw [words_exportData pe hpe]
  unfold ProcessAnalysis.exportMeanStddev
  simp only [List.append_assoc, List.cons_append, List.nil_append]
  rw [padRight_ws (by decide) (hpe _), padRight_ws (by decide) (hpe _)]
  have : ∀ s : Str, Str.words (' ' :: s) = Str.words s := fun s =>
    Str.words_ws_append (a := [' ']) s (by intro c hc; simp at hc; rw [hc]; decide)
  rw [this, padRight_ws (by decide) (isWord_printNat _), Str.words_nil]

/-- That of a vector analysis: the recorded variables, the number of samples, then mean and spread of every
measured variable in order. -/
theorem C63_vector_line (pe : F → Str) (hpe : WritesWords pe) (width prec : Nat) (d : DataSet F)
    (a : TimeVecAnalysis F) :
    Str.words (d.exportData pe width ++ a.exportMeanStddev pe prec) =
      d.vars.map (fun v => v.2.cell pe) ++ Str.printNat a.ensemble ::
        ((a.means.zip a.stddevs).map fun m => [pe m.1, pe m.2]).flatten := by
  rw [words_exportData pe hpe]
  unfold TimeVecAnalysis.exportMeanStddev
  simp only [List.append_assoc, List.cons_append, List.nil_append]
  rw [padRight_ws (by decide) (isWord_printNat _)]
  congr 2
  induction a.means.zip a.stddevs with
  | nil => rfl
  | cons m l ih =>
    simp only [List.map_cons, List.flatten_cons, List.append_assoc, List.cons_append, List.nil_append]
    rw [padRight_ws (by decide) (hpe _), padRight_ws (by decide) (hpe _), ih]

/-- The title line names the columns, when every name but the last is shorter than a column. -/
theorem C63_title (width : Nat) (names : List Str) (last : Str) (hn : ∀ n ∈ names, Str.IsWord n ∧ n.length < width)
    (hl : Str.IsWord last) : Str.words (DataSet.exportForm width (names ++ [last])) = names ++ [last] := by
  unfold DataSet.exportForm
  induction names with
  | nil => simp only [List.nil_append, List.map_cons, List.map_nil, List.flatten_cons, List.flatten_nil,
      List.append_nil]; exact padRight_end hl
  | cons n names ih =>
    obtain ⟨h1, h2⟩ := hn n (by simp)
    simp only [List.cons_append, List.map_cons, List.flatten_cons]
    have e : ∀ t : Str, Str.padRight width n ++ t = n ++ ' ' :: (List.replicate (width - n.length - 1) ' ' ++ t) := by
      intro t
      unfold Str.padRight
      obtain ⟨k, hk⟩ : ∃ k, width - n.length = k + 1 := ⟨width - n.length - 1, by omega⟩
      rw [hk, List.replicate_succ]; simp
    rw [e, Str.words_cons h1.2 h1.1 (by decide), Str.words_ws_append _ (by
      intro c hc; simp only [List.mem_replicate] at hc; rw [hc.2]; decide), ih (fun m hm => hn m (by simp [hm]))]

/-- Otherwise two names run together: a name as long as the column is not separated from the next one. -/
theorem C63_title_runs_together (width : Nat) (a b : Str) (ha : Str.IsWord a) (hb : Str.IsWord b)
    (h : width ≤ a.length) : Str.words (DataSet.exportForm width [a, b]) = [a ++ b] := by
  unfold DataSet.exportForm
  have : Str.padRight width a = a := by
    unfold Str.padRight; rw [Nat.sub_eq_zero_of_le h]; simp
  simp only [List.map_cons, List.map_nil, List.flatten_cons, List.flatten_nil, List.append_nil, this]
  have hab : Str.IsWord (a ++ b) := ⟨by simp [ha.1], by
    intro c hc
    rcases List.mem_append.1 hc with hc | hc
    · exact ha.2 c hc
    · exact hb.2 c hc⟩
  have e : a ++ Str.padRight width b = Str.padRight (width + a.length) (a ++ b) := by
    unfold Str.padRight
    rw [List.append_assoc]
    congr 3
    simp only [List.length_append]
    omega
  rw [e, padRight_end hab]

/-! ### the whole table -/

theorem padRight_last {w : Nat} {s : Str} (hs : Str.IsWord s) : ∃ t c, Str.padRight w s = t ++ [c] ∧ c ≠ '\r' := by
  unfold Str.padRight
  cases hn : w - s.length with
  | zero =>
    refine ⟨s.dropLast, s.getLast hs.1, by simp [List.dropLast_append_getLast], ?_⟩
    intro h
    have := hs.2 (s.getLast hs.1) (List.getLast_mem _)
    rw [h] at this
    exact absurd this (by decide)
  | succ n => exact ⟨s ++ List.replicate n ' ', ' ', by rw [List.replicate_succ']; simp, by decide⟩

theorem stripCR_snoc {t : Str} {c : Char} (h : c ≠ '\r') : Str.stripCR (t ++ [c]) = t ++ [c] := by
  unfold Str.stripCR
  simp only [List.getLast?_append, List.getLast?_singleton, Option.some_or]
  split
  · rename_i h2; simp at h2; exact absurd h2 h
  · rfl

theorem lines_row {row rest t : Str} {c : Char} (hrow : row = t ++ [c]) (hc : c ≠ '\r') (hn : '\n' ∉ row) :
    Str.lines (row ++ ['\n'] ++ rest) = row :: Str.lines rest := by
  rw [List.append_assoc]
  show Str.lines (row ++ '\n' :: rest) = _
  rw [Str.lines_cons hn, hrow, stripCR_snoc hc]

theorem no_lf_word {s : Str} (hs : Str.IsWord s) : '\n' ∉ s := fun h => by
  have := hs.2 _ h
  exact absurd this (by decide)

theorem no_lf_pad {w : Nat} {s : Str} (hs : '\n' ∉ s) : '\n' ∉ Str.padRight w s := fun h => by
  rcases Str.mem_padRight h with h | h
  · exact hs h
  · exact absurd h (by decide)

theorem no_lf_exportData (pe : F → Str) (hpe : WritesWords pe) (width : Nat) (d : DataSet F) :
    '\n' ∉ d.exportData pe width := by
  rw [exportData_cells]
  intro h
  obtain ⟨l, hl, hm⟩ := List.mem_flatten.1 h
  obtain ⟨v, -, rfl⟩ := List.mem_map.1 hl
  rcases List.mem_append.1 hm with hm | hm
  · exact no_lf_pad (no_lf_word (isWord_cell hpe v.2)) hm
  · simp at hm

theorem no_lf_exportForm (width : Nat) (names : List Str) (h : ∀ n ∈ names, Str.IsWord n) :
    '\n' ∉ DataSet.exportForm width names := by
  unfold DataSet.exportForm
  intro hm
  obtain ⟨l, hl, hm⟩ := List.mem_flatten.1 hm
  obtain ⟨v, hv, rfl⟩ := List.mem_map.1 hl
  exact no_lf_pad (no_lf_word (h v hv)) hm

theorem exportForm_append (width : Nat) (a b : List Str) :
    DataSet.exportForm width a ++ DataSet.exportForm width b = DataSet.exportForm width (a ++ b) := by
  simp [DataSet.exportForm]

theorem exportForm_last (width : Nat) (names : List Str) (last : Str) (hl : Str.IsWord last) :
    ∃ t c, DataSet.exportForm width (names ++ [last]) = t ++ [c] ∧ c ≠ '\r' := by
  obtain ⟨t, c, h, hc⟩ := padRight_last (w := width) hl
  refine ⟨DataSet.exportForm width names ++ t, c, ?_, hc⟩
  rw [← exportForm_append]
  simp [DataSet.exportForm, h]

/-- A summary line that a reader takes as one line with the given words. -/
theorem brief_time_line (pe : F → Str) (hpe : WritesWords pe) (width prec : Nat) (d : DataSet F)
    (a : TimeAnalysis F) : '\n' ∉ d.exportData pe width ++ a.exportMeanStddev pe prec ∧
      ∃ t c, d.exportData pe width ++ a.exportMeanStddev pe prec = t ++ [c] ∧ c ≠ '\r' := by
  obtain ⟨t, c, h, hc⟩ := padRight_last (w := prec) (isWord_printNat a.ensemble)
  refine ⟨?_, d.exportData pe width ++ (Str.padRight prec (pe a.mean) ++ ['\t'] ++
    Str.padRight prec (pe a.stddev) ++ ['\t'] ++ t), c, ?_, hc⟩
  · intro hm
    rcases List.mem_append.1 hm with hm | hm
    · exact no_lf_exportData pe hpe width d hm
    · unfold TimeAnalysis.exportMeanStddev at hm
      simp only [List.mem_append, List.mem_singleton] at hm
      have h1 := no_lf_pad (w := prec) (no_lf_word (hpe a.mean))
      have h2 := no_lf_pad (w := prec) (no_lf_word (hpe a.stddev))
      have h3 := no_lf_pad (w := prec) (no_lf_word (isWord_printNat a.ensemble))
      have h4 : ¬ ('\n' = '\t') := by decide
      tauto
  · unfold TimeAnalysis.exportMeanStddev
    rw [h]; simp

/-- the lines of a table. -/
theorem lines_rows : ∀ (rows : List Str), (∀ r ∈ rows, '\n' ∉ r ∧ ∃ t c, r = t ++ [c] ∧ c ≠ '\r') →
    Str.lines (rows.map (· ++ ['\n'])).flatten = rows
  | [], _ => rfl
  | r :: rows, h => by
    obtain ⟨h1, t, c, h2, h3⟩ := h r (by simp)
    rw [List.map_cons, List.flatten_cons, lines_row h2 h3 h1, lines_rows rows (fun r hr => h r (by simp [hr]))]

/-- Likewise for the process analysis, -/
theorem brief_process_line (pe : F → Str) (hpe : WritesWords pe) (width prec : Nat) (d : DataSet F)
    (a : ProcessAnalysis F) : '\n' ∉ d.exportData pe width ++ a.exportMeanStddev pe prec ∧
      ∃ t c, d.exportData pe width ++ a.exportMeanStddev pe prec = t ++ [c] ∧ c ≠ '\r' := by
  refine ⟨?_, d.exportData pe width ++ (Str.padRight prec (pe a.longTermMean) ++ ['\t'] ++
    Str.padRight prec (pe a.longTermStddev) ++ ['\t', ' '] ++ Str.padRight prec (Str.printNat a.ensemble)), '\t',
    ?_, by decide⟩
  · intro hm
    rcases List.mem_append.1 hm with hm | hm
    · exact no_lf_exportData pe hpe width d hm
    · unfold ProcessAnalysis.exportMeanStddev at hm
      simp only [List.mem_append, List.mem_cons, List.not_mem_nil, or_false] at hm
      have h1 := no_lf_pad (w := prec) (no_lf_word (hpe a.longTermMean))
      have h2 := no_lf_pad (w := prec) (no_lf_word (hpe a.longTermStddev))
      have h3 := no_lf_pad (w := prec) (no_lf_word (isWord_printNat a.ensemble))
      have h4 : ¬ ('\n' = '\t') := by decide
      have h5 : ¬ ('\n' = ' ') := by decide
      tauto
  · unfold ProcessAnalysis.exportMeanStddev
    simp

/-- and for the vector analysis. -/
theorem brief_vector_line (pe : F → Str) (hpe : WritesWords pe) (width prec : Nat) (d : DataSet F)
    (a : TimeVecAnalysis F) : '\n' ∉ d.exportData pe width ++ a.exportMeanStddev pe prec ∧
      ∃ t c, d.exportData pe width ++ a.exportMeanStddev pe prec = t ++ [c] ∧ c ≠ '\r' := by
  constructor
  · intro hm
    rcases List.mem_append.1 hm with hm | hm
    · exact no_lf_exportData pe hpe width d hm
    · unfold TimeVecAnalysis.exportMeanStddev at hm
      rcases List.mem_append.1 hm with hm | hm
      · simp only [List.mem_append, List.mem_singleton] at hm
        have h3 := no_lf_pad (w := prec) (no_lf_word (isWord_printNat a.ensemble))
        have h4 : ¬ ('\n' = '\t') := by decide
        tauto
      · obtain ⟨l, hl, hm⟩ := List.mem_flatten.1 hm
        obtain ⟨v, -, rfl⟩ := List.mem_map.1 hl
        simp only [List.mem_append, List.mem_singleton] at hm
        have h1 := no_lf_pad (w := prec) (no_lf_word (hpe v.1))
        have h2 := no_lf_pad (w := prec) (no_lf_word (hpe v.2))
        have h4 : ¬ ('\n' = '\t') := by decide
        tauto
  · unfold TimeVecAnalysis.exportMeanStddev
    rcases List.eq_nil_or_concat (a.means.zip a.stddevs) with h | ⟨l, m, h⟩
    · rw [h]
      exact ⟨d.exportData pe width ++ Str.padRight prec (Str.printNat a.ensemble), '\t', by simp, by decide⟩
    · rw [h]
      exact ⟨d.exportData pe width ++ (Str.padRight prec (Str.printNat a.ensemble) ++ ['\t'] ++
        ((l.map fun m => Str.padRight prec (pe m.1) ++ ['\t'] ++ Str.padRight prec (pe m.2) ++ ['\t']).flatten ++
          (Str.padRight prec (pe m.1) ++ ['\t'] ++ Str.padRight prec (pe m.2)))), '\t', by simp, by decide⟩

theorem one_line (x : Exporter A) (f : NumFmt F) (pe : F → Str) (width : Nat) (pre dir : Str) (d : DataSet F)
    (a : A) (q : Str × List Written) (h : x.one f pe width pre dir d a = some (.ok q)) :
    (x.draw a).2 = .ok () ∧ q.1 = d.exportData pe width ++ x.brief (x.draw a).1 ++ ['\n'] := by
  unfold Exporter.one at h
  split at h
  · rename_i a' hd
    simp only at h
    split at h
    · simp at h
    · split at h
      · simp at h
      · simp only [Option.some.injEq, Res.ok.injEq] at h
        subst h
        rw [hd]
        exact ⟨rfl, rfl⟩
      · simp at h
      · simp at h
    · simp at h
    · simp at h
  · simp at h
  · simp at h

section Table
variable [Fl F] (z : Analyzer A) (x : Exporter A) (f : NumFmt F) (pe : F → Str) (dh : List Nat → Nat)
  (fromFile : Reader → Res (DataSet F) × Reader) (names : List Str) (exist : Str → Bool)
  (listing : Str → Option (List Entry)) (date : Str) (width : Nat) (pre dataDir : Str) (fuel : Nat)

/-- The summary file of any analysis, read line by line and word by word: a title line with the names of the
columns, then one line per group with the recorded variables and the group's result. -/
theorem C63_table (o : AnalysisOutput)
    (h : analyzeDir z x f pe dh fromFile names exist listing date width pre dataDir fuel = some (.ok o))
    (hn : ∀ n ∈ names, Str.IsWord n ∧ n.length < width) (ls : List Str) (last : Str) (hlab : x.labels = ls ++ [last])
    (hls : ∀ n ∈ ls, Str.IsWord n ∧ n.length < width) (hlast : Str.IsWord last) (bw : A → List Str)
    (hb : ∀ (d : DataSet F) (a : A), '\n' ∉ d.exportData pe width ++ x.brief a ∧
      ∃ t c, d.exportData pe width ++ x.brief a = t ++ [c] ∧ c ≠ '\r')
    (hw : ∀ (d : DataSet F) (a : A), Str.words (d.exportData pe width ++ x.brief a) =
      d.vars.map (fun v => v.2.cell pe) ++ bw a) :
    ∃ m title rows, z.loop (DataSet.eqv dh) fromFile [] (((listing dataDir).getD []) ++ [Entry.dir]) = .ok m ∧
      Str.lines o.summary.text = title :: rows ∧ Str.words title = names ++ x.labels ∧
      List.Forall₂ (fun (p : DataSet F × A) row => (x.draw p.2).2 = .ok () ∧
          Str.words row = p.1.vars.map (fun v => v.2.cell pe) ++ bw (x.draw p.2).1)
        (m.filter fun p => !z.skip p.2) rows := by
  obtain ⟨hd, m, rs, hm, hf, hs, -⟩ := analyzeDir_ok z x f pe dh fromFile names exist listing date width pre
    dataDir fuel o h
  have key : ∃ rows, (rs.map Prod.fst).flatten = (rows.map (· ++ ['\n'])).flatten ∧
      (∀ r ∈ rows, '\n' ∉ r ∧ ∃ t c, r = t ++ [c] ∧ c ≠ '\r') ∧
      List.Forall₂ (fun (p : DataSet F × A) row => (x.draw p.2).2 = .ok () ∧
          Str.words row = p.1.vars.map (fun v => v.2.cell pe) ++ bw (x.draw p.2).1)
        (m.filter fun p => !z.skip p.2) rows := by
    clear hs
    generalize (m.filter fun p => !z.skip p.2) = g at hf
    induction hf with
    | nil => exact ⟨[], rfl, by simp, .nil⟩
    | @cons p q g rs h1 h2 ih =>
      obtain ⟨rows, e1, e2, e3⟩ := ih
      obtain ⟨k1, k2⟩ := one_line x f pe width pre o.dir p.1 p.2 q h1
      refine ⟨(p.1.exportData pe width ++ x.brief (x.draw p.2).1) :: rows, ?_, ?_, .cons ⟨k1, hw _ _⟩ e3⟩
      · simp only [List.map_cons, List.flatten_cons, e1, k2]
      · intro r hr
        rcases List.mem_cons.1 hr with rfl | hr
        · exact hb _ _
        · exact e2 r hr
  obtain ⟨rows, e1, e2, e3⟩ := key
  refine ⟨m, DataSet.exportForm width (names ++ x.labels), rows, hm, ?_, ?_, e3⟩
  · rw [hs]
    simp only
    rw [exportForm_append, e1]
    have hall : ∀ n ∈ names ++ x.labels, Str.IsWord n := by
      intro n hn'
      rw [hlab] at hn'
      simp only [List.mem_append, List.mem_singleton] at hn'
      rcases hn' with h | h | h
      · exact (hn n h).1
      · exact (hls n h).1
      · rw [h]; exact hlast
    obtain ⟨t, c, h1, h2⟩ := exportForm_last width (names ++ ls) last hlast
    rw [lines_row (by rw [hlab, ← List.append_assoc]; exact h1) h2 (no_lf_exportForm width _ hall),
      lines_rows rows e2]
  · rw [hlab, ← List.append_assoc]
    refine C63_title width (names ++ ls) last ?_ hlast
    intro n hn'
    rcases List.mem_append.1 hn' with h | h
    · exact hn n h
    · exact hls n h

theorem isWord_lit {s : Str} (h : s ≠ [] ∧ s.all (fun c => !Str.isWs c) = true) : Str.IsWord s :=
  ⟨h.1, fun c hc => by have := List.all_eq_true.1 h.2 c hc; simpa using this⟩

/-- The table of a first-passage-time analysis.  Finding: the three last columns are labelled `ensemble`, `mean`,
`stddev` but hold mean, spread, number of samples, in this order. -/
theorem C63_time_table (mn mx b l : F) (o : AnalysisOutput)
    (h : analyzeDir (timeAnalyzer f mn mx b l) (timeExporter pe width) f pe dh fromFile names exist listing date
      width pre dataDir fuel = some (.ok o))
    (hpe : WritesWords pe) (hn : ∀ n ∈ names, Str.IsWord n ∧ n.length < width) (hwd : 8 < width) :
    ∃ m title rows,
      (timeAnalyzer f mn mx b l).loop (DataSet.eqv dh) fromFile [] (((listing dataDir).getD []) ++ [Entry.dir]) =
        .ok m ∧
      Str.lines o.summary.text = title :: rows ∧
      Str.words title = names ++ [chars! "ensemble", chars! "mean", chars! "stddev"] ∧
      List.Forall₂ (fun (p : DataSet F × TimeAnalysis F) row => (TimeAnalysis.draw p.2).2 = .ok () ∧
          Str.words row = p.1.vars.map (fun v => v.2.cell pe) ++
            [pe p.2.draw.1.mean, pe p.2.draw.1.stddev, Str.printNat p.2.draw.1.ensemble]) m rows := by
  obtain ⟨m, title, rows, h1, h2, h3, h4⟩ := C63_table (timeAnalyzer f mn mx b l) (timeExporter pe width) f pe dh
    fromFile names exist listing date width pre dataDir fuel o h hn [chars! "ensemble", chars! "mean"]
    (chars! "stddev") rfl (by
      intro n hn
      simp only [List.mem_cons, List.not_mem_nil, or_false] at hn
      rcases hn with rfl | rfl
      · exact ⟨isWord_lit (by decide), hwd⟩
      · exact ⟨isWord_lit (by decide), by simp; omega⟩) (isWord_lit (by decide))
    (fun a => [pe a.mean, pe a.stddev, Str.printNat a.ensemble])
    (fun d a => brief_time_line pe hpe width width d a) (fun d a => C63_time_line pe hpe width width d a)
  have hfil : (m.filter fun p => !(timeAnalyzer f mn mx b l).skip p.2) = m := by
    rw [List.filter_eq_self]; intro p _; rfl
  rw [hfil] at h4
  exact ⟨m, title, rows, h1, h2, h3, h4⟩

/-- The table of a process analysis: likewise, with the labels `ensemble`, `long_term_mean`, `long_term_stddev` over
mean, spread, number of ensembles; groups without an ensemble have no line. -/
theorem C63_process_table (mn mx b l : F) (o : AnalysisOutput)
    (h : analyzeDir (processAnalyzer f mn mx b l) (processExporter pe width fuel) f pe dh fromFile names exist listing
      date width pre dataDir fuel = some (.ok o))
    (hpe : WritesWords pe) (hn : ∀ n ∈ names, Str.IsWord n ∧ n.length < width) (hwd : 14 < width) :
    ∃ m title rows,
      (processAnalyzer f mn mx b l).loop (DataSet.eqv dh) fromFile [] (((listing dataDir).getD []) ++ [Entry.dir]) =
        .ok m ∧
      Str.lines o.summary.text = title :: rows ∧
      Str.words title = names ++ [chars! "ensemble", chars! "long_term_mean", chars! "long_term_stddev"] ∧
      List.Forall₂ (fun (p : DataSet F × ProcessAnalysis F) row => (ProcessAnalysis.draw p.2).2 = .ok () ∧
          Str.words row = p.1.vars.map (fun v => v.2.cell pe) ++
            [pe p.2.draw.1.longTermMean, pe p.2.draw.1.longTermStddev, Str.printNat p.2.draw.1.ensemble])
        (m.filter fun p => p.2.ensemble ≠ 0) rows := by
  obtain ⟨m, title, rows, h1, h2, h3, h4⟩ := C63_table (processAnalyzer f mn mx b l) (processExporter pe width fuel)
    f pe dh fromFile names exist listing date width pre dataDir fuel o h hn
    [chars! "ensemble", chars! "long_term_mean"] (chars! "long_term_stddev") rfl (by
      intro n hn
      simp only [List.mem_cons, List.not_mem_nil, or_false] at hn
      rcases hn with rfl | rfl
      · exact ⟨isWord_lit (by decide), by simp; omega⟩
      · exact ⟨isWord_lit (by decide), hwd⟩) (isWord_lit (by decide))
    (fun a => [pe a.longTermMean, pe a.longTermStddev, Str.printNat a.ensemble])
    (fun d a => brief_process_line pe hpe width width d a) (fun d a => C63_process_line pe hpe width width d a)
  refine ⟨m, title, rows, h1, h2, h3, ?_⟩
  have hfil : (m.filter fun p => !(processAnalyzer f mn mx b l).skip p.2) = m.filter fun p => p.2.ensemble ≠ 0 := by
    refine List.filter_congr fun p _ => ?_
    simp [processAnalyzer]
  rw [hfil] at h4
  exact h4

/-- The table of a vector analysis: number of samples first, as the title says, then mean and spread of every
variable; the title names only the first mean and spread. -/
theorem C63_vector_table (numVar : Nat) (mn mx b l : F) (o : AnalysisOutput)
    (h : analyzeDir (vecAnalyzer f numVar mn mx b l) (vecExporter pe width fuel) f pe dh fromFile names exist listing
      date width pre dataDir fuel = some (.ok o))
    (hpe : WritesWords pe) (hn : ∀ n ∈ names, Str.IsWord n ∧ n.length < width) (hwd : 8 < width) :
    ∃ m title rows,
      (vecAnalyzer f numVar mn mx b l).loop (DataSet.eqv dh) fromFile [] (((listing dataDir).getD []) ++ [Entry.dir]) =
        .ok m ∧
      Str.lines o.summary.text = title :: rows ∧
      Str.words title = names ++ [chars! "ensemble", chars! "meantime", chars! "stddev"] ∧
      List.Forall₂ (fun (p : DataSet F × TimeVecAnalysis F) row => (TimeVecAnalysis.draw p.2).2 = .ok () ∧
          Str.words row = p.1.vars.map (fun v => v.2.cell pe) ++ Str.printNat p.2.draw.1.ensemble ::
            ((p.2.draw.1.means.zip p.2.draw.1.stddevs).map fun m => [pe m.1, pe m.2]).flatten)
        (m.filter fun p => p.2.ensemble ≠ 0) rows := by
  obtain ⟨m, title, rows, h1, h2, h3, h4⟩ := C63_table (vecAnalyzer f numVar mn mx b l) (vecExporter pe width fuel)
    f pe dh fromFile names exist listing date width pre dataDir fuel o h hn
    [chars! "ensemble", chars! "meantime"] (chars! "stddev") rfl (by
      intro n hn
      simp only [List.mem_cons, List.not_mem_nil, or_false] at hn
      rcases hn with rfl | rfl
      · exact ⟨isWord_lit (by decide), hwd⟩
      · exact ⟨isWord_lit (by decide), hwd⟩) (isWord_lit (by decide))
    (fun a => Str.printNat a.ensemble :: ((a.means.zip a.stddevs).map fun m : F × F => [pe m.1, pe m.2]).flatten)
    (fun d a => brief_vector_line pe hpe width width d a) (fun d a => C63_vector_line pe hpe width width d a)
  refine ⟨m, title, rows, h1, h2, h3, ?_⟩
  have hfil : (m.filter fun p => !(vecAnalyzer f numVar mn mx b l).skip p.2) = m.filter fun p => p.2.ensemble ≠ 0 := by
    refine List.filter_congr fun p _ => ?_
    simp [vecAnalyzer]
  rw [hfil] at h4
  exact h4

/-- The names of the recorded variables of the crate and the width 15 used by its programs meet the conditions. -/
example (f : NumFmt F) : ∀ c ∈ chosenNames f, ∀ n ∈ c.2, Str.IsWord n ∧ n.length < 15 := by
  intro c hc
  simp only [chosenNames, List.mem_cons, List.not_mem_nil, or_false] at hc
  rcases hc with rfl | rfl | rfl | rfl | rfl | rfl | rfl | rfl | rfl | rfl | rfl | rfl | rfl <;>
    intro n hn <;> simp only [List.mem_cons, List.not_mem_nil, or_false] at hn <;>
    (try rcases hn with rfl | rfl | rfl | rfl) <;> exact ⟨isWord_lit (by decide), by decide⟩

end Table
end Moledyn.Props
