import Verif.Spec.Layout
import Verif.Props.Help
/-
C83: the layout of the distribution files.
-/
namespace Moledyn.Props
open Moledyn
set_option linter.unusedSimpArgs false

theorem rightAligned_padLeft (w : Nat) (s : Str) : Str.RightAligned w s (Str.padLeft w s) := by
  refine ⟨List.replicate (w - s.length) ' ', rfl, fun c hc => List.eq_of_mem_replicate hc, ?_⟩
  simp only [Str.padLeft, List.length_append, List.length_replicate]
  omega

theorem padLeft_char {w : Nat} {s : Str} {c : Char} (hc : c ∈ Str.padLeft w s) : c = ' ' ∨ c ∈ s := by
  rw [Str.padLeft, List.mem_append] at hc
  exact hc.imp (fun h => List.eq_of_mem_replicate h) id

theorem padLeft_no_tab {w : Nat} {s : Str} (hs : Str.IsWord s) : ∀ c ∈ Str.padLeft w s, ¬ c = '\t' := by
  intro c hc h
  subst h
  rcases padLeft_char hc with h | h
  · revert h; decide
  · have := hs.2 _ h; revert this; decide

theorem plain_padLeft {w : Nat} {s : Str} (hs : Str.IsWord s) : PlainLine (Str.padLeft w s) := by
  constructor <;> (intro h; rcases padLeft_char h with h | h)
  · revert h; decide
  · have := hs.2 _ h; revert this; decide
  · revert h; decide
  · have := hs.2 _ h; revert this; decide

theorem printNat_word (n : Nat) : Str.IsWord (Str.printNat n) :=
  ⟨Str.printNat_ne_nil n, fun _ hc => Str.printNat_not_ws _ hc⟩

/-- the cells with a tab after each. -/
def tabbed (w : Nat) (ts : List Str) : Str := (ts.map fun t => Str.padLeft w t ++ ['\t']).flatten

/-- cells, the last without a tab. -/
theorem cut_tabbed (w : Nat) : ∀ (ts : List Str) (t : Str), (∀ x ∈ ts, Str.IsWord x) → Str.IsWord t →
    Str.TableLine w (ts ++ [t]) (tabbed w ts ++ Str.padLeft w t)
  | [], t, _, ht => ⟨[Str.padLeft w t], ⟨rfl, padLeft_no_tab ht⟩, .cons (rightAligned_padLeft w t) .nil⟩
  | x :: ts, t, hx, ht => by
    obtain ⟨cells, hc, hf⟩ := cut_tabbed w ts t (fun y hy => hx y (by simp [hy])) ht
    refine ⟨Str.padLeft w x :: cells, ?_, .cons (rightAligned_padLeft w x) hf⟩
    match cells, hc with
    | c :: cs, hc =>
      refine ⟨'\t', _, ?_, padLeft_no_tab (hx x (by simp)), rfl, hc⟩
      simp [tabbed]

theorem plain_tabbed (w : Nat) (ts : List Str) (h : ∀ x ∈ ts, Str.IsWord x) : PlainLine (tabbed w ts) := by
  refine plain_flatten fun x hx => ?_
  obtain ⟨t, ht, rfl⟩ := List.mem_map.1 hx
  exact plain_append (plain_padLeft (h t ht)) ⟨by decide, by decide⟩

theorem lines_of_table {R : Type*} (row : R → Str) (line : R → Str) (hrow : ∀ r, row r = line r ++ ['\n'])
    (hp : ∀ r, PlainLine (line r)) (rows : List R) : Str.lines (rows.map row).flatten = rows.map line := by
  have := lines_plain (rows.map line) (fun l hl => by obtain ⟨r, -, rfl⟩ := List.mem_map.1 hl; exact hp r)
  rw [List.map_map] at this
  rw [show row = (fun l => l ++ ['\n']) ∘ line from funext hrow]
  exact this

theorem forall₂_map_right' {R : Type*} {P : R → Str → Prop} (line : R → Str) (h : ∀ r, P r (line r)) (rows : List R) :
    List.Forall₂ P rows (rows.map line) := by
  induction rows with
  | nil => exact .nil
  | cons r rows ih => exact .cons (h r) ih

variable {F : Type}

/-- A distribution file of a time analysis has one line per row, of three cells of the given width: left end of the bin,
number of results in it, density. -/
theorem C83_time_rows (pe : F → Str) (hpe : WritesWords pe) (width : Nat) (rows : List (F × Nat × F)) :
    List.Forall₂ (fun r line => Str.TableLine width [pe r.1, Str.printNat r.2.1, pe r.2.2] line) rows
      (Str.lines (rows.map (timeRowText pe width)).flatten) := by
  let line : F × Nat × F → Str := fun r => tabbed width [pe r.1, Str.printNat r.2.1] ++ Str.padLeft width (pe r.2.2)
  have hw : ∀ r : F × Nat × F, ∀ x ∈ [pe r.1, Str.printNat r.2.1], Str.IsWord x := by
    intro r x hx
    simp only [List.mem_cons, List.not_mem_nil, or_false] at hx
    rcases hx with rfl | rfl
    · exact hpe _
    · exact printNat_word _
  rw [lines_of_table _ line (fun r => by simp [timeRowText, line, tabbed])
    (fun r => plain_append (plain_tabbed _ _ (hw r)) (plain_padLeft (hpe _)))]
  exact forall₂_map_right' line (fun r => cut_tabbed width _ _ (hw r) (hpe _)) rows

/-- The same for a process analysis: time, number of ensembles, mean, spread. -/
theorem C83_process_rows (pe : F → Str) (hpe : WritesWords pe) (width : Nat) (rows : List (F × Nat × F × F)) :
    List.Forall₂ (fun r line => Str.TableLine width [pe r.1, Str.printNat r.2.1, pe r.2.2.1, pe r.2.2.2] line) rows
      (Str.lines (rows.map (processRowText pe width)).flatten) := by
  let line : F × Nat × F × F → Str := fun r =>
    tabbed width [pe r.1, Str.printNat r.2.1, pe r.2.2.1] ++ Str.padLeft width (pe r.2.2.2)
  have hw : ∀ r : F × Nat × F × F, ∀ x ∈ [pe r.1, Str.printNat r.2.1, pe r.2.2.1], Str.IsWord x := by
    intro r x hx
    simp only [List.mem_cons, List.not_mem_nil, or_false] at hx
    rcases hx with rfl | rfl | rfl
    · exact hpe _
    · exact printNat_word _
    · exact hpe _
  rw [lines_of_table _ line (fun r => by simp [processRowText, line, tabbed])
    (fun r => plain_append (plain_tabbed _ _ (hw r)) (plain_padLeft (hpe _)))]
  exact forall₂_map_right' line (fun r => cut_tabbed width _ _ (hw r) (hpe _)) rows

theorem tabbed_snoc (w : Nat) (ts : List Str) (h : ts ≠ []) :
    tabbed w ts = tabbed w ts.dropLast ++ Str.padLeft w (ts.getLast h) ++ ['\t'] := by
  conv_lhs => rw [← List.dropLast_append_getLast h]
  simp [tabbed]

/-- The same for a vector analysis: left end of the bin, then number and density for every variable; every line ends with a
tab. -/
theorem C83_vector_rows (pe : F → Str) (hpe : WritesWords pe) (width : Nat) (rows : List (F × List (Nat × F))) :
    List.Forall₂ (fun r line => Str.TableLineTab width
        (pe r.1 :: (r.2.map fun c => [Str.printNat c.1, pe c.2]).flatten) line) rows
      (Str.lines (rows.map (vecRowText pe width)).flatten) := by
  let texts : F × List (Nat × F) → List Str := fun r => pe r.1 :: (r.2.map fun c => [Str.printNat c.1, pe c.2]).flatten
  have hw : ∀ r, ∀ x ∈ texts r, Str.IsWord x := by
    intro r x hx
    simp only [texts, List.mem_cons, List.mem_flatten, List.mem_map] at hx
    rcases hx with rfl | ⟨l, ⟨c, -, rfl⟩, hx⟩
    · exact hpe _
    · simp only [List.mem_cons, List.not_mem_nil, or_false] at hx
      rcases hx with rfl | rfl
      · exact printNat_word _
      · exact hpe _
  have hrow : ∀ r, vecRowText pe width r = tabbed width (texts r) ++ ['\n'] := by
    intro r
    have : ∀ l : List (Nat × F), (l.map fun c => Str.padLeft width (Str.printNat c.1) ++ ['\t'] ++ Str.padLeft width (pe c.2) ++ ['\t']).flatten =
        tabbed width ((l.map fun c => [Str.printNat c.1, pe c.2]).flatten) := by
      intro l
      induction l with
      | nil => rfl
      | cons c l ih =>
        rw [List.map_cons, List.flatten_cons, ih]
        simp [tabbed]
    simp only [vecRowText, this, texts]
    simp [tabbed]
  rw [lines_of_table _ (fun r => tabbed width (texts r)) hrow (fun r => plain_tabbed _ _ (hw r))]
  refine forall₂_map_right' _ (fun r => ?_) rows
  have hne : texts r ≠ [] := by simp [texts]
  refine ⟨tabbed width (texts r).dropLast ++ Str.padLeft width ((texts r).getLast hne), tabbed_snoc _ _ hne, ?_⟩
  have := cut_tabbed width (texts r).dropLast ((texts r).getLast hne) (fun x hx => hw r x (List.dropLast_subset _ hx))
    (hw r _ (List.getLast_mem hne))
  rw [List.dropLast_append_getLast hne] at this
  exact this

section Files
variable [Fl F]

theorem analyzeDir_summary {A : Type} {z : Analyzer A} {x : Exporter A} {f : NumFmt F} {pe : F → Str} {dh : List Nat → Nat}
    {fromFile : Reader → Res (DataSet F) × Reader} {names : List Str} {exist : Str → Bool}
    {listing : Str → Option (List Entry)} {date : Str} {width : Nat} {pre dataDir : Str} {fuel : Nat} {o : AnalysisOutput}
    (h : analyzeDir z x f pe dh fromFile names exist listing date width pre dataDir fuel = some (.ok o)) :
    o.summary.path = o.dir ++ chars! "/" ++ x.summaryName ∧ ∃ body, o.summary.text =
      DataSet.exportForm width names ++ DataSet.exportForm width x.labels ++ ['\n'] ++ body := by
  unfold analyzeDir at h
  cases hd : summaryDir exist dataDir date fuel with
  | none => rw [hd] at h; simp at h
  | some dir =>
    rw [hd] at h
    simp only [Option.bind_some] at h
    split at h
    · rename_i m _
      cases hx : x.all z.skip f pe width pre dir m with
      | none => rw [hx] at h; simp at h
      | some q =>
        rw [hx] at h
        simp only [Option.map_some, Option.some.injEq] at h
        cases q with
        | ok r => simp only [Res.map, Res.ok.injEq] at h; subst h; exact ⟨rfl, r.1, rfl⟩
        | err e => simp [Res.map] at h
        | panic => simp [Res.map] at h
    · simp at h
    · simp at h

/-- The summary table of a time analysis and of a vector analysis is `brief_result.dat`, that of a process analysis
`brief_data.dat`, in the directory for the results. -/
theorem C83_summary_name (f : NumFmt F) (pe : F → Str) (dh : List Nat → Nat) (fromFile : Reader → Res (DataSet F) × Reader)
    (names : List Str) (exist : Str → Bool) (listing : Str → Option (List Entry)) (date : Str) (args : List Str) (width : Nat)
    (pre : Str) (fuel : Nat) (o : AnalysisOutput) :
    (timeAnalyze f pe dh fromFile names exist listing date args width pre fuel = some (.ok o) →
      o.summary.path = o.dir ++ chars! "/brief_result.dat") ∧
    (vecAnalyze f pe dh fromFile names exist listing date args width pre fuel = some (.ok o) →
      o.summary.path = o.dir ++ chars! "/brief_result.dat") ∧
    (processAnalyze f pe dh fromFile names exist listing date args width pre fuel = some (.ok o) →
      o.summary.path = o.dir ++ chars! "/brief_data.dat") := by
  refine ⟨fun h => ?_, fun h => ?_, fun h => ?_⟩
  · unfold timeAnalyze at h
    split at h
    · rw [(analyzeDir_summary h).1, List.append_assoc]; rfl
    · simp at h
    · simp at h
  · unfold vecAnalyze at h
    split at h
    · rw [(analyzeDir_summary h).1, List.append_assoc]; rfl
    · simp at h
    · simp at h
  · unfold processAnalyze at h
    split at h
    · rw [(analyzeDir_summary h).1, List.append_assoc]; rfl
    · simp at h
    · simp at h

end Files

/-- Two rows, as they stand in the file. -/
example : (Str.lines (([(3, 1, 20), (4, 12345, 5)] : List (Nat × Nat × Nat)).map (timeRowText Str.printNat 4)).flatten) =
    [chars! "   3\t   1\t  20", chars! "   4\t12345\t   5"] := by decide

end Moledyn.Props
