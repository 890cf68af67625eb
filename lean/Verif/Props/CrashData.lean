import Verif.Props.Crash
/-
C98: what the analysis makes of a result file that was cut in its data.
-/
set_option linter.unusedSimpArgs false
namespace Moledyn.Props
open Moledyn OutFile
variable {F A X : Type}

theorem dataText_eq {cs : List (Component F)} {sim : Component F} (line : X → Str) (r : RunOf cs sim X) :
    r.dataText line = textOf (r.rows.map line) := by
  simp [RunOf.dataText, textOf, List.map_map, Function.comp_def]

/-- every text is lines and an open end -/
theorem text_split (s : Str) : ∃ ls w, s = textOf ls ++ w ∧ '\n' ∉ w ∧ ∀ l ∈ ls, '\n' ∉ l := by
  induction s with
  | nil => exact ⟨[], [], rfl, by simp, by simp⟩
  | cons c s ih =>
    obtain ⟨ls, w, rfl, hw, hl⟩ := ih
    by_cases hc : c = '\n'
    · subst hc
      exact ⟨[] :: ls, w, by simp [textOf], hw, by simpa using hl⟩
    · cases ls with
      | nil => exact ⟨[], c :: w, by simp [textOf], by simp [hw, Ne.symm hc], by simp⟩
      | cons l ls =>
        refine ⟨(c :: l) :: ls, w, by simp [textOf], hw, ?_⟩
        intro l' hl'
        rcases List.mem_cons.1 hl' with rfl | h
        · simp [Ne.symm hc, hl l (by simp)]
        · exact hl l' (by simp [h])

/-- what is in front of a line feed is lines -/
theorem text_closed (s : Str) : ∃ ls, s ++ ['\n'] = textOf ls ∧ ∀ l ∈ ls, '\n' ∉ l := by
  obtain ⟨ls, w, rfl, hw, hl⟩ := text_split s
  refine ⟨ls ++ [w], by simp [textOf], ?_⟩
  intro l h
  rcases List.mem_append.1 h with h | h
  · exact hl l h
  · simp only [List.mem_singleton] at h; subst h; exact hw

theorem lines_append_closed (s b : Str) : Str.lines (s ++ ['\n'] ++ b) = Str.lines (s ++ ['\n']) ++ Str.lines b := by
  obtain ⟨ls, e, hl⟩ := text_closed s
  have h1 := lines_text ls hl b
  have h2 := lines_text ls hl []
  have h3 : Str.lines [] = [] := by decide
  rw [h3, List.append_nil, List.append_nil] at h2
  rw [e, h1, h2]

theorem header_ends {width : Nat} {Ss : List Schema} {v : AllVals Ss} {h : Str} (hh : fileHeader width Ss v = .ok h) :
    ∃ s, h = s ++ ['\n'] := by
  rw [fileHeader] at hh
  cases hp : printAll width Ss v with
  | ok b => rw [hp] at hh; exact ⟨_, (Res.ok.inj hh).symm⟩
  | err e => rw [hp] at hh; cases hh
  | panic => rw [hp] at hh; cases hh

section Runs
variable {cs : List (Component F)} {sim : Component F}

/-- A result file cut anywhere in its data: it is the header, the lines of the first `k` results and a beginning `w` of the line of
the next one.  The analysis takes it as a file with these `k` lines and, if `w` is not empty, one more line `w`; it is never
an obstacle of its own. -/
theorem C98_data_cut (width : Nat) (line : X → Str) (r : RunOf cs sim X)
    (hn : ∀ S ∈ schemasOf cs, ∀ f ∈ S.fields, f.NameOk) (hns : ∀ f ∈ sim.schema.fields, f.NameOk) (hp : r.Printable)
    (hl : ∀ v ∈ r.rows, '\n' ∉ line v) (h : Str)
    (hh : fileHeader width (schemasOf cs ++ [sim.schema]) (AllVals.snoc r.vals r.simVals) = .ok h)
    (D : Str) (hD : D <+: r.dataText line) :
    ∃ k w, k ≤ r.rows.length ∧ D = (RunOf.first k r).dataText line ++ w ∧
      (w = [] ∨ ∃ v, r.rows[k]? = some v ∧ w <+: line v) ∧
      (Entry.file (Reader.ofLines (Str.lines (h ++ D)))).contributes (DataSet.fromFile cs sim) =
        some (r.dataset, Reader.ofLines ((r.rows.take k).map (fun v => Str.stripCR (line v)) ++ if w = [] then [] else [w])) ∧
      ¬ (Entry.file (Reader.ofLines (Str.lines (h ++ D)))).fatal (DataSet.fromFile cs sim) := by
  rw [dataText_eq] at hD
  obtain ⟨k, w, hk, e, hw⟩ := prefix_text _ _ hD
  have hw' : w = [] ∨ ∃ v, r.rows[k]? = some v ∧ w <+: line v := by
    rcases hw with hw | ⟨l, h1, h2⟩
    · exact .inl hw
    · rw [List.getElem?_map, Option.map_eq_some_iff] at h1
      obtain ⟨v, h1, rfl⟩ := h1
      exact .inr ⟨v, h1, h2⟩
  have hwn : '\n' ∉ w := by
    rcases hw' with rfl | ⟨v, h1, h2⟩
    · simp
    · exact fun hc => hl v (List.mem_of_getElem? h1) (h2.subset hc)
  have hlines : Str.lines D = (r.rows.take k).map (fun v => Str.stripCR (line v)) ++ if w = [] then [] else [w] := by
    rw [e, ← List.map_take, lines_text _ (by
      intro l hl'
      obtain ⟨v, hv, rfl⟩ := List.mem_map.1 hl'
      exact hl v (List.mem_of_mem_take hv)), lines_open hwn, List.map_map]
    rfl
  obtain ⟨t, ht, hff⟩ := C51_from_file width cs sim r.vals r.simVals hn hns hp.1 hp.2 D
  rw [hh] at ht; obtain rfl := Res.ok.inj ht
  refine ⟨k, w, by simpa using hk, ?_, hw', ?_, ?_⟩
  · rw [e, dataText_eq, RunOf.first, List.map_take]
  · simp only [Entry.contributes, hff, hlines]
    rfl
  · simp only [Entry.fatal, hff]
    simp

/-- Cut at the end of a line, the file is the complete file of a run with fewer results. -/
theorem C98_cut_between_lines (width : Nat) (line : X → Str) (r : RunOf cs sim X) (h : Str)
    (hh : fileHeader width (schemasOf cs ++ [sim.schema]) (AllVals.snoc r.vals r.simVals) = .ok h) (k : Nat) :
    (RunOf.first k r).File width line (.file (Reader.ofLines (Str.lines (h ++ (RunOf.first k r).dataText line)))) :=
  ⟨h, hh, rfl⟩

/-- And so it is if only the line feed of the last line is missing. -/
theorem C98_last_line_feed (width : Nat) (line : X → Str) (r : RunOf cs sim X) (h : Str)
    (hh : fileHeader width (schemasOf cs ++ [sim.schema]) (AllVals.snoc r.vals r.simVals) = .ok h)
    (hl : ∀ v ∈ r.rows, '\n' ∉ line v) (k : Nat) (v : X) (hv : r.rows[k]? = some v) (hne : line v ≠ [])
    (hcr : (line v).getLast? ≠ some '\r') :
    (RunOf.first (k + 1) r).File width line
      (.file (Reader.ofLines (Str.lines (h ++ ((RunOf.first k r).dataText line ++ line v))))) := by
  refine ⟨h, hh, ?_⟩
  obtain ⟨s, rfl⟩ := header_ends hh
  have hs : Str.stripCR (line v) = line v := by
    rcases Str.stripCR_cases (line v) with h | ⟨t, h, -⟩
    · exact h
    · exact absurd (by rw [h]; simp) hcr
  have hL : ∀ l ∈ ((r.rows.take k).map line), '\n' ∉ l := by
    intro l hl'
    obtain ⟨u, hu, rfl⟩ := List.mem_map.1 hl'
    exact hl u (List.mem_of_mem_take hu)
  have hv' := hl v (List.mem_of_getElem? hv)
  have hN : Str.lines [] = [] := by decide
  have e : (RunOf.first (k + 1) r).dataText line = (RunOf.first k r).dataText line ++ (textOf [line v] ++ []) := by
    rw [dataText_eq, dataText_eq, RunOf.first, RunOf.first]
    rw [List.take_add_one, hv]
    simp [textOf]
  rw [lines_append_closed, lines_append_closed, e, dataText_eq]
  simp only [RunOf.first]
  rw [lines_text _ hL, lines_text _ hL, lines_open hv', if_neg hne, lines_text _ (by simpa using hv'), hN]
  simp [hs]
end Runs

/-! ### runs that write one number per line -/

/-- The numbers a file with a line cut to `w` is taken for: those of the complete lines, and what `w` says. -/
theorem C98_cut_number (f : NumFmt F) (pd : F → Str) (rd : F → F) (ok : F → Prop) (hpd : ReadsAs f pd rd ok)
    (ts : List F) (ht : ∀ t ∈ ts, ok t) (w : Str) :
    samplesOf f (Reader.ofLines (ts.map (fun t => Str.stripCR (pd t)) ++ [w])) =
      (f.parse (Str.trim w)).map fun x => ts.map rd ++ [x] := by
  induction ts with
  | nil =>
    simp only [Reader.ofLines, List.map_nil, List.nil_append, List.map_cons, samplesOf]
    cases f.parse (Str.trim w) <;> rfl
  | cons t ts ih =>
    have ih := ih fun t h => ht t (by simp [h])
    have hr : f.parse (Str.trim (Str.stripCR (pd t))) = some (rd t) := by
      rw [Str.trim_stripCR]
      have hb := hpd.noBlank t (ht t (by simp))
      rw [Str.trim_id (fun c hc => hb c (List.mem_of_mem_head? hc)) (fun c hc => hb c (List.mem_of_mem_getLast? hc))]
      exact hpd.reads t (ht t (by simp))
    simp only [Reader.ofLines, List.map_cons, List.cons_append, samplesOf, hr, Option.bind_some] at ih ⊢
    rw [ih]
    cases f.parse (Str.trim w) <;> rfl

private theorem samplesOf_bad (f : NumFmt F) (w : Str) (hw : f.parse (Str.trim w) = none) (rd : Reader) (h : Except.ok w ∈ rd) :
    samplesOf f rd = none := by
  induction rd with
  | nil => simp at h
  | cons x rd ih =>
    cases x with
    | error t => rfl
    | ok l =>
      rcases List.mem_cons.1 h with h | h
      · cases h; simp [samplesOf, hw]
      · simp [samplesOf, ih h]

/-- If what is left of the cut number is not a number, the whole analysis ends without a result, whatever else is in the
directory. -/
theorem C98_cut_number_stops {D K : Type} [DecidableEq K] [Fl F] (f : NumFmt F) (mn mx b l : F) (cls : D → K)
    (fromFile : Reader → Res D × Reader) (es : List Entry) (e : Entry) (he : e ∈ es) (d : D) (rd : Reader)
    (hc : e.contributes fromFile = some (d, rd)) (w : Str) (hw : Except.ok w ∈ rd) (hp : f.parse (Str.trim w) = none) :
    ∀ m, (timeAnalyzer f mn mx b l).loop (fun a b => decide (cls a = cls b)) fromFile [] es ≠ .ok m := by
  intro m hm
  obtain ⟨-, h⟩ := (C51_succeeds_iff _ cls fromFile es).1 ⟨m, hm⟩
  obtain ⟨a0, a, -, h2⟩ := h e he d rd hc
  obtain ⟨s, hs, -⟩ := (time_lines_iff f mn mx b l _ _ _).1 h2
  rw [samplesOf_bad f w hp] at hs
  · cases hs
  · unfold groupData
    refine List.mem_flatten.2 ⟨rd, List.mem_map.2 ⟨(d, rd), List.mem_filter.2 ⟨List.mem_filterMap.2 ⟨e, he, hc⟩, by simp⟩, rfl⟩, hw⟩

end Moledyn.Props
