import Verif.Props.CrashHeader
/-
C98: a simulation stopped at any moment, from the calls it has made to what the analysis makes of its file.
-/
set_option linter.unusedSimpArgs false
namespace Moledyn.Props
open Moledyn OutFile
variable {F A X : Type}

theorem output_length (blocks results : List Str) :
    (outputOps blocks results).length = blocks.length + 3 + 3 * results.length := by
  have : ∀ rs : List Str, (rs.flatMap fun l => [Op.write l, Op.write ['\n'], Op.flush]).length = 3 * rs.length := by
    intro rs
    induction rs with
    | nil => rfl
    | cons r rs ih => rw [List.flatMap_cons, List.length_append, ih]; simp; omega
  rw [outputOps, List.length_append, this]
  simp

theorem printBlocks_printAll (width : Nat) (Ss : List Schema) (v : AllVals Ss) (blocks : List Str)
    (h : printBlocks width Ss v = .ok blocks) : printAll width Ss v = .ok blocks.flatten := by
  induction Ss generalizing blocks with
  | nil => obtain rfl := Res.ok.inj h; rfl
  | cons S Ss ih =>
    rw [printBlocks] at h
    rw [printAll]
    cases h1 : printConfiguration width S.fields v.1 with
    | err e => rw [h1] at h; cases h
    | panic => rw [h1] at h; cases h
    | ok a =>
      rw [h1] at h
      cases h2 : printBlocks width Ss v.2 with
      | err e => rw [h2] at h; cases h
      | panic => rw [h2] at h; cases h
      | ok bs =>
        rw [h2] at h
        obtain rfl := Res.ok.inj h
        rw [ih v.2 bs h2]
        rfl

/-- the other way round: what can be printed at all can be printed block by block. -/
theorem printAll_printBlocks (width : Nat) (Ss : List Schema) (v : AllVals Ss) (t : Str)
    (h : printAll width Ss v = .ok t) : ∃ blocks, printBlocks width Ss v = .ok blocks ∧ blocks.flatten = t := by
  induction Ss generalizing t with
  | nil => exact ⟨[], rfl, Res.ok.inj h⟩
  | cons S Ss ih =>
    rw [printAll] at h
    rw [printBlocks]
    cases h1 : printConfiguration width S.fields v.1 with
    | err e => rw [h1] at h; cases h
    | panic => rw [h1] at h; cases h
    | ok a =>
      rw [h1] at h
      cases h2 : printAll width Ss v.2 with
      | err e => rw [h2] at h; cases h
      | panic => rw [h2] at h; cases h
      | ok t' =>
        rw [h2] at h
        obtain rfl := Res.ok.inj h
        obtain ⟨bs, hb, rfl⟩ := ih v.2 t' h2
        rw [hb]
        exact ⟨a :: bs, rfl, rfl⟩

theorem header_of_blocks (width : Nat) (Ss : List Schema) (v : AllVals Ss) (blocks : List Str)
    (h : printBlocks width Ss v = .ok blocks) (results : List Str) :
    ∃ t, fileHeader width Ss v = .ok t ∧ written (outputOps blocks results) = t ++ textOf results := by
  refine ⟨_, by rw [fileHeader, printBlocks_printAll width Ss v blocks h]; rfl, ?_⟩
  rw [written_output]

theorem count_newlines (ls : List Str) (h : ∀ l ∈ ls, '\n' ∉ l) : (textOf ls).count '\n' = ls.length := by
  induction ls with
  | nil => rfl
  | cons l ls ih =>
    have e : textOf (l :: ls) = l ++ '\n' :: textOf ls := by simp [textOf]
    rw [e, List.count_append, List.count_cons_self, ih (fun l hl => h l (by simp [hl])), List.count_eq_zero.2 (h l (by simp))]
    simp

section Runs
variable {cs : List (Component F)} {sim : Component F}

/-- A simulation whose result file is that of the run `r` was stopped when the calls for its first `n` ensembles had been made
(three calls per ensemble, after the `blocks.length + 3` calls for the header).  The file is the header, the lines of `k ≥ n`
ensembles and possibly a beginning `w` of the next line, and the analysis takes it for a file with these lines. -/
theorem C98_stopped_run (cap : Nat) (old : Str) (width : Nat) (line : X → Str) (r : RunOf cs sim X)
    (hn : ∀ S ∈ schemasOf cs, ∀ f ∈ S.fields, f.NameOk) (hns : ∀ f ∈ sim.schema.fields, f.NameOk) (hp : r.Printable)
    (hl : ∀ v ∈ r.rows, '\n' ∉ line v) (blocks : List Str)
    (hb : printBlocks width (schemasOf cs ++ [sim.schema]) (AllVals.snoc r.vals r.simVals) = .ok blocks)
    (i : Nat) (d : Str) (hd : StopsAt cap old (outputOps blocks (r.rows.map line)) i d)
    (n : Nat) (hnr : n ≤ r.rows.length) (hi : blocks.length + 3 + 3 * n ≤ i) :
    ∃ h k w, fileHeader width (schemasOf cs ++ [sim.schema]) (AllVals.snoc r.vals r.simVals) = .ok h ∧
      n ≤ k ∧ k ≤ r.rows.length ∧ d = h ++ ((RunOf.first k r).dataText line ++ w) ∧
      (w = [] ∨ ∃ v, r.rows[k]? = some v ∧ w <+: line v) ∧
      (Entry.file (Reader.ofLines (Str.lines d))).contributes (DataSet.fromFile cs sim) =
        some (r.dataset, Reader.ofLines ((r.rows.take k).map (fun v => Str.stripCR (line v)) ++ if w = [] then [] else [w])) ∧
      ¬ (Entry.file (Reader.ofLines (Str.lines d))).fatal (DataSet.fromFile cs sim) := by
  obtain ⟨h, hh, hw⟩ := header_of_blocks width _ _ blocks hb (r.rows.map line)
  obtain ⟨h', hh', hw'⟩ := header_of_blocks width _ _ blocks hb ((r.rows.map line).take n)
  rw [hh] at hh'; obtain rfl := Res.ok.inj hh'
  obtain ⟨k1, -⟩ := C98_finished_ensembles_kept cap old blocks (r.rows.map line) i d hd n
  have k1 := k1 (by rw [output_length, List.length_take, List.length_map]; omega)
  rw [hw'] at k1
  have k2 : d <+: h ++ textOf (r.rows.map line) := by
    rw [← hw]
    refine (C98_file_on_disk cap old _ i d hd).1.trans ?_
    conv_rhs => rw [← List.take_append_drop (i + 1) (outputOps blocks (r.rows.map line)), written_append]
    exact List.prefix_append _ _
  obtain ⟨rest, rfl⟩ := (List.prefix_append h (textOf ((r.rows.map line).take n))).trans k1
  rw [List.prefix_append_right_inj] at k1 k2
  obtain ⟨k, w, hk, e, hww, hc, hf⟩ := C98_data_cut width line r hn hns hp hl h hh rest (by rw [dataText_eq]; exact k2)
  refine ⟨h, k, w, hh, ?_, hk, by rw [e], hww, hc, hf⟩
  have hwn : '\n' ∉ w := by
    rcases hww with rfl | ⟨v, h1, h2⟩
    · simp
    · exact fun hc => hl v (List.mem_of_getElem? h1) (h2.subset hc)
  have c1 := k1.sublist.count_le '\n'
  have noNL : ∀ m, ∀ l ∈ (r.rows.map line).take m, '\n' ∉ l := by
    intro m l hl'
    obtain ⟨v, hv, rfl⟩ := List.mem_map.1 (List.mem_of_mem_take hl')
    exact hl v hv
  rw [count_newlines _ (noNL n), e, dataText_eq, RunOf.first, List.map_take, List.count_append, count_newlines _ (noNL k),
    List.count_eq_zero.2 hwn] at c1
  simp only [List.length_take, List.length_map] at c1
  omega

/-- Stopped before the calls for the header had all been made, the file is a beginning of the header. -/
theorem C98_stopped_in_header (cap : Nat) (old : Str) (width : Nat) (line : X → Str) (r : RunOf cs sim X) (blocks : List Str)
    (hb : printBlocks width (schemasOf cs ++ [sim.schema]) (AllVals.snoc r.vals r.simVals) = .ok blocks)
    (i : Nat) (d : Str) (hd : StopsAt cap old (outputOps blocks (r.rows.map line)) i d) (hi : i < blocks.length + 3) :
    ∃ h, fileHeader width (schemasOf cs ++ [sim.schema]) (AllVals.snoc r.vals r.simVals) = .ok h ∧ d <+: h := by
  obtain ⟨h, hh, hw⟩ := header_of_blocks width _ _ blocks hb []
  refine ⟨h, hh, ?_⟩
  obtain ⟨-, k⟩ := C98_finished_ensembles_kept cap old blocks (r.rows.map line) i d hd 0
  have := k (by rw [output_length]; simpa using hi)
  rw [List.take_zero, hw] at this
  simpa [textOf] using this
end Runs

/-! ### every cut can happen -/

private theorem exec_flush (cap : Nat) (w : OutFile) (ops : List Op) :
    exec cap w (ops ++ [.flush]) = ⟨w.disk ++ w.buf ++ written ops, []⟩ := by
  have e : exec cap w (ops ++ [.flush]) = step cap (exec cap w ops) .flush := by simp [exec]
  rw [e, step, (exec_total cap w ops).1]

private theorem exec_output (cap : Nat) (old : Str) (blocks results : List Str) :
    exec cap (create old) (outputOps blocks results) = ⟨written (outputOps blocks results), []⟩ := by
  obtain ⟨c, hc⟩ := output_last blocks results
  rw [hc, exec_flush, written_append]
  simp [create, written]

/-- Every beginning of a line can be what is left of it: the program may stop in the `flush` behind the line. -/
theorem C98_any_cut_happens (cap : Nat) (old : Str) (blocks before : List Str) (l : Str) (after : List Str)
    (hc : l.length + 1 < cap) (w : Str) (hw : w <+: l ++ ['\n']) :
    StopsAt cap old (outputOps blocks (before ++ l :: after)) (blocks.length + 3 + 3 * before.length + 2)
      (written (outputOps blocks before) ++ w) := by
  have e : outputOps blocks (before ++ l :: after) =
      outputOps blocks before ++ ([Op.write l, Op.write ['\n']] ++ ([.flush] ++
        after.flatMap fun l => [Op.write l, Op.write ['\n'], Op.flush])) := by
    rw [output_split]; simp
  have hlen := output_length blocks before
  have t2 : (outputOps blocks (before ++ l :: after)).take (blocks.length + 3 + 3 * before.length + 2) =
      outputOps blocks before ++ [Op.write l, Op.write ['\n']] := by
    rw [e, ← hlen, List.take_append, List.take_of_length_le (by omega)]
    simp
  have t3 : (outputOps blocks (before ++ l :: after)).take (blocks.length + 3 + 3 * before.length + 2 + 1) =
      (outputOps blocks before ++ [Op.write l, Op.write ['\n']]) ++ [.flush] := by
    rw [e, ← hlen, List.take_append, List.take_of_length_le (by omega)]
    have : (outputOps blocks before).length + 2 + 1 - (outputOps blocks before).length = 3 := by omega
    rw [this]
    simp
  unfold StopsAt
  rw [t2, t3, exec_flush, exec_append, exec_output]
  have s1 : exec cap ⟨written (outputOps blocks before), []⟩ [Op.write l, Op.write ['\n']] =
      ⟨written (outputOps blocks before), l ++ ['\n']⟩ := by
    have a1 : ¬ cap < ([] : Str).length + l.length := by simp; omega
    have a1' : ¬ cap < l.length := by omega
    have a2 : ¬ cap ≤ l.length := by omega
    have a3 : ¬ cap < l.length + 1 := by omega
    have a4 : ¬ cap ≤ 1 := by omega
    simp only [exec, List.foldl_cons, List.foldl_nil, step, if_neg a1', if_neg a1, if_neg a2, List.nil_append, List.length_cons, List.length_nil, Nat.zero_add, if_neg a3, if_neg a4]
  rw [s1]
  refine ⟨List.prefix_append _ _, ?_⟩
  rw [written_append]
  have : written [Op.write l, Op.write ['\n']] = l ++ ['\n'] := by simp [written]
  rw [this]
  simpa [create] using hw

/-- Starting the program again empties the file first: of the old file nothing is left, wherever the new run is stopped. -/
theorem C98_restart_empties (cap : Nat) (old old' : Str) (ops : List Op) (i : Nat) (d : Str) :
    (StopsAt cap old ops i d ↔ StopsAt cap old' ops i d) ∧ StopsAt cap old ops 0 [] := by
  refine ⟨Iff.rfl, ?_⟩
  unfold StopsAt
  simp [exec, create]

/-! ### findings -/

/-- Finding: a number that lost its last digits is another number: cut by one digit, `n` is read as `n / 10`. -/
theorem C98_digit_lost (n : Nat) (h : 10 ≤ n) (hn : n < 2 ^ 64) :
    ∃ c, Str.printNat n = Str.printNat (n / 10) ++ [c] ∧ wholeFmt.parse (Str.trim (Str.printNat (n / 10))) = some ((n / 10 : ℕ) : ℝ) := by
  refine ⟨Str.digitChar (n % 10), ?_, ?_⟩
  · have h0 : n ≠ 0 := by omega
    have h1 : n / 10 ≠ 0 := by omega
    rw [Str.printNat, Str.printNat, if_neg h0, if_neg h1, Nat.digits_def' (by omega) (by omega)]
    simp
  · have hw : ∀ c ∈ Str.printNat (n / 10), Str.isWs c = false := Str.printNat_not_ws
    rw [Str.trim_id (fun c hc => hw c (List.mem_of_mem_head? hc)) (fun c hc => hw c (List.mem_of_mem_getLast? hc))]
    exact demo_parse _ (by omega)

/-- A simulation whose first result is `n ≥ 10` may be stopped so that its file says `n / 10`, and the analysis takes the file for
that of a run with this result: nothing is noticed. -/
theorem C98_wrong_result (n m : Nat) (h10 : 10 ≤ n) (hn : n < 2 ^ 64) (cap : Nat) (hcap : (Str.printNat n).length + 1 < cap) (old : Str) :
    ∃ blocks d i, printBlocks 30 (schemasOf [constStepComponent wholeFmt] ++ [variableSimComponent.schema])
        (AllVals.snoc (demoRunOf 1 1 [(n : ℝ), (m : ℝ)]).vals (demoRunOf 1 1 [(n : ℝ), (m : ℝ)]).simVals) = .ok blocks ∧
      StopsAt cap old (outputOps blocks ([(n : ℝ), (m : ℝ)].map wholeFmt.print)) i d ∧
      ∃ rd, (Entry.file (Reader.ofLines (Str.lines d))).contributes
          (DataSet.fromFile [constStepComponent wholeFmt] variableSimComponent) =
          some ((demoRunOf 1 1 [(n : ℝ), (m : ℝ)]).dataset, rd) ∧
        samplesOf wholeFmt rd = some [((n / 10 : ℕ) : ℝ)] := by
  have w1 : Whole 1 := ⟨1, by norm_num, by norm_num⟩
  have hp := demoRunOf_printable (X := ℝ) 1 1 [(n : ℝ), (m : ℝ)] w1 (by norm_num)
  obtain ⟨c, hc, hparse⟩ := C98_digit_lost n h10 hn
  obtain ⟨h, hh, hff⟩ := C51_from_file 30 [constStepComponent wholeFmt] variableSimComponent
    (demoRunOf 1 1 [(n : ℝ), (m : ℝ)]).vals (demoRunOf 1 1 [(n : ℝ), (m : ℝ)]).simVals demo_names
    (fun f hf => names_ok wholeFmt variableSimSchema (by simp) f hf) hp.1 hp.2 (Str.printNat (n / 10))
  obtain ⟨b, hb⟩ : ∃ b, printAll 30 (schemasOf [constStepComponent wholeFmt] ++ [variableSimComponent.schema])
      (AllVals.snoc (demoRunOf 1 1 [(n : ℝ), (m : ℝ)]).vals (demoRunOf 1 1 [(n : ℝ), (m : ℝ)]).simVals) = .ok b := by
    rw [fileHeader] at hh
    cases hq : printAll 30 (schemasOf [constStepComponent wholeFmt] ++ [variableSimComponent.schema])
      (AllVals.snoc (demoRunOf 1 1 [(n : ℝ), (m : ℝ)]).vals (demoRunOf 1 1 [(n : ℝ), (m : ℝ)]).simVals) with
    | ok b => exact ⟨b, rfl⟩
    | err e => rw [hq] at hh; cases hh
    | panic => rw [hq] at hh; cases hh
  obtain ⟨blocks, hbl, -⟩ := printAll_printBlocks _ _ _ _ hb
  obtain ⟨h', hh', hw⟩ := header_of_blocks _ _ _ blocks hbl []
  rw [hh] at hh'; obtain rfl := Res.ok.inj hh'
  have hw : written (outputOps blocks []) = h := by simpa [textOf] using hw
  have hpn : wholeFmt.print (n : ℝ) = Str.printNat n := by
    show Str.printNat ⌊(n : ℝ)⌋₊ = _
    rw [Nat.floor_natCast]
  have hnl : '\n' ∉ Str.printNat (n / 10) := fun hc => by
    have := Str.printNat_not_ws _ hc
    revert this; decide
  have hs := C98_any_cut_happens cap old blocks [] (Str.printNat n) [wholeFmt.print m] hcap (Str.printNat (n / 10)) (by
    rw [hc, List.append_assoc]; exact List.prefix_append _ _)
  rw [hw] at hs
  refine ⟨blocks, _, _, hbl, by rw [List.map_cons, hpn]; exact hs, Reader.ofLines [Str.printNat (n / 10)], ?_, ?_⟩
  · rw [lines_open hnl, if_neg (Str.printNat_ne_nil _)] at hff
    simp only [Entry.contributes, hff]
    rfl
  · simp [Reader.ofLines, samplesOf, hparse]

example : ∃ n : Nat, 10 ≤ n ∧ n < 2 ^ 64 ∧ n / 10 ≠ n := ⟨12, by norm_num, by norm_num, by norm_num⟩

/-- A run of two ensembles, stopped anywhere behind its first ensemble: the file has the first line, at least. -/
example (cap : Nat) (old : Str) : ∃ blocks d h k w, printBlocks 30 (schemasOf [constStepComponent wholeFmt] ++ [variableSimComponent.schema])
        (AllVals.snoc (demoRunOf 1 1 [(12 : ℝ), 7]).vals (demoRunOf 1 1 [(12 : ℝ), 7]).simVals) = .ok blocks ∧
      StopsAt cap old (outputOps blocks ([(12 : ℝ), 7].map wholeFmt.print)) (blocks.length + 3 + 3 * 1) d ∧
      1 ≤ k ∧ d = h ++ ((RunOf.first k (demoRunOf 1 1 [(12 : ℝ), 7])).dataText wholeFmt.print ++ w) := by
  have w1 : Whole 1 := ⟨1, by norm_num, by norm_num⟩
  have hp := demoRunOf_printable (X := ℝ) 1 1 [(12 : ℝ), 7] w1 (by norm_num)
  obtain ⟨h, hh, -⟩ := C51_from_file 30 [constStepComponent wholeFmt] variableSimComponent
    (demoRunOf 1 1 [(12 : ℝ), 7]).vals (demoRunOf 1 1 [(12 : ℝ), 7]).simVals demo_names
    (fun f hf => names_ok wholeFmt variableSimSchema (by simp) f hf) hp.1 hp.2 []
  obtain ⟨b, hb⟩ : ∃ b, printAll 30 (schemasOf [constStepComponent wholeFmt] ++ [variableSimComponent.schema])
      (AllVals.snoc (demoRunOf 1 1 [(12 : ℝ), 7]).vals (demoRunOf 1 1 [(12 : ℝ), 7]).simVals) = .ok b := by
    rw [fileHeader] at hh
    cases hq : printAll 30 (schemasOf [constStepComponent wholeFmt] ++ [variableSimComponent.schema])
      (AllVals.snoc (demoRunOf 1 1 [(12 : ℝ), 7]).vals (demoRunOf 1 1 [(12 : ℝ), 7]).simVals) with
    | ok b => exact ⟨b, rfl⟩
    | err e => rw [hq] at hh; cases hh
    | panic => rw [hq] at hh; cases hh
  obtain ⟨blocks, hbl, -⟩ := printAll_printBlocks _ _ _ _ hb
  have hs : StopsAt cap old (outputOps blocks ([(12 : ℝ), 7].map wholeFmt.print)) (blocks.length + 3 + 3 * 1)
      (exec cap (create old) ((outputOps blocks ([(12 : ℝ), 7].map wholeFmt.print)).take (blocks.length + 3 + 3 * 1))).disk := by
    have key : ∀ (ops : List Op) (i : Nat),
        (exec cap (create old) (ops.take i)).disk <+: (exec cap (create old) (ops.take (i + 1))).disk := by
      intro ops i
      rw [List.take_add_one, exec_append]
      exact (exec_total cap _ _).2
    exact ⟨List.prefix_refl _, key _ _⟩
  obtain ⟨h, k, w, -, h1, -, h2, -⟩ := C98_stopped_run cap old 30 wholeFmt.print (demoRunOf 1 1 [(12 : ℝ), 7]) demo_names
    (fun f hf => names_ok wholeFmt variableSimSchema (by simp) f hf) hp (fun v _ hc => by
      have := Str.printNat_not_ws _ hc
      revert this; decide) blocks hbl _ _ hs 1 (by decide) (le_refl _)
  exact ⟨blocks, _, h, k, w, hbl, hs, h1, h2⟩

/-- Finding: the time analysis also reports a group of files that have no data yet (a run stopped before its first result): its
mean, its spread and all its densities are NaN. -/
theorem C98_empty_group_nan (B : Bins XF) (q : ℚ) (hB : B.binSize = .fin q) :
    ∃ a r, (TimeAnalysis.prepared B).report [] = (a, r) ∧ a.ensemble = 0 ∧ a.mean = XF.nan ∧ a.stddev = XF.nan ∧
      a.hist = List.replicate B.numBin XF.nan := by
  unfold TimeAnalysis.report
  simp only [TimeAnalysis.feed, TimeAnalysis.prepared, TimeAnalysis.allocateVectors, TimeAnalysis.new]
  unfold TimeAnalysis.draw
  simp only
  have h1 : Hist.overwrite (Hist.density (Fl.ofNat 0 * B.binSize) (List.replicate B.numBin 0)) (List.replicate B.numBin (Fl.zero : XF)) =
      (List.replicate B.numBin XF.nan, .ok ()) := by
    have e : (Fl.ofNat 0 * B.binSize : XF) = .fin 0 := by
      rw [hB]
      show XF.fin (((0 : ℕ) : ℚ) * q) = XF.fin 0
      simp
    have e2 : (Fl.ofNat 0 / XF.fin 0 : XF) = XF.nan := rfl
    rw [e]
    simp [Hist.density, Hist.overwrite, e2]
  rw [h1]
  exact ⟨_, _, rfl, rfl, rfl, rfl, rfl⟩

end Moledyn.Props
