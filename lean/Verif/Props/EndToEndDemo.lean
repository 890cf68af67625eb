import Verif.Props.EndToEndPaths
/-
Concrete directories that meet the hypotheses of the theorems on the results of vector and process analyses (C78).
-/
set_option linter.unusedSimpArgs false
namespace Moledyn.Props
open Moledyn
variable {F X : Type}

/-- words, each followed by a blank. -/
def spaced (ws : List Str) : Str := (ws.map fun w => w ++ [' ']).flatten

theorem lineOf_spaced {ws : List Str} (h : ∀ w ∈ ws, Str.IsWord w) : LineOf (spaced ws) ws := by
  induction ws with
  | nil => exact ⟨by simp [spaced, Str.words, Str.splitBy], by simp [spaced]⟩
  | cons w ws ih =>
    obtain ⟨i1, i2⟩ := ih fun v hv => h v (by simp [hv])
    obtain ⟨h1, h2⟩ := h w (by simp)
    have e : spaced (w :: ws) = w ++ ' ' :: spaced ws := by simp [spaced]
    refine ⟨?_, ?_⟩
    · rw [e, Str.words_cons h2 h1 (by decide), i1]
    · rw [e]
      simp only [List.mem_append, List.mem_cons, not_or]
      refine ⟨fun hc => ?_, by decide, i2⟩
      have := h2 _ hc
      revert this; decide

/-- a run with time step `dt`, index `idx` and the given results. -/
noncomputable def demoRunOf {X : Type} (dt : ℝ) (idx : Nat) (rows : List X) :
    RunOf [constStepComponent wholeFmt] variableSimComponent X :=
  ⟨((dt, (100 : ℝ), ()), ()), ((1 : Nat), idx, (1 : Nat), chars! "out", ()), rows⟩

theorem demoRunOf_printable {X : Type} (dt : ℝ) (idx : Nat) (s : List X) (hd : Whole dt) (hi : idx < 2 ^ 64) :
    (demoRunOf dt idx s).Printable := demoRun_printable dt idx [] hd hi

theorem demoRunOf_file {X : Type} (line : X → Str) (dt : ℝ) (idx : Nat) (s : List X) (hd : Whole dt) (hi : idx < 2 ^ 64) :
    ∃ e, (demoRunOf dt idx s).File 30 line e := by
  obtain ⟨-, h, hh, -⟩ := demoRun_file dt idx [] hd hi
  exact ⟨_, h, hh, rfl⟩

theorem demo_key {X : Type} (dt : ℝ) (idx : Nat) (s : List X) :
    (demoRunOf dt idx s).dataset.key = [hashWord dt, hashWord (100 : ℝ)] := rfl

theorem demo_parse (n : Nat) (hn : n < 2 ^ 64) : wholeFmt.parse (Str.printNat n) = some (n : ℝ) := by
  simp [wholeFmt, Str.parse_printNat hn]

theorem demo_args : timeArgs wholeFmt [chars! "1", chars! "10", chars! "1", chars! "2", chars! "data"] =
      .ok ⟨0, 1, 10, 1, 2, chars! "data"⟩ := by
  rw [C43_time_words]
  refine ⟨rfl, .inr ⟨chars! "1", chars! "10", chars! "1", chars! "2", rfl, ?_, ?_, ?_, ?_⟩⟩
  · have := demo_parse 1 (by norm_num); rw [show Str.printNat 1 = chars! "1" by decide +kernel] at this; simpa using this
  · have := demo_parse 10 (by norm_num); rw [show Str.printNat 10 = chars! "10" by decide +kernel] at this; simpa using this
  · have := demo_parse 1 (by norm_num); rw [show Str.printNat 1 = chars! "1" by decide +kernel] at this; simpa using this
  · have := demo_parse 2 (by norm_num); rw [show Str.printNat 2 = chars! "2" by decide +kernel] at this; simpa using this

theorem demo_vecArgs : vecArgs wholeFmt [chars! "2", chars! "1", chars! "10", chars! "1", chars! "2", chars! "data"] =
      .ok ⟨2, 1, 10, 1, 2, chars! "data"⟩ := by
  rw [C43_vec_words]
  refine ⟨chars! "2", _, _, rfl, ?_, demo_args, rfl⟩
  decide +kernel

theorem demo_names : ∀ S ∈ schemasOf [constStepComponent wholeFmt], ∀ f ∈ S.fields, f.NameOk := fun S hS f hf => by
  simp only [schemasOf, List.map_cons, List.map_nil, List.mem_singleton] at hS
  subst hS
  exact names_ok wholeFmt (constStepSchema wholeFmt) (by simp) f hf

theorem demo_cells (g : RunOf [constStepComponent wholeFmt] variableSimComponent X)
    (hg : ∃ idx rows, g = demoRunOf 1 idx rows) :
    g.dataset.vars.map (fun v => v.2.cell wholeFmt.print) = [chars! "1", chars! "100"] := by
  obtain ⟨idx, rows, rfl⟩ := hg
  have c1 : wholeFmt.print 1 = chars! "1" := by
    show Str.printNat ⌊(1 : ℝ)⌋₊ = _
    rw [Nat.floor_one]; decide +kernel
  have c100 : wholeFmt.print 100 = chars! "100" := by
    show Str.printNat ⌊(100 : ℝ)⌋₊ = _
    rw [show (100 : ℝ) = (100 : ℕ) by norm_num, Nat.floor_natCast]; decide +kernel
  show [wholeFmt.print 1, wholeFmt.print 100] = _
  rw [c1, c100]

theorem whole_lit (n : Nat) (h : n < 2 ^ 64) : Whole (n : ℝ) := ⟨n, h, rfl⟩

/-- Two runs with the same parameters and a sub-directory: one line in the table, with the mean and the spread of both
columns over the three lines of the two files. -/
example : ∃ (es : List Entry) (fuel : Nat) (o : AnalysisOutput) (title row : Str),
    DirectoryOf 30 (fun v => spaced (v.map wholeFmt.print))
      [some (demoRunOf 1 1 [[3, 2], [5, 4]]), none, some (demoRunOf 1 2 [[4, 6]])] es ∧
    vecAnalyze wholeFmt wholeFmt.print List.sum
      (DataSet.fromFile [constStepComponent wholeFmt] variableSimComponent) [chars! "dt", chars! "tmax"]
      (fun _ => false) (fun _ => some es) (chars! "20261118") [chars! "2", chars! "1", chars! "10", chars! "1", chars! "2",
        chars! "data"] 15 (chars! "rst") fuel = some (.ok o) ∧
    Str.lines o.summary.text = [title, row] ∧
    Str.words row = [chars! "1", chars! "100", chars! "3", chars! "4", Str.printNat ⌊Real.sqrt (2 / 3)⌋₊,
      chars! "4", Str.printNat ⌊Real.sqrt (8 / 3)⌋₊] := by
  have w1 : Whole 1 := ⟨1, by norm_num, by norm_num⟩
  obtain ⟨e1, h1⟩ := demoRunOf_file (fun v : List ℝ => spaced (v.map wholeFmt.print)) 1 1 [[3, 2], [5, 4]] w1 (by norm_num)
  obtain ⟨e2, h2⟩ := demoRunOf_file (fun v : List ℝ => spaced (v.map wholeFmt.print)) 1 2 [[4, 6]] w1 (by norm_num)
  have hd : DirectoryOf 30 (fun v => spaced (v.map wholeFmt.print))
      [some (demoRunOf 1 1 [[3, 2], [5, 4]]), none, some (demoRunOf 1 2 [[4, 6]])] [e1, .dir, e2] :=
    .cons h1 (.cons ⟨rfl, id⟩ (.cons h2 .nil))
  obtain ⟨B, hB, hB1, -⟩ := exampleBins
  have hred : ([some (demoRunOf 1 1 [[3, 2], [5, 4]]), none, some (demoRunOf 1 2 [[4, 6]])] :
      List (Option (RunOf [constStepComponent wholeFmt] variableSimComponent (List ℝ)))).reduceOption =
      [demoRunOf 1 1 [[3, 2], [5, 4]], demoRunOf 1 2 [[4, 6]]] := rfl
  have hmem : ∀ r ∈ [demoRunOf 1 1 [[3, 2], [5, 4]], demoRunOf 1 2 [[4, 6]]], ∃ idx, idx < 2 ^ 64 ∧ ∃ rows, r = demoRunOf (1 : ℝ) idx rows ∧
      (∀ v ∈ rows, v.length = 2 ∧ ∀ t ∈ v, Whole t) := by
    intro r hr
    simp only [List.mem_cons, List.not_mem_nil, or_false] at hr
    have W : ∀ n : Nat, n < 10 → ∀ t : ℝ, t = n → Whole t := by
      rintro n hn _ rfl
      exact whole_lit n (by omega)
    rcases hr with rfl | rfl
    · refine ⟨1, by norm_num, _, rfl, ?_⟩
      simp only [List.mem_cons, List.not_mem_nil, or_false, forall_eq_or_imp, forall_eq, List.length_cons, List.length_nil]
      exact ⟨⟨trivial, W 3 (by norm_num) 3 (by norm_num), W 2 (by norm_num) 2 (by norm_num)⟩,
        trivial, W 5 (by norm_num) 5 (by norm_num), W 4 (by norm_num) 4 (by norm_num)⟩
    · refine ⟨2, by norm_num, _, rfl, ?_⟩
      simp only [List.mem_cons, List.not_mem_nil, or_false, forall_eq_or_imp, forall_eq, List.length_cons, List.length_nil]
      exact ⟨trivial, W 4 (by norm_num) 4 (by norm_num), W 6 (by norm_num) 6 (by norm_num)⟩
  have hkey : ∀ r ∈ [demoRunOf 1 1 [[(3 : ℝ), 2], [5, 4]], demoRunOf 1 2 [[4, 6]]], r.dataset.key = [hashWord (1 : ℝ), hashWord (100 : ℝ)] := by
    intro r hr
    obtain ⟨idx, -, rows, rfl, -⟩ := hmem r hr
    rfl
  obtain ⟨o, groups, title, rows, r1, r2, r3, r4, r5, r6, r7, -⟩ := C78_vector_results wholeFmt wholeFmt.print
    wholeFmt.print id Whole (fun x => isWord_printNat _) wholeFmt_readsAs List.sum [constStepComponent wholeFmt]
    variableSimComponent demo_names
    (fun f hf => names_ok wholeFmt variableSimSchema (by simp) f hf) [chars! "dt", chars! "tmax"] (fun _ => false)
    (fun _ => some [e1, .dir, e2]) (chars! "20261118")
    [chars! "2", chars! "1", chars! "10", chars! "1", chars! "2", chars! "data"] 30 15
    (by
      intro n hn
      simp only [List.mem_cons, List.not_mem_nil, or_false] at hn
      rcases hn with rfl | rfl <;> exact ⟨isWord_lit (by decide), by decide⟩) (by norm_num) (chars! "rst")
    (B.numBin + B.numLbin + 1) _ demo_vecArgs
    (by norm_num) (by norm_num) B hB (by rw [hB1]; norm_num) (by omega) (by omega) 2 (by norm_num) (.inl rfl) _ _ _ rfl hd (by
      rw [hred]
      intro r hr
      obtain ⟨idx, hi, rows, rfl, -⟩ := hmem r hr
      exact demoRunOf_printable _ _ _ w1 hi) (by
      rw [hred]
      intro r hr v hv
      obtain ⟨idx, hi, rows, rfl, hw⟩ := hmem r hr
      obtain ⟨l1, l2⟩ := hw v hv
      refine ⟨l1, l2, lineOf_spaced ?_⟩
      intro w hw
      simp only [List.mem_map] at hw
      obtain ⟨t, -, rfl⟩ := hw
      exact isWord_printNat _) (by
      rw [hred]
      intro r hr r' hr' _
      rw [hkey r hr, hkey r' hr'])
    _ rfl _ (fun g => rfl)
  rw [hred] at r2 r4 r7
  have hpool : ∀ g ∈ groups, (g.pooled [demoRunOf 1 1 [[3, 2], [5, 4]], demoRunOf 1 2 [[4, 6]]]).map (·.map id) =
      [[3, 2], [5, 4], [4, 6]] := by
    intro g hg
    unfold RunOf.pooled
    rw [hkey g (r2 g hg).1]
    rw [List.filter_cons_of_pos (by simp [demo_key]), List.filter_cons_of_pos (by simp [demo_key])]
    simp [demoRunOf]
  obtain ⟨g, hg, -⟩ := r4 (demoRunOf 1 1 [[3, 2], [5, 4]]) (by simp) (by simp [demoRunOf])
  have hone : groups = [g] := by
    rcases groups with _ | ⟨a, _ | ⟨b, l⟩⟩
    · simp at hg
    · simp at hg; rw [hg]
    · rw [List.pairwise_cons] at r3
      exact absurd ((hkey a (r2 a (by simp)).1).trans (hkey b (r2 b (by simp)).1).symm) (r3.1 b (by simp))
  subst hone
  rcases r7 with _ | ⟨hrow, hnil⟩
  cases hnil
  rename_i row
  refine ⟨_, _, o, title, row, hd, r1, r5, ?_⟩
  obtain ⟨idx, -, rows', hg', -⟩ := hmem g (r2 g (by simp)).1
  rw [hrow, demo_cells g ⟨idx, rows', hg'⟩, hpool g (by simp)]
  have m0 : sampleMean [3, 5, 4] = 4 := by simp [sampleMean]; norm_num
  have m1 : sampleMean [2, 4, 6] = 4 := by simp [sampleMean]; norm_num
  have s0 : sampleVariance [3, 5, 4] = 2 / 3 := by
    unfold sampleVariance
    rw [m0]; simp; norm_num
  have s1 : sampleVariance [2, 4, 6] = 8 / 3 := by
    unfold sampleVariance
    rw [m1]; simp; norm_num
  have v0 : TimeVecAnalysis.valuesOf 0 [[(3 : ℝ), 2], [5, 4], [4, 6]] = [3, 5, 4] := by simp [TimeVecAnalysis.valuesOf]
  have v1 : TimeVecAnalysis.valuesOf 1 [[(3 : ℝ), 2], [5, 4], [4, 6]] = [2, 4, 6] := by simp [TimeVecAnalysis.valuesOf]
  have c4 : wholeFmt.print 4 = chars! "4" := by
    show Str.printNat ⌊(4 : ℝ)⌋₊ = _
    rw [show (4 : ℝ) = (4 : ℕ) by norm_num, Nat.floor_natCast]; decide +kernel
  have c3 : Str.printNat 3 = chars! "3" := by decide +kernel
  simp only [List.range_succ, List.range_zero, List.nil_append, List.map_append, List.map_cons, List.map_nil, v0, v1, m0, m1, s0, s1,
    List.length_cons, List.length_nil, List.flatten_cons, List.flatten_nil, List.cons_append, List.append_nil, c4, c3]
  rfl

/-- Two runs with the same parameters that wrote paths: one line in the table, with the mean and the spread of all values
and the number of paths. -/
example : ∃ (es : List Entry) (fuel : Nat) (o : AnalysisOutput) (title row : Str),
    DirectoryOf 30 (fun v => spaced (v.map (pairText wholeFmt.print)))
      [some (demoRunOf 1 1 [[((1 : ℝ), (3 : ℝ)), (2, 5)]]), none, some (demoRunOf 1 2 [[(1, 4)]])] es ∧
    processAnalyze wholeFmt wholeFmt.print List.sum
      (DataSet.fromFile [constStepComponent wholeFmt] variableSimComponent) [chars! "dt", chars! "tmax"]
      (fun _ => false) (fun _ => some es) (chars! "20261118") [chars! "1", chars! "10", chars! "1", chars! "2",
        chars! "data"] 15 (chars! "rst") fuel = some (.ok o) ∧
    Str.lines o.summary.text = [title, row] ∧
    Str.words row = [chars! "1", chars! "100", chars! "4", Str.printNat ⌊Real.sqrt (2 / 3)⌋₊, chars! "2"] := by
  have w1 : Whole 1 := ⟨1, by norm_num, by norm_num⟩
  obtain ⟨e1, h1⟩ := demoRunOf_file (fun v : List (ℝ × ℝ) => spaced (v.map (pairText wholeFmt.print))) 1 1 [[(1, 3), (2, 5)]] w1
    (by norm_num)
  obtain ⟨e2, h2⟩ := demoRunOf_file (fun v : List (ℝ × ℝ) => spaced (v.map (pairText wholeFmt.print))) 1 2 [[(1, 4)]] w1 (by norm_num)
  have hd : DirectoryOf 30 (fun v => spaced (v.map (pairText wholeFmt.print)))
      [some (demoRunOf 1 1 [[((1 : ℝ), (3 : ℝ)), (2, 5)]]), none, some (demoRunOf 1 2 [[(1, 4)]])] [e1, .dir, e2] :=
    .cons h1 (.cons ⟨rfl, id⟩ (.cons h2 .nil))
  obtain ⟨B, hB, hB1, -⟩ := exampleBins
  have hred : ([some (demoRunOf 1 1 [[((1 : ℝ), (3 : ℝ)), (2, 5)]]), none, some (demoRunOf 1 2 [[(1, 4)]])] :
      List (Option (RunOf [constStepComponent wholeFmt] variableSimComponent (List (ℝ × ℝ))))).reduceOption =
      [demoRunOf 1 1 [[(1, 3), (2, 5)]], demoRunOf 1 2 [[(1, 4)]]] := rfl
  have hmem : ∀ r ∈ [demoRunOf 1 1 [[((1 : ℝ), (3 : ℝ)), (2, 5)]], demoRunOf 1 2 [[(1, 4)]]], ∃ idx, idx < 2 ^ 64 ∧ ∃ rows, r = demoRunOf (1 : ℝ) idx rows ∧
      (∀ v ∈ rows, v ≠ [] ∧ ∀ t ∈ v, Whole t.1 ∧ Whole t.2) := by
    intro r hr
    simp only [List.mem_cons, List.not_mem_nil, or_false] at hr
    have W : ∀ n : Nat, n < 10 → ∀ t : ℝ, t = n → Whole t := by
      rintro n hn _ rfl
      exact whole_lit n (by omega)
    rcases hr with rfl | rfl
    · refine ⟨1, by norm_num, _, rfl, ?_⟩
      simp only [List.mem_cons, List.not_mem_nil, or_false, forall_eq_or_imp, forall_eq]
      exact ⟨by simp, ⟨W 1 (by norm_num) 1 (by norm_num), W 3 (by norm_num) 3 (by norm_num)⟩,
        W 2 (by norm_num) 2 (by norm_num), W 5 (by norm_num) 5 (by norm_num)⟩
    · refine ⟨2, by norm_num, _, rfl, ?_⟩
      simp only [List.mem_cons, List.not_mem_nil, or_false, forall_eq_or_imp, forall_eq]
      exact ⟨by simp, W 1 (by norm_num) 1 (by norm_num), W 4 (by norm_num) 4 (by norm_num)⟩
  have hkey : ∀ r ∈ [demoRunOf 1 1 [[((1 : ℝ), (3 : ℝ)), (2, 5)]], demoRunOf 1 2 [[(1, 4)]]],
      r.dataset.key = [hashWord (1 : ℝ), hashWord (100 : ℝ)] := by
    intro r hr
    obtain ⟨idx, -, rows, rfl, -⟩ := hmem r hr
    rfl
  obtain ⟨o, groups, title, rows, r1, r2, r3, r4, r5, r6, r7, -⟩ := C78_process_results wholeFmt wholeFmt.print
    wholeFmt.print id Whole (fun x => isWord_printNat _) wholeFmt_readsAs (fun x hx c hc => by
      have := wholeFmt_wordLike.noPunct x hx c hc
      exact ⟨by rintro rfl; simp at this, by rintro rfl; simp at this, by rintro rfl; simp at this⟩) List.sum [constStepComponent wholeFmt]
    variableSimComponent demo_names
    (fun f hf => names_ok wholeFmt variableSimSchema (by simp) f hf) [chars! "dt", chars! "tmax"] (fun _ => false)
    (fun _ => some [e1, .dir, e2]) (chars! "20261118")
    [chars! "1", chars! "10", chars! "1", chars! "2", chars! "data"] 30 15
    (by
      intro n hn
      simp only [List.mem_cons, List.not_mem_nil, or_false] at hn
      rcases hn with rfl | rfl <;> exact ⟨isWord_lit (by decide), by decide⟩) (by norm_num) (chars! "rst")
    (B.numBin + B.numLbin + 1) _ demo_args
    (by norm_num) (by norm_num) B hB (by rw [hB1]; norm_num) (by omega) (by omega) _ _ _ rfl hd (by
      rw [hred]
      intro r hr
      obtain ⟨idx, hi, rows, rfl, -⟩ := hmem r hr
      exact demoRunOf_printable _ _ _ w1 hi) (by
      rw [hred]
      intro r hr v hv
      obtain ⟨idx, hi, rows, rfl, hw⟩ := hmem r hr
      obtain ⟨l1, l2⟩ := hw v hv
      refine ⟨l1, l2, lineOf_spaced ?_⟩
      intro w hw
      simp only [List.mem_map] at hw
      obtain ⟨t, ht, rfl⟩ := hw
      refine ⟨by simp [pairText], fun c hc => ?_⟩
      have n1 := wholeFmt_wordLike.noBlank t.1 (l2 t ht).1
      have n2 := wholeFmt_wordLike.noBlank t.2 (l2 t ht).2
      simp only [pairText, List.mem_append, List.mem_singleton] at hc
      rcases hc with (((rfl | hc) | rfl) | hc) | rfl
      · decide
      · exact n1 c hc
      · decide
      · exact n2 c hc
      · decide) (by
      rw [hred]
      intro r hr r' hr' _
      rw [hkey r hr, hkey r' hr'])
    _ rfl _ (fun g => rfl)
  rw [hred] at r2 r4 r7
  have hpool : ∀ g ∈ groups, (g.pooled [demoRunOf 1 1 [[((1 : ℝ), (3 : ℝ)), (2, 5)]], demoRunOf 1 2 [[(1, 4)]]]) =
      [[(1, 3), (2, 5)], [(1, 4)]] := by
    intro g hg
    unfold RunOf.pooled
    rw [hkey g (r2 g hg).1]
    rw [List.filter_cons_of_pos (by simp [demo_key]), List.filter_cons_of_pos (by simp [demo_key])]
    simp [demoRunOf]
  obtain ⟨g, hg, -⟩ := r4 (demoRunOf 1 1 [[(1, 3), (2, 5)]]) (by simp) (by simp [demoRunOf])
  have hone : groups = [g] := by
    rcases groups with _ | ⟨a, _ | ⟨b, l⟩⟩
    · simp at hg
    · simp at hg; rw [hg]
    · rw [List.pairwise_cons] at r3
      exact absurd ((hkey a (r2 a (by simp)).1).trans (hkey b (r2 b (by simp)).1).symm) (r3.1 b (by simp))
  subst hone
  rcases r7 with _ | ⟨hrow, hnil⟩
  cases hnil
  rename_i row
  refine ⟨_, _, o, title, row, hd, r1, r5, ?_⟩
  obtain ⟨idx, -, rows', hg', -⟩ := hmem g (r2 g (by simp)).1
  rw [hrow, demo_cells g ⟨idx, rows', hg'⟩, hpool g (by simp)]
  have m0 : sampleMean [3, 5, 4] = 4 := by simp [sampleMean]; norm_num
  have s0 : sampleVariance [3, 5, 4] = 2 / 3 := by
    unfold sampleVariance
    rw [m0]; simp; norm_num
  have v0 : (([[((1 : ℝ), (3 : ℝ)), (2, 5)], [(1, 4)]].flatten.map (Prod.map id id)).map (·.2)) = [3, 5, 4] := by simp
  have c4 : wholeFmt.print 4 = chars! "4" := by
    show Str.printNat ⌊(4 : ℝ)⌋₊ = _
    rw [show (4 : ℝ) = (4 : ℕ) by norm_num, Nat.floor_natCast]; decide +kernel
  have c2 : Str.printNat 2 = chars! "2" := by decide +kernel
  rw [v0, m0, s0, c4]
  simp only [List.length_cons, List.length_nil, List.cons_append, List.nil_append, c2]
  rfl

end Moledyn.Props
