import Verif.Props.EndToEnd
import Verif.Spec.RunRows
/-
C78: from the files of many runs to the results, for analyses of several values and of paths.
-/
set_option linter.unusedSimpArgs false
namespace Moledyn.Props
open Moledyn
variable {F A X : Type}

/-! ### lines -/

theorem words_trim (s : Str) : Str.words (Str.trim s) = Str.words s := by
  have key : ∀ (n : Nat) (s : Str), s.length = n → Str.words (Str.trim s) = Str.words s := by
    intro n
    induction n using Nat.strong_induction_on with
    | _ n ih =>
      intro s hs
      by_cases h1 : ∀ c ∈ s.head?, Str.isWs c = false
      · by_cases h2 : ∀ c ∈ s.getLast?, Str.isWs c = false
        · rw [Str.trim_id h1 h2]
        · push Not at h2
          obtain ⟨c, hc, hw⟩ := h2
          obtain ⟨t, rfl⟩ : ∃ t, s = t ++ [c] := by
            refine ⟨s.dropLast, ?_⟩
            have hne : s ≠ [] := by rintro rfl; simp at hc
            have := List.dropLast_append_getLast hne
            rw [List.getLast?_eq_some_getLast hne] at hc
            simp only [Option.mem_def, Option.some.injEq] at hc
            rw [hc] at this; exact this.symm
          have hw : Str.isWs c = true := by simpa using hw
          rw [Str.trim_snoc_ws hw, ih t.length (by simp at hs; omega) t rfl, Str.words_append hw, Str.words_nil, List.append_nil]
      · push Not at h1
        obtain ⟨c, hc, hw⟩ := h1
        cases s with
        | nil => simp at hc
        | cons d t =>
          simp only [List.head?_cons, Option.mem_def, Option.some.injEq] at hc
          subst hc
          have hw : Str.isWs d = true := by simpa using hw
          rw [Str.trim_cons_ws hw, ih t.length (by simp at hs; omega) t rfl]
          exact (Str.words_ws_append (a := [d]) t (by simpa using hw)).symm
  exact key _ s rfl

theorem words_stripCR (s : Str) : Str.words (Str.stripCR s) = Str.words s := by
  rw [← words_trim (Str.stripCR s), Str.trim_stripCR, words_trim]

theorem lines_of_rows (line : X → Str) : ∀ rows : List X, (∀ v ∈ rows, '\n' ∉ line v) →
    Str.lines ((rows.map fun v => line v ++ ['\n']).flatten) = rows.map fun v => Str.stripCR (line v)
  | [], _ => rfl
  | v :: rows, h => by
    have e : (((v :: rows).map fun v => line v ++ ['\n']).flatten) =
        line v ++ '\n' :: (rows.map fun v => line v ++ ['\n']).flatten := by simp
    rw [e, Str.lines_cons (h v (by simp)), lines_of_rows line rows (fun v hv => h v (by simp [hv]))]
    rfl

section Runs
variable {cs : List (Component F)} {sim : Component F}

theorem file_contributes' (width : Nat) (line : X → Str) (r : RunOf cs sim X) (e : Entry)
    (hn : ∀ S ∈ schemasOf cs, ∀ f ∈ S.fields, f.NameOk) (hns : ∀ f ∈ sim.schema.fields, f.NameOk)
    (hp : r.Printable) (h : r.File width line e) :
    e.contributes (DataSet.fromFile cs sim) = some (r.dataset, Reader.ofLines (Str.lines (r.dataText line))) ∧
    ¬ e.fatal (DataSet.fromFile cs sim) := by
  obtain ⟨t, ht, rfl⟩ := h
  obtain ⟨t', ht', hff⟩ := C51_from_file width cs sim r.vals r.simVals hn hns hp.1 hp.2 (r.dataText line)
  rw [ht] at ht'; injection ht' with ht'
  subst ht'
  constructor
  · simp only [Entry.contributes, hff]
    rfl
  · simp only [Entry.fatal, hff]
    simp

theorem directory_contributes' (width : Nat) (line : X → Str) (slots : List (Option (RunOf cs sim X))) (es : List Entry)
    (hn : ∀ S ∈ schemasOf cs, ∀ f ∈ S.fields, f.NameOk) (hns : ∀ f ∈ sim.schema.fields, f.NameOk)
    (hp : ∀ r ∈ slots.reduceOption, r.Printable) (h : DirectoryOf width line slots es) :
    es.filterMap (Entry.contributes (DataSet.fromFile cs sim)) =
      slots.reduceOption.map (fun r => (r.dataset, Reader.ofLines (Str.lines (r.dataText line)))) ∧
    ∀ e ∈ es, ¬ e.fatal (DataSet.fromFile cs sim) := by
  induction h with
  | nil => exact ⟨rfl, by simp⟩
  | @cons s e slots es h1 h2 ih =>
    cases s with
    | none =>
      obtain ⟨i1, i2⟩ := ih (fun r hr => hp r (by simpa [List.reduceOption_cons_of_none] using hr))
      simp only at h1
      refine ⟨?_, ?_⟩
      · rw [List.filterMap_cons, h1.1, List.reduceOption_cons_of_none]; exact i1
      · intro e' he'
        rcases List.mem_cons.1 he' with rfl | he'
        · exact h1.2
        · exact i2 e' he'
    | some r =>
      rw [List.reduceOption_cons_of_some] at hp ⊢
      obtain ⟨i1, i2⟩ := ih (fun r hr => hp r (by simp [hr]))
      simp only at h1
      obtain ⟨c1, c2⟩ := file_contributes' width line r e hn hns (hp r (by simp)) h1
      refine ⟨?_, ?_⟩
      · rw [List.filterMap_cons, c1, List.map_cons, i1]
      · intro e' he'
        rcases List.mem_cons.1 he' with rfl | he'
        · exact c2
        · exact i2 e' he'

theorem all_filter (x : Exporter A) (skip : A → Bool) (f : NumFmt F) (pe : F → Str) (width : Nat) (pre dir : Str)
    {R : Type} (res : R → A) (ds : R → DataSet F) (out : R → Str × List Written) (P : R → Prop)
    (hout : ∀ g, P g → skip (res g) = false → x.one f pe width pre dir (ds g) (res g) = some (.ok (out g))) :
    ∀ (groups : List R) (m : List (DataSet F × A)), (∀ g ∈ groups, P g) →
      List.Forall₂ (fun g p => ds g = p.1 ∧ res g = p.2) groups m →
      x.all skip f pe width pre dir m = some (.ok (((groups.filter fun g => !skip (res g)).map fun g => (out g).1).flatten,
        ((groups.filter fun g => !skip (res g)).map fun g => (out g).2).flatten)) := by
  intro groups m hP h
  induction h with
  | nil => rfl
  | @cons g p gs m h1 h2 ih =>
    obtain ⟨d, a⟩ := p
    obtain ⟨h1, h3⟩ := h1
    simp only at h1 h3
    subst h1 h3
    have ih := ih fun g hg => hP g (by simp [hg])
    simp only [Exporter.all]
    by_cases hs : skip (res g) = true
    · rw [if_pos hs, ih, List.filter_cons_of_neg (by simp [hs])]
    · have hs : skip (res g) = false := by simpa using hs
      rw [if_neg (by simp [hs]), hout g (hP g (by simp)) hs, List.filter_cons_of_pos (by simp [hs])]
      simp only [ih, Option.map_some, Res.map_ok, List.map_cons, List.flatten_cons]

/-- What any analysis makes of a directory, once it is known what it makes of the lines of a group. -/
theorem results_of [Fl F] (z : Analyzer A) (x : Exporter A) (f : NumFmt F) (pe : F → Str) (dh : List Nat → Nat)
    (hn : ∀ S ∈ schemasOf cs, ∀ f ∈ S.fields, f.NameOk) (hns : ∀ f ∈ sim.schema.fields, f.NameOk)
    (names : List Str) (exist : Str → Bool) (listing : Str → Option (List Entry)) (date : Str)
    (headWidth width : Nat) (pre dataDir : Str) (fuel : Nat) (line : X → Str)
    (slots : List (Option (RunOf cs sim X))) (es : List Entry) (hes : listing dataDir = some es)
    (hdir : DirectoryOf headWidth line slots es) (hp : ∀ r ∈ slots.reduceOption, r.Printable)
    (hs : ∀ r ∈ slots.reduceOption, ∀ v ∈ r.rows, '\n' ∉ line v)
    (hdh : ∀ r ∈ slots.reduceOption, ∀ r' ∈ slots.reduceOption,
      dh r.dataset.key = dh r'.dataset.key → r.dataset.key = r'.dataset.key)
    (dir : Str) (hfresh : summaryDir exist dataDir date fuel = some dir)
    (a0 : A) (hfr : z.fresh = .ok a0) (res : RunOf cs sim X → A)
    (hres : ∀ g ∈ slots.reduceOption,
      z.lines a0 ((g.pooled slots.reduceOption).map fun v => .ok (Str.stripCR (line v))) = .ok (res g))
    (out : RunOf cs sim X → Str × List Written)
    (hout : ∀ g ∈ slots.reduceOption, z.skip (res g) = false →
      x.one f pe width pre dir g.dataset (res g) = some (.ok (out g))) :
    ∃ m groups, z.loop (DataSet.eqv dh) (DataSet.fromFile cs sim) [] (((listing dataDir).getD []) ++ [Entry.dir]) = .ok m ∧
      (∀ g ∈ groups, g ∈ slots.reduceOption) ∧ groups.Pairwise (fun g g' => g.dataset.key ≠ g'.dataset.key) ∧
      (∀ r ∈ slots.reduceOption, ∃ g ∈ groups, g.dataset.key = r.dataset.key) ∧
      List.Forall₂ (fun (g : RunOf cs sim X) p => g.dataset = p.1 ∧ res g = p.2) groups m ∧
      analyzeDir z x f pe dh (DataSet.fromFile cs sim) names exist listing date width pre dataDir fuel =
        some (.ok ⟨dir, ⟨dir ++ chars! "/" ++ x.summaryName,
          DataSet.exportForm width names ++ DataSet.exportForm width x.labels ++ ['\n'] ++
            ((groups.filter fun g => !z.skip (res g)).map fun g => (out g).1).flatten⟩,
          ((groups.filter fun g => !z.skip (res g)).map fun g => (out g).2).flatten⟩) := by
  set runs := slots.reduceOption with hruns
  obtain ⟨hcon, hfat⟩ := directory_contributes' headWidth line slots es hn hns hp hdir
  rw [← hruns] at hcon
  let cls : DataSet F → Nat := fun d => dh d.key
  let es' := es ++ [Entry.dir]
  have hcon' : es'.filterMap (Entry.contributes (DataSet.fromFile cs sim)) =
      runs.map (fun r => (r.dataset, Reader.ofLines (Str.lines (r.dataText line)))) := by
    show (es ++ [Entry.dir]).filterMap _ = _
    rw [List.filterMap_append, hcon]; simp [Entry.contributes]
  have hsamp : ∀ g ∈ runs, groupData cls (DataSet.fromFile cs sim) g.dataset es' =
      (g.pooled runs).map fun v => .ok (Str.stripCR (line v)) := by
    intro g hg
    unfold groupData RunOf.pooled
    rw [hcon', List.filter_map, List.map_map, List.map_flatten, List.map_map]
    have hfil : runs.filter ((fun p : DataSet F × Reader => decide (cls p.1 = cls g.dataset)) ∘
        fun r => (r.dataset, Reader.ofLines (Str.lines (r.dataText line)))) =
        runs.filter fun r => r.dataset.key = g.dataset.key := by
      refine List.filter_congr fun r hr => ?_
      simp only [Function.comp_apply, decide_eq_decide]
      exact ⟨fun h => hdh r hr g hg h, fun h => by show dh _ = dh _; rw [h]⟩
    rw [hfil]
    congr 1
    refine List.map_congr_left fun r hr => ?_
    simp only [Function.comp_apply, RunOf.dataText]
    rw [lines_of_rows line r.rows (hs r (List.mem_of_mem_filter hr))]
    simp [Reader.ofLines]
  have horig : ∀ e ∈ es', ∀ d r, e.contributes (DataSet.fromFile cs sim) = some (d, r) →
      ∃ g ∈ runs, g.dataset = d := by
    intro e he d r hc
    have : (d, r) ∈ es'.filterMap (Entry.contributes (DataSet.fromFile cs sim)) :=
      List.mem_filterMap.2 ⟨e, he, hc⟩
    rw [hcon'] at this
    obtain ⟨g, hg, h⟩ := List.mem_map.1 this
    simp only [Prod.mk.injEq] at h
    exact ⟨g, hg, h.1⟩
  obtain ⟨m, hm⟩ : ∃ m, z.loop (fun a b => decide (cls a = cls b)) (DataSet.fromFile cs sim) [] es' = .ok m := by
    refine (C51_succeeds_iff z cls _ es').2 ⟨?_, ?_⟩
    · intro e he
      rcases List.mem_append.1 he with he | he
      · exact hfat e he
      · simp only [List.mem_singleton] at he; subst he; exact id
    · intro e he d r hc
      obtain ⟨g, hg, rfl⟩ := horig e he d r hc
      exact ⟨a0, res g, hfr, by rw [hsamp g hg]; exact hres g hg⟩
  have hgr := C51_groups z cls _ es' m hm
  have hinv := loop_inv z cls (DataSet.fromFile cs sim) [] m [] es' ⟨by simp, by simp, by simp, by simp⟩ hm
  have hmem : ∀ p ∈ m, ∃ g, g ∈ runs ∧ (g.dataset = p.1 ∧ res g = p.2) := by
    intro p hp
    obtain ⟨⟨e, he, r, hc⟩, a1, h1, h2⟩ := hgr.2 p hp
    obtain ⟨g, hg, hd⟩ := horig e he _ _ hc
    refine ⟨g, hg, hd, ?_⟩
    rw [hfr] at h1; injection h1 with h1
    rw [← h1, ← hd, hsamp g hg, hres g hg] at h2
    injection h2
  obtain ⟨groups, hg1, hg2⟩ := forall₂_choose (fun (g : RunOf cs sim X) (p : DataSet F × A) =>
    g.dataset = p.1 ∧ res g = p.2) (· ∈ runs) m hmem
  have hm' : z.loop (DataSet.eqv dh) (DataSet.fromFile cs sim) [] (((listing dataDir).getD []) ++ [Entry.dir]) = .ok m := by
    rw [hes, eqv_decide]
    exact hm
  refine ⟨m, groups, hm', hg1, ?_, ?_, hg2, ?_⟩
  · have : groups.Pairwise fun g g' => cls g.dataset ≠ cls g'.dataset := by
      have hd := hinv.distinct
      clear hm hgr hinv hmem hm'
      induction hg2 with
      | nil => exact .nil
      | @cons g p gs m h1 h2 ih =>
        rw [List.pairwise_cons] at hd ⊢
        refine ⟨?_, ih (fun g hg => hg1 g (by simp [hg])) hd.2⟩
        intro g' hg'
        obtain ⟨p', hp', he⟩ := forall₂_mem h2.flip g' hg'
        rw [h1.1, he.1]
        exact hd.1 p' hp'
    exact this.imp fun h he => h (by show dh _ = dh _; rw [he])
  · intro r' hr'
    have : (r'.dataset, Reader.ofLines (Str.lines (r'.dataText line))) ∈
        es'.filterMap (Entry.contributes (DataSet.fromFile cs sim)) := by
      rw [hcon']; exact List.mem_map_of_mem hr'
    obtain ⟨e, he, hc⟩ := List.mem_filterMap.1 this
    obtain ⟨p, ⟨hpm, hpc⟩, -⟩ := hgr.1 e he _ _ hc
    obtain ⟨g, hg, hgp, -⟩ := forall₂_mem hg2 p hpm
    refine ⟨g, hg, hdh g (hg1 g hg) r' hr' ?_⟩
    rw [hgp]; exact hpc
  · unfold analyzeDir
    rw [hfresh]
    simp only [Option.bind_some]
    rw [hm']
    simp only
    rw [all_filter x z.skip f pe width pre dir res RunOf.dataset out (· ∈ runs) hout groups m hg1 hg2]
    rfl
end Runs

theorem parseWords_reads (f : NumFmt F) (pd : F → Str) (rd : F → F) (ok : F → Prop) (hpd : ReadsAs f pd rd ok) :
    ∀ v : List F, (∀ t ∈ v, ok t) → parseWords f (v.map pd) = .ok (v.map rd)
  | [], _ => rfl
  | t :: v, h => by
    simp only [List.map_cons, parseWords, hpd.reads t (h t (by simp)), Res.expect, Res.bind_ok,
      parseWords_reads f pd rd ok hpd v (fun t ht => h t (by simp [ht])), Res.map_ok]

theorem filterMap_range_le {α : Type} {K N : Nat} (h : K ≤ N) (P : Nat → Prop) [DecidablePred P] (hP : ∀ i, i < K ↔ P i) (g : Nat → Option α) :
    (List.range K).filterMap g = (List.range N).filterMap fun i => if P i then g i else none := by
  obtain ⟨m, rfl⟩ := Nat.exists_eq_add_of_le h
  rw [List.range_add, List.filterMap_append]
  have h1 : (List.range K).filterMap (fun i => if P i then g i else none) = (List.range K).filterMap g :=
    List.filterMap_congr fun i hi => if_pos ((hP i).1 (List.mem_range.1 hi))
  have h2 : ((List.range m).map (K + ·)).filterMap (fun i => if P i then g i else none) = [] := by
    rw [List.filterMap_eq_nil_iff]
    intro i hi
    obtain ⟨j, -, rfl⟩ := List.mem_map.1 hi
    exact if_neg fun hc => absurd ((hP _).2 hc) (by omega)
  rw [h1, h2, List.append_nil]

/-- the entries of a report. -/
theorem report_entries {old B : Bins ℝ} {mn mx b l : ℝ}
    (hset : Bins.updateFromBinSize old mn mx b l = (B, .ok ())) (hb : 0 < b) (hl : 1 < l) (samples : List ℝ)
    (hne : samples ≠ []) :
    ∃ a, (TimeAnalysis.prepared B).report samples = (a, .ok ()) ∧
      a.mean = sampleMean samples ∧ a.stddev = Real.sqrt (sampleVariance samples) ∧
      (∀ i < B.numBin, a.hist.getD i 0 = (howMany (fun t => B.InWindow t ∧ B.InBin i t) samples / samples.length : ℝ) / b ∧
        a.count.getD i 0 = howMany (fun t => B.InWindow t ∧ B.InBin i t) samples) ∧
      (∀ i < B.numLbin, a.lhist.getD i 0 =
          (howMany (fun t => B.InWindow t ∧ B.InLogBin i t) samples / samples.length : ℝ) / B.logWidth i ∧
        a.lcount.getD i 0 = howMany (fun t => B.InWindow t ∧ B.InLogBin i t) samples) := by
  obtain ⟨a, ha, h1, h2, h3, -⟩ := C48_mean_stddev old B mn mx b l hset hb hl samples hne
  obtain ⟨a', ha', l1, l2, d1, d2, -⟩ := C47_densities old B mn mx b l hset hb hl samples hne
  rw [ha] at ha'
  simp only [Prod.mk.injEq, and_true] at ha'
  subst ha'
  obtain ⟨a0, h0, -, c1, c2, c3, c4, -⟩ := C46_counts old B mn mx b l hset hb hl samples
  have hsame : a.count = a0.count ∧ a.lcount = a0.lcount := by
    rw [report_prepared hset hb hl] at ha
    rw [feed_prepared hset hb hl] at h0
    simp only [Prod.mk.injEq, and_true] at ha h0
    rw [← ha, ← h0]
    exact ⟨rfl, rfl⟩
  obtain ⟨s1, s2⟩ := hsame
  refine ⟨a, ha, h2, h3, fun i hi => ⟨?_, ?_⟩, fun i hi => ⟨?_, ?_⟩⟩
  · simp [List.getD, d1 i hi]
  · rw [s1]; simp [List.getD, c3 i hi]
  · simp [List.getD, d2 i hi]
  · rw [s2]; simp [List.getD, c4 i hi]

/-! ### several values per line -/

section Vector
open TimeVecAnalysis

theorem vec_lines [Fl F] (f : NumFmt F) (pd : F → Str) (rd : F → F) (ok : F → Prop) (hpd : ReadsAs f pd rd ok) (n : Nat) (mn mx b l : F)
    (line : List F → Str) : ∀ (rows : List (List F)) (a a' : TimeVecAnalysis F),
    (∀ v ∈ rows, (∀ t ∈ v, ok t) ∧ LineOf (line v) (v.map pd)) → a.feed (rows.map (·.map rd)) = (a', .ok ()) →
    (vecAnalyzer f n mn mx b l).lines a (rows.map fun v => .ok (Str.stripCR (line v))) = .ok a'
  | [], a, a', _, h => by
    simp only [List.map_nil, feed, Prod.mk.injEq, and_true] at h
    subst h; rfl
  | v :: rows, a, a', hv, h => by
    obtain ⟨h1, h2, h3⟩ := hv v (by simp)
    have hl : (vecAnalyzer f n mn mx b l).line a (Str.stripCR (line v)) = settled (a.addEnsemble (v.map rd)) := by
      show (parseWords f (Str.words (Str.trim (Str.stripCR (line v))))).bind _ = _
      rw [words_trim, words_stripCR, h2, parseWords_reads f pd rd ok hpd v h1]
      rfl
    simp only [List.map_cons, Analyzer.lines, hl]
    simp only [List.map_cons, feed] at h
    cases he : a.addEnsemble (v.map rd) with
    | mk a1 r =>
      rw [he] at h
      cases r with
      | ok u =>
        simp only [settled, Res.map_ok, Res.bind_ok]
        exact vec_lines f pd rd ok hpd n mn mx b l line rows a1 a' (fun v hv' => hv v (by simp [hv'])) h
      | err e => simp at h
      | panic => simp at h

theorem vec_feed_reach [Fl F] (n : Nat) (B : Bins F) : ∀ (s : List (List F)) (a : TimeVecAnalysis F), Reach n B a → Reach n B (a.feed s).1
  | [], a, h => h
  | t :: s, a, h => by
    simp only [feed]
    have h1 := Reach.add t h
    cases he : a.addEnsemble t with
    | mk a1 r =>
      rw [he] at h1
      cases r with
      | ok u => exact vec_feed_reach n B s a1 h1
      | err e => exact h1
      | panic => exact h1

theorem vec_feed_zero [Fl F] (n : Nat) (B : Bins F) (t : List F) (s : List (List F)) (ht : t.length = n) :
    (prepared 0 B).feed (t :: s) = (prepared n B).feed (t :: s) := by
  simp only [feed]
  rw [(C46_vector_arity n B (prepared 0 B) t).2.1, ht]

theorem column_some {a : TimeVecAnalysis F} {k : Nat} {c : TimeAnalysis F} (h : a.column k = some c) :
    a.means[k]? = some c.mean ∧ a.stddevs[k]? = some c.stddev ∧ a.hist[k]? = some c.hist ∧ a.lhist[k]? = some c.lhist ∧
      a.count[k]? = some c.count ∧ a.lcount[k]? = some c.lcount := by
  unfold column at h
  simp only [bind, Option.bind_eq_some_iff, pure, Option.some.injEq] at h
  obtain ⟨m, h1, s, h2, hi, h3, lh, h4, c', h5, lc, h6, rfl⟩ := h
  exact ⟨h1, h2, h3, h4, h5, h6⟩

/-- what is reported and written for the samples of a group. -/
theorem vec_report {old B : Bins ℝ} {mn mx b l : ℝ} (hset : Bins.updateFromBinSize old mn mx b l = (B, .ok ())) (hb : 0 < b)
    (hl : 1 < l) (hmx : B.minTime ≤ mx) (n : Nat) (hn : 0 < n) (samples : List (List ℝ)) (hne : samples ≠ [])
    (hlen : ∀ v ∈ samples, v.length = n) (fuel : Nat) (hf1 : B.numBin < fuel) (hf2 : B.numLbin < fuel) :
    ∃ a a', (prepared n B).feed samples = (a, .ok ()) ∧ a.ensemble = samples.length ∧ a.draw = (a', .ok ()) ∧ a'.ensemble = samples.length ∧
      a'.means.zip a'.stddevs = (List.range n).map (fun k => (sampleMean (valuesOf k samples), Real.sqrt (sampleVariance (valuesOf k samples)))) ∧
      a'.exportRows fuel = some (.ok (vecLinearRows B n samples)) ∧ a'.exportLogRows fuel = some (.ok (vecLogRows B n samples)) := by
  classical
  obtain ⟨-, -, hBx, hbs, hls, -⟩ := bins_setup hset
  obtain ⟨a', hrep, hens, hcol⟩ := C46_vector_exact n hn old B mn mx b l hset hb hl samples hlen
  have hreach := vec_feed_reach n B samples _ .prepared
  unfold report at hrep
  cases hfeed : (prepared n B).feed samples with
  | mk a r =>
    rw [hfeed] at hrep hreach
    cases r with
    | err e => simp at hrep
    | panic => simp at hrep
    | ok u =>
      simp only at hrep hreach
      have hens' : a.ensemble = samples.length := by
        have : a.draw.1.ensemble = a.ensemble := rfl
        rw [hrep] at this
        rw [← this]; exact hens
      have hshape : VecShape n B a' := by
        have := C55_vector_reach n hn B _ (Reach.draw hreach)
        rw [hrep] at this; exact this
      have hvlen : ∀ k < n, (valuesOf k samples).length = samples.length := by
        intro k hk
        clear hne hfeed hrep hens hcol hens'
        induction samples with
        | nil => rfl
        | cons v s ih =>
          have hv : v[k]? = some (v[k]'(by rw [hlen v (by simp)]; exact hk)) := List.getElem?_eq_getElem _
          rw [valuesOf_cons k v s _ hv]
          simp [ih (fun v hv => hlen v (by simp [hv]))]
      have hvne : ∀ k < n, valuesOf k samples ≠ [] := by
        intro k hk h0
        have := hvlen k hk
        rw [h0] at this
        exact hne (List.length_eq_zero_iff.1 this.symm)
      have hk : ∀ k < n, a'.means[k]? = some (sampleMean (valuesOf k samples)) ∧
          a'.stddevs[k]? = some (Real.sqrt (sampleVariance (valuesOf k samples))) ∧
          (∀ i < B.numBin, (a'.hist.getD k []).getD i 0 =
              (howMany (fun t => B.InWindow t ∧ B.InBin i t) (valuesOf k samples) / samples.length : ℝ) / b ∧
            (a'.count.getD k []).getD i 0 = howMany (fun t => B.InWindow t ∧ B.InBin i t) (valuesOf k samples)) ∧
          (∀ i < B.numLbin, (a'.lhist.getD k []).getD i 0 =
              (howMany (fun t => B.InWindow t ∧ B.InLogBin i t) (valuesOf k samples) / samples.length : ℝ) / B.logWidth i ∧
            (a'.lcount.getD k []).getD i 0 = howMany (fun t => B.InWindow t ∧ B.InLogBin i t) (valuesOf k samples)) := by
        intro k hk
        obtain ⟨c, hc, e1, e2, e3, e4⟩ := report_entries hset hb hl (valuesOf k samples) (hvne k hk)
        have h0 := hcol k hk
        rw [hc] at h0
        obtain ⟨k1, k2, k3, k4, k5, k6⟩ := column_some h0
        rw [hvlen k hk] at e3 e4
        refine ⟨by rw [k1, e1], by rw [k2, e2], fun i hi => ?_, fun i hi => ?_⟩
        · simp only [List.getD, k3, k5, Option.getD_some]
          exact e3 i hi
        · simp only [List.getD, k4, k6, Option.getD_some]
          exact e4 i hi
      refine ⟨a, a', rfl, hens', hrep, hens, ?_, ?_⟩
      · refine List.ext_getElem? fun k => ?_
        rw [List.getElem?_map]
        by_cases hkn : k < n
        · rw [List.getElem?_range hkn, Option.map_some, List.getElem?_zip_eq_some]
          exact ⟨(hk k hkn).1, (hk k hkn).2.1⟩
        · have e1 : (List.range n)[k]? = none := List.getElem?_eq_none (by simp; omega)
          have e2 : (a'.means.zip a'.stddevs)[k]? = none :=
            List.getElem?_eq_none (by have := hshape.2.2.1; simp only [List.length_zip]; omega)
          rw [e1, e2]; rfl
      · obtain ⟨⟨K, hK1, hK2, hK3⟩, K', hK1', hK2', hK3'⟩ := C55_vector_rows old B mn mx b l hset hb hl hmx n a' hshape
        rw [hK3 fuel (by omega), hK3' fuel (by omega)]
        refine ⟨?_, ?_⟩
        · rw [filterMap_range_le hK1 (fun i => B.minTime + (i + 1 / 2) * b ≤ mx) hK2]
          unfold vecLinearRows
          congr 2
          refine List.filterMap_congr fun i hi => ?_
          have hi := List.mem_range.1 hi
          simp only [hbs, hBx]
          have ec : (List.range n).map (fun k => ((a'.count.getD k []).getD i 0, (a'.hist.getD k []).getD i 0)) =
              (List.range n).map fun k => (howMany (fun t => B.InWindow t ∧ B.InBin i t) (valuesOf k samples),
                (howMany (fun t => B.InWindow t ∧ B.InBin i t) (valuesOf k samples) / samples.length : ℝ) / b) := by
            refine List.map_congr_left fun k hk' => ?_
            have := (hk k (List.mem_range.1 hk')).2.2.1 i hi
            rw [this.1, this.2]
          have ep : (∃ k < n, 1 / 10 ^ 15 < (a'.hist.getD k []).getD i 0) ↔
              ∃ k < n, 1 / 10 ^ 15 < (howMany (fun t => B.InWindow t ∧ B.InBin i t) (valuesOf k samples) / samples.length : ℝ) / b := by
            refine exists_congr fun k => and_congr_right fun hk' => ?_
            rw [((hk k hk').2.2.1 i hi).1]
          rw [ec]
          by_cases h1 : B.minTime + (i + 1 / 2) * b ≤ mx
          · rw [if_pos h1]
            by_cases h2 : ∃ k < n, 1 / 10 ^ 15 < (a'.hist.getD k []).getD i 0
            · rw [if_pos h2, if_pos ⟨h1, ep.1 h2⟩]
            · rw [if_neg h2, if_neg fun h => h2 (ep.2 h.2)]
          · rw [if_neg h1, if_neg fun h => h1 h.1]
        · rw [filterMap_range_le hK1' (fun i => B.minTime * Real.sqrt l * l ^ i ≤ mx) hK2']
          unfold vecLogRows
          congr 2
          refine List.filterMap_congr fun i hi => ?_
          have hi := List.mem_range.1 hi
          simp only [hls, hBx]
          have ec : (List.range n).map (fun k => ((a'.lcount.getD k []).getD i 0, (a'.lhist.getD k []).getD i 0)) =
              (List.range n).map fun k => (howMany (fun t => B.InWindow t ∧ B.InLogBin i t) (valuesOf k samples),
                (howMany (fun t => B.InWindow t ∧ B.InLogBin i t) (valuesOf k samples) / samples.length : ℝ) / B.logWidth i) := by
            refine List.map_congr_left fun k hk' => ?_
            have := (hk k (List.mem_range.1 hk')).2.2.2 i hi
            rw [this.1, this.2]
          have ep : (∃ k < n, 1 / 10 ^ 15 < (a'.lhist.getD k []).getD i 0) ↔
              ∃ k < n, 1 / 10 ^ 15 < (howMany (fun t => B.InWindow t ∧ B.InLogBin i t) (valuesOf k samples) / samples.length : ℝ) / B.logWidth i := by
            refine exists_congr fun k => and_congr_right fun hk' => ?_
            rw [((hk k hk').2.2.2 i hi).1]
          rw [ec]
          by_cases h1 : B.minTime * Real.sqrt l * l ^ i ≤ mx
          · rw [if_pos h1]
            by_cases h2 : ∃ k < n, 1 / 10 ^ 15 < (a'.lhist.getD k []).getD i 0
            · rw [if_pos h2, if_pos ⟨h1, ep.1 h2⟩]
            · rw [if_neg h2, if_neg fun h => h2 (ep.2 h.2)]
          · rw [if_neg h1, if_neg fun h => h1 h.1]

/-- From a directory with the result files of any number of runs that write `n` numbers per line (and anything else that can
be passed over) to the results, exact arithmetic.  The analysis succeeds and leaves a table with one line per distinct list of
recorded variables for which there are data; the line has these variables, then the number of lines of data of all runs
with these variables, then mean and standard deviation of every number; and two files with the distributions.  The number of
values per line may also be left open (given as 0). -/
theorem C78_vector_results (f : NumFmt ℝ) (pe pd : ℝ → Str) (rd : ℝ → ℝ) (okd : ℝ → Prop) (hpe : WritesWords pe)
    (hpd : ReadsAs f pd rd okd) (dh : List Nat → Nat) (cs : List (Component ℝ)) (sim : Component ℝ)
    (hn : ∀ S ∈ schemasOf cs, ∀ f ∈ S.fields, f.NameOk) (hns : ∀ f ∈ sim.schema.fields, f.NameOk)
    (names : List Str) (exist : Str → Bool) (listing : Str → Option (List Entry)) (date : Str) (args : List Str)
    (headWidth width : Nat) (hnm : ∀ n ∈ names, Str.IsWord n ∧ n.length < width) (hwd : 8 < width) (pre : Str)
    (fuel : Nat) (w : AnalysisArgs ℝ) (hargs : vecArgs f args = .ok w) (hb : 0 < w.b) (hl : 1 < w.l) (B : Bins ℝ)
    (hset : Bins.updateFromBinSize Bins.new w.mn w.mx w.b w.l = (B, .ok ())) (hmx : B.minTime ≤ w.mx)
    (hf1 : B.numBin < fuel) (hf2 : B.numLbin < fuel) (n : Nat) (hn0 : 0 < n) (hnum : w.numVar = n ∨ w.numVar = 0)
    (line : List ℝ → Str) (slots : List (Option (RunOf cs sim (List ℝ)))) (es : List Entry) (hes : listing w.dir = some es)
    (hdir : DirectoryOf headWidth line slots es) (hp : ∀ r ∈ slots.reduceOption, r.Printable)
    (hs : ∀ r ∈ slots.reduceOption, ∀ v ∈ r.rows, v.length = n ∧ (∀ t ∈ v, okd t) ∧ LineOf (line v) (v.map pd))
    (hdh : ∀ r ∈ slots.reduceOption, ∀ r' ∈ slots.reduceOption,
      dh r.dataset.key = dh r'.dataset.key → r.dataset.key = r'.dataset.key)
    (dir : Str) (hfresh : summaryDir exist w.dir date fuel = some dir)
    (data : RunOf cs sim (List ℝ) → List (List ℝ)) (hdata : ∀ g, data g = (g.pooled slots.reduceOption).map (·.map rd)) :
    ∃ o groups title rows,
      vecAnalyze f pe dh (DataSet.fromFile cs sim) names exist listing date args width pre fuel = some (.ok o) ∧
      (∀ g ∈ groups, g ∈ slots.reduceOption ∧ data g ≠ []) ∧
      groups.Pairwise (fun g g' => g.dataset.key ≠ g'.dataset.key) ∧
      (∀ r ∈ slots.reduceOption, r.rows ≠ [] → ∃ g ∈ groups, g.dataset.key = r.dataset.key) ∧
      Str.lines o.summary.text = title :: rows ∧
      Str.words title = names ++ [chars! "ensemble", chars! "meantime", chars! "stddev"] ∧
      List.Forall₂ (fun (g : RunOf cs sim (List ℝ)) row => Str.words row = g.dataset.vars.map (fun v => v.2.cell pe) ++
        Str.printNat (data g).length :: ((List.range n).map fun k =>
          [pe (sampleMean (valuesOf k (data g))), pe (Real.sqrt (sampleVariance (valuesOf k (data g))))]).flatten) groups rows ∧
      o.dir = dir ∧
      o.files = (groups.map fun g =>
        [⟨dir ++ chars! "/linear_distribution/" ++ g.dataset.exportFileRemovedIdx f pre,
          ((vecLinearRows B n (data g)).map (vecRowText pe width)).flatten⟩,
         ⟨dir ++ chars! "/logarithmic_distribution/" ++ g.dataset.exportFileRemovedIdx f pre,
          ((vecLogRows B n (data g)).map (vecRowText pe width)).flatten⟩]).flatten := by
  classical
  set runs := slots.reduceOption with hruns
  let z := vecAnalyzer f w.numVar w.mn w.mx w.b w.l
  let x := vecExporter pe width fuel
  let a0 := prepared w.numVar B
  have hfr : z.fresh = .ok a0 := by simp only [z, vecAnalyzer, hset]; rfl
  let res : RunOf cs sim (List ℝ) → TimeVecAnalysis ℝ := fun g => (a0.feed (data g)).1
  have hrow : ∀ g ∈ runs, ∀ v ∈ g.pooled runs, v.length = n ∧ (∀ t ∈ v, okd t) ∧ LineOf (line v) (v.map pd) := by
    intro g _ v hv
    obtain ⟨l, hl, hvl⟩ := List.mem_flatten.1 hv
    obtain ⟨r, hr, rfl⟩ := List.mem_map.1 hl
    exact hs r (List.mem_of_mem_filter hr) v hvl
  have hlen : ∀ g ∈ runs, ∀ v ∈ data g, v.length = n := by
    intro g hg v hv
    rw [hdata] at hv
    obtain ⟨u, hu, rfl⟩ := List.mem_map.1 hv
    simpa using (hrow g hg u hu).1
  have hfeed : ∀ g ∈ runs, data g ≠ [] → a0.feed (data g) = (prepared n B).feed (data g) := by
    intro g hg hne
    rcases hnum with h | h
    · show (prepared w.numVar B).feed _ = _
      rw [h]
    · show (prepared w.numVar B).feed _ = _
      rw [h]
      cases hd : data g with
      | nil => exact absurd hd hne
      | cons v s => exact vec_feed_zero n B v s (hlen g hg v (by rw [hd]; simp))
  have hrep : ∀ g ∈ runs, data g ≠ [] → ∃ a', a0.feed (data g) = (res g, .ok ()) ∧ (res g).ensemble = (data g).length ∧ (res g).draw = (a', .ok ()) ∧
      a'.ensemble = (data g).length ∧
      a'.means.zip a'.stddevs = (List.range n).map (fun k => (sampleMean (valuesOf k (data g)), Real.sqrt (sampleVariance (valuesOf k (data g))))) ∧
      a'.exportRows fuel = some (.ok (vecLinearRows B n (data g))) ∧ a'.exportLogRows fuel = some (.ok (vecLogRows B n (data g))) := by
    intro g hg hne
    obtain ⟨a, a', h1, h2⟩ := vec_report hset hb hl hmx n hn0 (data g) hne (hlen g hg) fuel hf1 hf2
    rw [← hfeed g hg hne] at h1
    have : res g = a := by show (a0.feed (data g)).1 = a; rw [h1]
    rw [this]
    exact ⟨a', h1, h2⟩
  have hskip : ∀ g ∈ runs, z.skip (res g) = true ↔ data g = [] := by
    intro g hg
    show decide ((res g).ensemble = 0) = true ↔ _
    rw [decide_eq_true_eq]
    by_cases hne : data g = []
    · simp only [hne, iff_true]
      show (a0.feed (data g)).1.ensemble = 0
      rw [hne]; rfl
    · obtain ⟨a', -, h, -⟩ := hrep g hg hne
      rw [h]
      simp [hne]
  obtain ⟨m, groups, hm, hg1, hg2, hg3, hg4, hg5⟩ := results_of (cs := cs) (sim := sim) z x f pe dh hn hns names exist listing date headWidth width pre
    w.dir fuel line slots es hes hdir hp (fun r hr v hv => (hs r hr v hv).2.2.2) hdh dir hfresh a0 hfr res (by
      intro g hg
      refine vec_lines f pd rd okd hpd _ _ _ _ _ line _ _ _ (fun v hv => (hrow g hg v hv).2) ?_
      rw [← hdata]
      by_cases hne : data g = []
      · show _ = ((a0.feed (data g)).1, _)
        rw [hne]; rfl
      · exact (hrep g hg hne).choose_spec.1)
    (fun g => (g.dataset.exportData pe width ++ x.brief (res g).draw.1 ++ ['\n'],
      [⟨dir ++ chars! "/linear_distribution/" ++ g.dataset.exportFileRemovedIdx f pre,
          ((vecLinearRows B n (data g)).map (vecRowText pe width)).flatten⟩,
         ⟨dir ++ chars! "/logarithmic_distribution/" ++ g.dataset.exportFileRemovedIdx f pre,
          ((vecLogRows B n (data g)).map (vecRowText pe width)).flatten⟩])) (by
      intro g hg hsk
      have hne : data g ≠ [] := fun h => by rw [(hskip g hg).2 h] at hsk; exact absurd hsk (by simp)
      obtain ⟨a', -, -, h1, -, -, h2, h3⟩ := hrep g hg hne
      have hxd : x.draw (res g) = (a', .ok ()) := h1
      have hxl : x.linear a' = some (.ok ((vecLinearRows B n (data g)).map (vecRowText pe width)).flatten) := by
        show (a'.exportRows fuel).map _ = _
        rw [h2]; rfl
      have hxg : x.log a' = some (.ok ((vecLogRows B n (data g)).map (vecRowText pe width)).flatten) := by
        show (a'.exportLogRows fuel).map _ = _
        rw [h3]; rfl
      unfold Exporter.one
      rw [hxd]
      simp only
      rw [hxl]
      simp only
      rw [hxg, h1])
  have hfil : (groups.filter fun g => !z.skip (res g)) = groups.filter fun g => data g ≠ [] := by
    refine List.filter_congr fun g hg => ?_
    have := hskip g (hg1 g hg)
    by_cases h : data g = []
    · simp [h, this.2 h]
    · have : z.skip (res g) = false := by
        by_contra hc
        exact h (this.1 (by simpa using hc))
      simp [h, this]
  rw [hfil] at hg5
  obtain ⟨m', title, rows, t1, t2, t3, t4⟩ := C63_vector_table f pe dh (DataSet.fromFile cs sim) names exist listing
    date width pre w.dir fuel w.numVar w.mn w.mx w.b w.l _ hg5 hpe hnm hwd
  have hmm : m' = m := by
    have h3 := t1.symm.trans hm
    injection h3
  subst hmm
  refine ⟨_, groups.filter fun g => data g ≠ [], title, rows, ?_, ?_, ?_, ?_, t2, t3, ?_, rfl, rfl⟩
  · unfold vecAnalyze
    rw [hargs]
    exact hg5
  · intro g hg
    exact ⟨hg1 g (List.mem_of_mem_filter hg), by simpa using (List.mem_filter.1 hg).2⟩
  · exact hg2.filter _
  · intro r hr hne
    obtain ⟨g, hg, hk⟩ := hg3 r hr
    refine ⟨g, List.mem_filter.2 ⟨hg, ?_⟩, hk⟩
    have : data g ≠ [] := by
      rw [hdata]
      intro h0
      rw [List.map_eq_nil_iff] at h0
      unfold RunOf.pooled at h0
      rw [List.flatten_eq_nil_iff] at h0
      exact hne (h0 r.rows (List.mem_map_of_mem (List.mem_filter.2 ⟨hr, by simp [hk]⟩)))
    simpa using this
  · have key : ∀ (gs : List (RunOf cs sim (List ℝ))) (m : List (DataSet ℝ × TimeVecAnalysis ℝ)), (∀ g ∈ gs, g ∈ runs) →
        List.Forall₂ (fun (g : RunOf cs sim (List ℝ)) p => g.dataset = p.1 ∧ res g = p.2) gs m →
        List.Forall₂ (fun (g : RunOf cs sim (List ℝ)) p => (g ∈ runs ∧ data g ≠ []) ∧ g.dataset = p.1 ∧ res g = p.2)
          (gs.filter fun g => data g ≠ []) (m.filter fun p => p.2.ensemble ≠ 0) := by
      intro gs m hgs h
      induction h with
      | nil => exact .nil
      | @cons g p gs m h1 h2 ih =>
        have ih := ih fun g hg => hgs g (by simp [hg])
        have hg := hgs g (by simp)
        have hs' : p.2.ensemble = 0 ↔ data g = [] := by
          have := hskip g hg
          rw [← this, ← h1.2]
          show _ ↔ decide ((res g).ensemble = 0) = true
          rw [decide_eq_true_eq]
        by_cases hne : data g = []
        · rw [List.filter_cons_of_neg (by simp [hne]), List.filter_cons_of_neg (by simp [hs'.2 hne])]
          exact ih
        · rw [List.filter_cons_of_pos (by simpa using hne), List.filter_cons_of_pos (by simpa using fun h => hne (hs'.1 h))]
          exact .cons ⟨⟨hg, hne⟩, h1⟩ ih
    refine forall₂_trans (key groups m' hg1 hg4) t4 ?_
    rintro g p row - ⟨⟨hg, hne⟩, hd, ha⟩ ⟨-, hrow⟩
    obtain ⟨a', -, -, h1, h2, h3, -⟩ := hrep g hg hne
    rw [hrow, ← hd, ← ha, h1, h2, h3, List.map_map]
    rfl

end Vector
end Moledyn.Props
