import Verif.Props.SummaryTable
import Verif.Props.AnalysisWords
import Verif.Spec.Runs
import Mathlib.Data.List.ReduceOption
/-
C64: from the files of many runs to the summary table and the distributions.
-/
set_option linter.unusedSimpArgs false
namespace Moledyn.Props
open Moledyn
variable {F A : Type}

/-! ### one result file -/

theorem trim_word {s : Str} (hs : ∀ c ∈ s, Str.isWs c = false) : Str.trim s = s :=
  Str.trim_id (fun c hc => hs c (List.mem_of_mem_head? hc)) (fun c hc => hs c (List.mem_of_mem_getLast? hc))

theorem stripCR_word {s : Str} (hs : Str.IsWord s) : Str.stripCR s = s := by
  obtain ⟨t, c, h, hc⟩ := padRight_last (w := 0) hs
  have : Str.padRight 0 s = s := by simp [Str.padRight]
  rw [this] at h
  rw [h, stripCR_snoc hc]

/-- the numbers on the lines of data are those that were written. -/
theorem samples_of_text (f : NumFmt F) (pd : F → Str) (rd : F → F) (ok : F → Prop) (hpd : ReadsAs f pd rd ok) :
    ∀ s : List F, (∀ t ∈ s, ok t) →
      samplesOf f (Reader.ofLines (Str.lines (s.map fun t => pd t ++ ['\n']).flatten)) = some (s.map rd)
  | [], _ => rfl
  | t :: s, h => by
    have ht := h t (by simp)
    have hw : Str.IsWord (pd t) := ⟨hpd.nonempty t ht, hpd.noBlank t ht⟩
    have e : (((t :: s).map fun t => pd t ++ ['\n']).flatten) = pd t ++ '\n' :: (s.map fun t => pd t ++ ['\n']).flatten := by
      simp
    rw [e, Str.lines_cons (no_lf_word hw), stripCR_word hw]
    have ih := samples_of_text f pd rd ok hpd s (fun t ht => h t (by simp [ht]))
    simp only [Reader.ofLines, List.map_cons, samplesOf] at ih ⊢
    rw [trim_word hw.2, hpd.reads t ht, Option.bind_some, ih]
    rfl

section Runs
variable {cs : List (Component F)} {sim : Component F}

theorem file_contributes (width : Nat) (pd : F → Str) (r : Run cs sim) (e : Entry)
    (hn : ∀ S ∈ schemasOf cs, ∀ f ∈ S.fields, f.NameOk) (hns : ∀ f ∈ sim.schema.fields, f.NameOk)
    (hp : r.Printable) (h : r.File width pd e) :
    e.contributes (DataSet.fromFile cs sim) = some (r.dataset, Reader.ofLines (Str.lines (r.dataText pd))) ∧
    ¬ e.fatal (DataSet.fromFile cs sim) := by
  obtain ⟨t, ht, rfl⟩ := h
  obtain ⟨t', ht', hff⟩ := C51_from_file width cs sim r.vals r.simVals hn hns hp.1 hp.2 (r.dataText pd)
  rw [ht] at ht'; injection ht' with ht'
  subst ht'
  constructor
  · simp only [Entry.contributes, hff]
    rfl
  · simp only [Entry.fatal, hff]
    simp

/-- what the directory contributes. -/
theorem directory_contributes (width : Nat) (pd : F → Str) (slots : List (Option (Run cs sim))) (es : List Entry)
    (hn : ∀ S ∈ schemasOf cs, ∀ f ∈ S.fields, f.NameOk) (hns : ∀ f ∈ sim.schema.fields, f.NameOk)
    (hp : ∀ r ∈ slots.reduceOption, r.Printable) (h : Directory width pd slots es) :
    es.filterMap (Entry.contributes (DataSet.fromFile cs sim)) =
      slots.reduceOption.map (fun r => (r.dataset, Reader.ofLines (Str.lines (r.dataText pd)))) ∧
    ∀ e ∈ es, ¬ e.fatal (DataSet.fromFile cs sim) := by
  induction h with
  | nil => exact ⟨rfl, by simp⟩
  | @cons s e slots es h1 h2 ih =>
    cases s with
    | none =>
      obtain ⟨i1, i2⟩ := ih (fun r hr => hp r (by simpa [List.reduceOption_cons_of_none] using hr))
      simp only at h1
      refine ⟨?_, ?_⟩
      · rw [List.filterMap_cons, h1.1, List.reduceOption_cons_of_none]; exact i1
      · intro e' he'
        rcases List.mem_cons.1 he' with rfl | he'
        · exact h1.2
        · exact i2 e' he'
    | some r =>
      rw [List.reduceOption_cons_of_some] at hp ⊢
      obtain ⟨i1, i2⟩ := ih (fun r hr => hp r (by simp [hr]))
      simp only at h1
      obtain ⟨c1, c2⟩ := file_contributes width pd r e hn hns (hp r (by simp)) h1
      refine ⟨?_, ?_⟩
      · rw [List.filterMap_cons, c1, List.map_cons, i1]
      · intro e' he'
        rcases List.mem_cons.1 he' with rfl | he'
        · exact c2
        · exact i2 e' he'

theorem samplesOf_flatten (f : NumFmt F) : ∀ (rs : List Reader) (ss : List (List F)),
    List.Forall₂ (fun r s => samplesOf f r = some s) rs ss → samplesOf f rs.flatten = some ss.flatten := by
  have app : ∀ (r r' : Reader) (s s' : List F), samplesOf f r = some s → samplesOf f r' = some s' →
      samplesOf f (r ++ r') = some (s ++ s') := by
    intro r
    induction r with
    | nil => intro r' s s' h1 h2; simp only [samplesOf, Option.some.injEq] at h1; subst h1; simpa using h2
    | cons x r ih =>
      intro r' s s' h1 h2
      cases x with
      | error t => simp [samplesOf] at h1
      | ok l =>
        simp only [samplesOf, Option.bind_eq_some_iff, Option.map_eq_some_iff] at h1
        obtain ⟨y, hy, s1, hs1, rfl⟩ := h1
        simp only [List.cons_append, samplesOf, hy, Option.bind_some, ih r' s1 s' hs1 h2, Option.map_some]
  intro rs ss h
  induction h with
  | nil => rfl
  | cons h _ ih => simp only [List.flatten_cons]; exact app _ _ _ _ h ih

end Runs

/-! ### writing all groups -/

theorem all_eq (x : Exporter A) (skip : A → Bool) (f : NumFmt F) (pe : F → Str) (width : Nat) (pre dir : Str)
    (m : List (DataSet F × A)) (g : DataSet F × A → Str × List Written)
    (h : ∀ p ∈ m, skip p.2 = false ∧ x.one f pe width pre dir p.1 p.2 = some (.ok (g p))) :
    x.all skip f pe width pre dir m =
      some (.ok ((m.map fun p => (g p).1).flatten, (m.map fun p => (g p).2).flatten)) := by
  induction m with
  | nil => rfl
  | cons p m ih =>
    obtain ⟨d, a⟩ := p
    obtain ⟨h1, h2⟩ := h (d, a) (by simp)
    simp only at h1 h2
    simp only [Exporter.all, h1, Bool.false_eq_true, if_false, h2,
      ih (fun p hp => h p (by simp [hp])), Option.map_some, Res.map_ok, List.map_cons, List.flatten_cons]

theorem filterMap_range_congr {α : Type} {n m : Nat} (hnm : n = m) {g h : Nat → Option α}
    (hgh : ∀ i < n, g i = h i) : (List.range n).filterMap g = (List.range m).filterMap h := by
  subst hnm
  exact List.filterMap_congr fun i hi => hgh i (List.mem_range.1 hi)

/-- what is reported and written for one set of samples. -/
theorem report_rows {old B : Bins ℝ} {mn mx b l : ℝ}
    (hset : Bins.updateFromBinSize old mn mx b l = (B, .ok ())) (hb : 0 < b) (hl : 1 < l) (samples : List ℝ)
    (hne : samples ≠ []) :
    ∃ a, (TimeAnalysis.prepared B).report samples = (a, .ok ()) ∧ a.ensemble = samples.length ∧
      a.mean = sampleMean samples ∧ a.stddev = Real.sqrt (sampleVariance samples) ∧
      a.exportRows = .ok (linearRows B samples) ∧ a.exportLogRows = .ok (logRows B samples) := by
  obtain ⟨a, ha, h1, h2, h3, -⟩ := C48_mean_stddev old B mn mx b l hset hb hl samples hne
  obtain ⟨a', ha', l1, l2, d1, d2, -⟩ := C47_densities old B mn mx b l hset hb hl samples hne
  rw [ha] at ha'
  simp only [Prod.mk.injEq, and_true] at ha'
  subst ha'
  obtain ⟨a0, h0, -, c1, c2, c3, c4, -⟩ := C46_counts old B mn mx b l hset hb hl samples
  obtain ⟨hm, -, -, hbs, hls, -⟩ := bins_setup hset
  have hsame : a.count = a0.count ∧ a.lcount = a0.lcount ∧ a.bins = B := by
    rw [report_prepared hset hb hl] at ha
    rw [feed_prepared hset hb hl] at h0
    simp only [Prod.mk.injEq, and_true] at ha h0
    rw [← ha, ← h0]
    exact ⟨rfl, rfl, rfl⟩
  obtain ⟨s1, s2, s3⟩ := hsame
  refine ⟨a, ha, h1, h2, h3, ?_, ?_⟩
  · rw [C55_time_rows a (by rw [l1, s1, c1])]
    congr 1
    unfold linearRows
    refine filterMap_range_congr l1 fun i hi => ?_
    rw [l1] at hi
    have e1 : a.hist.getD i 0 = (howMany (fun t => B.InWindow t ∧ B.InBin i t) samples / samples.length : ℝ) / b := by
      simp [List.getD, d1 i hi]
    have e2 : a.count.getD i 0 = howMany (fun t => B.InWindow t ∧ B.InBin i t) samples := by
      rw [s1]; simp [List.getD, c3 i hi]
    simp only [e1, e2, s3, hbs]
  · rw [C55_time_log_rows a (by rw [s3, hls]; linarith) (by rw [l2, s2, c2])]
    congr 1
    unfold logRows
    refine filterMap_range_congr l2 fun i hi => ?_
    rw [l2] at hi
    have e1 : a.lhist.getD i 0 =
        (howMany (fun t => B.InWindow t ∧ B.InLogBin i t) samples / samples.length : ℝ) / B.logWidth i := by
      simp [List.getD, d2 i hi]
    have e2 : a.lcount.getD i 0 = howMany (fun t => B.InWindow t ∧ B.InLogBin i t) samples := by
      rw [s2]; simp [List.getD, c4 i hi]
    simp only [e1, e2, s3]

theorem forall₂_choose {α β : Type} (R : α → β → Prop) (P : α → Prop) : ∀ l : List β,
    (∀ b ∈ l, ∃ a, P a ∧ R a b) → ∃ l', (∀ a ∈ l', P a) ∧ List.Forall₂ R l' l
  | [], _ => ⟨[], by simp, .nil⟩
  | b :: l, h => by
    obtain ⟨a, ha, hr⟩ := h b (by simp)
    obtain ⟨l', h1, h2⟩ := forall₂_choose R P l (fun b hb => h b (by simp [hb]))
    refine ⟨a :: l', ?_, .cons hr h2⟩
    intro x hx
    rcases List.mem_cons.1 hx with rfl | hx
    · exact ha
    · exact h1 x hx

theorem forall₂_trans {α β γ : Type} {R : α → β → Prop} {S : β → γ → Prop} {T : α → γ → Prop} {l : List α}
    {m : List β} {n : List γ} (h1 : List.Forall₂ R l m) (h2 : List.Forall₂ S m n)
    (h : ∀ a b c, b ∈ m → R a b → S b c → T a c) : List.Forall₂ T l n := by
  induction h1 generalizing n with
  | nil => cases h2; exact .nil
  | cons r _ ih =>
    cases h2 with
    | cons s h2 => exact .cons (h _ _ _ (by simp) r s) (ih h2 (fun a b c hb => h a b c (by simp [hb])))

/-- From a directory with the result files of any number of runs (and anything else that can be passed over) to
the results, exact arithmetic.  The analysis succeeds and leaves a table with one line per distinct list of
recorded variables; the line has these variables, then mean, standard deviation and number of all samples of
all runs with these variables; and two files with the distributions of these samples.

`hdh`: the hasher does not map the recorded variables of two of the runs to the same digest unless they agree. -/
theorem C64_time_results (f : NumFmt ℝ) (pe pd : ℝ → Str) (rd : ℝ → ℝ) (okd : ℝ → Prop) (hpe : WritesWords pe)
    (hpd : ReadsAs f pd rd okd) (dh : List Nat → Nat) (cs : List (Component ℝ)) (sim : Component ℝ)
    (hn : ∀ S ∈ schemasOf cs, ∀ f ∈ S.fields, f.NameOk) (hns : ∀ f ∈ sim.schema.fields, f.NameOk)
    (names : List Str) (exist : Str → Bool) (listing : Str → Option (List Entry)) (date : Str) (args : List Str)
    (headWidth width : Nat) (hnm : ∀ n ∈ names, Str.IsWord n ∧ n.length < width) (hwd : 8 < width) (pre : Str)
    (fuel : Nat) (w : AnalysisArgs ℝ) (hargs : timeArgs f args = .ok w) (hb : 0 < w.b) (hl : 1 < w.l) (B : Bins ℝ)
    (hset : Bins.updateFromBinSize Bins.new w.mn w.mx w.b w.l = (B, .ok ()))
    (slots : List (Option (Run cs sim))) (es : List Entry) (hes : listing w.dir = some es)
    (hdir : Directory headWidth pd slots es) (hp : ∀ r ∈ slots.reduceOption, r.Printable)
    (hs : ∀ r ∈ slots.reduceOption, r.samples ≠ [] ∧ ∀ t ∈ r.samples, okd t)
    (hdh : ∀ r ∈ slots.reduceOption, ∀ r' ∈ slots.reduceOption,
      dh r.dataset.key = dh r'.dataset.key → r.dataset.key = r'.dataset.key)
    (dir : Str) (hfresh : summaryDir exist w.dir date fuel = some dir) :
    ∃ o groups title rows,
      timeAnalyze f pe dh (DataSet.fromFile cs sim) names exist listing date args width pre fuel = some (.ok o) ∧
      (∀ g ∈ groups, g ∈ slots.reduceOption) ∧ groups.Pairwise (fun g g' => g.dataset.key ≠ g'.dataset.key) ∧
      (∀ r ∈ slots.reduceOption, ∃ g ∈ groups, g.dataset.key = r.dataset.key) ∧
      Str.lines o.summary.text = title :: rows ∧
      Str.words title = names ++ [chars! "ensemble", chars! "mean", chars! "stddev"] ∧
      List.Forall₂ (fun (g : Run cs sim) row => Str.words row = g.dataset.vars.map (fun v => v.2.cell pe) ++
        [pe (sampleMean (g.pooled rd slots.reduceOption)),
         pe (Real.sqrt (sampleVariance (g.pooled rd slots.reduceOption))),
         Str.printNat (g.pooled rd slots.reduceOption).length]) groups rows ∧
      o.dir = dir ∧
      o.files = (groups.map fun g =>
        [⟨dir ++ chars! "/linear_distribution/" ++ g.dataset.exportFileRemovedIdx f pre,
          ((linearRows B (g.pooled rd slots.reduceOption)).map (timeRowText pe width)).flatten⟩,
         ⟨dir ++ chars! "/logarithmic_distribution/" ++ g.dataset.exportFileRemovedIdx f pre,
          ((logRows B (g.pooled rd slots.reduceOption)).map (timeRowText pe width)).flatten⟩]).flatten := by
  set runs := slots.reduceOption with hruns
  obtain ⟨hcon, hfat⟩ := directory_contributes headWidth pd slots es hn hns hp hdir
  rw [← hruns] at hcon
  let cls : DataSet ℝ → Nat := fun d => dh d.key
  let z := timeAnalyzer f w.mn w.mx w.b w.l
  let x := timeExporter pe width
  let es' := es ++ [Entry.dir]
  have hcon' : es'.filterMap (Entry.contributes (DataSet.fromFile cs sim)) =
      runs.map (fun r => (r.dataset, Reader.ofLines (Str.lines (r.dataText pd)))) := by
    show (es ++ [Entry.dir]).filterMap _ = _
    rw [List.filterMap_append, hcon]; simp [Entry.contributes]
  -- the samples of a class
  have hsamp : ∀ g ∈ runs, samplesOf f (groupData cls (DataSet.fromFile cs sim) g.dataset es') =
      some (g.pooled rd runs) := by
    intro g hg
    unfold groupData Run.pooled
    rw [hcon']
    apply samplesOf_flatten
    rw [List.filter_map, List.map_map]
    have hfil : runs.filter ((fun p : DataSet ℝ × Reader => decide (cls p.1 = cls g.dataset)) ∘
        fun r => (r.dataset, Reader.ofLines (Str.lines (r.dataText pd)))) =
        runs.filter fun r => r.dataset.key = g.dataset.key := by
      refine List.filter_congr fun r hr => ?_
      simp only [Function.comp_apply, decide_eq_decide]
      exact ⟨fun h => hdh r hr g hg h, fun h => by show dh _ = dh _; rw [h]⟩
    rw [hfil]
    rw [List.forall₂_map_left_iff, List.forall₂_map_right_iff, List.forall₂_same]
    intro r hr
    exact samples_of_text f pd rd okd hpd r.samples (hs r (List.mem_of_mem_filter hr)).2
  have hpool : ∀ g ∈ runs, g.pooled rd runs ≠ [] := by
    intro g hg h
    unfold Run.pooled at h
    rw [List.flatten_eq_nil_iff] at h
    have := h (g.samples.map rd) (List.mem_map_of_mem (List.mem_filter.2 ⟨hg, by simp⟩))
    rw [List.map_eq_nil_iff] at this
    exact (hs g hg).1 this
  have hfr : z.fresh = .ok (TimeAnalysis.prepared B) := by
    simp only [z, timeAnalyzer, hset]; rfl
  have horig : ∀ e ∈ es', ∀ d r, e.contributes (DataSet.fromFile cs sim) = some (d, r) →
      ∃ g ∈ runs, g.dataset = d := by
    intro e he d r hc
    have : (d, r) ∈ es'.filterMap (Entry.contributes (DataSet.fromFile cs sim)) :=
      List.mem_filterMap.2 ⟨e, he, hc⟩
    rw [hcon'] at this
    obtain ⟨g, hg, h⟩ := List.mem_map.1 this
    simp only [Prod.mk.injEq] at h
    exact ⟨g, hg, h.1⟩
  -- reading
  obtain ⟨m, hm⟩ : ∃ m, z.loop (fun a b => decide (cls a = cls b)) (DataSet.fromFile cs sim) [] es' = .ok m := by
    refine (C51_succeeds_iff z cls _ es').2 ⟨?_, ?_⟩
    · intro e he
      rcases List.mem_append.1 he with he | he
      · exact hfat e he
      · simp only [List.mem_singleton] at he; subst he; exact id
    · intro e he d r hc
      obtain ⟨g, hg, rfl⟩ := horig e he d r hc
      obtain ⟨a, ha, -⟩ := C46_counts _ B _ _ _ _ hset hb hl (g.pooled rd runs)
      exact ⟨_, a, hfr, (time_lines_iff f w.mn w.mx w.b w.l _ _ _).2 ⟨_, hsamp g hg, ha⟩⟩
  have hgr := C51_groups z cls _ es' m hm
  have hinv := loop_inv z cls (DataSet.fromFile cs sim) [] m [] es' ⟨by simp, by simp, by simp, by simp⟩ hm
  have hmem : ∀ p ∈ m, ∃ g ∈ runs, g.dataset = p.1 := by
    intro p hp
    obtain ⟨⟨e, he, r, hc⟩, -⟩ := hgr.2 p hp
    exact horig e he _ _ hc
  have hdata : ∀ p ∈ m, ∀ g ∈ runs, g.dataset = p.1 →
      (TimeAnalysis.prepared B).feed (g.pooled rd runs) = (p.2, .ok ()) := by
    intro p hp g hg hgp
    obtain ⟨s, h1, h2⟩ := C51_time_group f w.mn w.mx w.b w.l B hset cls _ es' m hm p hp
    rw [← hgp, hsamp g hg] at h1
    injection h1 with h1
    rw [h1]; exact h2
  have hdraw : ∀ p ∈ m, ∀ g ∈ runs, g.dataset = p.1 → ∃ a, p.2.draw = (a, .ok ()) ∧
      a.ensemble = (g.pooled rd runs).length ∧ a.mean = sampleMean (g.pooled rd runs) ∧
      a.stddev = Real.sqrt (sampleVariance (g.pooled rd runs)) ∧
      a.exportRows = .ok (linearRows B (g.pooled rd runs)) ∧ a.exportLogRows = .ok (logRows B (g.pooled rd runs)) := by
    intro p hp g hg hgp
    obtain ⟨a, ha, h⟩ := report_rows hset hb hl (g.pooled rd runs) (hpool g hg)
    unfold TimeAnalysis.report at ha
    rw [hdata p hp g hg hgp] at ha
    exact ⟨a, ha, h⟩
  have hone : ∀ p ∈ m, ∀ g ∈ runs, g.dataset = p.1 → x.one f pe width pre dir p.1 p.2 =
      some (.ok (p.1.exportData pe width ++ p.2.draw.1.exportMeanStddev pe width ++ ['\n'],
        [⟨dir ++ chars! "/linear_distribution/" ++ g.dataset.exportFileRemovedIdx f pre,
          ((linearRows B (g.pooled rd runs)).map (timeRowText pe width)).flatten⟩,
         ⟨dir ++ chars! "/logarithmic_distribution/" ++ g.dataset.exportFileRemovedIdx f pre,
          ((logRows B (g.pooled rd runs)).map (timeRowText pe width)).flatten⟩])) := by
    intro p hp g hg hgp
    obtain ⟨a, ha, -, -, -, h1, h2⟩ := hdraw p hp g hg hgp
    have hxd : x.draw p.2 = (a, .ok ()) := ha
    have hxl : x.linear a = some (.ok ((linearRows B (g.pooled rd runs)).map (timeRowText pe width)).flatten) := by
      show some (a.exportRows.map _) = _
      rw [h1]; rfl
    have hxg : x.log a = some (.ok ((logRows B (g.pooled rd runs)).map (timeRowText pe width)).flatten) := by
      show some (a.exportLogRows.map _) = _
      rw [h2]; rfl
    unfold Exporter.one
    rw [hxd]
    simp only
    rw [hxl]
    simp only
    rw [hxg]
    simp only
    rw [ha, hgp]
    rfl
  -- representatives
  obtain ⟨groups, hg1, hg2⟩ := forall₂_choose (fun (g : Run cs sim) (p : DataSet ℝ × TimeAnalysis ℝ) =>
    g.dataset = p.1) (· ∈ runs) m hmem
  have hall : ∃ r, x.all z.skip f pe width pre dir m = some (.ok r) ∧ r.2 = (groups.map fun g =>
        [⟨dir ++ chars! "/linear_distribution/" ++ g.dataset.exportFileRemovedIdx f pre,
          ((linearRows B (g.pooled rd runs)).map (timeRowText pe width)).flatten⟩,
         ⟨dir ++ chars! "/logarithmic_distribution/" ++ g.dataset.exportFileRemovedIdx f pre,
          ((logRows B (g.pooled rd runs)).map (timeRowText pe width)).flatten⟩]).flatten := by
    clear hm hgr hinv hmem hdata hdraw
    induction hg2 with
    | nil => exact ⟨([], []), rfl, rfl⟩
    | @cons g p gs m h1 h2 ih =>
      obtain ⟨r, k1, k2⟩ := ih (fun p hp => hone p (by simp [hp])) (fun g hg => hg1 g (by simp [hg]))
      have := hone p (by simp) g (hg1 g (by simp)) h1
      obtain ⟨d, a⟩ := p
      simp only [Exporter.all]
      rw [if_neg (by simp [z, timeAnalyzer])]
      simp only at this
      rw [this]
      simp only
      rw [k1]
      simp only [Option.map_some, Res.map_ok]
      exact ⟨_, rfl, by simp [k2]⟩
  obtain ⟨r, hr1, hr2⟩ := hall
  let o : AnalysisOutput := ⟨dir, ⟨dir ++ chars! "/" ++ x.summaryName,
          DataSet.exportForm width names ++ DataSet.exportForm width x.labels ++ ['\n'] ++ r.1⟩, r.2⟩
  have ho : analyzeDir z x f pe dh (DataSet.fromFile cs sim) names exist listing date width pre w.dir fuel =
      some (.ok o) := by
    unfold analyzeDir
    rw [hfresh]
    simp only [Option.bind_some]
    rw [hes, eqv_decide]
    have : z.loop (fun a b : DataSet ℝ => decide (dh a.key = dh b.key)) (DataSet.fromFile cs sim) []
      ((some es).getD [] ++ [Entry.dir]) = .ok m := hm
    rw [this]
    simp only
    rw [hr1]
    rfl
  obtain ⟨m', title, rows, t1, t2, t3, t4⟩ := C63_time_table f pe dh (DataSet.fromFile cs sim) names exist listing
    date width pre w.dir fuel w.mn w.mx w.b w.l o ho hpe hnm hwd
  have hmm : m' = m := by
    rw [hes, eqv_decide] at t1
    have h2 : z.loop (fun a b : DataSet ℝ => decide (dh a.key = dh b.key)) (DataSet.fromFile cs sim) []
      ((some es).getD [] ++ [Entry.dir]) = .ok m := hm
    have h3 := t1.symm.trans h2
    injection h3
  subst hmm
  refine ⟨o, groups, title, rows, ?_, hg1, ?_, ?_, t2, t3, ?_, rfl, hr2⟩
  · unfold timeAnalyze
    rw [hargs]
    exact ho
  · -- distinct
    have : groups.Pairwise fun g g' => cls g.dataset ≠ cls g'.dataset := by
      have hd := hinv.distinct
      clear hm hgr hinv hmem hdata hdraw hone hr1 hr2 t1 t4 ho
      induction hg2 with
      | nil => exact .nil
      | @cons g p gs m h1 h2 ih =>
        rw [List.pairwise_cons] at hd ⊢
        refine ⟨?_, ih (fun g hg => hg1 g (by simp [hg])) hd.2⟩
        intro g' hg'
        obtain ⟨p', hp', he⟩ := forall₂_mem h2.flip g' hg'
        rw [h1, he]
        exact hd.1 p' hp'
    exact this.imp fun h he => h (by show dh _ = dh _; rw [he])
  · intro r' hr'
    have : (r'.dataset, Reader.ofLines (Str.lines (r'.dataText pd))) ∈
        es'.filterMap (Entry.contributes (DataSet.fromFile cs sim)) := by
      rw [hcon']; exact List.mem_map_of_mem hr'
    obtain ⟨e, he, hc⟩ := List.mem_filterMap.1 this
    obtain ⟨p, ⟨hpm, hpc⟩, -⟩ := hgr.1 e he _ _ hc
    obtain ⟨g, hg, hgp⟩ := forall₂_mem hg2 p hpm
    refine ⟨g, hg, hdh g (hg1 g hg) r' hr' ?_⟩
    rw [hgp]; exact hpc
  · have hg2' : List.Forall₂ (fun (g : Run cs sim) (p : DataSet ℝ × TimeAnalysis ℝ) =>
        g ∈ runs ∧ g.dataset = p.1) groups m' := by
      clear hm hgr hinv hmem hdata hdraw hone hr1 hr2 t1 t4 ho
      induction hg2 with
      | nil => exact .nil
      | @cons g p gs m h1 h2 ih => exact .cons ⟨hg1 g (by simp), h1⟩ (ih (fun g hg => hg1 g (by simp [hg])))
    refine forall₂_trans hg2' t4 ?_
    rintro g p row hpm ⟨hg, hgp⟩ ⟨-, hrow⟩
    obtain ⟨a, ha, e1, e2, e3, -⟩ := hdraw p hpm g hg hgp
    rw [hrow, hgp, ha]
    simp only [e1, e2, e3]

/-! ### a concrete directory -/

/-- a number format for the example: whole numbers. -/
noncomputable def wholeFmt : NumFmt ℝ where
  print x := Str.printNat ⌊x⌋₊
  parse s := (Str.parseNat s).map fun n => (n : ℝ)
  dflt := 0

/-- the numbers it is good for. -/
def Whole (x : ℝ) : Prop := ∃ n : Nat, n < 2 ^ 64 ∧ x = n

theorem wholeFmt_wordLike : wholeFmt.WordLike Whole where
  roundtrip := by
    rintro _ ⟨n, hn, rfl⟩
    simp [wholeFmt, Str.parse_printNat hn]
  noBlank := by
    rintro _ ⟨n, hn, rfl⟩
    exact natFmt_wordLike.noBlank _ (by simpa using hn)
  noPunct := by
    rintro _ ⟨n, hn, rfl⟩
    exact natFmt_wordLike.noPunct _ (by simpa using hn)
  numericHead := by
    rintro _ ⟨n, hn, rfl⟩
    exact natFmt_wordLike.numericHead _ (by simpa using hn)

theorem wholeFmt_readsAs : ReadsAs wholeFmt wholeFmt.print id Whole where
  reads := wholeFmt_wordLike.roundtrip
  noBlank := wholeFmt_wordLike.noBlank
  nonempty _ _ := Str.printNat_ne_nil _

/-- a run with time step `dt`, index `idx` and the given first-passage times. -/
noncomputable def demoRun (dt : ℝ) (idx : Nat) (samples : List ℝ) :
    Run [constStepComponent wholeFmt] variableSimComponent :=
  ⟨((dt, (100 : ℝ), ()), ()), ((1 : Nat), idx, (1 : Nat), chars! "out", ()), samples⟩

theorem demoRun_printable (dt : ℝ) (idx : Nat) (s : List ℝ) (hd : Whole dt) (hi : idx < 2 ^ 64) :
    (demoRun dt idx s).Printable :=
  ⟨⟨⟨printable_real wholeFmt_wordLike _ hd,
      printable_real wholeFmt_wordLike _ (show Whole 100 from ⟨100, by norm_num, by norm_num⟩),
      trivial⟩, trivial⟩,
    printable_usize _ (show 1 < 2 ^ 64 by norm_num), printable_usize _ hi,
    printable_u128 _ (show 1 < 2 ^ 128 by norm_num),
    printable_string (s := chars! "out") _ (by decide) (by decide) (by decide), trivial⟩

theorem demoRun_file (dt : ℝ) (idx : Nat) (s : List ℝ) (hd : Whole dt) (hi : idx < 2 ^ 64) :
    ∃ e, (demoRun dt idx s).File 30 wholeFmt.print e := by
  obtain ⟨h1, h2⟩ := demoRun_printable dt idx s hd hi
  obtain ⟨h, hh, -⟩ := C51_from_file 30 [constStepComponent wholeFmt] variableSimComponent (demoRun dt idx s).vals
    (demoRun dt idx s).simVals (fun S hS f hf => by
      simp only [schemasOf, List.map_cons, List.map_nil, List.mem_singleton] at hS
      subst hS
      exact names_ok wholeFmt (constStepSchema wholeFmt) (by simp) f hf)
    (fun f hf => names_ok wholeFmt variableSimSchema (by simp) f hf) h1 h2 []
  exact ⟨_, h, hh, rfl⟩

/-- Three runs, two of them with the same parameters, and a sub-directory: two lines in the table, one with the
three samples of the two runs. -/
example : ∃ (es : List Entry) (o : AnalysisOutput) (rows : List Str) (title : Str),
    Directory 30 wholeFmt.print
      [some (demoRun 1 1 [3, 5]), none, some (demoRun 2 1 [7]), some (demoRun 1 2 [4])] es ∧
    timeAnalyze wholeFmt wholeFmt.print List.sum
      (DataSet.fromFile [constStepComponent wholeFmt] variableSimComponent) [chars! "dt", chars! "tmax"]
      (fun _ => false) (fun _ => some es) (chars! "20261118") [chars! "1", chars! "10", chars! "1", chars! "2",
        chars! "data"] 15 (chars! "rst") 1 = some (.ok o) ∧
    Str.lines o.summary.text = title :: rows ∧
    (∃ row ∈ rows, Str.words row = [chars! "1", chars! "100", chars! "4", Str.printNat ⌊Real.sqrt (2 / 3)⌋₊,
      chars! "3"]) := by
  have w1 : Whole 1 := ⟨1, by norm_num, by norm_num⟩
  have w2 : Whole 2 := ⟨2, by norm_num, by norm_num⟩
  obtain ⟨e1, h1⟩ := demoRun_file 1 1 [3, 5] w1 (by norm_num)
  obtain ⟨e2, h2⟩ := demoRun_file 2 1 [7] w2 (by norm_num)
  obtain ⟨e3, h3⟩ := demoRun_file 1 2 [4] w1 (by norm_num)
  have hd : Directory 30 wholeFmt.print
      [some (demoRun 1 1 [3, 5]), none, some (demoRun 2 1 [7]), some (demoRun 1 2 [4])] [e1, .dir, e2, e3] :=
    .cons h1 (.cons ⟨rfl, id⟩ (.cons h2 (.cons h3 .nil)))
  have k100 : hashWord (100 : ℝ) = 1000000000000 := by
    rw [C51_word_nonneg (by norm_num)]
    rw [show (100 : ℝ) * 10 ^ 10 = (1000000000000 : ℕ) by norm_num, Nat.floor_natCast]; norm_num
  have k1 : hashWord (1 : ℝ) = 10000000000 := by
    rw [C51_word_nonneg (by norm_num)]
    rw [show (1 : ℝ) * 10 ^ 10 = (10000000000 : ℕ) by norm_num, Nat.floor_natCast]; norm_num
  have k2 : hashWord (2 : ℝ) = 20000000000 := by
    rw [C51_word_nonneg (by norm_num)]
    rw [show (2 : ℝ) * 10 ^ 10 = (20000000000 : ℕ) by norm_num, Nat.floor_natCast]; norm_num
  have q : ∀ (dt : ℝ) (idx : Nat) (s : List ℝ), (demoRun dt idx s).dataset.key = [hashWord dt, hashWord (100 : ℝ)] :=
    fun _ _ _ => rfl
  obtain ⟨B, hB, -⟩ := exampleBins
  have pN : ∀ n : Nat, n < 2 ^ 64 → wholeFmt.parse (Str.printNat n) = some (n : ℝ) := by
    intro n hn
    simp [wholeFmt, Str.parse_printNat hn]
  have hargs : timeArgs wholeFmt [chars! "1", chars! "10", chars! "1", chars! "2", chars! "data"] =
      .ok ⟨0, 1, 10, 1, 2, chars! "data"⟩ := by
    rw [C43_time_words]
    refine ⟨rfl, .inr ⟨chars! "1", chars! "10", chars! "1", chars! "2", rfl, ?_, ?_, ?_, ?_⟩⟩
    · have := pN 1 (by norm_num); rw [show Str.printNat 1 = chars! "1" by decide +kernel] at this; simpa using this
    · have := pN 10 (by norm_num); rw [show Str.printNat 10 = chars! "10" by decide +kernel] at this; simpa using this
    · have := pN 1 (by norm_num); rw [show Str.printNat 1 = chars! "1" by decide +kernel] at this; simpa using this
    · have := pN 2 (by norm_num); rw [show Str.printNat 2 = chars! "2" by decide +kernel] at this; simpa using this
  have hred : ([some (demoRun 1 1 [3, 5]), none, some (demoRun 2 1 [7]), some (demoRun 1 2 [4])] :
      List (Option (Run [constStepComponent wholeFmt] variableSimComponent))).reduceOption =
      [demoRun 1 1 [3, 5], demoRun 2 1 [7], demoRun 1 2 [4]] := rfl
  obtain ⟨o, groups, title, rows, r1, r2, r3, r4, r5, r6, r7, -⟩ := C64_time_results wholeFmt wholeFmt.print
    wholeFmt.print id Whole (fun x => isWord_printNat _) wholeFmt_readsAs List.sum [constStepComponent wholeFmt]
    variableSimComponent (fun S hS f hf => by
      simp only [schemasOf, List.map_cons, List.map_nil, List.mem_singleton] at hS
      subst hS
      exact names_ok wholeFmt (constStepSchema wholeFmt) (by simp) f hf)
    (fun f hf => names_ok wholeFmt variableSimSchema (by simp) f hf) [chars! "dt", chars! "tmax"] (fun _ => false)
    (fun _ => some [e1, .dir, e2, e3]) (chars! "20261118") [chars! "1", chars! "10", chars! "1", chars! "2", chars! "data"] 30 15
    (by
      intro n hn
      simp only [List.mem_cons, List.not_mem_nil, or_false] at hn
      rcases hn with rfl | rfl <;> exact ⟨isWord_lit (by decide), by decide⟩) (by norm_num) (chars! "rst") 1 _ hargs
    (by norm_num) (by norm_num) B hB _ _ rfl hd (by
      rw [hred]
      intro r hr
      simp only [List.mem_cons, List.not_mem_nil, or_false] at hr
      rcases hr with rfl | rfl | rfl
      · exact demoRun_printable _ _ _ w1 (by norm_num)
      · exact demoRun_printable _ _ _ w2 (by norm_num)
      · exact demoRun_printable _ _ _ w1 (by norm_num)) (by
      rw [hred]
      intro r hr
      simp only [List.mem_cons, List.not_mem_nil, or_false] at hr
      rcases hr with rfl | rfl | rfl
      · refine ⟨by simp [demoRun], fun t ht => ?_⟩
        simp only [demoRun, List.mem_cons, List.not_mem_nil, or_false] at ht
        rcases ht with rfl | rfl
        · exact ⟨3, by norm_num, by norm_num⟩
        · exact ⟨5, by norm_num, by norm_num⟩
      · refine ⟨by simp [demoRun], fun t ht => ?_⟩
        simp only [demoRun, List.mem_cons, List.not_mem_nil, or_false] at ht
        subst ht; exact ⟨7, by norm_num, by norm_num⟩
      · refine ⟨by simp [demoRun], fun t ht => ?_⟩
        simp only [demoRun, List.mem_cons, List.not_mem_nil, or_false] at ht
        subst ht; exact ⟨4, by norm_num, by norm_num⟩) (by
      rw [hred]
      intro r hr r' hr'
      simp only [List.mem_cons, List.not_mem_nil, or_false] at hr hr'
      rcases hr with rfl | rfl | rfl <;> rcases hr' with rfl | rfl | rfl <;> simp [q, k1, k2, k100])
    _ rfl
  refine ⟨_, o, rows, title, hd, r1, r5, ?_⟩
  obtain ⟨g, hg, hgk⟩ := r4 (demoRun 1 1 [3, 5]) (by rw [hred]; simp)
  obtain ⟨row, hrow, hwr⟩ := forall₂_mem r7.flip g hg
  refine ⟨row, hrow, ?_⟩
  have hpool : g.pooled id [demoRun 1 1 [3, 5], demoRun 2 1 [7], demoRun 1 2 [4]] = [3, 5, 4] := by
    unfold Run.pooled
    simp only [hgk, q, k1, k2, k100]
    rw [List.filter_cons_of_pos (by simp [q, k1, k100]), List.filter_cons_of_neg (by simp [q, k2, k100]),
      List.filter_cons_of_pos (by simp [q, k1, k100])]
    simp [demoRun]
  rw [hred] at hwr
  rw [hpool] at hwr
  have hgm := r2 g hg
  rw [hred] at hgm
  simp only [List.mem_cons, List.not_mem_nil, or_false] at hgm
  have hv : g.dataset.vars.map (fun v => v.2.cell wholeFmt.print) = [chars! "1", chars! "100"] := by
    have c1 : wholeFmt.print 1 = chars! "1" := by
      show Str.printNat ⌊(1 : ℝ)⌋₊ = _
      rw [Nat.floor_one]; decide +kernel
    have c100 : wholeFmt.print 100 = chars! "100" := by
      show Str.printNat ⌊(100 : ℝ)⌋₊ = _
      rw [show (100 : ℝ) = (100 : ℕ) by norm_num, Nat.floor_natCast]; decide +kernel
    rcases hgm with rfl | rfl | rfl
    · show [wholeFmt.print 1, wholeFmt.print 100] = _
      rw [c1, c100]
    · simp [q, k1, k2] at hgk
    · show [wholeFmt.print 1, wholeFmt.print 100] = _
      rw [c1, c100]
  rw [hwr, hv]
  have hm : sampleMean [3, 5, 4] = 4 := by simp [sampleMean]; norm_num
  have hva : sampleVariance [3, 5, 4] = 2 / 3 := by
    unfold sampleVariance
    rw [hm]; simp; norm_num
  rw [hm, hva]
  have c4 : wholeFmt.print 4 = chars! "4" := by
    show Str.printNat ⌊(4 : ℝ)⌋₊ = _
    rw [show (4 : ℝ) = (4 : ℕ) by norm_num, Nat.floor_natCast]; decide +kernel
  have c3 : Str.printNat 3 = chars! "3" := by decide +kernel
  simp only [c4, List.length_cons, List.length_nil, List.cons_append, List.nil_append, c3]
  rfl

end Moledyn.Props
