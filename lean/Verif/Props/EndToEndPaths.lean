import Verif.Props.EndToEndRows
/-
C78 for process analyses: one path, a sequence of pairs (time, value), per line.
-/
set_option linter.unusedSimpArgs false
namespace Moledyn.Props
open Moledyn
variable {F : Type}

section Process
open ProcessAnalysis

/-- the characters that a pair is made of besides its numbers. -/
def NoPairChars (pd : F → Str) (ok : F → Prop) : Prop := ∀ x, ok x → ∀ c ∈ pd x, c ≠ '(' ∧ c ≠ ')' ∧ c ≠ ','

theorem pair_reads (f : NumFmt F) (pd : F → Str) (rd : F → F) (ok : F → Prop) (hpd : ReadsAs f pd rd ok) (hc : NoPairChars pd ok)
    (p : F × F) (h1 : ok p.1) (h2 : ok p.2) : pairFromStr f (pairText pd p) = .ok (rd p.1, rd p.2) := by
  have hfil : ∀ x, ok x → (pd x).filter (fun c => c != '(' && c != ')') = pd x := by
    intro x hx
    rw [List.filter_eq_self]
    intro c hc'
    obtain ⟨a, b, -⟩ := hc x hx c hc'
    simp [a, b]
  have hcl : ∀ x, ok x → ∀ c ∈ pd x, (c == ',') = false := by
    intro x hx c hc'
    simpa using (hc x hx c hc').2.2
  have e : (pairText pd p).filter (fun c => c != '(' && c != ')') = pd p.1 ++ ',' :: pd p.2 := by
    unfold pairText
    simp only [List.filter_append, hfil _ h1, hfil _ h2]
    simp
  unfold pairFromStr
  rw [e, Str.splitBy_cons (hcl _ h1) (by decide), Str.splitBy_clean (hcl _ h2)]
  simp only [parseWords, hpd.reads _ h1, hpd.reads _ h2, Res.expect, Res.bind_ok, Res.map_ok]

/-- `add_pair` does not look at the number of ensembles. -/
theorem addPair_ensemble [Fl F] (a : ProcessAnalysis F) (e : Nat) (t x : F) :
    ({ a with ensemble := e } : ProcessAnalysis F).addPair t x = ({ (a.addPair t x).1 with ensemble := e }, (a.addPair t x).2) := by
  unfold addPair
  simp only
  split <;> rfl

theorem feed_ensemble [Fl F] (e : Nat) : ∀ (ps : List (F × F)) (a : ProcessAnalysis F),
    ({ a with ensemble := e } : ProcessAnalysis F).feed ps = ({ (a.feed ps).1 with ensemble := e }, (a.feed ps).2)
  | [], a => rfl
  | p :: ps, a => by
    simp only [feed, addPair_ensemble]
    cases h : a.addPair p.1 p.2 with
    | mk a1 r =>
      cases r with
      | ok u => exact feed_ensemble e ps a1
      | err e' => rfl
      | panic => rfl

theorem draw_ensemble [Fl F] (a : ProcessAnalysis F) (e : Nat) :
    ({ a with ensemble := e } : ProcessAnalysis F).draw = ({ a.draw.1 with ensemble := e }, a.draw.2) := by
  unfold draw
  simp only
  split <;> rfl

theorem feed_append [Fl F] : ∀ (ps qs : List (F × F)) (a a1 : ProcessAnalysis F) (r), a.feed (ps ++ qs) = (a1, .ok r) →
    ∃ a2, a.feed ps = (a2, .ok ()) ∧ a2.feed qs = (a1, .ok r)
  | [], qs, a, a1, r, h => ⟨a, rfl, h⟩
  | p :: ps, qs, a, a1, r, h => by
    simp only [List.cons_append, feed] at h ⊢
    cases he : a.addPair p.1 p.2 with
    | mk a2 s =>
      rw [he] at h
      cases s with
      | ok u => exact feed_append ps qs a2 a1 r h
      | err e => simp at h
      | panic => simp at h

theorem addPairs_feed [Fl F] (f : NumFmt F) (pd : F → Str) (rd : F → F) (ok : F → Prop) (hpd : ReadsAs f pd rd ok) (hc : NoPairChars pd ok) :
    ∀ (ps : List (F × F)) (a a' : ProcessAnalysis F), (∀ p ∈ ps, ok p.1 ∧ ok p.2) →
      a.feed (ps.map (Prod.map rd rd)) = (a', .ok ()) → addPairs f a (ps.map (pairText pd)) = .ok a'
  | [], a, a', _, h => by
    simp only [List.map_nil, feed, Prod.mk.injEq, and_true] at h
    subst h; rfl
  | p :: ps, a, a', hp, h => by
    obtain ⟨h1, h2⟩ := hp p (by simp)
    simp only [List.map_cons, feed, Prod.map_fst, Prod.map_snd] at h
    simp only [List.map_cons, addPairs, pair_reads f pd rd ok hpd hc p h1 h2, Res.bind_ok]
    cases he : a.addPair (rd p.1) (rd p.2) with
    | mk a1 r =>
      rw [he] at h
      cases r with
      | ok u =>
        simp only [settled, Res.map_ok, Res.bind_ok]
        exact addPairs_feed f pd rd ok hpd hc ps a1 a' (fun p hp' => hp p (by simp [hp'])) h
      | err e => simp at h
      | panic => simp at h

theorem process_lines [Fl F] (f : NumFmt F) (pd : F → Str) (rd : F → F) (ok : F → Prop) (hpd : ReadsAs f pd rd ok) (hc : NoPairChars pd ok)
    (mn mx b l : F) (line : List (F × F) → Str) : ∀ (rows : List (List (F × F))) (a a' : ProcessAnalysis F),
    (∀ v ∈ rows, (∀ p ∈ v, ok p.1 ∧ ok p.2) ∧ LineOf (line v) (v.map (pairText pd))) →
    a.feed (rows.flatten.map (Prod.map rd rd)) = (a', .ok ()) →
    (processAnalyzer f mn mx b l).lines a (rows.map fun v => .ok (Str.stripCR (line v))) =
      .ok { a' with ensemble := a.ensemble + rows.length }
  | [], a, a', _, h => by
    simp only [List.flatten_nil, List.map_nil, feed, Prod.mk.injEq, and_true] at h
    subst h; rfl
  | v :: rows, a, a', hv, h => by
    obtain ⟨h1, h2, h3⟩ := hv v (by simp)
    rw [List.flatten_cons, List.map_append] at h
    obtain ⟨a2, k1, k2⟩ := feed_append _ _ _ _ _ h
    have hl : (processAnalyzer f mn mx b l).line a (Str.stripCR (line v)) = .ok { a2 with ensemble := a2.ensemble + 1 } := by
      show (addPairs f a (Str.words (Str.trim (Str.stripCR (line v))))).map _ = _
      rw [words_trim, words_stripCR, h2, addPairs_feed f pd rd ok hpd hc v a a2 h1 k1]
      rfl
    have hens : a2.ensemble = a.ensemble := by
      have := feed_ensemble a.ensemble (v.map (Prod.map rd rd)) a
      have e : ({ a with ensemble := a.ensemble } : ProcessAnalysis F) = a := rfl
      rw [e, k1] at this
      exact congrArg (fun q => q.1.ensemble) this
    simp only [List.map_cons, Analyzer.lines, hl, Res.bind_ok]
    rw [process_lines f pd rd ok hpd hc mn mx b l line rows { a2 with ensemble := a2.ensemble + 1 } { a' with ensemble := a2.ensemble + 1 }
      (fun v hv' => hv v (by simp [hv'])) (by rw [feed_ensemble, k2])]
    simp only [hens, List.length_cons]
    congr 2
    omega

/-- what is reported and written for the paths of a group. -/
theorem process_result {old B : Bins ℝ} {mn mx b l : ℝ} (hset : Bins.updateFromBinSize old mn mx b l = (B, .ok ())) (hb : 0 < b)
    (hl : 1 < l) (hmx : B.minTime ≤ mx) (pairs : List (ℝ × ℝ)) (hne : pairs ≠ []) (e : Nat) (fuel : Nat) (hf1 : B.numBin < fuel)
    (hf2 : B.numLbin < fuel) :
    ∃ a a', (prepared B).feed pairs = (a, .ok ()) ∧ ({ a with ensemble := e } : ProcessAnalysis ℝ).draw = (a', .ok ()) ∧ a'.ensemble = e ∧
      a'.longTermMean = sampleMean (pairs.map (·.2)) ∧ a'.longTermStddev = Real.sqrt (sampleVariance (pairs.map (·.2))) ∧
      a'.exportRows fuel = some (.ok (processLinearRows B pairs)) ∧ a'.exportLogRows fuel = some (.ok (processLogRows B pairs)) := by
  classical
  obtain ⟨-, -, hBx, hbs, hls, -⟩ := bins_setup hset
  obtain ⟨a', hrep, -, -, ⟨hbins, hl1, hl2⟩, hlin, hlog, hlong⟩ := process_report old B mn mx b l hset hb hl pairs
  unfold report at hrep
  cases hfeed : (prepared B).feed pairs with
  | mk a r =>
    rw [hfeed] at hrep
    cases r with
    | err e => simp at hrep
    | panic => simp at hrep
    | ok u =>
      simp only at hrep
      obtain ⟨g1, g2⟩ := hlong hne
      obtain ⟨⟨K, hK1, hK2, hK3⟩, K', hK1', hK2', hK3'⟩ := C55_process_rows old B mn mx b l hset hb hl hmx
        { a' with ensemble := e } hbins hl1 hl2
      refine ⟨a, { a' with ensemble := e }, rfl, ?_, rfl, g1, g2, ?_, ?_⟩
      · rw [draw_ensemble, hrep]
      · rw [hK3 fuel (by omega), filterMap_range_le hK1 (fun i => B.minTime + (i + 1 / 2) * b ≤ mx) hK2]
        unfold processLinearRows
        congr 2
        refine List.filterMap_congr fun i hi => ?_
        have hi := List.mem_range.1 hi
        obtain ⟨k1, k2, k3⟩ := hlin i hi _ rfl
        simp only [hbs, hBx]
        generalize valuesAt (fun t => B.InWindow t ∧ B.InBin i t) pairs = vs at k1 k2 k3 ⊢
        have e1 : a'.mean.getD i 0 = sampleMean vs := by simp [List.getD, k2]
        have e2 : a'.count.getD i 0 = vs.length := by simp [List.getD, k1]
        rw [e1, e2]
        by_cases h1 : B.minTime + (i + 1 / 2) * b ≤ mx
        · rw [if_pos h1]
          by_cases h2 : 1 / 10 ^ 15 < sampleMean vs
          · have hvs : vs ≠ [] := by
              rintro rfl
              norm_num [sampleMean] at h2
            have e3 : a'.stddev.getD i 0 = Real.sqrt (sampleVariance vs) := by simp [List.getD, k3 hvs]
            rw [if_pos h2, if_pos ⟨h1, hvs, h2⟩, e3]
          · rw [if_neg h2, if_neg fun h => h2 h.2.2]
        · rw [if_neg h1, if_neg fun h => h1 h.1]
      · rw [hK3' fuel (by omega), filterMap_range_le hK1' (fun i => B.minTime * Real.sqrt l * l ^ i ≤ mx) hK2']
        unfold processLogRows
        congr 2
        refine List.filterMap_congr fun i hi => ?_
        have hi := List.mem_range.1 hi
        obtain ⟨k1, k2, k3⟩ := hlog i hi _ rfl
        simp only [hls, hBx]
        generalize valuesAt (fun t => B.InWindow t ∧ B.InLogBin i t) pairs = vs at k1 k2 k3 ⊢
        have e1 : a'.logMean.getD i 0 = sampleMean vs := by simp [List.getD, k2]
        have e2 : a'.lcount.getD i 0 = vs.length := by simp [List.getD, k1]
        rw [e1, e2]
        by_cases h1 : B.minTime * Real.sqrt l * l ^ i ≤ mx
        · rw [if_pos h1]
          by_cases h2 : 1 / 10 ^ 15 < sampleMean vs
          · have hvs : vs ≠ [] := by
              rintro rfl
              norm_num [sampleMean] at h2
            have e3 : a'.logStddev.getD i 0 = Real.sqrt (sampleVariance vs) := by simp [List.getD, k3 hvs]
            rw [if_pos h2, if_pos ⟨h1, hvs, h2⟩, e3]
          · rw [if_neg h2, if_neg fun h => h2 h.2.2]
        · rw [if_neg h1, if_neg fun h => h1 h.1]

/-- From a directory with the result files of any number of runs that write one path, a sequence of pairs `(t,x)`, per line
(and anything else that can be passed over) to the results, exact arithmetic.  The analysis succeeds and leaves a table with
one line per distinct list of recorded variables for which there are data; the line has these variables, then mean and
standard deviation of all values of all paths of the runs with these variables, and the number of these paths; and two
files with the course of the mean value, with linear and logarithmic bins. -/
theorem C78_process_results (f : NumFmt ℝ) (pe pd : ℝ → Str) (rd : ℝ → ℝ) (okd : ℝ → Prop) (hpe : WritesWords pe)
    (hpd : ReadsAs f pd rd okd) (hpc : ∀ x, okd x → ∀ c ∈ pd x, c ≠ '(' ∧ c ≠ ')' ∧ c ≠ ',')
    (dh : List Nat → Nat) (cs : List (Component ℝ)) (sim : Component ℝ)
    (hn : ∀ S ∈ schemasOf cs, ∀ f ∈ S.fields, f.NameOk) (hns : ∀ f ∈ sim.schema.fields, f.NameOk)
    (names : List Str) (exist : Str → Bool) (listing : Str → Option (List Entry)) (date : Str) (args : List Str)
    (headWidth width : Nat) (hnm : ∀ n ∈ names, Str.IsWord n ∧ n.length < width) (hwd : 14 < width) (pre : Str)
    (fuel : Nat) (w : AnalysisArgs ℝ) (hargs : timeArgs f args = .ok w) (hb : 0 < w.b) (hl : 1 < w.l) (B : Bins ℝ)
    (hset : Bins.updateFromBinSize Bins.new w.mn w.mx w.b w.l = (B, .ok ())) (hmx : B.minTime ≤ w.mx)
    (hf1 : B.numBin < fuel) (hf2 : B.numLbin < fuel)
    (line : List (ℝ × ℝ) → Str) (slots : List (Option (RunOf cs sim (List (ℝ × ℝ))))) (es : List Entry) (hes : listing w.dir = some es)
    (hdir : DirectoryOf headWidth line slots es) (hp : ∀ r ∈ slots.reduceOption, r.Printable)
    (hs : ∀ r ∈ slots.reduceOption, ∀ v ∈ r.rows, v ≠ [] ∧ (∀ p ∈ v, okd p.1 ∧ okd p.2) ∧ LineOf (line v) (v.map (pairText pd)))
    (hdh : ∀ r ∈ slots.reduceOption, ∀ r' ∈ slots.reduceOption,
      dh r.dataset.key = dh r'.dataset.key → r.dataset.key = r'.dataset.key)
    (dir : Str) (hfresh : summaryDir exist w.dir date fuel = some dir)
    (data : RunOf cs sim (List (ℝ × ℝ)) → List (ℝ × ℝ))
    (hdata : ∀ g, data g = (g.pooled slots.reduceOption).flatten.map (Prod.map rd rd)) :
    ∃ o groups title rows,
      processAnalyze f pe dh (DataSet.fromFile cs sim) names exist listing date args width pre fuel = some (.ok o) ∧
      (∀ g ∈ groups, g ∈ slots.reduceOption ∧ g.pooled slots.reduceOption ≠ []) ∧
      groups.Pairwise (fun g g' => g.dataset.key ≠ g'.dataset.key) ∧
      (∀ r ∈ slots.reduceOption, r.rows ≠ [] → ∃ g ∈ groups, g.dataset.key = r.dataset.key) ∧
      Str.lines o.summary.text = title :: rows ∧
      Str.words title = names ++ [chars! "ensemble", chars! "long_term_mean", chars! "long_term_stddev"] ∧
      List.Forall₂ (fun (g : RunOf cs sim (List (ℝ × ℝ))) row => Str.words row = g.dataset.vars.map (fun v => v.2.cell pe) ++
        [pe (sampleMean ((data g).map (·.2))), pe (Real.sqrt (sampleVariance ((data g).map (·.2)))),
         Str.printNat (g.pooled slots.reduceOption).length]) groups rows ∧
      o.dir = dir ∧
      o.files = (groups.map fun g =>
        [⟨dir ++ chars! "/linear_distribution/" ++ g.dataset.exportFileRemovedIdx f pre,
          ((processLinearRows B (data g)).map (processRowText pe width)).flatten⟩,
         ⟨dir ++ chars! "/logarithmic_distribution/" ++ g.dataset.exportFileRemovedIdx f pre,
          ((processLogRows B (data g)).map (processRowText pe width)).flatten⟩]).flatten := by
  classical
  set runs := slots.reduceOption with hruns
  let z := processAnalyzer f w.mn w.mx w.b w.l
  let x := processExporter pe width fuel
  let a0 := prepared B
  have hfr : z.fresh = .ok a0 := by simp only [z, processAnalyzer, hset]; rfl
  let res : RunOf cs sim (List (ℝ × ℝ)) → ProcessAnalysis ℝ := fun g => { (a0.feed (data g)).1 with ensemble := (g.pooled runs).length }
  have hrow : ∀ g ∈ runs, ∀ v ∈ g.pooled runs, v ≠ [] ∧ (∀ p ∈ v, okd p.1 ∧ okd p.2) ∧ LineOf (line v) (v.map (pairText pd)) := by
    intro g _ v hv
    obtain ⟨l, hl, hvl⟩ := List.mem_flatten.1 hv
    obtain ⟨r, hr, rfl⟩ := List.mem_map.1 hl
    exact hs r (List.mem_of_mem_filter hr) v hvl
  have hne' : ∀ g ∈ runs, g.pooled runs ≠ [] → data g ≠ [] := by
    intro g hg hne h0
    rw [hdata, List.map_eq_nil_iff, List.flatten_eq_nil_iff] at h0
    cases hpl : g.pooled runs with
    | nil => exact hne hpl
    | cons v s =>
      have hv : v ∈ g.pooled runs := by rw [hpl]; simp
      exact (hrow g hg v hv).1 (h0 v hv)
  have hrep : ∀ g ∈ runs, g.pooled runs ≠ [] → ∃ a', (a0.feed (data g)).2 = .ok () ∧ (res g).draw = (a', .ok ()) ∧
      a'.ensemble = (g.pooled runs).length ∧
      a'.longTermMean = sampleMean ((data g).map (·.2)) ∧ a'.longTermStddev = Real.sqrt (sampleVariance ((data g).map (·.2))) ∧
      a'.exportRows fuel = some (.ok (processLinearRows B (data g))) ∧ a'.exportLogRows fuel = some (.ok (processLogRows B (data g))) := by
    intro g hg hne
    obtain ⟨a, a', h1, h2⟩ := process_result hset hb hl hmx (data g) (hne' g hg hne) (g.pooled runs).length fuel hf1 hf2
    refine ⟨a', by show ((prepared B).feed _).2 = _; rw [h1], ?_⟩
    have : res g = { a with ensemble := (g.pooled runs).length } := by
      show ({ ((prepared B).feed (data g)).1 with ensemble := _ } : ProcessAnalysis ℝ) = _
      rw [h1]
    rw [this]
    exact h2
  have hskip : ∀ g, z.skip (res g) = true ↔ g.pooled runs = [] := by
    intro g
    show decide ((g.pooled runs).length = 0) = true ↔ _
    rw [decide_eq_true_eq, List.length_eq_zero_iff]
  obtain ⟨m, groups, hm, hg1, hg2, hg3, hg4, hg5⟩ := results_of (cs := cs) (sim := sim) z x f pe dh hn hns names exist listing date headWidth width pre
    w.dir fuel line slots es hes hdir hp (fun r hr v hv => (hs r hr v hv).2.2.2) hdh dir hfresh a0 hfr res (by
      intro g hg
      have e : res g = { (a0.feed (data g)).1 with ensemble := a0.ensemble + (g.pooled runs).length } := by
        have : a0.ensemble = 0 := rfl
        rw [this, Nat.zero_add]
      rw [e]
      refine process_lines f pd rd okd hpd hpc _ _ _ _ line _ _ _ (fun v hv => (hrow g hg v hv).2) ?_
      rw [← hdata]
      by_cases hne : g.pooled runs = []
      · have : data g = [] := by rw [hdata, hne]; rfl
        rw [this]; rfl
      · rw [← (hrep g hg hne).choose_spec.1])
    (fun g => (g.dataset.exportData pe width ++ x.brief (res g).draw.1 ++ ['\n'],
      [⟨dir ++ chars! "/linear_distribution/" ++ g.dataset.exportFileRemovedIdx f pre,
          ((processLinearRows B (data g)).map (processRowText pe width)).flatten⟩,
         ⟨dir ++ chars! "/logarithmic_distribution/" ++ g.dataset.exportFileRemovedIdx f pre,
          ((processLogRows B (data g)).map (processRowText pe width)).flatten⟩])) (by
      intro g hg hsk
      have hne : g.pooled runs ≠ [] := fun h => by rw [(hskip g).2 h] at hsk; exact absurd hsk (by simp)
      obtain ⟨a', -, h1, -, -, -, h2, h3⟩ := hrep g hg hne
      have hxd : x.draw (res g) = (a', .ok ()) := h1
      have hxl : x.linear a' = some (.ok ((processLinearRows B (data g)).map (processRowText pe width)).flatten) := by
        show (a'.exportRows fuel).map _ = _
        rw [h2]; rfl
      have hxg : x.log a' = some (.ok ((processLogRows B (data g)).map (processRowText pe width)).flatten) := by
        show (a'.exportLogRows fuel).map _ = _
        rw [h3]; rfl
      unfold Exporter.one
      rw [hxd]
      simp only
      rw [hxl]
      simp only
      rw [hxg, h1])
  have hfil : (groups.filter fun g => !z.skip (res g)) = groups.filter fun g => g.pooled runs ≠ [] := by
    refine List.filter_congr fun g hg => ?_
    have := hskip g
    by_cases h : g.pooled runs = []
    · simp [h, this.2 h]
    · have : z.skip (res g) = false := by
        by_contra hc
        exact h (this.1 (by simpa using hc))
      simp [h, this]
  rw [hfil] at hg5
  obtain ⟨m', title, rows, t1, t2, t3, t4⟩ := C63_process_table f pe dh (DataSet.fromFile cs sim) names exist listing
    date width pre w.dir fuel w.mn w.mx w.b w.l _ hg5 hpe hnm hwd
  have hmm : m' = m := by
    have h3 := t1.symm.trans hm
    injection h3
  subst hmm
  refine ⟨_, groups.filter fun g => g.pooled runs ≠ [], title, rows, ?_, ?_, ?_, ?_, t2, t3, ?_, rfl, rfl⟩
  · unfold processAnalyze
    rw [hargs]
    exact hg5
  · intro g hg
    exact ⟨hg1 g (List.mem_of_mem_filter hg), by simpa using (List.mem_filter.1 hg).2⟩
  · exact hg2.filter _
  · intro r hr hne
    obtain ⟨g, hg, hk⟩ := hg3 r hr
    refine ⟨g, List.mem_filter.2 ⟨hg, ?_⟩, hk⟩
    have : g.pooled runs ≠ [] := by
      intro h0
      unfold RunOf.pooled at h0
      rw [List.flatten_eq_nil_iff] at h0
      exact hne (h0 r.rows (List.mem_map_of_mem (List.mem_filter.2 ⟨hr, by simp [hk]⟩)))
    simpa using this
  · have key : ∀ (gs : List (RunOf cs sim (List (ℝ × ℝ)))) (m : List (DataSet ℝ × ProcessAnalysis ℝ)), (∀ g ∈ gs, g ∈ runs) →
        List.Forall₂ (fun (g : RunOf cs sim (List (ℝ × ℝ))) p => g.dataset = p.1 ∧ res g = p.2) gs m →
        List.Forall₂ (fun (g : RunOf cs sim (List (ℝ × ℝ))) p => (g ∈ runs ∧ g.pooled runs ≠ []) ∧ g.dataset = p.1 ∧ res g = p.2)
          (gs.filter fun g => g.pooled runs ≠ []) (m.filter fun p => p.2.ensemble ≠ 0) := by
      intro gs m hgs h
      induction h with
      | nil => exact .nil
      | @cons g p gs m h1 h2 ih =>
        have ih := ih fun g hg => hgs g (by simp [hg])
        have hg := hgs g (by simp)
        have hs' : p.2.ensemble = 0 ↔ g.pooled runs = [] := by
          rw [← h1.2]
          exact List.length_eq_zero_iff
        by_cases hne : g.pooled runs = []
        · rw [List.filter_cons_of_neg (by simp [hne]), List.filter_cons_of_neg (by simp [hs'.2 hne])]
          exact ih
        · rw [List.filter_cons_of_pos (by simpa using hne), List.filter_cons_of_pos (by simpa using fun h => hne (hs'.1 h))]
          exact .cons ⟨⟨hg, hne⟩, h1⟩ ih
    refine forall₂_trans (key groups m' hg1 hg4) t4 ?_
    rintro g p row - ⟨⟨hg, hne⟩, hd, ha⟩ ⟨-, hrow⟩
    obtain ⟨a', -, h1, h2, h3, h4, -⟩ := hrep g hg hne
    rw [hrow, ← hd, ← ha, h1, h2, h3, h4]

end Process
end Moledyn.Props
