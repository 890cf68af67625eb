import Verif.Props.Analysis
/-
Property theorems C46-C49 for single-value analyses (src/analysis.rs).
-/
namespace Moledyn.Props
open Moledyn
set_option linter.unusedSimpArgs false

/-! ## C46: histograms count exactly -/

theorem count_eq_howMany (pos : ℝ → Option Nat) (P : Nat → ℝ → Prop)
    (h : ∀ t i, pos t = some i ↔ P i t) (samples : List ℝ) (i : Nat) :
    (samples.map pos).count (some i) = howMany (P i) samples := by
  unfold howMany List.count
  rw [List.countP_map]
  apply List.countP_congr
  intro t _
  simp only [Function.comp_apply, beq_iff_eq, decide_eq_true_eq]
  exact h t i

theorem isSome_eq_howMany (pos : ℝ → Option Nat) (P : ℝ → Prop) (h : ∀ t, (pos t).isSome ↔ P t)
    (samples : List ℝ) : (samples.map pos).countP Option.isSome = howMany P samples := by
  unfold howMany
  rw [List.countP_map]
  apply List.countP_congr
  intro t _
  simp only [Function.comp_apply, decide_eq_true_eq]
  exact h t

theorem binPos_isSome (B : Bins ℝ) (t : ℝ) :
    ((B.binPos t).isSome ↔ B.InWindow t) ∧ ((B.lbinPos t).isSome ↔ B.InWindow t) := by
  unfold Bins.binPos Bins.lbinPos Bins.InWindow
  simp only [fl_lt, Bool.or_eq_true, decide_eq_true_eq]
  by_cases h : t < B.minTime ∨ B.maxTime < t
  · rw [if_pos h, if_pos h]
    have : ¬ (B.minTime ≤ t ∧ t ≤ B.maxTime) := by rintro ⟨h1, h2⟩; rcases h with h | h <;> linarith
    simp [this]
  · rw [if_neg h, if_neg h]
    push Not at h
    simp [h.1, h.2]

/-- the state after feeding a prepared analysis, exact arithmetic. -/
theorem feed_prepared {old B : Bins ℝ} {mn mx b l : ℝ}
    (hset : Bins.updateFromBinSize old mn mx b l = (B, .ok ())) (hb : 0 < b) (hl : 1 < l) (samples : List ℝ) :
    (TimeAnalysis.prepared B).feed samples =
      (⟨samples.sum, (samples.map fun t => t * t).sum, samples.length, B, List.replicate B.numBin 0,
        List.replicate B.numLbin 0,
        Hist.tally (List.replicate B.numBin 0) (samples.map B.binPos),
        Hist.tally (List.replicate B.numLbin 0) (samples.map B.lbinPos)⟩, .ok ()) := by
  rw [TimeAnalysis.feed_eq]
  · simp only [TimeAnalysis.prepared, TimeAnalysis.allocateVectors, TimeAnalysis.new, Prod.mk.injEq, and_true,
      TimeAnalysis.mk.injEq, Nat.zero_add, true_and, fl_add, fl_mul, fl_lit, Rat.cast_zero]
    rw [foldl_add_real, foldl_addsq_real]
    simp
  · intro t _ i hi
    simp only [TimeAnalysis.prepared, TimeAnalysis.allocateVectors, List.length_replicate]
    exact (bins_lt hset hb hl t i).1 hi
  · intro t _ i hi
    simp only [TimeAnalysis.prepared, TimeAnalysis.allocateVectors, List.length_replicate]
    exact (bins_lt hset hb hl t i).2 hi

/-- Exact arithmetic: after any samples, entry `i` of each histogram is the number of samples in the window
lying in bin `i`; the entries of each add up to the number of samples in the window; `ensemble` counts all
samples. -/
theorem C46_counts (old B : Bins ℝ) (mn mx b l : ℝ)
    (hset : Bins.updateFromBinSize old mn mx b l = (B, .ok ())) (hb : 0 < b) (hl : 1 < l) (samples : List ℝ) :
    ∃ a, (TimeAnalysis.prepared B).feed samples = (a, .ok ()) ∧ a.ensemble = samples.length ∧
      a.count.length = B.numBin ∧ a.lcount.length = B.numLbin ∧
      (∀ i < B.numBin, a.count[i]? = some (howMany (fun t => B.InWindow t ∧ B.InBin i t) samples)) ∧
      (∀ i < B.numLbin, a.lcount[i]? = some (howMany (fun t => B.InWindow t ∧ B.InLogBin i t) samples)) ∧
      a.count.sum = howMany B.InWindow samples ∧ a.lcount.sum = howMany B.InWindow samples := by
  obtain ⟨hm, -, -, hbs, hls, -⟩ := bins_setup hset
  refine ⟨_, feed_prepared hset hb hl samples, rfl, ?_, ?_, ?_, ?_, ?_, ?_⟩
  · simp
  · simp
  · intro i hi
    simp only [Hist.tally, List.getElem?_mapIdx, List.getElem?_replicate, hi, if_true, Option.map_some, Nat.zero_add]
    rw [count_eq_howMany _ (fun i t => B.InWindow t ∧ B.InBin i t)
      (fun t i => binPos_iff B (by rw [hbs]; exact hb) t i)]
  · intro i hi
    simp only [Hist.tally, List.getElem?_mapIdx, List.getElem?_replicate, hi, if_true, Option.map_some, Nat.zero_add]
    rw [count_eq_howMany _ (fun i t => B.InWindow t ∧ B.InLogBin i t)
      (fun t i => lbinPos_iff B hm (by rw [hls]; exact hl) t i)]
  · rw [Hist.sum_tally, isSome_eq_howMany _ _ (fun t => (binPos_isSome B t).1)]
    intro i hi
    obtain ⟨t, -, ht⟩ := List.mem_map.1 hi
    exact (bins_lt hset hb hl t i).1 ht
  · rw [Hist.sum_tally, isSome_eq_howMany _ _ (fun t => (binPos_isSome B t).2)]
    intro i hi
    obtain ⟨t, -, ht⟩ := List.mem_map.1 hi
    exact (bins_lt hset hb hl t i).2 ht

/-- a bin configuration used by the examples: [1, 10], width 1, ratio 2. -/
theorem exampleBins : ∃ B, Bins.updateFromBinSize (Bins.new : Bins ℝ) 1 10 1 2 = (B, .ok ()) ∧
    B.minTime = 1 ∧ B.maxTime = 10 ∧ B.binSize = 1 ∧ B.lbinSize = 2 ∧ B.numBin = 10 := by
  unfold Bins.updateFromBinSize
  rw [if_neg (by simp [fl_lit])]
  have hclip : Bins.clip (1 : ℝ) = 1 := by
    simp only [Bins.clip, fl_lt, fl_lit]
    rw [if_neg (by norm_num)]
  refine ⟨_, rfl, hclip, rfl, rfl, rfl, ?_⟩
  simp only [hclip, toNat_ceil, fl_sub, fl_div, fl_add, fl_lit]
  rw [Nat.ceil_eq_iff (by norm_num)]
  norm_num

example : ∃ B, Bins.updateFromBinSize (Bins.new : Bins ℝ) 1 10 1 2 = (B, .ok ()) ∧
    howMany (fun t => B.InWindow t ∧ B.InBin 2 t) [3, 7 / 2, 11, 3, 4] = 3 := by
  obtain ⟨B, h, h1, h2, h3, -⟩ := exampleBins
  refine ⟨B, h, ?_⟩
  simp only [howMany, List.countP_cons, List.countP_nil, Bins.InWindow, Bins.InBin, h1, h2, h3]
  norm_num

/-- Exact arithmetic: the order in which samples are added does not matter. -/
theorem C46_order (old B : Bins ℝ) (mn mx b l : ℝ)
    (hset : Bins.updateFromBinSize old mn mx b l = (B, .ok ())) (hb : 0 < b) (hl : 1 < l)
    (s s' : List ℝ) (hp : s.Perm s') :
    (TimeAnalysis.prepared B).feed s = (TimeAnalysis.prepared B).feed s' ∧
    (TimeAnalysis.prepared B).report s = (TimeAnalysis.prepared B).report s' := by
  have h : (TimeAnalysis.prepared B).feed s = (TimeAnalysis.prepared B).feed s' := by
    rw [feed_prepared hset hb hl, feed_prepared hset hb hl, hp.sum_eq, (hp.map _).sum_eq, hp.length_eq,
      Hist.tally_perm _ (hp.map _), Hist.tally_perm _ (hp.map _)]
  exact ⟨h, by unfold TimeAnalysis.report; rw [h]⟩

/-- Adding samples in two goes is adding them all (any arithmetic). -/
theorem C46_two_goes {F : Type} [Fl F] (a : TimeAnalysis F) (s s' : List F) (hok : (a.feed s).2 = .ok ()) :
    a.feed (s ++ s') = (a.feed s).1.feed s' := by
  induction s generalizing a with
  | nil => rfl
  | cons t s ih =>
    simp only [List.cons_append, TimeAnalysis.feed] at hok ⊢
    match hadd : a.addEnsemble t with
    | (a', .ok ()) => simp only [hadd] at hok ⊢; exact ih a' hok
    | (a', .err e) => simp [hadd] at hok
    | (a', .panic) => simp [hadd] at hok

/-! ## C47, C48: what `draw` reports -/

/-- the state after feeding and drawing, exact arithmetic. -/
theorem report_prepared {old B : Bins ℝ} {mn mx b l : ℝ}
    (hset : Bins.updateFromBinSize old mn mx b l = (B, .ok ())) (hb : 0 < b) (hl : 1 < l) (samples : List ℝ) :
    (TimeAnalysis.prepared B).report samples =
      (⟨samples.sum / samples.length,
        Real.sqrt ((samples.map fun t => t * t).sum / samples.length - (samples.sum / samples.length) ^ 2),
        samples.length, B,
        Hist.density (samples.length * b) (Hist.tally (List.replicate B.numBin 0) (samples.map B.binPos)),
        Hist.logDensity l (B.minTime * samples.length * (l - 1))
          (Hist.tally (List.replicate B.numLbin 0) (samples.map B.lbinPos)),
        Hist.tally (List.replicate B.numBin 0) (samples.map B.binPos),
        Hist.tally (List.replicate B.numLbin 0) (samples.map B.lbinPos)⟩, .ok ()) := by
  obtain ⟨-, -, -, hbs, hls, -⟩ := bins_setup hset
  unfold TimeAnalysis.report
  rw [feed_prepared hset hb hl]
  simp only
  rw [TimeAnalysis.draw_eq _ (by simp) (by simp)]
  simp only [hbs, hls, fl_ofNat, fl_lit, Rat.cast_one, fl_sqrt, fl_powi, fl_mul, fl_sub, fl_div]

theorem getElem?_density (d : ℝ) (c : List Nat) (i : Nat) :
    (Hist.density d c)[i]? = (c[i]?).map fun (x : ℕ) => (x : ℝ) / d := by
  simp only [Hist.density, List.getElem?_map, fl_ofNat]

theorem getElem?_logDensity (l d : ℝ) (c : List Nat) (i : Nat) :
    (Hist.logDensity l d c)[i]? = (c[i]?).map fun (x : ℕ) => (x : ℝ) / (d * l ^ i) := by
  induction c generalizing d i with
  | nil => simp [Hist.logDensity]
  | cons x c ih =>
    cases i with
    | zero => simp [Hist.logDensity]
    | succ i =>
      simp only [Hist.logDensity, List.getElem?_cons_succ, ih, fl_mul]
      rw [pow_succ', mul_assoc]

theorem sum_logDensity (l d : ℝ) (hl : 0 < l) (hd : d ≠ 0) (c : List Nat) (w : ℕ → ℝ) (k : ℝ)
    (hw : ∀ i, w i = k * d * l ^ i) :
    ((Hist.logDensity l d c).mapIdx fun i h => h * w i).sum = (c.sum : ℕ) * k := by
  induction c generalizing d w with
  | nil => simp [Hist.logDensity]
  | cons x c ih =>
    have e : Hist.logDensity l d (x :: c) = (Fl.ofNat x / d) :: Hist.logDensity l (d * l) c := rfl
    rw [e, List.mapIdx_cons, List.sum_cons]
    have := ih (d * l) (mul_ne_zero hd hl.ne') (fun i => w (i + 1)) (fun i => by
      rw [hw, pow_succ]; ring)
    rw [this, List.sum_cons, hw 0]
    simp only [fl_ofNat]
    push_cast
    field_simp

/-- Exact arithmetic: after any non-empty sequence of samples, `draw` reports in each bin the fraction of all
samples lying in it divided by its width; over the window, density times width adds up to the fraction of
samples in the window (1 if all are).  Linear and logarithmic bins. -/
theorem C47_densities (old B : Bins ℝ) (mn mx b l : ℝ)
    (hset : Bins.updateFromBinSize old mn mx b l = (B, .ok ())) (hb : 0 < b) (hl : 1 < l) (samples : List ℝ)
    (hne : samples ≠ []) :
    ∃ a, (TimeAnalysis.prepared B).report samples = (a, .ok ()) ∧
      a.hist.length = B.numBin ∧ a.lhist.length = B.numLbin ∧
      (∀ i < B.numBin, a.hist[i]? =
        some ((howMany (fun t => B.InWindow t ∧ B.InBin i t) samples / samples.length : ℝ) / b)) ∧
      (∀ i < B.numLbin, a.lhist[i]? =
        some ((howMany (fun t => B.InWindow t ∧ B.InLogBin i t) samples / samples.length : ℝ) / B.logWidth i)) ∧
      (a.hist.map fun h => h * b).sum = (howMany B.InWindow samples / samples.length : ℝ) ∧
      (a.lhist.mapIdx fun i h => h * B.logWidth i).sum = (howMany B.InWindow samples / samples.length : ℝ) := by
  obtain ⟨hm, -, -, hbs, hls, -⟩ := bins_setup hset
  obtain ⟨a0, h0, -, -, -, hc, hlc, hs, hls'⟩ := C46_counts old B mn mx b l hset hb hl samples
  rw [feed_prepared hset hb hl] at h0
  simp only [Prod.mk.injEq, and_true] at h0
  subst h0
  simp only at hc hlc hs hls'
  have hn : (samples.length : ℝ) ≠ 0 := by simp [List.length_eq_zero_iff, hne]
  have hl1 : l - 1 ≠ 0 := by linarith
  have hw : ∀ i, B.logWidth i = (1 / samples.length : ℝ) * (B.minTime * samples.length * (l - 1)) * l ^ i := by
    intro i
    unfold Bins.logWidth
    rw [hls, pow_succ]
    field_simp
  refine ⟨_, report_prepared hset hb hl samples, by simp, by simp, ?_, ?_, ?_, ?_⟩
  · intro i hi
    simp only [getElem?_density]
    rw [hc i hi, Option.map_some, div_div]
  · intro i hi
    simp only [getElem?_logDensity]
    rw [hlc i hi, Option.map_some, hw i, div_div]
    congr 2
    field_simp
  · simp only
    rw [sum_density, hs]
    field_simp
  · simp only
    rw [sum_logDensity l _ (by linarith) (mul_ne_zero (mul_ne_zero hm.ne' hn) hl1) _ _ _ hw, hls']
    ring

example : ∃ B, Bins.updateFromBinSize (Bins.new : Bins ℝ) 1 10 1 2 = (B, .ok ()) ∧
    howMany B.InWindow [3, 7 / 2, 11, 3] = 3 := by
  obtain ⟨B, h, h1, h2, h3, -⟩ := exampleBins
  refine ⟨B, h, ?_⟩
  simp only [howMany, List.countP_cons, List.countP_nil, Bins.InWindow, h1, h2]
  norm_num

/-- Exact arithmetic: the reported mean and spread are the mean and standard deviation of all samples (also
those outside the window); the number under the square root is never negative. -/
theorem C48_mean_stddev (old B : Bins ℝ) (mn mx b l : ℝ)
    (hset : Bins.updateFromBinSize old mn mx b l = (B, .ok ())) (hb : 0 < b) (hl : 1 < l) (samples : List ℝ)
    (hne : samples ≠ []) :
    ∃ a, (TimeAnalysis.prepared B).report samples = (a, .ok ()) ∧ a.ensemble = samples.length ∧
      a.mean = sampleMean samples ∧ a.stddev = Real.sqrt (sampleVariance samples) ∧
      a.stddev ^ 2 = sampleVariance samples := by
  refine ⟨_, report_prepared hset hb hl samples, rfl, rfl, ?_, ?_⟩
  · simp only; rw [variance_eq samples hne]
  · simp only; rw [variance_eq samples hne]; exact Real.sq_sqrt (sampleVariance_nonneg samples)

example : sampleMean [1, 3] = 2 ∧ sampleVariance [1, 3] = 1 := by
  simp [sampleMean, sampleVariance]; norm_num

/-- Finding: drawing twice does not report the same thing: the mean is divided by the number of samples once
more. -/
theorem C48_draw_twice (old B : Bins ℝ) (mn mx b l : ℝ)
    (hset : Bins.updateFromBinSize old mn mx b l = (B, .ok ())) (hb : 0 < b) (hl : 1 < l) (samples : List ℝ) :
    ((TimeAnalysis.prepared B).report samples).1.draw.1.mean = sampleMean samples / samples.length := by
  rw [report_prepared hset hb hl, TimeAnalysis.draw_eq _ (by simp) (by simp)]
  simp only [sampleMean, fl_ofNat]

example : sampleMean [1, 3] / ([1, 3] : List ℝ).length ≠ sampleMean [1, 3] := by
  simp [sampleMean]; norm_num

/-! ## C49: `clear` -/

section clear
variable {F : Type} [Fl F]

theorem length_bumpAt (v : List Nat) (o : Option Nat) : (Hist.bumpAt v o).1.length = v.length := by
  cases o with
  | none => rfl
  | some i =>
    simp only [Hist.bumpAt, Hist.bump]
    cases h : v[i]? <;> simp

/-- the shape of an analysis with bins `b`. -/
def TimeShape (b : Bins F) (a : TimeAnalysis F) : Prop :=
  a.bins = b ∧ a.hist.length = b.numBin ∧ a.lhist.length = b.numLbin ∧ a.count.length = b.numBin ∧
  a.lcount.length = b.numLbin

theorem timeShape_prepared (b : Bins F) : TimeShape b (TimeAnalysis.prepared b) := by
  simp [TimeShape, TimeAnalysis.prepared, TimeAnalysis.allocateVectors]

theorem timeShape_add (b : Bins F) (a : TimeAnalysis F) (t : F) (h : TimeShape b a) :
    TimeShape b (a.addEnsemble t).1 := by
  obtain ⟨h1, h2, h3, h4, h5⟩ := h
  have h6 := length_bumpAt a.count (a.bins.binPos t)
  have h7 := length_bumpAt a.lcount (a.bins.lbinPos t)
  unfold TimeAnalysis.addEnsemble
  simp only
  split
  · rename_i c hc
    rw [hc] at h6
    exact ⟨h1, h2, h3, by simpa [h4] using h6, by simpa [h5] using h7⟩
  · rename_i c r _ hc
    rw [hc] at h6
    exact ⟨h1, h2, h3, by simpa [h4] using h6, h5⟩

theorem timeShape_draw (b : Bins F) (a : TimeAnalysis F) (h : TimeShape b a) : TimeShape b a.draw.1 := by
  obtain ⟨h1, h2, h3, h4, h5⟩ := h
  rw [TimeAnalysis.draw_eq _ (by omega) (by omega)]
  exact ⟨h1, by simpa using h4, by simpa using h5, h4, h5⟩

theorem timeShape_reach (b : Bins F) (a : TimeAnalysis F) (h : TimeAnalysis.Reach b a) : TimeShape b a := by
  induction h with
  | prepared => exact timeShape_prepared b
  | add t _ ih => exact timeShape_add b _ t ih
  | draw _ ih => exact timeShape_draw b _ ih
  | clear _ ih =>
    obtain ⟨h1, h2, h3, h4, h5⟩ := ih
    exact ⟨h1, h2, h3, by simp [TimeAnalysis.clear, h1], by simp [TimeAnalysis.clear, h1]⟩

theorem addEnsemble_same (a : TimeAnalysis F) (h lh : List F) (t : F) :
    ({ a with hist := h, lhist := lh } : TimeAnalysis F).addEnsemble t =
      ({ (a.addEnsemble t).1 with hist := h, lhist := lh }, (a.addEnsemble t).2) := by
  unfold TimeAnalysis.addEnsemble
  simp only
  split <;> rfl

theorem feed_same (a : TimeAnalysis F) (h lh : List F) (s : List F) :
    ({ a with hist := h, lhist := lh } : TimeAnalysis F).feed s =
      ({ (a.feed s).1 with hist := h, lhist := lh }, (a.feed s).2) := by
  induction s generalizing a with
  | nil => rfl
  | cons t s ih =>
    simp only [TimeAnalysis.feed, addEnsemble_same]
    match hadd : a.addEnsemble t with
    | (a', .ok ()) => simp only; exact ih a'
    | (a', .err e) => simp only
    | (a', .panic) => simp only

theorem timeShape_feed (b : Bins F) (a : TimeAnalysis F) (s : List F) (h : TimeShape b a) :
    TimeShape b (a.feed s).1 := by
  induction s generalizing a with
  | nil => exact h
  | cons t s ih =>
    have h' := timeShape_add b a t h
    simp only [TimeAnalysis.feed]
    match hadd : a.addEnsemble t with
    | (a', .ok ()) => simp only; rw [hadd] at h'; exact ih a' h'
    | (a', .err e) => simp only; rw [hadd] at h'; exact h'
    | (a', .panic) => simp only; rw [hadd] at h'; exact h'

/-- feeding a blank analysis with any old densities of the right length and drawing. -/
theorem report_same (b : Bins F) (h lh : List F) (hh : h.length = b.numBin) (hlh : lh.length = b.numLbin)
    (s : List F) :
    (({ TimeAnalysis.prepared b with hist := h, lhist := lh } : TimeAnalysis F).report s).2 =
      ((TimeAnalysis.prepared b).report s).2 ∧
    ((((TimeAnalysis.prepared b).report s).2 = .ok ()) →
      ({ TimeAnalysis.prepared b with hist := h, lhist := lh } : TimeAnalysis F).report s =
      (TimeAnalysis.prepared b).report s) := by
  unfold TimeAnalysis.report
  rw [feed_same]
  have hs := timeShape_feed b _ s (timeShape_prepared b)
  match hf : (TimeAnalysis.prepared b).feed s with
  | (a', .ok ()) =>
    rw [hf] at hs
    obtain ⟨h1, h2, h3, h4, h5⟩ := hs
    simp only at h1 h2 h3 h4 h5
    simp only
    rw [TimeAnalysis.draw_eq a' (by omega) (by omega), TimeAnalysis.draw_eq _ (by simp only; omega) (by simp only; omega)]
    exact ⟨rfl, fun _ => rfl⟩
  | (a', .err e) => simp only [reduceCtorEq, false_implies, and_true]
  | (a', .panic) => simp only [reduceCtorEq, false_implies, and_true]

/-- `clear` makes an analysis reusable (any arithmetic): whatever was done with a prepared analysis, including
operations that panicked, after `clear` feeding any samples and drawing succeeds or panics exactly as with a
newly prepared analysis, and when it succeeds every field is the same. -/
theorem C49_clear (b : Bins F) (a : TimeAnalysis F) (hr : TimeAnalysis.Reach b a) (samples : List F) :
    (a.clear.report samples).2 = ((TimeAnalysis.prepared b).report samples).2 ∧
    (((TimeAnalysis.prepared b).report samples).2 = .ok () →
      a.clear.report samples = (TimeAnalysis.prepared b).report samples) := by
  obtain ⟨h1, h2, h3, h4, h5⟩ := timeShape_reach b a hr
  have : a.clear = { TimeAnalysis.prepared b with hist := a.hist, lhist := a.lhist } := by
    simp [TimeAnalysis.clear, TimeAnalysis.prepared, TimeAnalysis.allocateVectors, TimeAnalysis.new, h1]
  rw [this]
  exact report_same b a.hist a.lhist h2 h3 samples

example (b : Bins ℝ) : TimeAnalysis.Reach b ((TimeAnalysis.prepared b).addEnsemble 3).1.draw.1.draw.1 :=
  .draw (.draw (.add 3 .prepared))

/-- Finding: `clear` before the vectors are allocated makes the counters but not the densities, so `draw` then
panics when there is at least one bin (any arithmetic). -/
theorem C49_clear_unallocated (b : Bins F) (hb : 0 < b.numBin) :
    (({ (TimeAnalysis.new : TimeAnalysis F) with bins := b }).clear.report []).2 = .panic := by
  have : ¬ b.numBin = 0 := by omega
  simp [TimeAnalysis.clear, TimeAnalysis.new, TimeAnalysis.report, TimeAnalysis.feed, TimeAnalysis.draw,
    Hist.overwrite, this]

example : 0 < (Bins.default : Bins ℝ).numBin := by decide

end clear
end Moledyn.Props
