import Verif.Props.AnalysisProcess
import Verif.Props.AnalysisVec
/-
Property theorem C55 (src/analysis.rs): what the exports write.
-/
namespace Moledyn.Props
open Moledyn
set_option linter.unusedSimpArgs false

/-- Exact arithmetic: `export_distribution` of a `TimeAnalysis` writes, in order, one row (bin centre, count,
density) for every bin whose density is at least 1e-15 in size, and no other row. -/
theorem C55_time_rows (a : TimeAnalysis ℝ) (h : a.hist.length = a.count.length) :
    a.exportRows = .ok ((List.range a.hist.length).filterMap fun i =>
      if |a.hist.getD i 0| < 1 / 10 ^ 15 then none
      else some (a.bins.minTime + (i + 1 / 2) * a.bins.binSize, a.count.getD i 0, a.hist.getD i 0)) := by
  have key : ∀ (k : Nat) (xs : List ℝ) (i : Nat) (time : ℝ), xs.length = k →
      time = a.bins.minTime + (i - 1 / 2) * a.bins.binSize → a.hist.drop i = xs →
      TimeAnalysis.exportRows.go a i time xs = .ok ((List.range' i k).filterMap fun i =>
        if |a.hist.getD i 0| < 1 / 10 ^ 15 then none
        else some (a.bins.minTime + ((i : ℕ) + 1 / 2) * a.bins.binSize, a.count.getD i 0, a.hist.getD i 0)) := by
    intro k
    induction k with
    | zero =>
      intro xs i time hk _ _
      rw [List.length_eq_zero_iff] at hk
      subst hk
      simp [TimeAnalysis.exportRows.go]
    | succ k ih =>
      intro xs i time hk ht hd
      cases xs with
      | nil => simp at hk
      | cons x xs =>
        have hi : i < a.hist.length := by
          have := congrArg List.length hd
          rw [List.length_drop, hk] at this
          omega
        have hx : a.hist.getD i 0 = x := by
          have h2 : (a.hist.drop i)[0]? = some x := by rw [hd]; rfl
          rw [List.getElem?_drop, Nat.add_zero] at h2
          simp [List.getD, h2]
        have hd' : a.hist.drop (i + 1) = xs := by
          rw [← List.drop_drop, hd]; rfl
        have ih := ih xs (i + 1) (time + a.bins.binSize) (by simpa using hk) (by rw [ht]; push_cast; ring) hd'
        have hlit : ((1 / 10 ^ 15 : ℚ) : ℝ) = 1 / 10 ^ 15 := by norm_num
        simp only [TimeAnalysis.exportRows.go, fl_lt, fl_abs, fl_lit, decide_eq_true_eq, hlit, fl_add]
        rw [List.range'_succ, List.filterMap_cons, hx]
        have hc : a.count[i]? = some (a.count.getD i 0) := by
          simp [List.getD, List.getElem?_eq_getElem (by omega : i < a.count.length)]
        by_cases hs : |x| < 1 / 10 ^ 15
        · rw [if_pos hs, if_pos hs]
          simp only
          exact ih
        · rw [if_neg hs, if_neg hs, hc]
          simp only
          rw [ih]
          simp only [Res.map]
          congr 2
          rw [ht]
          congr 1
          ring
  have := key a.hist.length a.hist 0 (a.bins.minTime - a.bins.binSize / 2) rfl (by push_cast; ring) rfl
  unfold TimeAnalysis.exportRows
  simp only [fl_two, fl_sub, fl_div]
  rw [this, ← List.range_eq_range']

/-- Exact arithmetic: likewise for `export_log_scaled_distribution`, with the geometric bin centres. -/
theorem C55_time_log_rows (a : TimeAnalysis ℝ) (hl : 0 < a.bins.lbinSize) (h : a.lhist.length = a.lcount.length) :
    a.exportLogRows = .ok ((List.range a.lhist.length).filterMap fun i =>
      if |a.lhist.getD i 0| < 1 / 10 ^ 15 then none
      else some (a.bins.minTime * Real.sqrt a.bins.lbinSize * a.bins.lbinSize ^ i, a.lcount.getD i 0,
        a.lhist.getD i 0)) := by
  have hsq : 0 < Real.sqrt a.bins.lbinSize := Real.sqrt_pos.2 hl
  have key : ∀ (k : Nat) (xs : List ℝ) (i : Nat) (time : ℝ), xs.length = k →
      time * a.bins.lbinSize = a.bins.minTime * Real.sqrt a.bins.lbinSize * a.bins.lbinSize ^ i →
      a.lhist.drop i = xs →
      TimeAnalysis.exportLogRows.go a i time xs = .ok ((List.range' i k).filterMap fun i =>
        if |a.lhist.getD i 0| < 1 / 10 ^ 15 then none
        else some (a.bins.minTime * Real.sqrt a.bins.lbinSize * a.bins.lbinSize ^ i, a.lcount.getD i 0,
          a.lhist.getD i 0)) := by
    intro k
    induction k with
    | zero =>
      intro xs i time hk _ _
      rw [List.length_eq_zero_iff] at hk
      subst hk
      simp [TimeAnalysis.exportLogRows.go]
    | succ k ih =>
      intro xs i time hk ht hd
      cases xs with
      | nil => simp at hk
      | cons x xs =>
        have hi : i < a.lhist.length := by
          have := congrArg List.length hd
          rw [List.length_drop, hk] at this
          omega
        have hx : a.lhist.getD i 0 = x := by
          have h2 : (a.lhist.drop i)[0]? = some x := by rw [hd]; rfl
          rw [List.getElem?_drop, Nat.add_zero] at h2
          simp [List.getD, h2]
        have hd' : a.lhist.drop (i + 1) = xs := by
          rw [← List.drop_drop, hd]; rfl
        have ih := ih xs (i + 1) (time * a.bins.lbinSize) (by simpa using hk)
          (by rw [ht, pow_succ]; ring) hd'
        have hlit : ((1 / 10 ^ 15 : ℚ) : ℝ) = 1 / 10 ^ 15 := by norm_num
        simp only [TimeAnalysis.exportLogRows.go, fl_lt, fl_abs, fl_lit, decide_eq_true_eq, hlit, fl_mul]
        rw [List.range'_succ, List.filterMap_cons, hx]
        have hc : a.lcount[i]? = some (a.lcount.getD i 0) := by
          simp [List.getD, List.getElem?_eq_getElem (by omega : i < a.lcount.length)]
        by_cases hs : |x| < 1 / 10 ^ 15
        · rw [if_pos hs, if_pos hs]
          simp only
          exact ih
        · rw [if_neg hs, if_neg hs, hc]
          simp only
          rw [ih]
          simp only [Res.map]
          rw [ht]
  have := key a.lhist.length a.lhist 0 (a.bins.minTime / Real.sqrt a.bins.lbinSize) rfl (by
    rw [pow_zero, mul_one]
    field_simp
    rw [Real.sq_sqrt hl.le]) rfl
  unfold TimeAnalysis.exportLogRows
  simp only [fl_sqrt, fl_div]
  rw [this, ← List.range_eq_range']

/-- the hypotheses are met by everything a program makes of a prepared analysis. -/
theorem C55_time_rows_reach {F : Type} [Fl F] (b : Bins F) (a : TimeAnalysis F) (hr : TimeAnalysis.Reach b a) :
    a.hist.length = a.count.length ∧ a.lhist.length = a.lcount.length := by
  obtain ⟨h1, h2, h3, h4, h5⟩ := timeShape_reach b a hr
  exact ⟨by omega, by omega⟩

/-- Finding: a bin that holds samples is left out of the file when it is a small enough fraction of a wide enough
bin: fewer than `n · b · 1e-15` samples.  With the `Default` bins (width 1e10) one sample in 100001 or more is
never written. -/
theorem C55_time_rows_dropped (old B : Bins ℝ) (mn mx b l : ℝ)
    (hset : Bins.updateFromBinSize old mn mx b l = (B, .ok ())) (hb : 0 < b) (hl : 1 < l) (samples : List ℝ)
    (hne : samples ≠ []) (i : Nat) (hi : i < B.numBin) :
    ∃ a rows, (TimeAnalysis.prepared B).report samples = (a, .ok ()) ∧ a.exportRows = .ok rows ∧
      ((∃ r ∈ rows, r.1 = B.minTime + (i + 1 / 2) * b) ↔
        samples.length * b / 10 ^ 15 ≤ howMany (fun t => B.InWindow t ∧ B.InBin i t) samples) := by
  obtain ⟨a, ha, hhl, -, hh, -⟩ := C47_densities old B mn mx b l hset hb hl samples hne
  have hbins : a.bins = B := by
    rw [report_prepared hset hb hl] at ha
    simp only [Prod.mk.injEq, and_true] at ha
    rw [← ha]
  have hcl : a.hist.length = a.count.length := by
    rw [report_prepared hset hb hl] at ha
    simp only [Prod.mk.injEq, and_true] at ha
    rw [← ha]; simp
  obtain ⟨-, -, -, hbs, -⟩ := bins_setup hset
  refine ⟨a, _, ha, C55_time_rows a hcl, ?_⟩
  have hn : (0 : ℝ) < samples.length := by
    have : 0 < samples.length := List.length_pos_iff.2 hne
    exact_mod_cast this
  have hval : a.hist.getD i 0 = (howMany (fun t => B.InWindow t ∧ B.InBin i t) samples / samples.length : ℝ) / b := by
    simp [List.getD, hh i hi]
  have hsz : |a.hist.getD i 0| < 1 / 10 ^ 15 ↔
      ¬ (samples.length * b / 10 ^ 15 ≤ (howMany (fun t => B.InWindow t ∧ B.InBin i t) samples : ℝ)) := by
    rw [hval, not_le, abs_of_nonneg (by positivity), div_div, div_lt_iff₀ (by positivity)]
    rw [show (1 : ℝ) / 10 ^ 15 * (samples.length * b) = samples.length * b / 10 ^ 15 by ring]
  constructor
  · rintro ⟨r, hr, hr1⟩
    rw [List.mem_filterMap] at hr
    obtain ⟨j, hj, hjr⟩ := hr
    split at hjr
    · simp at hjr
    · rename_i hs
      simp only [Option.some.injEq] at hjr
      have hji : j = i := by
        rw [← hjr, hbins, hbs] at hr1
        have h3 : ((j : ℝ) + 1 / 2) * b = (i + 1 / 2) * b := by linarith
        have h4 := mul_right_cancel₀ hb.ne' h3
        have : (j : ℝ) = i := by linarith
        exact_mod_cast this
      subst hji
      rw [hsz, not_not] at hs
      exact hs
  · intro hs
    refine ⟨(B.minTime + (i + 1 / 2) * b, a.count.getD i 0, a.hist.getD i 0),
      List.mem_filterMap.2 ⟨i, List.mem_range.2 (by omega), ?_⟩, ?_⟩
    · rw [if_neg (by rw [hsz, not_not]; exact hs), hbins, hbs]
    · rfl

example : ¬ (((100001 : ℕ) : ℝ) * 10 ^ 10 / 10 ^ 15 ≤ (1 : ℕ)) := by norm_num

/-- the export loop over given bin centres. -/
theorem whileRows_eq {R : Type} (mx : ℝ) (next : ℝ → ℝ) (row : Nat → ℝ → Res (Option R)) (t : Nat → ℝ)
    (ht : ∀ i, t (i + 1) = next (t i)) (K : Nat) (hlt : ∀ i < K, t i ≤ mx) (hK : mx < t K)
    (r : Nat → Option R) (hrow : ∀ i < K, row i (t i) = .ok (r i)) (fuel : Nat) (hf : K < fuel) :
    Hist.whileRows mx next row fuel 0 (t 0) = some (.ok ((List.range K).filterMap r)) := by
  have key : ∀ (k i fuel : Nat), i + k = K → k < fuel →
      Hist.whileRows mx next row fuel i (t i) = some (.ok ((List.range' i k).filterMap r)) := by
    intro k
    induction k with
    | zero =>
      intro i fuel hi hf
      obtain ⟨fuel, rfl⟩ : ∃ f, fuel = f + 1 := ⟨fuel - 1, by omega⟩
      have : i = K := by omega
      subst this
      simp only [Hist.whileRows, fl_le, decide_eq_true_eq]
      rw [if_neg (by linarith)]
      rfl
    | succ k ih =>
      intro i fuel hi hf
      obtain ⟨fuel, rfl⟩ : ∃ f, fuel = f + 1 := ⟨fuel - 1, by omega⟩
      simp only [Hist.whileRows, fl_le, decide_eq_true_eq]
      rw [if_pos (hlt i (by omega)), hrow i (by omega)]
      simp only
      rw [← ht, ih (i + 1) fuel (by omega) (by omega), List.range'_succ, List.filterMap_cons]
      simp only [Option.map_some, Res.map]
      cases r i <;> rfl
  rw [key K 0 fuel (by omega) hf, List.range_eq_range']

/-- the number of linear bins whose centre is in the window. -/
theorem centres {mn mx b : ℝ} (hb : 0 < b) : ∃ K : Nat, (∀ i : Nat, i < K ↔ mn + (i + 1 / 2) * b ≤ mx) ∧
    K ≤ ⌈(mx - mn) / b + 1 / 2⌉₊ := by
  refine ⟨⌊(mx - mn) / b + 1 / 2⌋₊, fun i => ?_, Nat.floor_le_ceil _⟩
  rw [Nat.lt_iff_add_one_le, Nat.le_floor_iff']
  · push_cast
    rw [← sub_le_iff_le_add, le_div_iff₀ hb]
    constructor <;> intro h <;> linarith
  · omega

/-- the number of logarithmic bins whose centre is in the window. -/
theorem log_centres {mn mx l : ℝ} (hm : 0 < mn) (hmx : 0 < mx) (hl : 1 < l) :
    ∃ K : Nat, (∀ i : Nat, i < K ↔ mn * Real.sqrt l * l ^ i ≤ mx) ∧
    K ≤ ⌈Real.logb 2 (mx / mn) / Real.logb 2 l + 1 / 2⌉₊ := by
  rw [logratio hl]
  refine ⟨⌊Real.logb l (mx / mn) + 1 / 2⌋₊, fun i => ?_, Nat.floor_le_ceil _⟩
  rw [Nat.lt_iff_add_one_le, Nat.le_floor_iff']
  · have hx0 : 0 < mx / mn := div_pos hmx hm
    have h0 : 0 < l := by linarith
    have e : Real.sqrt l * l ^ i = l ^ ((i : ℝ) + 1 / 2) := by
      rw [Real.rpow_add h0, Real.rpow_natCast, Real.sqrt_eq_rpow]; ring
    rw [mul_assoc, e, mul_comm, ← le_div_iff₀ hm, ← Real.le_logb_iff_rpow_le hl hx0]
    push_cast
    constructor <;> intro h <;> linarith
  · omega

/-- Exact arithmetic: `export_distribution` of a `ProcessAnalysis` writes one row per bin whose centre does not lie
beyond the window and whose mean is above 1e-15, in order, and no other row; likewise the logarithmic one. -/
theorem C55_process_rows (old B : Bins ℝ) (mn mx b l : ℝ)
    (hset : Bins.updateFromBinSize old mn mx b l = (B, .ok ())) (hb : 0 < b) (hl : 1 < l) (hmx : B.minTime ≤ mx)
    (a : ProcessAnalysis ℝ) (hbins : a.bins = B)
    (h1 : a.count.length = B.numBin ∧ a.mean.length = B.numBin ∧ a.stddev.length = B.numBin)
    (h2 : a.lcount.length = B.numLbin ∧ a.logMean.length = B.numLbin ∧ a.logStddev.length = B.numLbin) :
    (∃ K ≤ B.numBin, (∀ i : Nat, i < K ↔ B.minTime + (i + 1 / 2) * b ≤ mx) ∧ ∀ fuel, K < fuel →
      a.exportRows fuel = some (.ok ((List.range K).filterMap fun i =>
        if 1 / 10 ^ 15 < a.mean.getD i 0 then
          some (B.minTime + (i + 1 / 2) * b, a.count.getD i 0, a.mean.getD i 0, a.stddev.getD i 0)
        else none))) ∧
    (∃ K ≤ B.numLbin, (∀ i : Nat, i < K ↔ B.minTime * Real.sqrt l * l ^ i ≤ mx) ∧ ∀ fuel, K < fuel →
      a.exportLogRows fuel = some (.ok ((List.range K).filterMap fun i =>
        if 1 / 10 ^ 15 < a.logMean.getD i 0 then
          some (B.minTime * Real.sqrt l * l ^ i, a.lcount.getD i 0, a.logMean.getD i 0, a.logStddev.getD i 0)
        else none))) := by
  obtain ⟨hm, -, hBx, hbs, hls, hnb, hnl, -⟩ := bins_setup hset
  have hlit : ((1 / 10 ^ 15 : ℚ) : ℝ) = 1 / 10 ^ 15 := by norm_num
  have hget : ∀ {T : Type} (xs : List T) (d : T) (i : Nat), i < xs.length → xs[i]? = some (xs.getD i d) := by
    intro T xs d i hi
    simp [List.getD, List.getElem?_eq_getElem hi]
  constructor
  · obtain ⟨K, hK, hKn⟩ := centres (mn := B.minTime) (mx := mx) hb
    rw [← hnb] at hKn
    refine ⟨K, hKn, hK, fun fuel hf => ?_⟩
    unfold ProcessAnalysis.exportRows
    rw [hbins, hBx, hbs]
    have e0 : (B.minTime + b / Fl.two : ℝ) = (fun i : ℕ => B.minTime + (i + 1 / 2) * b) 0 := by
      simp only [fl_two]; push_cast; ring
    rw [e0]
    refine whileRows_eq mx (fun t => t + b) _ (fun i : ℕ => B.minTime + (i + 1 / 2) * b) ?_ K ?_ ?_ _ ?_ fuel hf
    · intro i; push_cast; ring
    · intro i hi; exact (hK i).1 hi
    · by_contra hc; push Not at hc; exact absurd ((hK K).2 hc) (lt_irrefl _)
    · intro i hi
      rw [hget a.count 0 i (by omega), hget a.mean 0 i (by omega), hget a.stddev 0 i (by omega)]
      simp only [Fl.gt, fl_lt, fl_lit, hlit, decide_eq_true_eq]
  · obtain ⟨K, hK, hKn⟩ := log_centres (mx := mx) hm (by linarith) hl
    rw [← hnl] at hKn
    refine ⟨K, hKn, hK, fun fuel hf => ?_⟩
    unfold ProcessAnalysis.exportLogRows
    rw [hbins, hBx, hls]
    have e0 : (B.minTime * Fl.sqrt l : ℝ) = (fun i : ℕ => B.minTime * Real.sqrt l * l ^ i) 0 := by
      simp only [fl_sqrt, pow_zero, mul_one]
    rw [e0]
    refine whileRows_eq mx (fun t => t * l) _ (fun i : ℕ => B.minTime * Real.sqrt l * l ^ i) ?_ K ?_ ?_ _ ?_ fuel hf
    · intro i; rw [pow_succ]; ring
    · intro i hi; exact (hK i).1 hi
    · by_contra hc; push Not at hc; exact absurd ((hK K).2 hc) (lt_irrefl _)
    · intro i hi
      rw [hget a.lcount 0 i (by omega), hget a.logMean 0 i (by omega), hget a.logStddev 0 i (by omega)]
      simp only [Fl.gt, fl_lt, fl_lit, hlit, decide_eq_true_eq]

/-- `cells` when everything is there. -/
theorem cells_eq (count : List (List Nat)) (hist : List (List ℝ)) (i n : Nat)
    (hc : ∀ k < n, ∃ c, count[k]? = some c ∧ i < c.length) (hh : ∀ k < n, ∃ c, hist[k]? = some c ∧ i < c.length) :
    TimeVecAnalysis.cells count hist i n =
      .ok ((List.range n).map fun k => ((count.getD k []).getD i 0, (hist.getD k []).getD i 0)) := by
  induction n with
  | zero => rfl
  | succ n ih =>
    obtain ⟨c, hc1, hc2⟩ := hc n (by omega)
    obtain ⟨d, hd1, hd2⟩ := hh n (by omega)
    rw [TimeVecAnalysis.cells, ih (fun k hk => hc k (by omega)) (fun k hk => hh k (by omega))]
    simp only [hc1, hd1, Option.bind_some, List.getElem?_eq_getElem hc2, List.getElem?_eq_getElem hd2]
    rw [List.range_succ, List.map_append]
    simp [List.getD, hc1, hd1, List.getElem?_eq_getElem hc2, List.getElem?_eq_getElem hd2]

/-- Exact arithmetic: `export_distribution` of a `TimeVecAnalysis` writes one row per bin whose centre does not lie
beyond the window and in which some variable has a density above 1e-15; a row holds the counts and densities of
all variables.  Likewise the logarithmic one. -/
theorem C55_vector_rows (old B : Bins ℝ) (mn mx b l : ℝ)
    (hset : Bins.updateFromBinSize old mn mx b l = (B, .ok ())) (hb : 0 < b) (hl : 1 < l) (hmx : B.minTime ≤ mx)
    (n : Nat) (a : TimeVecAnalysis ℝ) (hs : VecShape n B a) :
    (∃ K ≤ B.numBin, (∀ i : Nat, i < K ↔ B.minTime + (i + 1 / 2) * b ≤ mx) ∧ ∀ fuel, K < fuel →
      a.exportRows fuel = some (.ok ((List.range K).filterMap fun i =>
        if ∃ k < n, 1 / 10 ^ 15 < (a.hist.getD k []).getD i 0 then
          some (B.minTime + (i + 1 / 2) * b,
            (List.range n).map fun k => ((a.count.getD k []).getD i 0, (a.hist.getD k []).getD i 0))
        else none))) ∧
    (∃ K ≤ B.numLbin, (∀ i : Nat, i < K ↔ B.minTime * Real.sqrt l * l ^ i ≤ mx) ∧ ∀ fuel, K < fuel →
      a.exportLogRows fuel = some (.ok ((List.range K).filterMap fun i =>
        if ∃ k < n, 1 / 10 ^ 15 < (a.lhist.getD k []).getD i 0 then
          some (B.minTime * Real.sqrt l * l ^ i,
            (List.range n).map fun k => ((a.lcount.getD k []).getD i 0, (a.lhist.getD k []).getD i 0))
        else none))) := by
  obtain ⟨hm, -, hBx, hbs, hls, hnb, hnl, -⟩ := bins_setup hset
  obtain ⟨s1, s2, -, -, ⟨s5, s5'⟩, ⟨s6, s6'⟩, ⟨s7, s7'⟩, ⟨s8, s8'⟩⟩ := hs
  have hlit : ((1 / 10 ^ 15 : ℚ) : ℝ) = 1 / 10 ^ 15 := by norm_num
  have hget : ∀ {T : Type} (xs : List (List T)) (m : Nat), xs.length = n → (∀ x ∈ xs, x.length = m) →
      ∀ i < m, ∀ k < n, ∃ c, xs[k]? = some c ∧ i < c.length := by
    intro T xs m hx hxl i hi k hk
    refine ⟨xs[k]'(by omega), List.getElem?_eq_getElem _, ?_⟩
    rw [hxl _ (List.getElem_mem _)]; exact hi
  have hrow : ∀ (count : List (List Nat)) (hist : List (List ℝ)) (i : Nat) (t : ℝ),
      (∀ k < n, ∃ c, count[k]? = some c ∧ i < c.length) → (∀ k < n, ∃ c, hist[k]? = some c ∧ i < c.length) →
      a.row count hist i t = .ok (if ∃ k < n, 1 / 10 ^ 15 < (hist.getD k []).getD i 0 then
        some (t, (List.range n).map fun k => ((count.getD k []).getD i 0, (hist.getD k []).getD i 0)) else none) := by
    intro count hist i t hc hh
    unfold TimeVecAnalysis.row
    rw [s1, cells_eq count hist i n hc hh]
    simp only [Res.map, Fl.gt, fl_lt, fl_lit, hlit]
    congr 1
    by_cases hex : ∃ k < n, 1 / 10 ^ 15 < (hist.getD k []).getD i 0
    · rw [if_pos hex, if_pos]
      obtain ⟨k, hk, hlt⟩ := hex
      rw [List.any_eq_true]
      exact ⟨_, List.mem_map.2 ⟨k, List.mem_range.2 hk, rfl⟩, by simpa using hlt⟩
    · rw [if_neg hex, if_neg]
      rw [List.any_eq_true]
      rintro ⟨c, hc, hlt⟩
      obtain ⟨k, hk, rfl⟩ := List.mem_map.1 hc
      exact hex ⟨k, List.mem_range.1 hk, by simpa using hlt⟩
  constructor
  · obtain ⟨K, hK, hKn⟩ := centres (mn := B.minTime) (mx := mx) hb
    rw [← hnb] at hKn
    refine ⟨K, hKn, hK, fun fuel hf => ?_⟩
    unfold TimeVecAnalysis.exportRows
    rw [s2, hBx, hbs]
    have e0 : (B.minTime + b / Fl.two : ℝ) = (fun i : ℕ => B.minTime + (i + 1 / 2) * b) 0 := by
      simp only [fl_two]; push_cast; ring
    rw [e0]
    refine whileRows_eq mx (fun t => t + b) _ (fun i : ℕ => B.minTime + (i + 1 / 2) * b) ?_ K ?_ ?_ _ ?_ fuel hf
    · intro i; push_cast; ring
    · intro i hi; exact (hK i).1 hi
    · by_contra hc; push Not at hc; exact absurd ((hK K).2 hc) (lt_irrefl _)
    · intro i hi
      exact hrow _ _ i _ (hget _ _ s7 s7' i (by omega)) (hget _ _ s5 s5' i (by omega))
  · obtain ⟨K, hK, hKn⟩ := log_centres (mx := mx) hm (by linarith) hl
    rw [← hnl] at hKn
    refine ⟨K, hKn, hK, fun fuel hf => ?_⟩
    unfold TimeVecAnalysis.exportLogRows
    rw [s2, hBx, hls]
    have e0 : (B.minTime * Fl.sqrt l : ℝ) = (fun i : ℕ => B.minTime * Real.sqrt l * l ^ i) 0 := by
      simp only [fl_sqrt, pow_zero, mul_one]
    rw [e0]
    refine whileRows_eq mx (fun t => t * l) _ (fun i : ℕ => B.minTime * Real.sqrt l * l ^ i) ?_ K ?_ ?_ _ ?_ fuel hf
    · intro i; rw [pow_succ]; ring
    · intro i hi; exact (hK i).1 hi
    · by_contra hc; push Not at hc; exact absurd ((hK K).2 hc) (lt_irrefl _)
    · intro i hi
      exact hrow _ _ i _ (hget _ _ s8 s8' i (by omega)) (hget _ _ s6 s6' i (by omega))

/-- that shape is what every program reaches. -/
theorem C55_vector_reach {F : Type} [Fl F] (n : Nat) (hn : 0 < n) (b : Bins F) (a : TimeVecAnalysis F)
    (h : TimeVecAnalysis.Reach n b a) : VecShape n b a := vecShape_reach n hn b a h

/-- Finding: measurements at the very end of the window are counted but never written: with window [1, 10] and
width 1 the pair (10, 5) is in bin 9, whose mean is 5, yet no written row has a count. -/
theorem C55_process_tail_dropped : ∃ (B : Bins ℝ) (a : ProcessAnalysis ℝ),
    Bins.updateFromBinSize Bins.new 1 10 1 2 = (B, .ok ()) ∧
    (ProcessAnalysis.prepared B).report [(10, 5)] = (a, .ok ()) ∧ a.count[9]? = some 1 ∧ a.mean[9]? = some 5 ∧
    ∀ fuel > 10, ∃ rows, a.exportRows fuel = some (.ok rows) ∧ ∀ r ∈ rows, r.2.1 = 0 := by
  obtain ⟨B, hB, h1, h2, h3, h4, h5⟩ := exampleBins
  obtain ⟨a, ha, -, ⟨hbins, hl1, hl2⟩, hc, -⟩ := C50_process _ B 1 10 1 2 hB (by norm_num) (by norm_num) [(10, 5)]
  refine ⟨B, a, hB, ha, ?_, ?_, ?_⟩
  · have := (hc 9 (by omega) _ rfl).1
    rw [this]
    simp only [valuesAt, Bins.InWindow, Bins.InBin, h1, h2, h3, List.filter_cons]
    norm_num
  · have hv : valuesAt (fun t => B.InWindow t ∧ B.InBin 9 t) [(10, 5)] = [5] := by
      simp only [valuesAt, Bins.InWindow, Bins.InBin, h1, h2, h3, List.filter_cons]
      norm_num
    have := ((hc 9 (by omega) _ rfl).2 (by rw [hv]; simp)).1
    rw [this, hv]
    simp [sampleMean]
  · intro fuel hfuel
    obtain ⟨⟨K, hKn, hK, hrows⟩, -⟩ := C55_process_rows _ B 1 10 1 2 hB (by norm_num) (by norm_num)
      (by rw [h1]; norm_num) a hbins hl1 hl2
    refine ⟨_, hrows fuel (by omega), ?_⟩
    intro r hr
    obtain ⟨i, hi, hir⟩ := List.mem_filterMap.1 hr
    have hiK := (hK i).1 (List.mem_range.1 hi)
    rw [h1] at hiK
    have hi9 : (i : ℝ) < 9 := by linarith
    have hi9' : i < 9 := by exact_mod_cast hi9
    have h0 := (hc i (by omega) _ rfl).1
    have hv : valuesAt (fun t => B.InWindow t ∧ B.InBin i t) [(10, 5)] = [] := by
      have : ¬ ((10 : ℝ) < 1 + (i + 1) * 1) := by
        have : (i : ℝ) ≤ 8 := by exact_mod_cast (by omega : i ≤ 8)
        linarith
      simp only [valuesAt, Bins.InWindow, Bins.InBin, h1, h2, h3, List.filter_cons, this, and_false, decide_false]
      simp
    rw [hv] at h0
    split at hir
    · simp only [Option.some.injEq] at hir
      rw [← hir]
      simp [List.getD, h0]
    · simp at hir

end Moledyn.Props
