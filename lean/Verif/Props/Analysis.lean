import Verif.Lemmas.Analysis
/-
Property theorems C45-C49 (src/analysis.rs): histograms and time analyses.
-/
namespace Moledyn.Props
open Moledyn
set_option linter.unusedSimpArgs false

/-! ## C45: bins are in range -/

/-- what `update_from_bin_size` sets (exact arithmetic). -/
theorem bins_setup {old B : Bins ℝ} {mn mx b l : ℝ}
    (hset : Bins.updateFromBinSize old mn mx b l = (B, .ok ())) :
    0 < B.minTime ∧ mn ≤ B.minTime ∧ B.maxTime = mx ∧ B.binSize = b ∧ B.lbinSize = l ∧
    B.numBin = ⌈(mx - B.minTime) / b + 1 / 2⌉₊ ∧
    B.numLbin = ⌈Real.logb 2 (mx / B.minTime) / Real.logb 2 l + 1 / 2⌉₊ ∧
    (1 / 10 ^ 15 ≤ mn → B.minTime = mn) ∧ (mn < 1 / 10 ^ 15 → B.minTime = 1 / 10 ^ 15) := by
  unfold Bins.updateFromBinSize at hset
  split at hset
  · simp at hset
  · simp only [Prod.mk.injEq, and_true] at hset
    have hclip : Bins.clip mn = if mn < 1 / 10 ^ 15 then 1 / 10 ^ 15 else mn := by
      unfold Bins.clip
      simp only [fl_lt, decide_eq_true_eq, fl_lit]
      norm_num
    subst hset
    simp only [hclip, toNat_ceil]
    have hhalf : ((1 / 2 : ℚ) : ℝ) = 1 / 2 := by norm_num
    simp only [fl_lit, fl_add, fl_sub, fl_div, fl_log2, hhalf]
    refine ⟨?_, ?_, trivial, trivial, trivial, trivial, trivial, ?_, ?_⟩
    · split
      · norm_num
      · rename_i h; push Not at h; exact lt_of_lt_of_le (by norm_num) h
    · split
      · rename_i h; exact h.le
      · exact le_rfl
    · intro h; rw [if_neg (not_lt.2 h)]
    · intro h; rw [if_pos h]

theorem bins_lt {old B : Bins ℝ} {mn mx b l : ℝ}
    (hset : Bins.updateFromBinSize old mn mx b l = (B, .ok ())) (hb : 0 < b) (hl : 1 < l) (t : ℝ) (i : Nat) :
    (B.binPos t = some i → i < B.numBin) ∧ (B.lbinPos t = some i → i < B.numLbin) := by
  obtain ⟨hm, -, hmx, hbs, hls, hnb, hnl, -, -⟩ := bins_setup hset
  constructor
  · intro h
    obtain ⟨⟨h1, h2⟩, h3, -⟩ := (binPos_iff B (by rw [hbs]; exact hb) t i).1 h
    rw [hmx] at h2
    rw [hbs] at h3
    rw [hnb, Nat.lt_ceil]
    have : (i : ℝ) ≤ (mx - B.minTime) / b := by rw [le_div_iff₀ hb]; linarith
    linarith
  · intro h
    obtain ⟨⟨h1, h2⟩, h3, -⟩ := (lbinPos_iff B hm (by rw [hls]; exact hl) t i).1 h
    rw [hmx] at h2
    rw [hls] at h3
    rw [hnl, Nat.lt_ceil, logratio hl]
    have hx0 : 0 < mx / B.minTime := div_pos (by linarith) hm
    have : (i : ℝ) ≤ Real.logb l (mx / B.minTime) := by
      rw [le_logb_nat hl hx0, le_div_iff₀ hm]; linarith
    linarith

private theorem in_some_bin (B : Bins ℝ) (t : ℝ) :
    (B.InWindow t → (∃ i, B.binPos t = some i) ∧ ∃ i, B.lbinPos t = some i) ∧
    (¬ B.InWindow t → B.binPos t = none ∧ B.lbinPos t = none) := by
  unfold Bins.binPos Bins.lbinPos Bins.InWindow
  simp only [fl_lt, Bool.or_eq_true, decide_eq_true_eq]
  constructor
  · rintro ⟨h1, h2⟩
    rw [if_neg (by push Not; exact ⟨h1, h2⟩), if_neg (by push Not; exact ⟨h1, h2⟩)]
    exact ⟨⟨_, rfl⟩, ⟨_, rfl⟩⟩
  · intro h
    have : t < B.minTime ∨ B.maxTime < t := by
      by_contra hh
      push Not at hh
      exact h hh
    rw [if_pos this, if_pos this]
    exact ⟨rfl, rfl⟩

/-- Exact arithmetic: with bins set from a positive bin size and a ratio above 1, a sample inside the window
has its linear and its logarithmic bin among the existing ones, a sample outside has none, and feeding any
samples at all to a prepared analysis does not panic. -/
theorem C45_in_range (old B : Bins ℝ) (mn mx b l : ℝ)
    (hset : Bins.updateFromBinSize old mn mx b l = (B, .ok ())) (hb : 0 < b) (hl : 1 < l) :
    (∀ t, B.InWindow t → ∃ i < B.numBin, B.binPos t = some i ∧ B.InBin i t) ∧
    (∀ t, B.InWindow t → ∃ i < B.numLbin, B.lbinPos t = some i ∧ B.InLogBin i t) ∧
    (∀ t, ¬ B.InWindow t → B.binPos t = none ∧ B.lbinPos t = none) ∧
    (∀ samples, ((TimeAnalysis.prepared B).feed samples).2 = .ok ()) := by
  obtain ⟨hm, -, hmx, hbs, hls, -⟩ := bins_setup hset
  refine ⟨fun t ht => ?_, fun t ht => ?_, fun t ht => (in_some_bin B t).2 ht, fun samples => ?_⟩
  · obtain ⟨i, hi⟩ := ((in_some_bin B t).1 ht).1
    exact ⟨i, (bins_lt hset hb hl t i).1 hi, hi, ((binPos_iff B (by rw [hbs]; exact hb) t i).1 hi).2⟩
  · obtain ⟨i, hi⟩ := ((in_some_bin B t).1 ht).2
    exact ⟨i, (bins_lt hset hb hl t i).2 hi, hi, ((lbinPos_iff B hm (by rw [hls]; exact hl) t i).1 hi).2⟩
  · rw [TimeAnalysis.feed_eq]
    · intro t _ i hi
      simp only [TimeAnalysis.prepared, TimeAnalysis.allocateVectors, List.length_replicate]
      exact (bins_lt hset hb hl t i).1 hi
    · intro t _ i hi
      simp only [TimeAnalysis.prepared, TimeAnalysis.allocateVectors, List.length_replicate]
      exact (bins_lt hset hb hl t i).2 hi

example : ∃ B, Bins.updateFromBinSize (Bins.new : Bins ℝ) 1 10 (1 / 2) 2 = (B, .ok ()) ∧ B.InWindow 10 := by
  unfold Bins.updateFromBinSize
  rw [if_neg (by simp [fl_lit])]
  refine ⟨_, rfl, ?_, ?_⟩
  · simp only [Bins.clip, fl_lt, fl_lit]
    rw [if_neg (by norm_num)]; norm_num
  · exact le_rfl

/-- With rounded arithmetic: the bin of a sample in the window exists as long as every integer up to the number
of bins, and every half-integer up to it, is a floating-point number (so up to 2^52 bins in f64; bin counts are
limited by memory long before that). -/
theorem C45_rounded (R : Rounding) (old B : Bins (RF R)) (mn mx b l : RF R)
    (hset : Bins.updateFromBinSize old mn mx b l = (B, .ok ())) (hb : 0 < b.val)
    (hl : 0 < R.rnd (Real.logb 2 l.val))
    (hm : 0 < (Bins.clip mn).val) (N : Nat) (hint : ∀ i : ℕ, i ≤ N → R.rnd i = i)
    (hhalf : ∀ i : ℕ, i ≤ N → R.rnd (i + 1 / 2) = i + 1 / 2) (hh : R.rnd (1 / 2) = 1 / 2)
    (hN : ((mx - B.minTime) / b).val < N ∧ (Fl.log2 (mx / B.minTime) / Fl.log2 l).val < N)
    (t : RF R) (h1 : B.minTime.val ≤ t.val) (h2 : t.val ≤ B.maxTime.val) :
    (∃ i < B.numBin, B.binPos t = some i) ∧ (∃ i < B.numLbin, B.lbinPos t = some i) := by
  unfold Bins.updateFromBinSize at hset
  split at hset
  · simp at hset
  · simp only [Prod.mk.injEq, and_true] at hset
    -- a general fact: if 0 ≤ x ≤ X < N then floor x < ceil (X + 1/2) in rounded arithmetic
    have key : ∀ x X : RF R, 0 ≤ x.val → x.val ≤ X.val → X.val < N →
        Fl.toNat (Fl.floor x) < Fl.toNat (Fl.ceil (X + Fl.lit (1 / 2))) := by
      intro x X hx0 hxX hXN
      have hXc : (X + Fl.lit (1 / 2) : RF R).val = R.rnd (X.val + 1 / 2) := by
        show R.rnd (X.val + R.rnd ((1 / 2 : ℚ) : ℝ)) = _
        have : ((1 / 2 : ℚ) : ℝ) = 1 / 2 := by norm_num
        rw [this, hh]
      show ⌊R.rnd (⌊x.val⌋ : ℝ)⌋₊ < ⌊R.rnd (⌈(X + Fl.lit (1 / 2) : RF R).val⌉ : ℝ)⌋₊
      rw [hXc]
      set k : ℕ := ⌊x.val⌋₊ with hk
      have hkf : (⌊x.val⌋ : ℝ) = (k : ℝ) := by rw [hk, natCast_floor_eq_intCast_floor hx0]
      have hkx : (k : ℝ) ≤ x.val := Nat.floor_le hx0
      have hkN : k < N := by
        have : (k : ℝ) < N := by linarith
        exact_mod_cast this
      rw [hkf, hint k hkN.le, Nat.floor_natCast]
      have h3 : (k : ℝ) + 1 / 2 ≤ R.rnd (X.val + 1 / 2) := by
        rw [← hhalf k hkN.le]; exact R.mono _ _ (by linarith)
      have h4 : ((k + 1 : ℕ) : ℤ) ≤ ⌈R.rnd (X.val + 1 / 2)⌉ := by
        have : (k : ℤ) < ⌈R.rnd (X.val + 1 / 2)⌉ := Int.lt_ceil.2 (by push_cast; linarith)
        push_cast; omega
      have h5 : ((k + 1 : ℕ) : ℝ) ≤ R.rnd (⌈R.rnd (X.val + 1 / 2)⌉ : ℝ) := by
        rw [← hint (k + 1) hkN]
        exact R.mono _ _ (by exact_mod_cast h4)
      exact Nat.lt_of_succ_le (Nat.le_floor h5)
    have hpos : ∀ x : ℝ, 0 ≤ x → 0 ≤ R.rnd x := fun x hx => by rw [← R.zero]; exact R.mono _ _ hx
    have hlog : ∀ x y : ℝ, 0 < x → x ≤ y → Real.logb 2 x ≤ Real.logb 2 y := fun x y hx hxy =>
      Real.logb_le_logb_of_le (by norm_num) hx hxy
    have hBm : B.minTime = Bins.clip mn := by rw [← hset]
    have hBx : B.maxTime = mx := by rw [← hset]
    have hBb : B.binSize = b := by rw [← hset]
    have hBl : B.lbinSize = l := by rw [← hset]
    have hnb : B.numBin = Fl.toNat (Fl.ceil ((mx - B.minTime) / b + Fl.lit (1 / 2))) := by rw [← hset]
    have hnl : B.numLbin = Fl.toNat (Fl.ceil (Fl.log2 (mx / B.minTime) / Fl.log2 l + Fl.lit (1 / 2))) := by
      rw [← hset]
    have hnw : ¬ ((Fl.lt t B.minTime || Fl.lt B.maxTime t) = true) := by
      simp only [RF.lt_val, Bool.or_eq_true, decide_eq_true_eq]; push Not; exact ⟨h1, h2⟩
    have hm' : 0 < B.minTime.val := by rw [hBm]; exact hm
    rw [hBx] at h2
    constructor
    · refine ⟨_, ?_, by unfold Bins.binPos; rw [if_neg hnw]⟩
      rw [hnb, hBb]
      apply key _ _ _ _ hN.1
      · exact hpos _ (div_nonneg (hpos _ (by linarith)) hb.le)
      · exact R.mono _ _ (div_le_div_of_nonneg_right (R.mono _ _ (by linarith)) hb.le)
    · refine ⟨_, ?_, by unfold Bins.lbinPos; rw [if_neg hnw]⟩
      rw [hnl, hBl]
      apply key _ _ _ _ hN.2
      · have h3 : (1 : ℝ) ≤ t.val / B.minTime.val := by rw [le_div_iff₀ hm']; linarith
        have h4 : 0 ≤ R.rnd (Real.logb 2 (R.rnd (t.val / B.minTime.val))) := by
          apply hpos
          rcases le_or_gt 1 (R.rnd (t.val / B.minTime.val)) with h | h
          · exact Real.logb_nonneg (by norm_num) h
          · by_cases hN1 : 1 ≤ N
            · have : R.rnd ((1 : ℕ) : ℝ) ≤ R.rnd (t.val / B.minTime.val) := R.mono _ _ (by simpa using h3)
              rw [hint 1 hN1] at this
              simp only [Nat.cast_one] at this
              linarith
            · exfalso
              have hN0 : N = 0 := by omega
              have h5 : ((mx - B.minTime) / b).val < 0 := by have := hN.1; rw [hN0] at this; simpa using this
              have h6 : 0 ≤ ((mx - B.minTime) / b).val :=
                hpos _ (div_nonneg (hpos _ (by linarith)) hb.le)
              linarith
        exact hpos _ (div_nonneg h4 hl.le)
      · have h3 : (1 : ℝ) ≤ t.val / B.minTime.val := by rw [le_div_iff₀ hm']; linarith
        have hN1 : 1 ≤ N := by
          by_contra hc
          have hN0 : N = 0 := by omega
          have h5 : ((mx - B.minTime) / b).val < 0 := by have := hN.1; rw [hN0] at this; simpa using this
          have h6 : 0 ≤ ((mx - B.minTime) / b).val :=
            hpos _ (div_nonneg (hpos _ (by linarith)) hb.le)
          linarith
        have h4 : (1 : ℝ) ≤ R.rnd (t.val / B.minTime.val) := by
          have : R.rnd ((1 : ℕ) : ℝ) ≤ R.rnd (t.val / B.minTime.val) := R.mono _ _ (by simpa using h3)
          rw [hint 1 hN1] at this
          simpa using this
        have h5 : R.rnd (t.val / B.minTime.val) ≤ R.rnd (mx.val / B.minTime.val) :=
          R.mono _ _ (div_le_div_of_nonneg_right h2 hm'.le)
        exact R.mono _ _ (div_le_div_of_nonneg_right (R.mono _ _ (hlog _ _ (lt_of_lt_of_le one_pos h4) h5)) hl.le)

/-- Exact arithmetic: choosing the bins by their number `n` as `analyze` does (convert to sizes, then set the
sizes) gives `n + 1` bins of each kind. -/
theorem C45_by_count (old B : Bins ℝ) (mn mx b l : ℝ) (n : Nat) (hmx : Bins.clip mn < mx)
    (hconv : Bins.convertNumBinToBinSize mn mx n = .ok (b, l))
    (hset : Bins.updateFromBinSize old mn mx b l = (B, .ok ())) :
    0 < b ∧ 1 < l ∧ B.numBin = n + 1 ∧ B.numLbin = n + 1 := by
  obtain ⟨hm, -, -, -, -, hnb, hnl, -, -⟩ := bins_setup hset
  have hBm : B.minTime = Bins.clip mn := by
    unfold Bins.updateFromBinSize at hset
    split at hset
    · simp at hset
    · simp only [Prod.mk.injEq, and_true] at hset
      rw [← hset]
  unfold Bins.convertNumBinToBinSize at hconv
  split at hconv
  · simp at hconv
  · rename_i hc
    have hn : 10 ≤ n := by
      simp only [Bool.or_eq_true, not_or, decide_eq_true_eq] at hc
      omega
    have hn0 : (0 : ℝ) < n := by exact_mod_cast (by omega : 0 < n)
    simp only [Res.ok.injEq, Prod.mk.injEq, fl_sub, fl_div, fl_powf, fl_ofNat, fl_lit, Rat.cast_one] at hconv
    obtain ⟨rfl, rfl⟩ := hconv
    rw [← hBm] at hmx ⊢
    have hx1 : 1 < mx / B.minTime := by rw [lt_div_iff₀ hm]; linarith
    have hb : 0 < (mx - B.minTime) / n := div_pos (by linarith) hn0
    have hl : 1 < (mx / B.minTime) ^ ((1 : ℝ) / n) := Real.one_lt_rpow hx1 (by positivity)
    have hceil : ⌈(n : ℝ) + 1 / 2⌉₊ = n + 1 := by
      rw [Nat.ceil_eq_iff (by omega)]
      push_cast
      constructor
      · linarith
      · linarith
    refine ⟨hb, hl, ?_, ?_⟩
    · rw [hnb, ← hBm]
      rw [show (mx - B.minTime) / ((mx - B.minTime) / (n : ℝ)) = n by
        rw [div_div_eq_mul_div, mul_comm, mul_div_assoc, div_self (by linarith), mul_one]]
      exact hceil
    · rw [hnl, ← hBm]
      have hlog : Real.logb 2 (mx / B.minTime) ≠ 0 := by
        apply ne_of_gt; exact Real.logb_pos (by norm_num) hx1
      rw [Real.logb_rpow_eq_mul_logb_of_pos (by linarith)]
      rw [show Real.logb 2 (mx / B.minTime) / (1 / (n : ℝ) * Real.logb 2 (mx / B.minTime)) = n by
        field_simp]
      exact hceil

/-- Finding (exact arithmetic): with bins set by `update_from_num_bin` a sample equal to the end of the window
is one past the last bin, and adding it panics. -/
theorem C45_num_bin_panics (old B : Bins ℝ) (mn mx : ℝ) (n : Nat) (hmx : Bins.clip mn < mx)
    (hset : Bins.updateFromNumBin old mn mx n = (B, .ok ())) :
    B.InWindow mx ∧ ((TimeAnalysis.prepared B).addEnsemble mx).2 = .panic := by
  unfold Bins.updateFromNumBin at hset
  split at hset
  · simp at hset
  · rename_i hc
    have hclip : Bins.clip (Bins.clip mn) = Bins.clip mn ∧ 0 < Bins.clip mn := by
      unfold Bins.clip
      simp only [fl_lt, decide_eq_true_eq]
      by_cases h : mn < Fl.lit (1 / 10 ^ 15)
      · rw [if_pos h, if_neg (lt_irrefl _)]; exact ⟨rfl, by simp only [fl_lit]; norm_num⟩
      · rw [if_neg h, if_neg h]
        refine ⟨rfl, lt_of_lt_of_le ?_ (not_lt.1 h)⟩
        simp only [fl_lit]; norm_num
    have hn : 10 ≤ n := by
      simp only [Bool.or_eq_true, not_or, decide_eq_true_eq] at hc
      omega
    have hn0 : (0 : ℝ) < n := by exact_mod_cast (by omega : 0 < n)
    have hnc : ¬ ((Fl.lt (Bins.clip mn) (Fl.zero : ℝ) || Fl.lt mx (Bins.clip mn) || decide (n < 10)) = true) := by
      simp only [fl_lt, fl_lit, Rat.cast_zero, Bool.or_eq_true, decide_eq_true_eq, not_or, not_lt]
      exact ⟨⟨hclip.2.le, hmx.le⟩, hn⟩
    simp only [Bins.convertNumBinToBinSize] at hset
    rw [if_neg hnc] at hset
    simp only [hclip.1, fl_sub, fl_div, fl_ofNat, Prod.mk.injEq, and_true] at hset
    subst hset
    refine ⟨⟨hmx.le, le_rfl⟩, ?_⟩
    unfold TimeAnalysis.addEnsemble
    have hpos : Bins.binPos (⟨Bins.clip mn, mx, (mx - Bins.clip mn) / (n : ℝ),
        Fl.powf (mx / Bins.clip mn) ((Fl.one : ℝ) / (n : ℝ)), n, n⟩ : Bins ℝ) mx = some n := by
      unfold Bins.binPos
      rw [if_neg (by simp only [fl_lt, Bool.or_eq_true, decide_eq_true_eq, not_or, not_lt]; exact ⟨hmx.le, le_rfl⟩)]
      rw [toNat_floor, Option.some.injEq]
      simp only [fl_sub]
      rw [show (mx - Bins.clip mn) / ((mx - Bins.clip mn) / (n : ℝ)) = n by
        rw [div_div_eq_mul_div, mul_comm, mul_div_assoc, div_self (by linarith), mul_one]]
      exact Nat.floor_natCast n
    simp only [TimeAnalysis.prepared, TimeAnalysis.allocateVectors] at hpos ⊢
    rw [hpos]
    simp [Hist.bumpAt, Hist.bump]

/-- Finding (exact arithmetic): a ratio below 1 is accepted; unless the window is narrower than half a bin there
are then no logarithmic bins at all and the first sample in the window panics. -/
theorem C45_ratio_below_one_panics (old B : Bins ℝ) (mn mx b l : ℝ)
    (hset : Bins.updateFromBinSize old mn mx b l = (B, .ok ())) (hb : 0 < b) (hl0 : 0 < l) (hl : l < 1)
    (hw : 1 ≤ (mx / B.minTime) ^ 2 * l) (t : ℝ) (ht : B.InWindow t) :
    B.numLbin = 0 ∧ ((TimeAnalysis.prepared B).addEnsemble t).2 = .panic := by
  obtain ⟨hm, -, hmx, hbs, hls, hnb, hnl, -, -⟩ := bins_setup hset
  have hmx0 : 0 < mx := by have := ht.1; have := ht.2; rw [hmx] at this; linarith
  have hx : 0 < mx / B.minTime := div_pos hmx0 hm
  have h0 : B.numLbin = 0 := by
    rw [hnl, Nat.ceil_eq_zero]
    have hll : Real.logb 2 l < 0 := Real.logb_neg (by norm_num) hl0 hl
    have h1 : 0 ≤ Real.logb 2 ((mx / B.minTime) ^ 2 * l) := Real.logb_nonneg (by norm_num) hw
    rw [Real.logb_mul (by positivity) hl0.ne', Real.logb_pow] at h1
    push_cast at h1
    have h2 : Real.logb 2 (mx / B.minTime) / Real.logb 2 l ≤ -(1 / 2) := by
      rw [div_le_iff_of_neg hll]; linarith
    linarith
  refine ⟨h0, ?_⟩
  obtain ⟨⟨i, hi⟩, ⟨j, hj⟩⟩ := (in_some_bin B t).1 ht
  have hib : i < B.numBin := by
    obtain ⟨⟨h1, h2⟩, h3, -⟩ := (binPos_iff B (by rw [hbs]; exact hb) t i).1 hi
    rw [hmx] at h2
    rw [hbs] at h3
    rw [hnb, Nat.lt_ceil]
    have : (i : ℝ) ≤ (mx - B.minTime) / b := by rw [le_div_iff₀ hb]; linarith
    linarith
  unfold TimeAnalysis.addEnsemble
  simp only [TimeAnalysis.prepared, TimeAnalysis.allocateVectors, hi, hj, h0]
  rw [Hist.bumpAt_tally _ _ (by intro k hk; injection hk with hk; subst hk; simpa using hib)]
  simp [Hist.bumpAt, Hist.bump]

/-- The three `Default` analyses are those `update_from_bin_size` prepares for 1e-15, 1e13, 1e10, 1.2, with ten
variables for the vectors (exact arithmetic). -/
theorem C45_default : Bins.updateFromBinSize (Bins.new : Bins ℝ) (Fl.lit (1 / 10 ^ 15)) (Fl.lit (10 ^ 13))
    (Fl.lit (10 ^ 10)) (Fl.lit (12 / 10)) = (Bins.default, .ok ()) ∧
    (TimeAnalysis.default : TimeAnalysis ℝ) = TimeAnalysis.prepared Bins.default ∧
    (TimeVecAnalysis.default : TimeVecAnalysis ℝ) = TimeVecAnalysis.prepared 10 Bins.default ∧
    (ProcessAnalysis.default : ProcessAnalysis ℝ) = ProcessAnalysis.prepared Bins.default := by
  refine ⟨?_, rfl, rfl, rfl⟩
  have hclip : Bins.clip (Fl.lit (1 / 10 ^ 15) : ℝ) = Fl.lit (1 / 10 ^ 15) := by
    unfold Bins.clip; simp
  unfold Bins.updateFromBinSize
  rw [if_neg (by
    simp only [fl_lt, fl_lit, Bool.or_eq_true, decide_eq_true_eq, not_or, not_lt]
    norm_num)]
  simp only [hclip, toNat_ceil]
  unfold Bins.default
  have h1 : ⌈((Fl.lit (10 ^ 13) : ℝ) - Fl.lit (1 / 10 ^ 15)) / Fl.lit (10 ^ 10) + Fl.lit (1 / 2)⌉₊ = 1001 := by
    simp only [fl_lit]
    rw [Nat.ceil_eq_iff (by norm_num)]
    constructor <;> norm_num
  have h2 : ⌈Fl.log2 ((Fl.lit (10 ^ 13) : ℝ) / Fl.lit (1 / 10 ^ 15)) / Fl.log2 (Fl.lit (12 / 10)) +
      Fl.lit (1 / 2)⌉₊ = 355 := by
    simp only [fl_lit, fl_log2]
    have e1 : (((10 : ℚ) ^ 13 : ℚ) : ℝ) / ((1 / 10 ^ 15 : ℚ) : ℝ) = 10 ^ 28 := by norm_num
    have e2 : ((12 / 10 : ℚ) : ℝ) = 6 / 5 := by norm_num
    have e3 : ((1 / 2 : ℚ) : ℝ) = 1 / 2 := by norm_num
    rw [e1, e2, e3, logratio (by norm_num)]
    have hl : (1 : ℝ) < 6 / 5 := by norm_num
    have a1 : ((707 : ℕ) : ℝ) < Real.logb (6 / 5) ((10 ^ 28) ^ 2) := by
      rw [Real.lt_logb_iff_rpow_lt hl (by positivity), Real.rpow_natCast, div_pow, div_lt_iff₀ (by positivity)]
      exact_mod_cast (by decide +kernel : (6 : ℕ) ^ 707 < (10 ^ 28) ^ 2 * 5 ^ 707)
    have a2 : Real.logb (6 / 5) ((10 ^ 28) ^ 2) ≤ ((709 : ℕ) : ℝ) := by
      rw [Real.logb_le_iff_le_rpow hl (by positivity), Real.rpow_natCast, div_pow, le_div_iff₀ (by positivity)]
      exact_mod_cast (by decide +kernel : (10 ^ 28) ^ 2 * 5 ^ 709 ≤ (6 : ℕ) ^ 709)
    rw [Real.logb_pow] at a1 a2
    push_cast at a1 a2
    rw [Nat.ceil_eq_iff (by norm_num)]
    constructor
    · push_cast; norm_num; linarith
    · push_cast; linarith
  simp only [h1, h2]

end Moledyn.Props
