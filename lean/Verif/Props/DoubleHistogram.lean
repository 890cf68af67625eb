import Verif.Props.DoubleBox
import Verif.Props.Seeds
import Verif.Props.AnalysisStats
import Mathlib.Analysis.Convex.SpecificFunctions.Basic
/-
C88: histograms in double precision.
-/
namespace Moledyn.Props
open Moledyn

/-- the error of any rounding: relative `2^-53`, plus half the smallest double near zero. -/
theorem double_error (x : ℝ) : |Rounding.double.rnd x - x| ≤ |x| / 2 ^ 53 + 2 ^ (-1075 : ℤ) := by
  rcases eq_or_ne x 0 with rfl | h0
  · rw [Rounding.double.zero]
    simp only [sub_self, abs_zero, zero_div, zero_add]
    positivity
  have h := binaryRound_error (p := 53) (emin := -1074) x
  refine le_trans h ?_
  rcases le_total (Int.log 2 |x| + 1 - (53 : ℕ)) (-1074) with hl | hl
  · have : lastBit 53 (-1074) x = -1074 := max_eq_right hl
    rw [this]
    have : (2 : ℝ) ^ (-1074 : ℤ) / 2 = 2 ^ (-1075 : ℤ) := by
      rw [show (-1074 : ℤ) = -1075 + 1 by norm_num, zpow_add_one₀ (by norm_num)]
      exact mul_div_cancel_right₀ _ (by norm_num)
    rw [this]
    have := abs_nonneg x
    have : 0 ≤ |x| / 2 ^ 53 := by positivity
    linarith
  · have e : lastBit 53 (-1074) x = Int.log 2 |x| + 1 - (53 : ℕ) := max_eq_left hl
    rw [e]
    have b := (log_bounds (abs_pos.2 h0)).1
    have e2 : (2 : ℝ) ^ (Int.log 2 |x| + 1 - (53 : ℕ)) / 2 = 2 ^ Int.log 2 |x| / 2 ^ 53 := by
      rw [zpow_sub₀ (by norm_num), zpow_add₀ (by norm_num), zpow_one, zpow_natCast]
      field_simp
    rw [e2]
    have p : (0 : ℝ) < 2 ^ (-1075 : ℤ) := by positivity
    have : (2 : ℝ) ^ Int.log 2 |x| / 2 ^ 53 ≤ |x| / 2 ^ 53 := by
      exact div_le_div_of_nonneg_right b (by positivity)
    linarith

private theorem half_nat {i : ℕ} (h : i < 2 ^ 52) : Rounding.double.rnd ((i : ℝ) + 1 / 2) = i + 1 / 2 := by
  have := double_exact (2 * i + 1) (-1) (by omega) (by norm_num)
  have e : (((2 * i + 1 : ℕ) : ℝ) * 2 ^ (-1 : ℤ)) = i + 1 / 2 := by push_cast; ring_nf
  rwa [e] at this

private theorem rnd_pos {x : ℝ} {e : ℤ} (he : -1074 ≤ e) (h : 2 ^ e ≤ x) : 2 ^ e ≤ Rounding.double.rnd x := by
  rw [← double_pow2 he]; exact Rounding.double.mono _ _ h

private theorem rep_gt_one {l : ℝ} (hl : Rounding.double.rnd l = l) (h : 1 < l) : 1 + 1 / 2 ^ 52 ≤ l := by
  obtain ⟨n, hn⟩ := double_last hl
  have hlog : 0 ≤ Int.log 2 |l| := by
    rw [abs_of_pos (by linarith)]
    exact (Int.zpow_le_iff_le_log (b := 2) (by norm_num) (r := l) (by linarith)).1 (by norm_num; linarith)
  obtain ⟨m, hm⟩ := multiple_lower (x := l) (k := lastBit 53 (-1074) l) (l := -52)
    (le_trans (by omega) (le_max_left _ _)) ⟨n, hn⟩
  have e : (2 : ℝ) ^ (-52 : ℤ) = 1 / 2 ^ 52 := by rw [zpow_neg, one_div]; norm_cast
  rw [e] at hm
  have : (2 ^ 52 : ℤ) < m := by
    have : (2 ^ 52 : ℝ) < m := by
      rw [hm] at h
      rw [mul_one_div, lt_div_iff₀ (by positivity)] at h
      linarith
    exact_mod_cast this
  have : (2 ^ 52 + 1 : ℝ) ≤ m := by exact_mod_cast this
  rw [hm, mul_one_div, le_div_iff₀ (by positivity)]
  linarith [show (1 + 1 / 2 ^ 52 : ℝ) * 2 ^ 52 = 2 ^ 52 + 1 by norm_num]

private theorem log_pos_double {l : Double} (hl : l.Rep) (h : 1 < l.val) : 0 < Rounding.double.rnd (Real.logb 2 l.val) := by
  have h1 := rep_gt_one hl h
  have hu : ∃ u : ℝ, u = 1 / 2 ^ 52 := ⟨_, rfl⟩
  obtain ⟨u, hu⟩ := hu
  have u0 : 0 ≤ u := by rw [hu]; positivity
  have u1 : u ≤ 1 := by rw [hu]; norm_num
  rw [← hu] at h1
  have h2 : (2 : ℝ) ^ u ≤ l.val := by
    have := rpow_one_add_le_one_add_mul_self (s := 1) (by norm_num) (p := u) u0 u1
    rw [show (1 : ℝ) + 1 = 2 by norm_num] at this
    linarith
  have h3 : (2 : ℝ) ^ (-52 : ℤ) ≤ Real.logb 2 l.val := by
    have e : ((2 : ℝ) ^ (-52 : ℤ)) = u := by rw [zpow_neg, hu, one_div]; norm_cast
    rw [e, Real.le_logb_iff_rpow_le (by norm_num) (by linarith)]
    exact h2
  exact lt_of_lt_of_le (by positivity) (rnd_pos (by norm_num) h3)

private theorem clip_pos (mn : Double) : 0 < (Bins.clip mn).val := by
  have h : (0 : ℝ) < Rounding.double.rnd (((1 / 10 ^ 15 : ℚ)) : ℝ) := by
    refine lt_of_lt_of_le (by positivity : (0 : ℝ) < 2 ^ (-50 : ℤ)) (rnd_pos (by norm_num) ?_)
    norm_num
  unfold Bins.clip
  split
  · exact h
  · rename_i hc
    simp only [RF.lt_val, RF.val_lit, decide_eq_true_eq, not_lt] at hc
    exact lt_of_lt_of_le h hc

private theorem bins_fields {old B : Bins Double} {mn mx b l : Double}
    (hset : Bins.updateFromBinSize old mn mx b l = (B, .ok ())) :
    B.minTime = Bins.clip mn ∧ B.maxTime = mx ∧ B.binSize = b ∧ B.lbinSize = l ∧
    B.numBin = Fl.toNat (Fl.ceil ((mx - B.minTime) / b + Fl.lit (1 / 2))) ∧
    B.numLbin = Fl.toNat (Fl.ceil (Fl.log2 (mx / B.minTime) / Fl.log2 l + Fl.lit (1 / 2))) := by
  unfold Bins.updateFromBinSize at hset
  split at hset
  · simp at hset
  · simp only [Prod.mk.injEq, and_true] at hset
    subst hset
    exact ⟨rfl, rfl, rfl, rfl, rfl, rfl⟩

/-- fewer than `2^51` bins were needed -/
private theorem few {X : Double} (h : Fl.toNat (Fl.ceil (X + Fl.lit (1 / 2))) < 2 ^ 51) : X.val < 2 ^ 51 := by
  by_contra hc
  push Not at hc
  have r : Rounding.double.rnd (2 ^ 51) = 2 ^ 51 := by
    have := double_pow2 (e := 51) (by norm_num)
    exact_mod_cast this
  have hh : Rounding.double.rnd (((1 / 2 : ℚ)) : ℝ) = 1 / 2 := by
    have := half_nat (i := 0) (by norm_num)
    push_cast at this ⊢
    simpa using this
  have e : (X + Fl.lit (1 / 2) : Double).val = Rounding.double.rnd (X.val + 1 / 2) := by
    rw [RF.val_add, RF.val_lit, hh]
  have h1 : (2 ^ 51 : ℝ) ≤ Rounding.double.rnd (X.val + 1 / 2) := by
    have := Rounding.double.mono (2 ^ 51) (X.val + 1 / 2) (by linarith)
    rwa [r] at this
  have h2 : (2 ^ 51 : ℝ) ≤ (⌈Rounding.double.rnd (X.val + 1 / 2)⌉ : ℝ) := h1.trans (Int.le_ceil _)
  have h3 : (2 ^ 51 : ℝ) ≤ Rounding.double.rnd (⌈Rounding.double.rnd (X.val + 1 / 2)⌉ : ℝ) := by
    have := Rounding.double.mono _ _ h2
    rwa [r] at this
  have h4 : 2 ^ 51 ≤ Fl.toNat (Fl.ceil (X + Fl.lit (1 / 2)) : Double) := by
    show 2 ^ 51 ≤ ⌊Rounding.double.rnd (⌈(X + Fl.lit (1 / 2) : Double).val⌉ : ℝ)⌋₊
    rw [e]
    exact Nat.le_floor (by rw [Nat.cast_pow, Nat.cast_ofNat]; exact h3)
  omega

/-- `t` is in the window of the bins. -/
def Bins.Shows (B : Bins Double) (t : Double) : Prop := B.minTime.val ≤ t.val ∧ t.val ≤ B.maxTime.val

private theorem pos_none {B : Bins Double} {t : Double} (h : ¬ Bins.Shows B t) : B.binPos t = none ∧ B.lbinPos t = none := by
  have : (Fl.lt t B.minTime || Fl.lt B.maxTime t) = true := by
    simp only [RF.lt_val, Bool.or_eq_true, decide_eq_true_eq]
    by_contra hc
    push Not at hc
    exact h hc
  unfold Bins.binPos Bins.lbinPos
  rw [if_pos this, if_pos this]
  exact ⟨rfl, rfl⟩

private theorem pos_some {old B : Bins Double} {mn mx b l : Double}
    (hset : Bins.updateFromBinSize old mn mx b l = (B, .ok ())) (hb : 0 < b.val) (hl : l.Rep) (h1 : 1 < l.val)
    (hN : B.numBin < 2 ^ 51 ∧ B.numLbin < 2 ^ 51) (t : Double) (ht : Bins.Shows B t) :
    (∃ i < B.numBin, B.binPos t = some i) ∧ (∃ i < B.numLbin, B.lbinPos t = some i) := by
  obtain ⟨e1, e2, e3, e4, e5, e6⟩ := bins_fields hset
  refine C45_rounded Rounding.double old B mn mx b l hset hb (log_pos_double hl h1) (clip_pos mn) (2 ^ 51)
    (fun i hi => double_nat (by omega)) (fun i hi => half_nat (by omega)) ?_ ⟨?_, ?_⟩ t ht.1 ht.2
  · have := half_nat (i := 0) (by norm_num)
    simpa using this
  · rw [e5] at hN; rw [Nat.cast_pow, Nat.cast_ofNat]; exact few hN.1
  · rw [e6] at hN; rw [Nat.cast_pow, Nat.cast_ofNat]; exact few hN.2

/-- Double precision: no sample is lost.  With bins set from a positive bin size and a ratio above 1, fewer than `2^51` of each
kind, no sample makes the analysis panic; `ensemble` counts all samples, and the entries of the linear histogram add up to the
number of samples in the window, those of the logarithmic one, too.  The order of the samples does not matter. -/
theorem C88_no_sample_lost (old B : Bins Double) (mn mx b l : Double)
    (hset : Bins.updateFromBinSize old mn mx b l = (B, .ok ())) (hb : 0 < b.val) (hl : l.Rep) (h1 : 1 < l.val)
    (hN : B.numBin < 2 ^ 51 ∧ B.numLbin < 2 ^ 51) (samples : List Double) :
    ∃ a, (TimeAnalysis.prepared B).feed samples = (a, .ok ()) ∧ a.ensemble = samples.length ∧
      a.count.length = B.numBin ∧ a.lcount.length = B.numLbin ∧
      (open Classical in a.count.sum = samples.countP fun t => decide (B.minTime.val ≤ t.val ∧ t.val ≤ B.maxTime.val)) ∧
      a.lcount.sum = a.count.sum ∧
      ∀ samples', samples'.Perm samples → ∃ a', (TimeAnalysis.prepared B).feed samples' = (a', .ok ()) ∧
        a'.count = a.count ∧ a'.lcount = a.lcount := by
  have key := pos_some hset hb hl h1 hN
  have hlt : ∀ t i, (B.binPos t = some i → i < B.numBin) ∧ (B.lbinPos t = some i → i < B.numLbin) := by
    intro t i
    by_cases ht : Bins.Shows B t
    · obtain ⟨⟨j, hj, e⟩, ⟨k, hk, e'⟩⟩ := key t ht
      exact ⟨fun h => by rw [e] at h; cases h; exact hj, fun h => by rw [e'] at h; cases h; exact hk⟩
    · obtain ⟨e, e'⟩ := pos_none ht
      exact ⟨fun h => by rw [e] at h; simp at h, fun h => by rw [e'] at h; simp at h⟩
  have hsome : ∀ t, ((B.binPos t).isSome ↔ Bins.Shows B t) ∧ ((B.lbinPos t).isSome ↔ Bins.Shows B t) := by
    intro t
    by_cases ht : Bins.Shows B t
    · obtain ⟨⟨j, hj, e⟩, ⟨k, hk, e'⟩⟩ := key t ht
      simp [e, e', ht]
    · obtain ⟨e, e'⟩ := pos_none ht
      simp [e, e', ht]
  have feed : ∀ samples, (TimeAnalysis.prepared B).feed samples = (_, .ok ()) := fun samples =>
    TimeAnalysis.feed_eq (TimeAnalysis.prepared B) samples
      (fun t _ i hi => by
        simp only [TimeAnalysis.prepared, TimeAnalysis.allocateVectors, List.length_replicate]; exact (hlt t i).1 hi)
      (fun t _ i hi => by
        simp only [TimeAnalysis.prepared, TimeAnalysis.allocateVectors, List.length_replicate]; exact (hlt t i).2 hi)
  have hc : ∀ (pos : Double → Option Nat) (h : ∀ t, (pos t).isSome ↔ Bins.Shows B t),
      (open Classical in (samples.map pos).countP Option.isSome =
        samples.countP fun t => decide (B.minTime.val ≤ t.val ∧ t.val ≤ B.maxTime.val)) := by
    intro pos h
    rw [List.countP_map]
    apply List.countP_congr
    intro t _
    simp only [Function.comp_apply, decide_eq_true_eq]
    exact h t
  have s1 : (Hist.tally (List.replicate B.numBin 0) (samples.map B.binPos)).sum = _ :=
    (Hist.sum_tally _ _ (by
      intro i hi
      obtain ⟨t, -, ht⟩ := List.mem_map.1 hi
      exact (hlt t i).1 ht)).trans (hc B.binPos fun t => (hsome t).1)
  have s2 : (Hist.tally (List.replicate B.numLbin 0) (samples.map B.lbinPos)).sum = _ :=
    (Hist.sum_tally _ _ (by
      intro i hi
      obtain ⟨t, -, ht⟩ := List.mem_map.1 hi
      exact (hlt t i).2 ht)).trans (hc B.lbinPos fun t => (hsome t).2)
  refine ⟨_, feed samples, ?_, ?_, ?_, ?_, ?_, fun samples' hp => ⟨_, feed samples', ?_, ?_⟩⟩
  · simp [TimeAnalysis.prepared, TimeAnalysis.allocateVectors, TimeAnalysis.new]
  · simp [TimeAnalysis.prepared, TimeAnalysis.allocateVectors]
  · simp [TimeAnalysis.prepared, TimeAnalysis.allocateVectors]
  · exact s1
  · exact s2.trans s1.symm
  · exact Hist.tally_perm _ (hp.map _)
  · exact Hist.tally_perm _ (hp.map _)

/-- Double precision: a later sample is never counted in an earlier bin, linear or logarithmic. -/
theorem C88_bins_in_order (old B : Bins Double) (mn mx b l : Double)
    (hset : Bins.updateFromBinSize old mn mx b l = (B, .ok ())) (hb : 0 < b.val) (hl : l.Rep) (h1 : 1 < l.val)
    (t t' : Double) (h : t.val ≤ t'.val) (i i' : Nat) :
    (B.binPos t = some i → B.binPos t' = some i' → i ≤ i') ∧ (B.lbinPos t = some i → B.lbinPos t' = some i' → i ≤ i') := by
  obtain ⟨e1, e2, e3, e4, -, -⟩ := bins_fields hset
  have hm : 0 < B.minTime.val := by rw [e1]; exact clip_pos mn
  have hll := log_pos_double hl h1
  have mono : ∀ x y : Double, x.val ≤ y.val → Fl.toNat (Fl.floor x) ≤ Fl.toNat (Fl.floor y) := by
    intro x y hxy
    exact Nat.floor_mono (Rounding.double.mono _ _ (by exact_mod_cast Int.floor_mono hxy))
  constructor
  · intro g g'
    unfold Bins.binPos at g g'
    split at g
    · simp at g
    split at g'
    · simp at g'
    simp only [Option.some.injEq] at g g'
    rw [← g, ← g']
    apply mono
    rw [RF.val_div, RF.val_div, RF.val_sub, RF.val_sub, e3]
    exact Rounding.double.mono _ _ (div_le_div_of_nonneg_right (Rounding.double.mono _ _ (by linarith)) hb.le)
  · intro g g'
    unfold Bins.lbinPos at g g'
    split at g
    · simp at g
    rename_i hw
    simp only [RF.lt_val, Bool.or_eq_true, decide_eq_true_eq, not_or, not_lt] at hw
    split at g'
    · simp at g'
    simp only [Option.some.injEq] at g g'
    rw [← g, ← g']
    apply mono
    rw [e4, RF.val_div, RF.val_div]
    refine Rounding.double.mono _ _ (div_le_div_of_nonneg_right (Rounding.double.mono _ _ ?_) hll.le)
    have one : (1 : ℝ) ≤ (t / B.minTime).val := by
      have r1 : Rounding.double.rnd 1 = 1 := by simpa using double_pow2 (e := 0) (by norm_num)
      have := Rounding.double.mono 1 (t.val / B.minTime.val) (by rw [le_div_iff₀ hm]; linarith [hw.1])
      rw [r1] at this
      exact this
    exact Real.logb_le_logb_of_le (by norm_num) (by linarith)
      (Rounding.double.mono _ _ (div_le_div_of_nonneg_right h hm.le))

/-- Double precision: how far the edges of the linear bins move.  A sample counted in bin `i` is at most a fraction `2^-52` of
its distance from the start of the window away from the exact bin `[min + i b, min + (i+1) b)`. -/
theorem C88_bin_edges (old B : Bins Double) (mn mx b l : Double) (hmn : mn.Rep)
    (hset : Bins.updateFromBinSize old mn mx b l = (B, .ok ())) (hb : 0 < b.val)
    (t : Double) (ht : t.Rep) (i : Nat) (hi : i < 2 ^ 52) (h : B.binPos t = some i) :
    i * b.val * (1 - 1 / 2 ^ 52) ≤ t.val - B.minTime.val ∧ (t.val - B.minTime.val) * (1 - 1 / 2 ^ 53) < (i + 1) * b.val := by
  obtain ⟨e1, e2, e3, e4, -, -⟩ := bins_fields hset
  have hmr : B.minTime.Rep := by
    rw [e1]; unfold Bins.clip
    split
    · exact Rounding.double.idem _
    · exact hmn
  unfold Bins.binPos at h
  split at h
  · simp at h
  rename_i hw
  simp only [RF.lt_val, Bool.or_eq_true, decide_eq_true_eq, not_or, not_lt] at hw
  simp only [Option.some.injEq] at h
  rw [e3] at h
  have d0 : 0 ≤ t.val - B.minTime.val := by linarith [hw.1]
  have he := double_add_error (a := t.val) (b := -B.minTime.val) ht (by rw [Rounding.double.odd, hmr])
  rw [← sub_eq_add_neg, abs_of_nonneg d0] at he
  set d := t.val - B.minTime.val with hd
  set d' := Rounding.double.rnd d with hd'
  have d0' : 0 ≤ d' := by rw [← Rounding.double.zero]; exact Rounding.double.mono _ _ d0
  have he' := abs_le.1 he
  -- the computed quotient
  set q := Rounding.double.rnd (d' / b.val) with hq
  have q0 : 0 ≤ q := by rw [← Rounding.double.zero]; exact Rounding.double.mono _ _ (div_nonneg d0' hb.le)
  have hfl : ⌊Rounding.double.rnd (⌊q⌋ : ℝ)⌋₊ = i := h
  have hflr : (⌊q⌋ : ℝ) = (⌊q⌋₊ : ℝ) := (natCast_floor_eq_intCast_floor q0).symm
  rw [hflr] at hfl
  -- the floor is itself a double
  have hk : ⌊q⌋₊ = i := by
    rcases Nat.lt_or_ge ⌊q⌋₊ (2 ^ 53) with hlt | hge
    · rw [double_nat hlt, Nat.floor_natCast] at hfl; exact hfl
    · exfalso
      have := Rounding.double.mono (2 ^ 53) (⌊q⌋₊ : ℝ) (by exact_mod_cast hge)
      have r : Rounding.double.rnd (2 ^ 53) = 2 ^ 53 := by
        have := double_pow2 (e := 53) (by norm_num)
        exact_mod_cast this
      rw [r] at this
      have : 2 ^ 53 ≤ ⌊Rounding.double.rnd (⌊q⌋₊ : ℝ)⌋₊ := Nat.le_floor (by rw [Nat.cast_pow, Nat.cast_ofNat]; exact this)
      omega
  have f1 : (i : ℝ) ≤ q := by rw [← hk]; exact Nat.floor_le q0
  have f2 : q < i + 1 := by rw [← hk]; exact Nat.lt_floor_add_one q
  constructor
  · rcases Nat.eq_zero_or_pos i with rfl | hpos
    · simpa using d0
    have i1 : (1 : ℝ) ≤ i := by exact_mod_cast hpos
    have eq := abs_le.1 (double_error (d' / b.val))
    rw [abs_of_nonneg (div_nonneg d0' hb.le), ← hq] at eq
    -- the quotient is at least one half, so it is not affected by underflow
    have tiny : (2 : ℝ) ^ (-1075 : ℤ) ≤ 1 / 2 ^ 108 := by
      have : (2 : ℝ) ^ (-1075 : ℤ) ≤ 2 ^ (-108 : ℤ) := zpow_le_zpow_right₀ (by norm_num) (by norm_num)
      refine this.trans (le_of_eq ?_)
      rw [zpow_neg, one_div]; norm_cast
    set x := d' / b.val with hx
    have x1 : (i : ℝ) - 1 / 2 ^ 108 ≤ x * (1 + 1 / 2 ^ 53) := by
      have : q ≤ x + x / 2 ^ 53 + 2 ^ (-1075 : ℤ) := by linarith [eq.2]
      have e : x * (1 + 1 / 2 ^ 53) = x + x / 2 ^ 53 := by ring
      rw [e]; linarith
    have hdb : d' = x * b.val := by rw [hx]; field_simp
    have k1 : d' ≤ d * (1 + 1 / 2 ^ 53) := by
      have e : d * (1 + 1 / 2 ^ 53) = d + d / 2 ^ 53 := by ring
      rw [e]; linarith [he'.2]
    -- i (1 - 2^-52) (1 + 2^-53)^2 ≤ i - 2^-108
    have num : (i : ℝ) * (1 - 1 / 2 ^ 52) * ((1 + 1 / 2 ^ 53) * (1 + 1 / 2 ^ 53)) ≤ i - 1 / 2 ^ 108 := by
      have : (1 - 1 / 2 ^ 52 : ℝ) * ((1 + 1 / 2 ^ 53) * (1 + 1 / 2 ^ 53)) ≤ 1 - 1 / 2 ^ 108 := by norm_num
      have p := mul_le_mul_of_nonneg_left this (by linarith : (0 : ℝ) ≤ i)
      have z : (0 : ℝ) ≤ 1 / 2 ^ 108 := by positivity
      nlinarith
    have c : (0 : ℝ) < 1 + 1 / 2 ^ 53 := by positivity
    have g1 : (i : ℝ) * (1 - 1 / 2 ^ 52) * (1 + 1 / 2 ^ 53) ≤ x := by
      by_contra hc
      push Not at hc
      have := mul_lt_mul_of_pos_right hc c
      nlinarith
    have g2 : (i : ℝ) * b.val * (1 - 1 / 2 ^ 52) * (1 + 1 / 2 ^ 53) ≤ d * (1 + 1 / 2 ^ 53) := by
      have := mul_le_mul_of_nonneg_right g1 hb.le
      rw [← hdb] at this
      calc _ = (i : ℝ) * (1 - 1 / 2 ^ 52) * (1 + 1 / 2 ^ 53) * b.val := by ring
        _ ≤ d' := this
        _ ≤ _ := k1
    exact le_of_mul_le_mul_right g2 c
  · -- by monotony the quotient before rounding is below i + 1
    have ri : Rounding.double.rnd ((i : ℝ) + 1) = i + 1 := by
      have := double_nat (n := i + 1) (by omega)
      push_cast at this; exact this
    have x2 : d' / b.val < i + 1 := by
      by_contra hc
      push Not at hc
      have := Rounding.double.mono _ _ hc
      rw [ri] at this
      linarith
    rw [div_lt_iff₀ hb] at x2
    have e : d * (1 - 1 / 2 ^ 53) = d - d / 2 ^ 53 := by ring
    rw [e]; linarith [he'.1]

/-- a sum of doubles, none negative, added up from the left. -/
theorem double_sum_bounds (l : List Double) (hr : ∀ t ∈ l, t.Rep) (h0 : ∀ t ∈ l, 0 ≤ t.val) (s : Double) (hs : s.Rep) (s0 : 0 ≤ s.val) :
    (l.foldl (fun a b => a + b) s).Rep ∧ 0 ≤ (l.foldl (fun a b => a + b) s).val ∧
    (s.val + (l.map (·.val)).sum) * (1 - 1 / 2 ^ 53) ^ l.length ≤ (l.foldl (fun a b => a + b) s).val ∧
    (l.foldl (fun a b => a + b) s).val ≤ (s.val + (l.map (·.val)).sum) * (1 + 1 / 2 ^ 53) ^ l.length := by
  induction l generalizing s with
  | nil => simp [hs, s0]
  | cons t l ih =>
    have t0 := h0 t (by simp)
    have e := abs_le.1 (double_add_error hs (hr t (by simp)))
    have st : 0 ≤ s.val + t.val := by linarith
    rw [abs_of_nonneg st] at e
    have v : (s + t).val = Rounding.double.rnd (s.val + t.val) := rfl
    have v0 : 0 ≤ (s + t).val := by rw [v, ← Rounding.double.zero]; exact Rounding.double.mono _ _ st
    obtain ⟨k1, k2, k3, k4⟩ := ih (fun u hu => hr u (List.mem_cons_of_mem _ hu)) (fun u hu => h0 u (List.mem_cons_of_mem _ hu))
      (s + t) (Rounding.double.idem _) v0
    rw [← v] at e
    have m0 : 0 ≤ (l.map (·.val)).sum := List.sum_nonneg fun x hx => by
      obtain ⟨u, hu, rfl⟩ := List.mem_map.1 hx
      exact h0 u (List.mem_cons_of_mem _ hu)
    simp only [List.foldl_cons, List.map_cons, List.sum_cons, List.length_cons]
    generalize (l.map (·.val)).sum = M at m0 k3 k4 ⊢
    have a0 : (0 : ℝ) ≤ 1 - 1 / 2 ^ 53 := by norm_num
    have b0 : (0 : ℝ) ≤ 1 + 1 / 2 ^ 53 := by norm_num
    refine ⟨k1, k2, le_trans ?_ k3, le_trans k4 ?_⟩
    · have : (s.val + (t.val + M)) * (1 - 1 / 2 ^ 53) ≤ (s + t).val + M := by
        have : M / 2 ^ 53 ≥ 0 := by positivity
        have e3 : (s.val + (t.val + M)) * (1 - 1 / 2 ^ 53) = (s.val + t.val) - (s.val + t.val) / 2 ^ 53 + (M - M / 2 ^ 53) := by ring
        rw [e3]; linarith [e.1]
      calc _ = (s.val + (t.val + M)) * (1 - 1 / 2 ^ 53) * (1 - 1 / 2 ^ 53) ^ l.length := by rw [pow_succ]; ring
        _ ≤ _ := mul_le_mul_of_nonneg_right this (pow_nonneg a0 _)
    · have : (s + t).val + M ≤ (s.val + (t.val + M)) * (1 + 1 / 2 ^ 53) := by
        have : M / 2 ^ 53 ≥ 0 := by positivity
        have e3 : (s.val + (t.val + M)) * (1 + 1 / 2 ^ 53) = (s.val + t.val) + (s.val + t.val) / 2 ^ 53 + (M + M / 2 ^ 53) := by ring
        rw [e3]; linarith [e.2]
      calc _ ≤ (s.val + (t.val + M)) * (1 + 1 / 2 ^ 53) * (1 + 1 / 2 ^ 53) ^ l.length :=
            mul_le_mul_of_nonneg_right this (pow_nonneg b0 _)
        _ = _ := by rw [pow_succ]; ring

private theorem feed_double {old B : Bins Double} {mn mx b l : Double}
    (hset : Bins.updateFromBinSize old mn mx b l = (B, .ok ())) (hb : 0 < b.val) (hl : l.Rep) (h1 : 1 < l.val)
    (hN : B.numBin < 2 ^ 51 ∧ B.numLbin < 2 ^ 51) (samples : List Double) :
    ∃ a, (TimeAnalysis.prepared B).feed samples = (a, .ok ()) ∧ a.ensemble = samples.length ∧
      a.mean = samples.foldl (fun a b => a + b) Fl.zero ∧ a.stddev = samples.foldl (fun s t => s + t * t) Fl.zero ∧
      a.hist.length = a.count.length ∧ a.lhist.length = a.lcount.length := by
  have key := pos_some hset hb hl h1 hN
  have hlt : ∀ t i, (B.binPos t = some i → i < B.numBin) ∧ (B.lbinPos t = some i → i < B.numLbin) := by
    intro t i
    by_cases ht : Bins.Shows B t
    · obtain ⟨⟨j, hj, e⟩, ⟨k, hk, e'⟩⟩ := key t ht
      exact ⟨fun h => by rw [e] at h; cases h; exact hj, fun h => by rw [e'] at h; cases h; exact hk⟩
    · obtain ⟨e, e'⟩ := pos_none ht
      exact ⟨fun h => by rw [e] at h; simp at h, fun h => by rw [e'] at h; simp at h⟩
  refine ⟨_, TimeAnalysis.feed_eq (TimeAnalysis.prepared B) samples
      (fun t _ i hi => by
        simp only [TimeAnalysis.prepared, TimeAnalysis.allocateVectors, List.length_replicate]; exact (hlt t i).1 hi)
      (fun t _ i hi => by
        simp only [TimeAnalysis.prepared, TimeAnalysis.allocateVectors, List.length_replicate]; exact (hlt t i).2 hi),
      ?_, rfl, rfl, ?_, ?_⟩ <;>
    simp [TimeAnalysis.prepared, TimeAnalysis.allocateVectors, TimeAnalysis.new, Hist.length_tally]

/-- Double precision: the reported mean of `n` samples, none negative, is the true mean up to a factor between `(1-2^-53)^(n+1)`
and `(1+2^-53)^(n+1)` and an absolute error of `2^-1075`;
with a million samples the relative error is below `10^-9`. -/
theorem C88_mean (old B : Bins Double) (mn mx b l : Double)
    (hset : Bins.updateFromBinSize old mn mx b l = (B, .ok ())) (hb : 0 < b.val) (hl : l.Rep) (h1 : 1 < l.val)
    (hN : B.numBin < 2 ^ 51 ∧ B.numLbin < 2 ^ 51) (samples : List Double) (hne : samples ≠ []) (hn : samples.length < 2 ^ 53)
    (hr : ∀ t ∈ samples, t.Rep) (h0 : ∀ t ∈ samples, 0 ≤ t.val) :
    ∃ a, (TimeAnalysis.prepared B).report samples = (a, .ok ()) ∧
      sampleMean (samples.map (·.val)) * (1 - 1 / 2 ^ 53) ^ (samples.length + 1) - 2 ^ (-1075 : ℤ) ≤ a.mean.val ∧
      a.mean.val ≤ sampleMean (samples.map (·.val)) * (1 + 1 / 2 ^ 53) ^ (samples.length + 1) + 2 ^ (-1075 : ℤ) := by
  obtain ⟨a, ha, he, hm, hs, e1, e2⟩ := feed_double hset hb hl h1 hN samples
  refine ⟨_, by unfold TimeAnalysis.report; rw [ha]; exact TimeAnalysis.draw_eq a e1 e2, ?_⟩
  simp only
  have z : (Fl.zero : Double).val = 0 := by
    show Rounding.double.rnd ((0 : ℚ) : ℝ) = 0
    simpa using Rounding.double.zero
  obtain ⟨k1, k2, k3, k4⟩ := double_sum_bounds samples hr h0 Fl.zero (Rounding.double.idem _) (by rw [z])
  rw [← hm, z, zero_add] at k3 k4
  rw [← hm] at k2
  rw [he]
  have v : (a.mean / Fl.ofNat samples.length : Double).val = Rounding.double.rnd (a.mean.val / samples.length) := by
    rw [RF.val_div]
    show Rounding.double.rnd (a.mean.val / Rounding.double.rnd (samples.length : ℝ)) = _
    rw [double_nat hn]
  have n0 : (0 : ℝ) < samples.length := by exact_mod_cast List.length_pos_of_ne_nil hne
  rw [v]
  have d := abs_le.1 (double_error (a.mean.val / samples.length))
  rw [abs_of_nonneg (div_nonneg k2 n0.le)] at d
  have hsm : sampleMean (samples.map (·.val)) = (samples.map (·.val)).sum / samples.length := by
    unfold sampleMean; rw [List.length_map]
  rw [hsm]
  generalize (samples.map (·.val)).sum = M at k3 k4 ⊢
  have q1 : M / samples.length * (1 - 1 / 2 ^ 53) ^ samples.length ≤ a.mean.val / samples.length := by
    rw [div_mul_eq_mul_div]; exact div_le_div_of_nonneg_right k3 n0.le
  have q2 : a.mean.val / samples.length ≤ M / samples.length * (1 + 1 / 2 ^ 53) ^ samples.length := by
    rw [div_mul_eq_mul_div]; exact div_le_div_of_nonneg_right k4 n0.le
  generalize a.mean.val / samples.length = q at *
  generalize M / samples.length = m at *
  generalize Rounding.double.rnd q = r at *
  constructor
  · have : m * (1 - 1 / 2 ^ 53) ^ samples.length * (1 - 1 / 2 ^ 53) ≤ q * (1 - 1 / 2 ^ 53) :=
      mul_le_mul_of_nonneg_right q1 (by norm_num)
    rw [pow_succ, ← mul_assoc]
    have e3 : q * (1 - 1 / 2 ^ 53) = q - q / 2 ^ 53 := by ring
    rw [e3] at this
    linarith [d.1]
  · have : q * (1 + 1 / 2 ^ 53) ≤ m * (1 + 1 / 2 ^ 53) ^ samples.length * (1 + 1 / 2 ^ 53) :=
      mul_le_mul_of_nonneg_right q2 (by norm_num)
    rw [pow_succ, ← mul_assoc]
    have e3 : q * (1 + 1 / 2 ^ 53) = q + q / 2 ^ 53 := by ring
    rw [e3] at this
    linarith [d.2]

private theorem rnd_half_one {x : ℝ} (n : ℤ) (h2 : 1 / 2 ≤ x) (h4 : x < 1) (h : |(n : ℝ) - x * 2 ^ 53| < 1 / 2) :
    Rounding.double.rnd x = n / 2 ^ 53 := by
  have hl : Int.log 2 |x| = -1 := by
    rw [abs_of_pos (by linarith)]
    apply le_antisymm
    · have := (Int.lt_zpow_iff_log_lt (b := 2) (by norm_num) (x := (0 : ℤ)) (r := x) (by linarith)).1 (by norm_num; linarith)
      omega
    · exact (Int.zpow_le_iff_le_log (b := 2) (by norm_num) (r := x) (by linarith)).1 (by norm_num; linarith)
  have hb : lastBit 53 (-1074) x = -53 := by unfold lastBit; rw [hl]; norm_num
  show binaryRound 53 (-1074) x = _
  unfold binaryRound
  rw [hb]
  have e : x / (2 : ℝ) ^ (-53 : ℤ) = x * 2 ^ 53 := by
    rw [zpow_neg, div_inv_eq_mul]; norm_cast
  rw [e, roundEven_unique h.le (fun hc => by linarith), zpow_neg, ← div_eq_mul_inv]
  norm_cast

/-- Finding: in double precision the quantity under the root of the reported spread can be negative, although the samples are
all the same: with three samples `1 - 2^-53` it is `-2^-53`, and the program reports `NaN`. -/
theorem C88_negative_variance (old B : Bins Double) (mn mx b l : Double)
    (hset : Bins.updateFromBinSize old mn mx b l = (B, .ok ())) (hb : 0 < b.val) (hl : l.Rep) (h1 : 1 < l.val)
    (hN : B.numBin < 2 ^ 51 ∧ B.numLbin < 2 ^ 51) (x : Double) (hx : x.val = 1 - 1 / 2 ^ 53) :
    x.Rep ∧ ∃ a, (TimeAnalysis.prepared B).feed [x, x, x] = (a, .ok ()) ∧
      ∃ v : Double, v.val = -(1 / 2 ^ 53) ∧ a.draw.1.stddev = Fl.sqrt v ∧ a.draw.1.mean.val = x.val := by
  have z : (Fl.zero : Double).val = 0 := by
    show Rounding.double.rnd ((0 : ℚ) : ℝ) = 0
    simpa using Rounding.double.zero
  have ex : ∀ (n : ℕ) (v : ℝ), n < 2 ^ 53 → v = n / 2 ^ 53 → Rounding.double.rnd v = v := by
    intro n v hn hv
    have := double_exact n (-53) hn (by norm_num)
    have e : (n : ℝ) * 2 ^ (-53 : ℤ) = v := by rw [hv, zpow_neg, ← div_eq_mul_inv]; norm_cast
    rwa [e] at this
  have ex2 : ∀ (n : ℕ) (v : ℝ), n < 2 ^ 53 → v = n / 2 ^ 52 → Rounding.double.rnd v = v := by
    intro n v hn hv
    have := double_exact n (-52) hn (by norm_num)
    have e : (n : ℝ) * 2 ^ (-52 : ℤ) = v := by rw [hv, zpow_neg, ← div_eq_mul_inv]; norm_cast
    rwa [e] at this
  have rx : Rounding.double.rnd (1 - 1 / 2 ^ 53) = 1 - 1 / 2 ^ 53 := ex (2 ^ 53 - 1) _ (by norm_num) (by norm_num)
  have ry : Rounding.double.rnd (1 - 1 / 2 ^ 52) = 1 - 1 / 2 ^ 52 := ex (2 ^ 53 - 2) _ (by norm_num) (by norm_num)
  have s2 : Rounding.double.rnd (1 - 1 / 2 ^ 53 + (1 - 1 / 2 ^ 53)) = 2 - 1 / 2 ^ 52 := by
    rw [ex2 (2 ^ 53 - 1) _ (by norm_num) (by norm_num)]; norm_num
  have s3 : Rounding.double.rnd (2 - 1 / 2 ^ 52 + (1 - 1 / 2 ^ 53)) = 3 - 1 / 2 ^ 51 := by
    rw [rnd_two_four (3 * 2 ^ 51 - 1) (by norm_num) (by norm_num) (by rw [abs_le]; constructor <;> norm_num)
      (by intro hc; exfalso; rw [abs_of_neg (by norm_num)] at hc; norm_num at hc)]
    norm_num
  have s3' : Rounding.double.rnd ((3 - 1 / 2 ^ 51) / 3) = 1 - 1 / 2 ^ 53 := by
    rw [rnd_half_one (2 ^ 53 - 1) (by norm_num) (by norm_num) (by rw [abs_lt]; constructor <;> norm_num)]
    norm_num
  have y1 : Rounding.double.rnd ((1 - 1 / 2 ^ 53) * (1 - 1 / 2 ^ 53)) = 1 - 1 / 2 ^ 52 := by
    rw [rnd_half_one (2 ^ 53 - 2) (by norm_num) (by norm_num) (by rw [abs_lt]; constructor <;> norm_num)]
    norm_num
  have y2 : Rounding.double.rnd (1 - 1 / 2 ^ 52 + (1 - 1 / 2 ^ 52)) = 2 - 1 / 2 ^ 51 := by
    rw [ex2 (2 ^ 53 - 2) _ (by norm_num) (by norm_num)]; norm_num
  have y3 : Rounding.double.rnd (2 - 1 / 2 ^ 51 + (1 - 1 / 2 ^ 52)) = 3 - 1 / 2 ^ 50 := by
    rw [rnd_two_four (3 * 2 ^ 51 - 2) (by norm_num) (by norm_num) (by rw [abs_le]; constructor <;> norm_num)
      (fun _ => ⟨3 * 2 ^ 50 - 1, by norm_num⟩)]
    norm_num
  have y3' : Rounding.double.rnd ((3 - 1 / 2 ^ 50) / 3) = 1 - 3 / 2 ^ 53 := by
    rw [rnd_half_one (2 ^ 53 - 3) (by norm_num) (by norm_num) (by rw [abs_lt]; constructor <;> norm_num)]
    norm_num
  have df : Rounding.double.rnd (1 - 3 / 2 ^ 53 - (1 - 1 / 2 ^ 52)) = -(1 / 2 ^ 53) := by
    rw [show (1 - 3 / 2 ^ 53 - (1 - 1 / 2 ^ 52) : ℝ) = -(1 / 2 ^ 53) by norm_num, Rounding.double.odd,
      ex 1 _ (by norm_num) (by norm_num)]
  have r1 : Rounding.double.rnd 1 = 1 := by simpa using double_pow2 (e := 0) (by norm_num)
  have r3 : Rounding.double.rnd (3 : ℝ) = 3 := by simpa using double_nat (n := 3) (by norm_num)
  obtain ⟨a, ha, he, hm, hs, e1, e2⟩ := feed_double hset hb hl h1 hN [x, x, x]
  have hmv : a.mean.val = 3 - 1 / 2 ^ 51 := by
    rw [hm]
    simp only [List.foldl_cons, List.foldl_nil, RF.val_add, z, hx, zero_add, rx, s2, s3]
  have hsv : a.stddev.val = 3 - 1 / 2 ^ 50 := by
    rw [hs]
    simp only [List.foldl_cons, List.foldl_nil, RF.val_add, RF.val_mul, z, hx, zero_add, y1, ry, y2, y3]
  have h3 : (Fl.ofNat a.ensemble : Double).val = 3 := by
    rw [he]; exact r3
  have mv : (a.mean / Fl.ofNat a.ensemble : Double).val = 1 - 1 / 2 ^ 53 := by rw [RF.val_div, hmv, h3, s3']
  refine ⟨by show Rounding.double.rnd x.val = x.val; rw [hx, rx], a, ha, _, ?_, by rw [TimeAnalysis.draw_eq a e1 e2], ?_⟩
  · have one : (Fl.one : Double).val = 1 := by
      show Rounding.double.rnd ((1 : ℚ) : ℝ) = 1
      simpa using r1
    have p : (Fl.powi (a.mean / Fl.ofNat a.ensemble : Double) 2).val = 1 - 1 / 2 ^ 52 := by
      unfold Fl.powi Fl.powi Fl.powi
      rw [RF.val_mul, RF.val_mul, mv, one, one_mul, rx, y1]
    rw [RF.val_sub, p, RF.val_div, hsv, h3, y3', df]
  · rw [TimeAnalysis.draw_eq a e1 e2]
    simp only
    rw [mv, hx]

/-- Non-vacuity: the window from 1 to 8 with bins of size 1 and ratio 2 has 8 linear and 4 logarithmic bins in double precision. -/
example (old : Bins Double) : ∃ B, Bins.updateFromBinSize old ⟨1⟩ ⟨8⟩ ⟨1⟩ ⟨2⟩ = (B, .ok ()) ∧ (0 : ℝ) < (⟨1⟩ : Double).val ∧
    (⟨1⟩ : Double).Rep ∧ (⟨2⟩ : Double).Rep ∧ 1 < (⟨2⟩ : Double).val ∧ B.numBin = 8 ∧ B.numLbin = 4 ∧
    Bins.Shows B ⟨3⟩ ∧ (⟨3⟩ : Double).Rep := by
  have r : ∀ n : ℕ, n < 9 → Rounding.double.rnd (n : ℝ) = n := fun n hn => double_nat (by omega)
  have r1 : Rounding.double.rnd 1 = 1 := by simpa using r 1 (by norm_num)
  have r2 : Rounding.double.rnd 2 = 2 := by simpa using r 2 (by norm_num)
  have r3 : Rounding.double.rnd 3 = 3 := by simpa using r 3 (by norm_num)
  have r4 : Rounding.double.rnd 4 = 4 := by simpa using r 4 (by norm_num)
  have r7 : Rounding.double.rnd 7 = 7 := by simpa using r 7 (by norm_num)
  have r8 : Rounding.double.rnd 8 = 8 := by simpa using r 8 (by norm_num)
  have hh : Rounding.double.rnd (((1 / 2 : ℚ)) : ℝ) = 1 / 2 := by
    have := half_nat (i := 0) (by norm_num)
    push_cast at this ⊢
    simpa using this
  have h7 : Rounding.double.rnd (7 + 1 / 2) = 7 + 1 / 2 := by simpa using half_nat (i := 7) (by norm_num)
  have h3 : Rounding.double.rnd (3 + 1 / 2) = 3 + 1 / 2 := by simpa using half_nat (i := 3) (by norm_num)
  have z : (Fl.zero : Double).val = 0 := by
    show Rounding.double.rnd ((0 : ℚ) : ℝ) = 0
    simpa using Rounding.double.zero
  have clip : Bins.clip (⟨1⟩ : Double) = ⟨1⟩ := by
    unfold Bins.clip
    rw [if_neg]
    simp only [RF.lt_val, RF.val_lit, decide_eq_true_eq, not_lt]
    rw [← r1]
    exact Rounding.double.mono _ _ (by norm_num)
  have l8 : Real.logb 2 8 = 3 := by
    rw [show (8 : ℝ) = 2 ^ (3 : ℝ) by norm_num]; exact Real.logb_rpow (by norm_num) (by norm_num)
  have e : Bins.updateFromBinSize old (⟨1⟩ : Double) ⟨8⟩ ⟨1⟩ ⟨2⟩ =
      ((⟨Bins.clip ⟨1⟩, ⟨8⟩, ⟨1⟩, ⟨2⟩, Fl.toNat (Fl.ceil (((⟨8⟩ : Double) - Bins.clip ⟨1⟩) / ⟨1⟩ + Fl.lit (1 / 2))),
        Fl.toNat (Fl.ceil (Fl.log2 ((⟨8⟩ : Double) / Bins.clip ⟨1⟩) / Fl.log2 ⟨2⟩ + Fl.lit (1 / 2)))⟩ : Bins Double), .ok ()) := by
    unfold Bins.updateFromBinSize
    rw [if_neg (by simp only [RF.lt_val, z]; norm_num)]
  refine ⟨_, e, by norm_num, r1, r2, by norm_num, ?_, ?_, ?_, r3⟩
  · simp only [clip]
    show ⌊Rounding.double.rnd (⌈Rounding.double.rnd (Rounding.double.rnd (Rounding.double.rnd (8 - 1) / 1) + Rounding.double.rnd (((1 / 2 : ℚ)) : ℝ))⌉ : ℝ)⌋₊ = 8
    rw [hh, show (8 - 1 : ℝ) = 7 by norm_num, div_one, r7, r7, h7]
    have : ⌈(7 + 1 / 2 : ℝ)⌉ = 8 := by norm_num [Int.ceil_eq_iff]
    rw [this]
    norm_num [r8]
  · simp only [clip]
    show ⌊Rounding.double.rnd (⌈Rounding.double.rnd (Rounding.double.rnd (Rounding.double.rnd (Real.logb 2 (Rounding.double.rnd (8 / 1))) / Rounding.double.rnd (Real.logb 2 2)) + Rounding.double.rnd (((1 / 2 : ℚ)) : ℝ))⌉ : ℝ)⌋₊ = 4
    rw [hh, div_one, r8, l8, r3, Real.logb_self_eq_one (by norm_num), r1, div_one, r3, h3]
    have : ⌈(3 + 1 / 2 : ℝ)⌉ = 4 := by norm_num [Int.ceil_eq_iff]
    rw [this]
    norm_num [r4]
  · simp only [Bins.Shows, clip]
    norm_num

end Moledyn.Props
