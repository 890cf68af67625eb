import Verif.Props.Analysis
/-
C82: setting the window of an analysis.
-/
namespace Moledyn.Props
open Moledyn
set_option linter.unusedSimpArgs false

theorem clip_real (mn : ℝ) : Bins.clip mn = max mn (1 / 10 ^ 15) := by
  unfold Bins.clip
  simp only [fl_lt, decide_eq_true_eq, fl_lit]
  have e : (((1 / 10 ^ 15 : ℚ)) : ℝ) = 1 / 10 ^ 15 := by norm_num
  rw [e]
  split
  · rename_i h; rw [max_eq_right h.le]
  · rename_i h; rw [max_eq_left (not_lt.1 h)]

/-- `update_from_bin_size` (exact arithmetic) refuses exactly a negative start, an end before the start, and negative bin
sizes, with `InvalidArgumentInput` and without changing the analysis.  Otherwise the window starts at `min_time`, but not
below 1e-15, it ends at `max_time`, the bin sizes are those given, and there are as many bins as are needed to reach half
a bin beyond the end (half a bin in the exponent, for the logarithmic ones). -/
theorem C82_by_size (old : Bins ℝ) (mn mx b l : ℝ) :
    ((mn < 0 ∨ mx < mn ∨ b < 0 ∨ l < 0) → Bins.updateFromBinSize old mn mx b l = (old, .err .invalidArgumentInput)) ∧
    (0 ≤ mn → mn ≤ mx → 0 ≤ b → 0 ≤ l → ∃ B, Bins.updateFromBinSize old mn mx b l = (B, .ok ()) ∧
      B.minTime = max mn (1 / 10 ^ 15) ∧ B.maxTime = mx ∧ B.binSize = b ∧ B.lbinSize = l ∧
      (0 < b → ∀ k : Nat, B.numBin ≤ k ↔ mx + b / 2 ≤ B.minTime + k * b) ∧
      (1 < l → 0 < mx → ∀ k : Nat, B.numLbin ≤ k ↔ mx * Real.sqrt l ≤ B.minTime * l ^ k)) := by
  constructor
  · intro h
    unfold Bins.updateFromBinSize
    rw [if_pos]
    simp only [fl_lt, fl_zero, Bool.or_eq_true, decide_eq_true_eq]
    tauto
  · intro h1 h2 h3 h4
    have hn : ¬ ((Fl.lt mn (Fl.zero : ℝ) || Fl.lt mx mn || Fl.lt b (Fl.zero : ℝ) || Fl.lt l (Fl.zero : ℝ)) = true) := by
      simp only [fl_lt, fl_zero, Bool.or_eq_true, decide_eq_true_eq, not_or, not_lt]
      exact ⟨⟨⟨h1, h2⟩, h3⟩, h4⟩
    obtain ⟨B, hB⟩ : ∃ B, Bins.updateFromBinSize old mn mx b l = (B, .ok ()) := by
      unfold Bins.updateFromBinSize
      rw [if_neg hn]
      exact ⟨_, rfl⟩
    obtain ⟨hm, -, hmx, hbs, hls, hnb, hnl, hge, hlt⟩ := bins_setup hB
    have hmin : B.minTime = max mn (1 / 10 ^ 15) := by
      by_cases h : mn < 1 / 10 ^ 15
      · rw [hlt h, max_eq_right h.le]
      · rw [hge (not_lt.1 h), max_eq_left (not_lt.1 h)]
    refine ⟨B, hB, hmin, hmx, hbs, hls, fun hb k => ?_, fun hl hmx0 k => ?_⟩
    · rw [hnb, Nat.ceil_le, ← sub_nonneg, ← sub_nonneg (b := mx + b / 2),
        show B.minTime + k * b - (mx + b / 2) = b * (k - ((mx - B.minTime) / b + 1 / 2)) by field_simp; ring]
      exact (mul_nonneg_iff_of_pos_left hb).symm
    · have hl0 : 0 < l := by linarith
      have hx : 0 < mx / B.minTime := div_pos hmx0 hm
      rw [hnl, Nat.ceil_le, logratio hl]
      have e : Real.logb l (mx / B.minTime) + 1 / 2 = Real.logb l (mx / B.minTime * Real.sqrt l) := by
        rw [Real.logb_mul hx.ne' (Real.sqrt_pos.2 hl0).ne', Real.sqrt_eq_rpow, Real.logb_rpow hl0 hl.ne']
      rw [e, Real.logb_le_iff_le_rpow hl (by positivity), Real.rpow_natCast, div_mul_eq_mul_div, div_le_iff₀ hm, mul_comm (l ^ k)]

/-- `update_from_num_bin` (exact arithmetic) refuses exactly a negative start, an end before the start or below 1e-15, and less
than ten bins, with `InvalidArgumentInput` and without changing the analysis.  Otherwise the window is as above, it has the
number of bins given, of either kind, and they fill it exactly. -/
theorem C82_by_number (old : Bins ℝ) (mn mx : ℝ) (n : Nat) :
    ((mn < 0 ∨ mx < mn ∨ mx < 1 / 10 ^ 15 ∨ n < 10) → Bins.updateFromNumBin old mn mx n = (old, .err .invalidArgumentInput)) ∧
    (0 ≤ mn → mn ≤ mx → 1 / 10 ^ 15 ≤ mx → 10 ≤ n → ∃ B, Bins.updateFromNumBin old mn mx n = (B, .ok ()) ∧
      B.minTime = max mn (1 / 10 ^ 15) ∧ B.maxTime = mx ∧ B.numBin = n ∧ B.numLbin = n ∧
      B.minTime + n * B.binSize = mx ∧ B.minTime * B.lbinSize ^ n = mx) := by
  have hc : ∀ x : ℝ, Bins.clip x = max x (1 / 10 ^ 15) := clip_real
  have hmm : ∀ x : ℝ, max (max x (1 / 10 ^ 15)) (1 / 10 ^ 15) = max x (1 / 10 ^ 15) := fun x => by
    rw [max_assoc, max_self]
  constructor
  · intro h
    unfold Bins.updateFromNumBin
    split
    · rfl
    · rename_i hn
      simp only [fl_lt, fl_zero, Bool.or_eq_true, decide_eq_true_eq, not_or, not_lt] at hn
      obtain ⟨⟨h1, h2⟩, h3⟩ := hn
      have h4 : mx < 1 / 10 ^ 15 := by
        rcases h with h | h | h | h
        · linarith
        · linarith
        · exact h
        · omega
      have : Bins.convertNumBinToBinSize (Bins.clip mn) mx n = .err .invalidArgumentInput := by
        unfold Bins.convertNumBinToBinSize
        rw [if_pos]
        simp only [fl_lt, fl_zero, Bool.or_eq_true, decide_eq_true_eq, hc]
        exact .inl (.inr (lt_of_lt_of_le h4 (le_max_right _ _)))
      simp only [this]
  · intro h1 h2 h3 h4
    have hle : max mn (1 / 10 ^ 15) ≤ mx := max_le h2 h3
    have h0 : (0 : ℝ) < max mn (1 / 10 ^ 15) := lt_of_lt_of_le (by norm_num) (le_max_right _ _)
    have hn0 : (n : ℝ) ≠ 0 := by have : 0 < n := by omega
                                 positivity
    have e : Bins.updateFromNumBin old mn mx n =
        (⟨max mn (1 / 10 ^ 15), mx, (mx - max mn (1 / 10 ^ 15)) / n, (mx / max mn (1 / 10 ^ 15)) ^ ((1 : ℝ) / n), n, n⟩, .ok ()) := by
      unfold Bins.updateFromNumBin
      rw [if_neg (by
        simp only [fl_lt, fl_zero, Bool.or_eq_true, decide_eq_true_eq, not_or, not_lt]
        exact ⟨⟨h1, h2⟩, h4⟩)]
      have e' : Bins.convertNumBinToBinSize (max mn (1 / 10 ^ 15)) mx n =
          .ok ((mx - max mn (1 / 10 ^ 15)) / n, (mx / max mn (1 / 10 ^ 15)) ^ ((1 : ℝ) / n)) := by
        unfold Bins.convertNumBinToBinSize
        rw [if_neg (by
          simp only [fl_lt, fl_zero, Bool.or_eq_true, decide_eq_true_eq, not_or, not_lt]
          exact ⟨⟨h0.le, hle⟩, h4⟩)]
        simp only [hc, hmm, fl_sub, fl_div, fl_ofNat, fl_powf, fl_one]
      simp only [hc, e']
    refine ⟨_, e, rfl, rfl, rfl, rfl, ?_, ?_⟩
    · field_simp; ring
    · simp only
      generalize hM : max mn (1 / 10 ^ 15) = M at h0 hle
      rw [← Real.rpow_natCast, ← Real.rpow_mul (div_pos (lt_of_lt_of_le h0 hle) h0).le, one_div_mul_cancel hn0, Real.rpow_one,
        mul_div_cancel₀ _ h0.ne']

/-- Finding: `convert_num_bin_to_bin_size`, which an analysis called from the command line uses, accepts an end below 1e-15, and
the bin size is then negative; `update_from_bin_size` refuses it. -/
theorem C82_tiny_window (old : Bins ℝ) (mn mx : ℝ) (n : Nat) (h0 : 0 ≤ mn) (h1 : mn ≤ mx) (h2 : mx < 1 / 10 ^ 15) (hn : 10 ≤ n) :
    ∃ b l, Bins.convertNumBinToBinSize mn mx n = .ok (b, l) ∧ b < 0 ∧
      Bins.updateFromBinSize old mn mx b l = (old, .err .invalidArgumentInput) := by
  have hmn : max mn (1 / 10 ^ 15) = 1 / 10 ^ 15 := max_eq_right (by linarith)
  have hn0 : (0 : ℝ) < n := by have : 0 < n := by omega
                               positivity
  refine ⟨(mx - 1 / 10 ^ 15) / n, (mx / (1 / 10 ^ 15)) ^ ((1 : ℝ) / n), ?_, ?_, ?_⟩
  · unfold Bins.convertNumBinToBinSize
    rw [if_neg (by
      simp only [fl_lt, fl_zero, Bool.or_eq_true, decide_eq_true_eq, not_or, not_lt]
      exact ⟨⟨h0, h1⟩, hn⟩)]
    simp only [clip_real, hmn, fl_sub, fl_div, fl_ofNat, fl_powf, fl_one]
  · exact div_neg_of_neg_of_pos (by linarith) hn0
  · exact (C82_by_size old mn mx _ _).1 (.inr (.inr (.inl (div_neg_of_neg_of_pos (by linarith) hn0))))

/-- Finding (with infinities): a bin size of 0 is accepted, and the analysis then asks for 2^64 - 1 bins. -/
theorem C82_zero_bin_size (old : Bins XF) (mn mx : ℚ) (l : XF) (h0 : 0 ≤ mn) (h1 : mn ≤ mx) (h2 : 1 / 10 ^ 15 < mx) (h3 : mn < mx)
    (hl : Fl.lt l (Fl.zero : XF) = false) :
    ∃ B, Bins.updateFromBinSize old (.fin mn) (.fin mx) (.fin 0) l = (B, .ok ()) ∧ B.numBin = 2 ^ 64 - 1 := by
  have hz : (Fl.zero : XF) = .fin 0 := by simp [Fl.zero, Fl.lit]
  have lt_fin : ∀ a b : ℚ, Fl.lt (XF.fin a) (.fin b) = decide (a < b) := fun a b => rfl
  unfold Bins.updateFromBinSize
  rw [if_neg (by
    rw [hl, hz]
    simp only [lt_fin, Bool.or_false, Bool.or_eq_true, decide_eq_true_eq, not_or, not_lt]
    exact ⟨⟨h0, h1⟩, le_rfl⟩)]
  refine ⟨_, rfl, ?_⟩
  have hc : ∃ t : ℚ, Bins.clip (XF.fin mn) = .fin t ∧ t < mx := by
    unfold Bins.clip
    by_cases h : mn < 1 / 10 ^ 15
    · exact ⟨1 / 10 ^ 15, by rw [show (Fl.lit (1 / 10 ^ 15) : XF) = .fin (1 / 10 ^ 15) from rfl, lt_fin, if_pos (by simpa using h)], h2⟩
    · exact ⟨mn, by rw [show (Fl.lit (1 / 10 ^ 15) : XF) = .fin (1 / 10 ^ 15) from rfl, lt_fin, if_neg (by simpa using h)], h3⟩
  obtain ⟨t, ht, htm⟩ := hc
  simp only [ht]
  have e1 : (XF.fin mx - XF.fin t : XF) = .fin (mx - t) := by
    show XF.add' (.fin mx) (XF.neg' (.fin t)) = _
    simp [XF.add', XF.neg', sub_eq_add_neg]
  have e2 : (XF.fin (mx - t) / XF.fin 0 : XF) = .inf false := by
    show XF.div' _ _ = _
    simp [XF.div', htm.ne, sub_eq_zero, htm.ne']
    all_goals linarith
  have e3 : (XF.inf false + Fl.lit (1 / 2) : XF) = .inf false := rfl
  rw [e1, e2, e3]
  rfl

/-- A window of a shipped analysis. -/
example : ∃ B, Bins.updateFromBinSize (Bins.new : Bins ℝ) 0 100 (1 / 2) 2 = (B, .ok ()) ∧ B.minTime = 1 / 10 ^ 15 ∧ B.numBin ≤ 201 ∧
    200 < B.numBin := by
  obtain ⟨B, h, hm, -, -, -, hb, -⟩ := (C82_by_size Bins.new 0 100 (1 / 2) 2).2 le_rfl (by norm_num) (by norm_num) (by norm_num)
  have hm' : B.minTime = 1 / 10 ^ 15 := by rw [hm]; norm_num
  refine ⟨B, h, hm', (hb (by norm_num) 201).2 (by rw [hm']; norm_num), ?_⟩
  by_contra hc
  have := (hb (by norm_num) 200).1 (not_lt.1 hc)
  rw [hm'] at this
  norm_num at this

example : ∃ B, Bins.updateFromNumBin (Bins.new : Bins ℝ) 1 1024 10 = (B, .ok ()) ∧ 1 * B.lbinSize ^ 10 = 1024 := by
  obtain ⟨B, h, hm, -, -, -, -, hl⟩ := (C82_by_number Bins.new 1 1024 10).2 (by norm_num) (by norm_num) (by norm_num) le_rfl
  rw [hm, max_eq_left (by norm_num)] at hl
  exact ⟨B, h, hl⟩

example : ∃ B, Bins.updateFromBinSize (Bins.new : Bins XF) (.fin 1) (.fin 10) (.fin 0) (.fin 2) = (B, .ok ()) ∧ B.numBin = 2 ^ 64 - 1 :=
  C82_zero_bin_size _ _ _ _ (by norm_num) (by norm_num) (by norm_num) (by norm_num) (by rfl)

end Moledyn.Props
