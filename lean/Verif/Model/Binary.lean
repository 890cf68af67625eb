import Verif.Model.Fl
import Mathlib.Data.Int.Log
import Mathlib.Tactic.Linarith
import Mathlib.Tactic.Positivity
import Mathlib.Tactic.FieldSimp
import Mathlib.Tactic.Ring
/-
IEEE 754 binary formats as instances of `Rounding`: round to nearest, ties to even, with gradual underflow.
Overflow is not modelled: the exponent is not bounded above.  This is the arithmetic of the `f64` used in all of
/repo/src, as long as no result exceeds the largest finite number.
-/
namespace Moledyn

/-- round to the nearest integer, ties to even (the rounding of `f64` operations, e.g. src/position.rs:132-170, before
scaling). -/
noncomputable def roundEven (x : ℝ) : ℤ :=
  if x - ⌊x⌋ < 1 / 2 then ⌊x⌋
  else if 1 / 2 < x - ⌊x⌋ then ⌊x⌋ + 1
  else if Even ⌊x⌋ then ⌊x⌋ else ⌊x⌋ + 1

theorem roundEven_spec (x : ℝ) : |(roundEven x : ℝ) - x| ≤ 1 / 2 ∧
    (|(roundEven x : ℝ) - x| = 1 / 2 → Even (roundEven x)) := by
  have h1 := Int.floor_le x
  have h2 := Int.lt_floor_add_one x
  unfold roundEven
  split_ifs with a b c
  · refine ⟨by rw [abs_le]; constructor <;> linarith, fun h => ?_⟩
    rw [abs_of_nonpos (by linarith)] at h; linarith
  · push_cast
    refine ⟨by rw [abs_le]; constructor <;> linarith, fun h => ?_⟩
    rw [abs_of_nonneg (by linarith)] at h; linarith
  · exact ⟨by rw [abs_le]; constructor <;> linarith, fun _ => c⟩
  · push_cast
    refine ⟨by rw [abs_le]; constructor <;> linarith, fun _ => ?_⟩
    exact (Int.not_even_iff_odd.1 c).add_one

theorem roundEven_unique {x : ℝ} {n : ℤ} (h : |(n : ℝ) - x| ≤ 1 / 2) (he : |(n : ℝ) - x| = 1 / 2 → Even n) :
    roundEven x = n := by
  obtain ⟨g, ge⟩ := roundEven_spec x
  set m := roundEven x
  have h' := abs_le.1 h
  have g' := abs_le.1 g
  by_contra hne
  have d1 : (m : ℝ) - n ≤ 1 := by linarith
  have d2 : (n : ℝ) - m ≤ 1 := by linarith
  have d1' : m - n ≤ 1 := by exact_mod_cast d1
  have d2' : n - m ≤ 1 := by exact_mod_cast d2
  rcases lt_or_gt_of_ne hne with hl | hl
  · have e : n = m + 1 := by omega
    have e' : (n : ℝ) = m + 1 := by exact_mod_cast e
    have hn := he (by rw [abs_of_nonneg] <;> linarith)
    have hm := ge (by rw [abs_of_nonpos] <;> linarith)
    rw [e, Int.even_add_one] at hn
    exact hn hm
  · have e : m = n + 1 := by omega
    have e' : (m : ℝ) = n + 1 := by exact_mod_cast e
    have hn := he (by rw [abs_of_nonpos] <;> linarith)
    have hm := ge (by rw [abs_of_nonneg] <;> linarith)
    rw [e, Int.even_add_one] at hm
    exact hm hn

theorem roundEven_int (n : ℤ) : roundEven n = n := roundEven_unique (by simp) (by simp)

theorem roundEven_neg (x : ℝ) : roundEven (-x) = -roundEven x := by
  obtain ⟨g, ge⟩ := roundEven_spec x
  have e : |((-roundEven x : ℤ) : ℝ) - -x| = |(roundEven x : ℝ) - x| := by
    rw [← abs_neg]; congr 1; push_cast; ring
  exact roundEven_unique (by rw [e]; exact g) (fun h => by rw [e] at h; exact (ge h).neg)

theorem roundEven_mono {x y : ℝ} (h : x ≤ y) : roundEven x ≤ roundEven y := by
  by_contra hc
  have hc' : roundEven y + 1 ≤ roundEven x := by omega
  have hr : (roundEven y : ℝ) + 1 ≤ roundEven x := by exact_mod_cast hc'
  have g1 := abs_le.1 (roundEven_spec x).1
  have g2 := abs_le.1 (roundEven_spec y).1
  have : x = y := by linarith
  rw [this] at hc'; omega

/-- exponent of the last bit of a number of the magnitude of `x`, in a format with `p` bits of precision and smallest
positive number `2 ^ emin` (e.g. src/position.rs:132-170: `p = 53`, `emin = -1074`). -/
noncomputable def lastBit (p : ℕ) (emin : ℤ) (x : ℝ) : ℤ := max (Int.log 2 |x| + 1 - p) emin

/-- the number nearest to `x` in a binary format, ties to even, as every `f64` operation rounds (e.g.
src/position.rs:132-170). -/
noncomputable def binaryRound (p : ℕ) (emin : ℤ) (x : ℝ) : ℝ :=
  roundEven (x / 2 ^ lastBit p emin x) * 2 ^ lastBit p emin x

section
variable {p : ℕ} {emin : ℤ}

theorem two_zpow_pos (k : ℤ) : (0 : ℝ) < 2 ^ k := by positivity

theorem lastBit_neg (x : ℝ) : lastBit p emin (-x) = lastBit p emin x := by simp [lastBit]

theorem binaryRound_neg (x : ℝ) : binaryRound p emin (-x) = -binaryRound p emin x := by
  unfold binaryRound
  rw [lastBit_neg, neg_div, roundEven_neg]; push_cast; ring

theorem binaryRound_zero : binaryRound p emin 0 = 0 := by
  have : roundEven 0 = 0 := by exact_mod_cast roundEven_int 0
  simp [binaryRound, this]

/-- an integer multiple of the last bit is left alone. -/
theorem binaryRound_of_multiple {x : ℝ} (n : ℤ) (h : x = n * 2 ^ lastBit p emin x) : binaryRound p emin x = x := by
  unfold binaryRound
  have : x / 2 ^ lastBit p emin x = n := by
    rw [div_eq_iff (two_zpow_pos _).ne']; exact h
  rw [this, roundEven_int]; exact h.symm

/-- a multiple of a higher bit is one of a lower bit. -/
theorem multiple_lower {x : ℝ} {k l : ℤ} (hl : l ≤ k) (h : ∃ n : ℤ, x = n * 2 ^ k) : ∃ n : ℤ, x = n * 2 ^ l := by
  obtain ⟨n, hn⟩ := h
  obtain ⟨d, hd⟩ := Int.eq_ofNat_of_zero_le (sub_nonneg.2 hl)
  refine ⟨n * 2 ^ d, ?_⟩
  have : (2 : ℝ) ^ k = 2 ^ d * 2 ^ l := by
    rw [← zpow_natCast, ← zpow_add₀ (by norm_num)]; congr 1; omega
  rw [hn, this]; push_cast; ring

theorem lastBit_mono {x y : ℝ} (hx : 0 < x) (h : x ≤ y) : lastBit p emin x ≤ lastBit p emin y := by
  unfold lastBit
  rw [abs_of_pos hx, abs_of_pos (hx.trans_le h)]
  have := Int.log_mono_right (b := 2) hx h
  omega

theorem log_bounds {x : ℝ} (hx : 0 < x) : (2 : ℝ) ^ Int.log 2 x ≤ x ∧ x < 2 ^ (Int.log 2 x + 1) := by
  have h1 := Int.zpow_log_le_self (R := ℝ) (b := 2) (by norm_num) hx
  have h2 := Int.lt_zpow_succ_log_self (R := ℝ) (b := 2) (by norm_num) x
  exact ⟨by exact_mod_cast h1, by exact_mod_cast h2⟩

/-- a power of two at least as large as the last bit bounds the rounding from above … -/
theorem binaryRound_le {x : ℝ} {e : ℤ} (he : lastBit p emin x ≤ e) (h : x ≤ 2 ^ e) : binaryRound p emin x ≤ 2 ^ e := by
  obtain ⟨n, hn⟩ := multiple_lower (x := (2 : ℝ) ^ e) he ⟨1, by simp⟩
  unfold binaryRound
  rw [hn]
  have hk := two_zpow_pos (lastBit p emin x)
  have h1 : x / 2 ^ lastBit p emin x ≤ n := by rw [div_le_iff₀ hk, ← hn]; exact h
  have h2 := roundEven_mono h1
  rw [roundEven_int] at h2
  exact mul_le_mul_of_nonneg_right (by exact_mod_cast h2) hk.le

/-- … and from below. -/
theorem le_binaryRound {x : ℝ} {e : ℤ} (he : lastBit p emin x ≤ e) (h : 2 ^ e ≤ x) : 2 ^ e ≤ binaryRound p emin x := by
  obtain ⟨n, hn⟩ := multiple_lower (x := (2 : ℝ) ^ e) he ⟨1, by simp⟩
  unfold binaryRound
  rw [hn]
  have hk := two_zpow_pos (lastBit p emin x)
  have h1 : n ≤ x / 2 ^ lastBit p emin x := by rw [le_div_iff₀ hk, ← hn]; exact h
  have h2 := roundEven_mono h1
  rw [roundEven_int] at h2
  exact mul_le_mul_of_nonneg_right (by exact_mod_cast h2) hk.le

theorem binaryRound_nonneg {x : ℝ} (hx : 0 ≤ x) : 0 ≤ binaryRound p emin x := by
  unfold binaryRound
  have hk := two_zpow_pos (lastBit p emin x)
  have h2 := roundEven_mono (show ((0 : ℤ) : ℝ) ≤ x / 2 ^ lastBit p emin x by push_cast; positivity)
  rw [roundEven_int] at h2
  have : (0 : ℝ) ≤ roundEven (x / 2 ^ lastBit p emin x) := by exact_mod_cast h2
  positivity

theorem binaryRound_mono_pos (hp : 0 < p) {x y : ℝ} (hx : 0 < x) (h : x ≤ y) :
    binaryRound p emin x ≤ binaryRound p emin y := by
  have hy := hx.trans_le h
  rcases (lastBit_mono (p := p) (emin := emin) hx h).eq_or_lt with e | hlt
  · unfold binaryRound
    rw [e]
    have hk := two_zpow_pos (lastBit p emin y)
    exact mul_le_mul_of_nonneg_right (by exact_mod_cast roundEven_mono (div_le_div_of_nonneg_right h hk.le)) hk.le
  · -- a power of two lies between
    have hlog : Int.log 2 x < Int.log 2 y := by
      unfold lastBit at hlt
      rw [abs_of_pos hx, abs_of_pos hy] at hlt
      omega
    have ly : lastBit p emin y = Int.log 2 y + 1 - p := by
      unfold lastBit at hlt ⊢
      rw [abs_of_pos hy] at hlt ⊢
      omega
    have b1 : x ≤ 2 ^ Int.log 2 y := (log_bounds hx).2.le.trans (zpow_le_zpow_right₀ (by norm_num) (by omega))
    exact (binaryRound_le (by omega) b1).trans (le_binaryRound (by omega) (log_bounds hy).1)

theorem binaryRound_mono (hp : 0 < p) {x y : ℝ} (h : x ≤ y) : binaryRound p emin x ≤ binaryRound p emin y := by
  rcases lt_trichotomy x 0 with hx | hx | hx
  · rcases le_or_gt 0 y with hy | hy
    · have h1 : 0 ≤ binaryRound p emin (-x) := binaryRound_nonneg (by linarith)
      rw [binaryRound_neg] at h1
      exact (by linarith : binaryRound p emin x ≤ 0).trans (binaryRound_nonneg hy)
    · have := binaryRound_mono_pos (emin := emin) hp (x := -y) (y := -x) (by linarith) (by linarith)
      rw [binaryRound_neg, binaryRound_neg] at this
      linarith
  · subst hx
    rw [binaryRound_zero]; exact binaryRound_nonneg h
  · exact binaryRound_mono_pos hp hx h

/-- the rounding moves a number by at most half of its last bit. -/
theorem binaryRound_error (x : ℝ) : |binaryRound p emin x - x| ≤ 2 ^ lastBit p emin x / 2 := by
  have hk := two_zpow_pos (lastBit p emin x)
  have e : binaryRound p emin x - x =
      ((roundEven (x / 2 ^ lastBit p emin x) : ℝ) - x / 2 ^ lastBit p emin x) * 2 ^ lastBit p emin x := by
    unfold binaryRound; field_simp
  rw [e, abs_mul, abs_of_pos hk]
  have := (roundEven_spec (x / 2 ^ lastBit p emin x)).1
  calc _ ≤ 1 / 2 * (2 : ℝ) ^ lastBit p emin x := mul_le_mul_of_nonneg_right this hk.le
    _ = _ := by ring

theorem binaryRound_idem_pos (hp : 0 < p) {x : ℝ} (hx : 0 < x) :
    binaryRound p emin (binaryRound p emin x) = binaryRound p emin x := by
  set r := binaryRound p emin x with hr
  rcases (binaryRound_nonneg (p := p) (emin := emin) hx.le).eq_or_lt with h0 | h0
  · rw [← hr] at h0; rw [← h0, binaryRound_zero]
  rw [← hr] at h0
  have hmul : ∃ n : ℤ, r = n * 2 ^ lastBit p emin x := ⟨_, rfl⟩
  have hb := log_bounds h0
  suffices h : ∃ n : ℤ, r = n * 2 ^ lastBit p emin r by
    obtain ⟨n, hn⟩ := h
    exact binaryRound_of_multiple n hn
  rcases le_or_gt (Int.log 2 r) (Int.log 2 x) with hle | hgt
  · refine multiple_lower ?_ hmul
    unfold lastBit
    rw [abs_of_pos h0, abs_of_pos hx]; omega
  · -- rounded up to a power of two
    have hlo : (2 : ℝ) ^ (Int.log 2 x + 1) ≤ r :=
      (zpow_le_zpow_right₀ (by norm_num) (by omega)).trans hb.1
    rcases le_or_gt (lastBit p emin x) (Int.log 2 x + 1) with hk | hk
    · have hup := binaryRound_le hk (log_bounds hx).2.le
      have e : r = 2 ^ (Int.log 2 x + 1) := le_antisymm hup hlo
      have elog : Int.log 2 r = Int.log 2 x + 1 := by
        rw [e]
        have := Int.log_zpow (R := ℝ) (b := 2) (by norm_num) (Int.log 2 x + 1)
        exact_mod_cast this
      refine multiple_lower (k := Int.log 2 x + 1) ?_ ⟨1, by rw [e]; simp⟩
      have h1 : emin ≤ Int.log 2 x + 1 := (le_max_right _ _).trans hk
      unfold lastBit
      rw [abs_of_pos h0, elog]; omega
    · -- deep underflow: the last bit is above the number
      have l : lastBit p emin x = emin := by
        unfold lastBit at hk ⊢
        rw [abs_of_pos hx] at hk ⊢; omega
      have hup := binaryRound_le (p := p) (emin := emin) (x := x) (e := emin) l.le
        ((log_bounds hx).2.le.trans (zpow_le_zpow_right₀ (by norm_num) (by omega)))
      have hlog : Int.log 2 r ≤ emin := by
        have := hb.1.trans hup
        exact (zpow_le_zpow_iff_right₀ (by norm_num : (1 : ℝ) < 2)).1 this
      refine multiple_lower ?_ hmul
      rw [l]; unfold lastBit; rw [abs_of_pos h0]; omega

theorem binaryRound_idem (hp : 0 < p) (x : ℝ) :
    binaryRound p emin (binaryRound p emin x) = binaryRound p emin x := by
  rcases lt_trichotomy x 0 with hx | hx | hx
  · have := binaryRound_idem_pos (emin := emin) hp (x := -x) (by linarith)
    rw [binaryRound_neg, binaryRound_neg] at this
    linarith
  · subst hx; rw [binaryRound_zero, binaryRound_zero]
  · exact binaryRound_idem_pos hp hx
end

/-- a binary floating-point format: precision `p + 1`, smallest positive number `2 ^ emin` (the arithmetic of
/repo/src, e.g. src/position.rs:132-170). -/
noncomputable def Rounding.binary (p : ℕ) (emin : ℤ) : Rounding where
  rnd := binaryRound (p + 1) emin
  mono _ _ h := binaryRound_mono (Nat.succ_pos p) h
  idem := binaryRound_idem (Nat.succ_pos p)
  zero := binaryRound_zero
  odd := binaryRound_neg

/-- `f64`: 53 bits, gradual underflow down to `2 ^ -1074`; no overflow (e.g. src/position.rs:132-170). -/
noncomputable def Rounding.double : Rounding := Rounding.binary 52 (-1074)

end Moledyn
