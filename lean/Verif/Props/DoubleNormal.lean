import Verif.Props.Gaussian
import Verif.Props.DoubleHistogram
/-
C91: normally distributed random numbers in double precision.
-/
namespace Moledyn.Props
open Moledyn

/-- What is used of the tables of the ziggurat method, as tables of doubles: widths `x 0, …, x 256` between 0 and 4, those before the
last at least 1/8 and more than 10/19 of the one before; the tail begins between 3.65 and 3.66; the logarithm is rounded to the
nearest double. -/
structure DoubleTables (t : ZigTables Double) : Prop where
  nonneg : ∀ i ≤ 256, 0 ≤ (t.x i).val
  le_four : ∀ i ≤ 256, (t.x i).val ≤ 4
  pos : ∀ i < 255, 1 / 8 ≤ (t.x (i + 1)).val
  half : ∀ i < 255, 10 * (t.x i).val ≤ 19 * (t.x (i + 1)).val
  tail : t.r.Rep ∧ 3.65 ≤ t.r.val ∧ t.r.val ≤ 3.66
  ln : ∀ x, (t.ln x).val = Rounding.double.rnd (Real.log x.val)

private theorem rep_frac (m : Nat) (e : ℤ) (hm : m < 2 ^ 53) (he : -1074 ≤ e) {x : ℝ} (hx : x = (m : ℝ) * 2 ^ e) :
    Rounding.double.rnd x = x := by rw [hx]; exact double_exact m e hm he

private theorem rnd_le {x y : ℝ} (h : x ≤ y) (hy : Rounding.double.rnd y = y) : Rounding.double.rnd x ≤ y :=
  (Rounding.double.mono _ _ h).trans_eq hy

private theorem le_rnd {x y : ℝ} (h : y ≤ x) (hy : Rounding.double.rnd y = y) : y ≤ Rounding.double.rnd x :=
  hy.symm.trans_le (Rounding.double.mono _ _ h)

private theorem rep_neg {y : ℝ} (hy : Rounding.double.rnd y = y) : Rounding.double.rnd (-y) = -y := by rw [Rounding.double.odd, hy]

private theorem rnd_abs_le {x y : ℝ} (h : |x| ≤ y) (hy : Rounding.double.rnd y = y) : abs (Rounding.double.rnd x) ≤ y := by
  rw [abs_le] at h ⊢
  exact ⟨le_rnd h.1 (rep_neg hy), rnd_le h.2 hy⟩

theorem symmetric01_double (w : BitVec 64) : (symmetric01 w : Double).val = 2 * ((bits52 w).val : ℝ) / 2 ^ 52 - 1 := by
  have hk := (bits52 w).isLt
  have hw : (w >>> 12).toNat = (bits52 w).val := rfl
  unfold symmetric01
  rw [hw]
  generalize (bits52 w).val = k at hk
  have e1 : Rounding.double.rnd (((2 + (k : ℚ) / 2 ^ 51 : ℚ)) : ℝ) = 2 + (k : ℝ) / 2 ^ 51 :=
    (rep_frac (2 ^ 52 + k) (-51) (by omega) (by norm_num) (by push_cast; rw [zpow_neg]; field_simp; norm_num)).trans (by push_cast; rfl)
  have e2 : Rounding.double.rnd ((3 : ℚ) : ℝ) = 3 := (rep_frac 3 0 (by norm_num) (by norm_num) (by norm_num)).trans (by norm_num)
  show Rounding.double.rnd (Rounding.double.rnd (((2 + (k : ℚ) / 2 ^ 51 : ℚ)) : ℝ) - Rounding.double.rnd ((3 : ℚ) : ℝ)) = _
  rw [e1, e2]
  have e3 : (2 : ℝ) + (k : ℝ) / 2 ^ 51 - 3 = 2 * (k : ℝ) / 2 ^ 52 - 1 := by ring
  rw [e3]
  rcases le_total (2 ^ 51) k with h | h
  · exact rep_frac (k - 2 ^ 51) (-51) (by omega) (by norm_num) (by rw [Nat.cast_sub h]; push_cast; rw [zpow_neg]; field_simp; norm_num)
  · have := rep_neg (rep_frac (2 ^ 51 - k) (-51) (by omega) (by norm_num) (x := 1 - 2 * (k : ℝ) / 2 ^ 52)
      (by rw [Nat.cast_sub h]; push_cast; rw [zpow_neg]; field_simp; norm_num))
    rwa [neg_sub] at this

theorem open01_double_real (w : BitVec 64) : (open01 w : Double).val = (open01 w : ℝ) := by
  rw [open01_double, open01_real]

theorem tail_value_double (t : ZigTables Double) (n : Nat) (x y : Double) (g : Pcg64) {r : Double × Pcg64} (h : t.tail n x y g = some r) :
    (Fl.lt (Fl.lit (-2) * y) (x * x) = false ∧ r.1 = x) ∨ ∃ w, r.1 = t.ln (open01 w) / t.r := by
  induction n generalizing x y g with
  | zero => simp [ZigTables.tail] at h
  | succ n ih =>
    rw [ZigTables.tail] at h
    split at h
    · rcases ih _ _ _ h with h | h
      · exact .inr ⟨_, h.2⟩
      · exact .inr h
    · rename_i hlt
      have e := Option.some.inj h
      exact .inl ⟨by simpa using hlt, by rw [← e]⟩

private theorem rep_quarters (m : Nat) (hm : m < 2 ^ 53) : Rounding.double.rnd ((m : ℝ) / 4) = (m : ℝ) / 4 :=
  rep_frac m (-2) hm (by norm_num) (by norm_num; ring)

private theorem one_double : Rounding.double.rnd 1 = 1 := by simpa using double_nat (n := 1) (by norm_num)

/-- Double precision: the normal numbers are doubles, at most 4 in the layers and at least `r`, where the tail begins, in the tail, never more than
13.75. -/
theorem C91_bounded (t : ZigTables Double) (ht : DoubleTables t) (n : Nat) (g : Pcg64) (v : Double) (g' : Pcg64)
    (h : t.gaussian n g = some (v, g')) :
    v.Rep ∧ (|v.val| ≤ 4 ∨ t.r.val ≤ |v.val|) ∧ |v.val| ≤ 13.75 := by
  suffices hb : v.Rep ∧ (|v.val| ≤ 4 ∨ (t.r.val ≤ |v.val| ∧ |v.val| ≤ 13.75)) by
    rcases hb with ⟨hr, hb | hb⟩
    · exact ⟨hr, .inl hb, by linarith⟩
    · exact ⟨hr, .inr hb.1, hb.2⟩
  have hr : 0 < t.r.val := by linarith [ht.tail.2.1]
  induction n generalizing g with
  | zero => simp [ZigTables.gaussian] at h
  | succ n ih =>
    rw [ZigTables.gaussian] at h
    dsimp only at h
    have hi : (g.nextU64.1 &&& 0xff#64).toNat ≤ 255 := by
      rw [BitVec.toNat_and]; exact Nat.and_le_right
    generalize (g.nextU64.1 &&& 0xff#64).toNat = i at h hi
    have hx : |((symmetric01 g.nextU64.1 : Double) * t.x i).val| ≤ 4 := by
      rw [RF.val_mul]
      refine rnd_abs_le ?_ (by have := rep_quarters 16 (by norm_num); norm_num at this; exact this)
      have hs := symmetric01_abs g.nextU64.1
      rw [symmetric01_real, ← symmetric01_double] at hs
      rw [abs_mul, abs_of_nonneg (ht.nonneg i (by omega))]
      calc _ ≤ 1 * (t.x i).val := mul_le_mul_of_nonneg_right hs (ht.nonneg i (by omega))
        _ ≤ 4 := by rw [one_mul]; exact ht.le_four i (by omega)
    split at h
    · have e := (Prod.mk.inj (Option.some.inj h)).1
      rw [← e]; exact ⟨RF.rep_mul _ _, .inl hx⟩
    · split at h
      · rw [Option.map_eq_some_iff] at h
        obtain ⟨a, ha, he⟩ := h
        have e := (Prod.mk.inj he).1
        rcases tail_value_double t _ _ _ _ ha with h1 | ⟨w, hw⟩
        · exfalso
          have h1 := h1.1
          simp only [RF.lt_val, RF.val_mul, Fl.one, Fl.zero, RF.val_lit, decide_eq_false_iff_not, not_lt] at h1
          push_cast at h1
          rw [Rounding.double.zero, mul_zero, Rounding.double.zero, one_double, mul_one, one_double] at h1
          linarith
        · have hw' : a.1.val = Rounding.double.rnd (Rounding.double.rnd (Real.log (open01 w)) / t.r.val) := by
            rw [hw, RF.val_div, ht.ln, open01_double_real]
          obtain ⟨h1, h2⟩ := log_open01 w
          have l2 := Real.log_two_lt_d9
          have b1 : -(36.75 : ℝ) ≤ Rounding.double.rnd (Real.log (open01 w)) :=
            le_rnd (by linarith) (rep_neg (by have := rep_quarters 147 (by norm_num); norm_num at this ⊢; exact this))
          have b2 : Rounding.double.rnd (Real.log (open01 w)) ≤ 0 := rnd_le h2.le Rounding.double.zero
          have c1 : -(1290 / 128 : ℝ) ≤ a.1.val := by
            rw [hw']
            refine le_rnd ?_ (rep_neg (rep_frac 1290 (-7) (by norm_num) (by norm_num) (by norm_num)))
            rw [le_div_iff₀ hr]
            have := ht.tail.2.1
            linarith
          have c2 : a.1.val ≤ 0 := by
            rw [hw']
            exact rnd_le (div_nonpos_of_nonpos_of_nonneg b2 hr.le) Rounding.double.zero
          have t1 := ht.tail.2.1
          have t2 := ht.tail.2.2
          have key : ∀ z : ℝ, z = t.r.val - a.1.val → t.r.val ≤ Rounding.double.rnd z ∧ Rounding.double.rnd z ≤ 13.75 := by
            intro z hz
            subst hz
            refine ⟨le_rnd (by linarith) ht.tail.1, rnd_le (by linarith) ?_⟩
            have := rep_quarters 55 (by norm_num)
            norm_num at this ⊢
            exact this
          rw [← e]
          split
          · refine ⟨Rounding.double.idem _, .inr ?_⟩
            obtain ⟨k1, k2⟩ := key _ rfl
            rw [RF.val_sub, show a.1.val - t.r.val = -(t.r.val - a.1.val) by ring, Rounding.double.odd, abs_neg, abs_of_nonneg (by linarith)]
            exact ⟨k1, k2⟩
          · refine ⟨Rounding.double.idem _, .inr ?_⟩
            obtain ⟨k1, k2⟩ := key _ rfl
            rw [RF.val_sub, abs_of_nonneg (by linarith)]
            exact ⟨k1, k2⟩
      · split at h
        · have e := (Prod.mk.inj (Option.some.inj h)).1
          rw [← e]; exact ⟨RF.rep_mul _ _, .inl hx⟩
        · exact ih _ h

private theorem good_first_double {t : ZigTables Double} (ht : DoubleTables t) (n : Nat) {g : Pcg64} (hg : goodWord g.nextU64.1 = true) :
    ∃ r, t.gaussian (n + 1) g = some r := by
  simp only [goodWord, Bool.and_eq_true, decide_eq_true_eq] at hg
  obtain ⟨⟨⟨h1, h2⟩, h3⟩, h4⟩ := hg
  rw [ZigTables.gaussian]
  dsimp only
  generalize (g.nextU64.1 &&& 0xff#64).toNat = i at h3 h4
  rw [if_pos]
  · exact ⟨_, rfl⟩
  · have h1' : (2 : ℝ) ^ 51 ≤ ((bits52 g.nextU64.1).val : ℝ) := by exact_mod_cast h1
    have h2' : ((bits52 g.nextU64.1).val : ℝ) < 2 ^ 51 + 2 ^ 50 := by exact_mod_cast h2
    have hu : 0 ≤ (symmetric01 g.nextU64.1 : Double).val ∧ (symmetric01 g.nextU64.1 : Double).val ≤ 1 / 2 := by
      rw [symmetric01_double]
      constructor
      · have : 1 ≤ 2 * ((bits52 g.nextU64.1).val : ℝ) / 2 ^ 52 := by rw [le_div_iff₀ (by positivity)]; linarith
        linarith
      · have : 2 * ((bits52 g.nextU64.1).val : ℝ) / 2 ^ 52 < 3 / 2 := by rw [div_lt_iff₀ (by positivity)]; linarith
        linarith
    generalize (symmetric01 g.nextU64.1 : Double) = u at hu
    have hp := ht.pos i (by omega)
    have hh := ht.half i (by omega)
    have hn := ht.nonneg i (by omega)
    simp only [RF.lt_val, RF.val_abs, RF.val_mul, decide_eq_true_eq]
    have e := double_error (u.val * (t.x i).val)
    have hm : u.val * (t.x i).val ≤ 19 / 20 * (t.x (i + 1)).val := by
      calc u.val * (t.x i).val ≤ 1 / 2 * (t.x i).val := mul_le_mul_of_nonneg_right hu.2 hn
        _ ≤ _ := by linarith
    have hm0 : 0 ≤ u.val * (t.x i).val := mul_nonneg hu.1 hn
    generalize u.val * (t.x i).val = z at e hm hm0
    rw [abs_of_nonneg hm0] at e
    have hz : (2 : ℝ) ^ (-1075 : ℤ) ≤ 1 / 1000 := by
      calc (2 : ℝ) ^ (-1075 : ℤ) ≤ 2 ^ (-10 : ℤ) := zpow_le_zpow_right₀ (by norm_num) (by norm_num)
        _ ≤ 1 / 1000 := by norm_num
    have hz' : z / 2 ^ 53 ≤ z / 1000 := by gcongr; norm_num
    have h4 := ht.le_four (i + 1) (by omega)
    have e' := abs_le.1 e
    rw [abs_lt]
    constructor <;> linarith

private theorem good_pair_double {t : ZigTables Double} (ht : DoubleTables t) (n : Nat) {g : Pcg64} (x y : Double)
    (h1 : goodWord g.nextU64.1 = true) (h2 : goodWord g.nextU64.2.nextU64.1 = true) :
    ∃ r, t.tail (n + 2) x y g = some r := by
  obtain ⟨a1, a2⟩ := good_open01 h1
  obtain ⟨b1, b2⟩ := good_open01 h2
  rw [ZigTables.tail]
  split
  · rw [ZigTables.tail, if_neg]
    · exact ⟨_, rfl⟩
    · simp only [getUniform, RF.lt_val, RF.val_mul, RF.val_div, RF.val_lit, ht.ln, open01_double_real, decide_eq_true_eq]
      push_cast
      rw [not_lt]
      have l1 : -Real.log 2 ≤ Real.log (open01 g.nextU64.1) := by
        rw [← Real.log_inv]
        exact Real.log_le_log (by norm_num) (by rw [inv_eq_one_div]; exact a1)
      have l1' : Real.log (open01 g.nextU64.1) ≤ 0 := Real.log_nonpos (by linarith) (by linarith)
      have l2 : Real.log (open01 g.nextU64.2.nextU64.1) ≤ -(1 / 4) := by
        have := Real.log_le_sub_one_of_pos (show (0 : ℝ) < open01 g.nextU64.2.nextU64.1 by linarith)
        linarith
      have hl := Real.log_two_lt_d9
      have hr := ht.tail.2.1
      have hr0 : 0 < t.r.val := by linarith
      have r4 : Rounding.double.rnd (1 / 4) = 1 / 4 := rep_frac 1 (-2) (by norm_num) (by norm_num) (by norm_num)
      have r1 : Rounding.double.rnd (1 / 2) = 1 / 2 := rep_frac 1 (-1) (by norm_num) (by norm_num) (by norm_num)
      have r16 : Rounding.double.rnd (1 / 16) = 1 / 16 := rep_frac 1 (-4) (by norm_num) (by norm_num) (by norm_num)
      have r2 : Rounding.double.rnd (-2) = -2 := rep_neg (rep_frac 2 0 (by norm_num) (by norm_num) (by norm_num))
      have q1 : abs (Rounding.double.rnd (Real.log (open01 g.nextU64.1))) ≤ 3 / 4 :=
        rnd_abs_le (by rw [abs_le]; constructor <;> linarith) (rep_frac 3 (-2) (by norm_num) (by norm_num) (by norm_num))
      generalize Rounding.double.rnd (Real.log (open01 g.nextU64.1)) = z at q1
      have q2 : abs (Rounding.double.rnd (z / t.r.val)) ≤ 1 / 4 := by
        refine rnd_abs_le ?_ r4
        rw [abs_div, abs_of_pos hr0, div_le_iff₀ hr0]
        linarith
      generalize Rounding.double.rnd (z / t.r.val) = z' at q2
      have q3 : Rounding.double.rnd (z' * z') ≤ 1 / 16 := by
        refine rnd_le ?_ r16
        calc z' * z' = |z'| * |z'| := (abs_mul_abs_self z').symm
          _ ≤ 1 / 4 * (1 / 4) := mul_le_mul q2 q2 (abs_nonneg _) (by norm_num)
          _ = _ := by norm_num
      have q4 : Rounding.double.rnd (Real.log (open01 g.nextU64.2.nextU64.1)) ≤ -(1 / 4) := rnd_le l2 (rep_neg r4)
      generalize Rounding.double.rnd (Real.log (open01 g.nextU64.2.nextU64.1)) = y' at q4
      have q5 : 1 / 2 ≤ Rounding.double.rnd (Rounding.double.rnd (-2) * y') := by
        rw [r2]
        exact le_rnd (by linarith) r1
      linarith
  · exact ⟨_, rfl⟩

/-- Double precision: every call for a normal number returns, whatever the seed is and whatever has been drawn before. -/
theorem C91_returns (t : ZigTables Double) (ht : DoubleTables t) (g : Pcg64) (hg : g.increment = (rngSeed 0).increment) :
    ∃ v g', ∀ n, 2 ^ 129 + 3 ≤ n → t.gaussian n g = some (v, g') :=
  returning_all ⟨fun n _ h => good_first_double ht n h, fun n _ x y h1 h2 => good_pair_double ht n x y h1 h2⟩ g hg

/-- Double precision, one round: the layer is the last 8 bits of the first word; the point is the number in `[-1, 1)` made of the
first 52 bits, times the width of the layer, rounded once; under the next layer it is returned at once.  Elsewhere in a layer other
than the lowest the answer is that point, with two words used, or that of the next round. -/
theorem C91_round (t : ZigTables Double) (n : Nat) (g : Pcg64) (w i : Nat) (x : Double) (hw : w = g.nextU64.1.toNat)
    (hi : i = w % 256) (hx : x.val = Rounding.double.rnd ((2 * ((w / 2 ^ 12 : ℕ) / 2 ^ 52) - 1) * (t.x i).val)) :
    (|x.val| < (t.x (i + 1)).val → t.gaussian (n + 1) g = some (x, g.nextU64.2)) ∧
    ((t.x (i + 1)).val ≤ |x.val| → i ≠ 0 →
      t.gaussian (n + 1) g = some (x, g.nextU64.2.nextU64.2) ∨ t.gaussian (n + 1) g = t.gaussian n g.nextU64.2.nextU64.2) := by
  have e1 : (g.nextU64.1 &&& 0xff#64).toNat = i := by
    rw [BitVec.toNat_and, hi, hw]
    exact Nat.and_two_pow_sub_one_eq_mod _ 8
  have e2 : (symmetric01 g.nextU64.1 : Double) * t.x i = x := by
    apply RF.ext
    rw [RF.val_mul, symmetric01_double, hx, hw]
    simp only [bits52, BitVec.toNat_ushiftRight, Nat.shiftRight_eq_div_pow]
    congr 1
    ring
  constructor
  · intro h
    rw [ZigTables.gaussian]
    dsimp only
    rw [e1, e2, if_pos (by simpa using h)]
  · intro h h0
    rw [ZigTables.gaussian]
    dsimp only
    rw [e1, e2, if_neg (by simpa using h), if_neg h0]
    split
    · exact .inl rfl
    · exact .inr rfl

/-! ### the tables exist -/

/-- the tables of `roundedTables`, as doubles. -/
noncomputable def doubleTables : ZigTables Double :=
  ⟨fun i => ⟨Rounding.double.rnd (roundedTables.x i)⟩, fun i => ⟨Rounding.double.rnd (roundedTables.f i)⟩,
    ⟨Rounding.double.rnd 3.654153⟩, fun x => ⟨Rounding.double.rnd (Real.log x.val)⟩⟩

theorem doubleTables_ok : DoubleTables doubleTables where
  nonneg i hi := le_rnd (roundedTables_ok.nonneg i hi) Rounding.double.zero
  le_four i hi := rnd_le (roundedTables_ok.le_four i hi) (rep_frac 4 0 (by norm_num) (by norm_num) (by norm_num))
  pos i hi := by
    refine le_rnd ?_ (rep_frac 1 (-3) (by norm_num) (by norm_num) (by norm_num))
    have h : ∀ i, i < 255 → 215242 ≤ layerWidths.getD (i + 1) 0 := by decide +kernel
    have : (215242 : ℝ) ≤ ((layerWidths.getD (i + 1) 0 : Nat) : ℝ) := by exact_mod_cast h i hi
    simp only [roundedTables]
    rw [le_div_iff₀ (by positivity)]
    linarith
  half i hi := by
    have h : ∀ i, i < 255 → 215242 ≤ layerWidths.getD (i + 1) 0 ∧ 2 * layerWidths.getD i 0 ≤ 3 * layerWidths.getD (i + 1) 0 := by
      decide +kernel
    have h1 : (215242 : ℝ) ≤ ((layerWidths.getD (i + 1) 0 : Nat) : ℝ) := by exact_mod_cast (h i hi).1
    have h2 : 2 * ((layerWidths.getD i 0 : Nat) : ℝ) ≤ 3 * ((layerWidths.getD (i + 1) 0 : Nat) : ℝ) := by exact_mod_cast (h i hi).2
    have h0 : (0 : ℝ) ≤ ((layerWidths.getD i 0 : Nat) : ℝ) := by positivity
    show 10 * Rounding.double.rnd ((layerWidths.getD i 0 : ℝ) / 10 ^ 6) ≤ 19 * Rounding.double.rnd ((layerWidths.getD (i + 1) 0 : ℝ) / 10 ^ 6)
    generalize ((layerWidths.getD i 0 : Nat) : ℝ) = a at h0 h2
    generalize ((layerWidths.getD (i + 1) 0 : Nat) : ℝ) = b at h1 h2
    have ea := (abs_le.1 (double_error (a / 10 ^ 6))).2
    have eb := (abs_le.1 (double_error (b / 10 ^ 6))).1
    rw [abs_of_nonneg (by positivity)] at ea eb
    have hz : (2 : ℝ) ^ (-1075 : ℤ) ≤ 1 / 1000 := by
      calc (2 : ℝ) ^ (-1075 : ℤ) ≤ 2 ^ (-10 : ℤ) := zpow_le_zpow_right₀ (by norm_num) (by norm_num)
        _ ≤ 1 / 1000 := by norm_num
    have za : a / 10 ^ 6 / 2 ^ 53 ≤ a / 10 ^ 6 / 1000 := by gcongr; norm_num
    have zb : b / 10 ^ 6 / 2 ^ 53 ≤ b / 10 ^ 6 / 1000 := by gcongr; norm_num
    generalize (2 : ℝ) ^ (-1075 : ℤ) = z at ea eb hz
    generalize a / 10 ^ 6 / 2 ^ 53 = z1 at ea za
    generalize b / 10 ^ 6 / 2 ^ 53 = z2 at eb zb
    linarith
  tail := by
    refine ⟨Rounding.double.idem _, ?_, ?_⟩
    · refine le_trans ?_ (le_rnd (y := 3741 / 1024) (by norm_num) (rep_frac 3741 (-10) (by norm_num) (by norm_num) (by norm_num)))
      norm_num
    · refine le_trans (rnd_le (y := 3745 / 1024) (by norm_num) (rep_frac 3745 (-10) (by norm_num) (by norm_num) (by norm_num))) ?_
      norm_num
  ln x := rfl

/-- a normal number of these tables. -/
example (seed : BitVec 128) : ∃ n v g', doubleTables.gaussian n (rngSeed seed) = some (v, g') ∧ |v.val| ≤ 13.75 := by
  obtain ⟨v, g', h⟩ := C91_returns doubleTables doubleTables_ok (rngSeed seed) (by rw [rngSeed_eq, rngSeed_eq])
  generalize 2 ^ 129 + 3 = n at h
  have h := h n le_rfl
  exact ⟨n, v, g', h, (C91_bounded _ doubleTables_ok _ _ _ _ h).2.2⟩

end Moledyn.Props
