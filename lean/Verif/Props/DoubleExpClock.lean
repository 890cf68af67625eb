import Verif.Props.DoubleClock
import Verif.Props.DoubleHistogram
/-
C93: the exponential clock in double precision: schedule, drift, end, standstill.
-/
set_option linter.unusedSimpArgs false
namespace Moledyn.Props
open Moledyn

/-! ### the rounded schedule -/

/-- the step of block `q` when every product is rounded. -/
noncomputable def roundedStep (R : Rounding) (a b inc : ℝ) : Nat → ℝ
  | 0 => a
  | q + 1 => min (R.rnd (roundedStep R a b inc q * inc)) b

/-- the time of item `n` when every product and sum is rounded. -/
noncomputable def roundedTime (R : Rounding) (a b inc : ℝ) (l : Nat) : Nat → ℝ
  | 0 => 0
  | n + 1 => R.rnd (roundedTime R a b inc l n + roundedStep R a b inc (n / l))

section Rounded
variable {R : Rounding} {a b inc : ℝ} {l : Nat}

theorem roundedStep_le (hab : a ≤ b) (q : Nat) : roundedStep R a b inc q ≤ b := by
  cases q with
  | zero => exact hab
  | succ q => exact min_le_right _ _

theorem roundedStep_rep (ha : R.rnd a = a) (hb : R.rnd b = b) (q : Nat) :
    R.rnd (roundedStep R a b inc q) = roundedStep R a b inc q := by
  cases q with
  | zero => exact ha
  | succ q =>
    show R.rnd (min _ _) = min _ _
    rcases min_choice (R.rnd (roundedStep R a b inc q * inc)) b with e | e
    · rw [e, R.idem]
    · rw [e, hb]

theorem roundedStep_grows (h0 : 0 ≤ a) (hab : a ≤ b) (hinc : 1 ≤ inc) (ha : R.rnd a = a) (hb : R.rnd b = b) (q : Nat) :
    0 ≤ roundedStep R a b inc q ∧ roundedStep R a b inc q ≤ roundedStep R a b inc (q + 1) := by
  have step : ∀ q, 0 ≤ roundedStep R a b inc q →
      roundedStep R a b inc q ≤ roundedStep R a b inc (q + 1) := by
    intro q hq
    refine le_min ?_ (roundedStep_le hab q)
    have := R.mono _ _ (le_mul_of_one_le_right hq hinc)
    rwa [roundedStep_rep ha hb] at this
  have nn : ∀ q, 0 ≤ roundedStep R a b inc q := by
    intro q
    induction q with
    | zero => exact h0
    | succ q ih => exact ih.trans (step q ih)
  exact ⟨nn q, step q (nn q)⟩

theorem roundedStep_mono (h0 : 0 ≤ a) (hab : a ≤ b) (hinc : 1 ≤ inc) (ha : R.rnd a = a) (hb : R.rnd b = b) :
    Monotone (roundedStep R a b inc) :=
  monotone_nat_of_le_succ fun q => (roundedStep_grows h0 hab hinc ha hb q).2

theorem roundedTime_rep (n : Nat) : R.rnd (roundedTime R a b inc l n) = roundedTime R a b inc l n := by
  cases n with
  | zero => exact R.zero
  | succ n => exact R.idem _

theorem roundedTime_mono (h0 : 0 ≤ a) (hab : a ≤ b) (hinc : 1 ≤ inc) (ha : R.rnd a = a) (hb : R.rnd b = b) :
    Monotone (roundedTime R a b inc l) := by
  refine monotone_nat_of_le_succ fun n => ?_
  have := R.mono _ _ (le_add_of_nonneg_right (a := roundedTime R a b inc l n)
    (roundedStep_grows h0 hab hinc ha hb (n / l)).1)
  rwa [roundedTime_rep] at this

/-- the clock is about to return item `n` of the rounded schedule. -/
structure AtRounded (R : Rounding) (a b : RF R) (inc : ℝ) (l : Nat) (c : ExpStep (RF R)) (n : Nat) : Prop where
  titype : c.titype = .exponential a b l
  inc_eq : c.inc.val = inc
  current : c.current.val = roundedTime R a.val b.val inc l n
  dt : (c.bump b l).dt.val = roundedStep R a.val b.val inc (n / l)
  fresh : (c.bump b l).dt.val < b.val → (c.bump b l).count = n % l
end Rounded

section Clock
variable {R : Rounding} {a b : RF R} {inc : ℝ} {l : Nat}

theorem atRounded_step (h0 : 0 ≤ a.val) (hab : a.val ≤ b.val) (hinc : 1 ≤ inc) (ha : a.Rep) (hb : b.Rep) (hl : 0 < l)
    {c : ExpStep (RF R)} {n : Nat} (h : AtRounded R a b inc l c n) (hle : c.current.val ≤ c.tmax.val) :
    (∃ t : RF R, t.val = roundedTime R a.val b.val inc l n ∧ c.next.2 = .ok (some t)) ∧
    c.next.1.dt.val = roundedStep R a.val b.val inc (n / l) ∧ c.next.1.tmax = c.tmax ∧
    AtRounded R a b inc l c.next.1 (n + 1) := by
  obtain ⟨f1, f2, f3, f4⟩ := ExpStep.bump_fields c b l
  set d := c.bump b l with hd
  have hnext : c.next = ({ d with current := d.current + d.dt, count := d.count + 1 }, .ok (some d.current)) := by
    unfold ExpStep.next
    rw [h.titype]
    simp only [← hd]
    rw [if_pos]
    simp only [RF.le_val, decide_eq_true_eq]
    rw [f2, f4]; exact hle
  rw [hnext]
  refine ⟨⟨d.current, by rw [f2, h.current], rfl⟩, h.dt, f4, by rw [f1, h.titype], by rw [f3, h.inc_eq], ?_, ?_, ?_⟩
  · show (d.current + d.dt).val = _
    rw [RF.val_add, f2, h.current, h.dt]; rfl
  · by_cases hlt : d.dt.val < b.val
    · have hc := h.fresh hlt
      have hmod : d.count < l := by rw [hc]; exact Nat.mod_lt _ hl
      unfold ExpStep.bump
      simp only [RF.lt_val, hlt, decide_true, Bool.true_and, beq_iff_eq]
      by_cases hcl : d.count + 1 = l
      · have hdiv : (n + 1) / l = n / l + 1 := by
          rw [hc] at hcl
          have := Nat.div_add_mod n l
          have e : n + 1 = l * (n / l + 1) := by rw [Nat.mul_add]; omega
          rw [e, Nat.mul_div_cancel_left _ hl]
        simp only [hcl, if_true]
        rw [hdiv]
        show _ = min (R.rnd (roundedStep R a.val b.val inc (n / l) * inc)) b.val
        have e : (d.dt * d.inc).val = R.rnd (roundedStep R a.val b.val inc (n / l) * inc) := by
          rw [RF.val_mul, h.dt, f3, h.inc_eq]
        by_cases hgt : b.val < (d.dt * d.inc).val
        · rw [if_pos (by simpa [Fl.gt, RF.lt_val] using hgt), min_eq_right (by rw [← e]; exact hgt.le)]
        · rw [if_neg (by simpa [Fl.gt, RF.lt_val] using hgt), min_eq_left (by rw [← e]; exact not_lt.1 hgt), e]
      · have hdiv : (n + 1) / l = n / l := by
          rw [hc] at hcl hmod
          have := Nat.div_add_mod n l
          have e : n + 1 = (n % l + 1) + l * (n / l) := by omega
          rw [e, Nat.add_mul_div_left _ _ hl, Nat.div_eq_of_lt (by omega), Nat.zero_add]
        simp only [hcl, if_false]
        rw [h.dt, hdiv]
    · have hge : b.val ≤ d.dt.val := not_lt.1 hlt
      unfold ExpStep.bump
      simp only [RF.lt_val, hlt, decide_false, Bool.false_and, Bool.false_eq_true, if_false]
      have hm := roundedStep_mono h0 hab hinc ha hb (Nat.div_le_div_right (c := l) (Nat.le_succ n))
      have hle2 := roundedStep_le (R := R) (inc := inc) hab ((n + 1) / l)
      rw [h.dt] at hge ⊢
      simp only [Nat.succ_eq_add_one] at hm
      linarith
  · intro hlt
    by_cases hbl : d.dt.val < b.val
    · have hc := h.fresh hbl
      have hmod : d.count < l := by rw [hc]; exact Nat.mod_lt _ hl
      unfold ExpStep.bump
      simp only [RF.lt_val, hbl, decide_true, Bool.true_and, beq_iff_eq]
      by_cases hcl : d.count + 1 = l
      · simp only [hcl, if_true]
        rw [hc] at hcl
        have := Nat.div_add_mod n l
        have e : n + 1 = l * (n / l + 1) := by rw [Nat.mul_add]; omega
        rw [e, Nat.mul_mod_right]
      · simp only [hcl, if_false]
        rw [hc] at hcl hmod ⊢
        have := Nat.div_add_mod n l
        have e : n + 1 = (n % l + 1) + l * (n / l) := by omega
        conv_rhs => rw [e, Nat.add_mul_mod_self_left, Nat.mod_eq_of_lt (by omega)]
    · exfalso
      unfold ExpStep.bump at hlt
      simp only [RF.lt_val, hbl, decide_false, Bool.false_and, Bool.false_eq_true, if_false] at hlt

/-- the whole rounded schedule. -/
theorem atRounded_output (h0 : 0 ≤ a.val) (hab : a.val ≤ b.val) (hinc : 1 ≤ inc) (ha : a.Rep) (hb : b.Rep) (hl : 0 < l)
    (k : Nat) {c : ExpStep (RF R)} {n : Nat} (h : AtRounded R a b inc l c n) :
    (c.tmax.val < roundedTime R a.val b.val inc l (n + k) → output ExpStep.next k c = .ok none) ∧
    (roundedTime R a.val b.val inc l (n + k) ≤ c.tmax.val →
      (∃ t : RF R, t.val = roundedTime R a.val b.val inc l (n + k) ∧ output ExpStep.next k c = .ok (some t)) ∧
      (stateAfter ExpStep.next (k + 1) c).dt.val = roundedStep R a.val b.val inc ((n + k) / l)) := by
  induction k generalizing c n with
  | zero =>
    by_cases hle : c.current.val ≤ c.tmax.val
    · obtain ⟨e1, e2, e3, e4⟩ := atRounded_step h0 hab hinc ha hb hl h hle
      rw [h.current] at hle
      exact ⟨fun hc => absurd hle (not_le.2 hc), fun _ => ⟨e1, e2⟩⟩
    · have := (ExpStep.past_limit h.titype (by simpa [RF.le_val] using hle)).1
      rw [h.current] at hle
      exact ⟨fun _ => this, fun hc => absurd hc hle⟩
  | succ k ih =>
    by_cases hle : c.current.val ≤ c.tmax.val
    · obtain ⟨e1, e2, e3, e4⟩ := atRounded_step h0 hab hinc ha hb hl h hle
      have := ih e4
      rw [e3, show n + 1 + k = n + (k + 1) by ring] at this
      rw [output_succ]
      exact this
    · have hm := roundedTime_mono (l := l) h0 hab hinc ha hb (by omega : n ≤ n + (k + 1))
      have := (ExpStep.past_limit_forever (k + 1) h.titype (by simpa [RF.le_val] using hle)).1
      rw [h.current] at hle
      exact ⟨fun _ => this, fun hc => absurd (hm.trans hc) hle⟩

theorem exp_fresh_rounded {c : ExpStep (RF R)} (h : c.Fresh) :
    ∃ a b l, c.titype = .exponential a b l ∧ 0 ≤ a.val ∧ a.val ≤ b.val ∧ 0 < l ∧ c.current.val = 0 ∧ c.dt = a ∧
      c.count = 0 := by
  induction h with
  | @new a b l c hc =>
    unfold ExpStep.new at hc; split at hc <;> simp at hc
    rename_i hlt
    simp only [RF.lt_val, Fl.gt, Bool.or_eq_true, decide_eq_true_eq, not_or, not_lt, beq_iff_eq] at hlt
    exact ⟨a, b, l, by rw [← hc], le_trans (RF.lit_nonneg (by positivity)) hlt.1.1, hlt.1.2, by omega,
      by rw [← hc]; exact RF.lit_zero_val, by rw [← hc], by rw [← hc]⟩
  | @convert a b l tmax c hc =>
    unfold ExpStep.convertFrom at hc; split at hc <;> simp at hc
    rename_i hlt
    simp only [RF.lt_val, Fl.gt, Bool.or_eq_true, decide_eq_true_eq, not_or, not_lt] at hlt
    have hz : (Fl.zero : RF R).val = 0 := RF.lit_zero_val
    exact ⟨a, b, l, by rw [← hc], by rw [← hz]; exact hlt.1.1.2, hlt.1.2, by omega,
      by rw [← hc]; exact RF.lit_zero_val, by rw [← hc], by rw [← hc]⟩
  | setTmax t _ ih =>
    unfold ExpStep.setTmax; split; · exact ih
    split <;> exact ih
  | setInc x _ ih =>
    unfold ExpStep.setInc; split; · exact ih
    split
    · split <;> exact ih
    · exact ih

theorem atRounded_fresh {c : ExpStep (RF R)} (h : c.Fresh) (ht : c.titype = .exponential a b l) :
    0 ≤ a.val ∧ a.val ≤ b.val ∧ 0 < l ∧ AtRounded R a b c.inc.val l c 0 := by
  obtain ⟨a', b', l', ht', h1, h2, h3, h4, h5, h6⟩ := exp_fresh_rounded h
  rw [ht] at ht'
  obtain ⟨rfl, rfl, rfl⟩ := by simpa using ht'
  have hb : c.bump b l = c := by
    unfold ExpStep.bump
    have : (c.count == l) = false := by rw [h6]; simp; omega
    simp [this]
  refine ⟨h1, h2, h3, ht, rfl, h4, ?_, ?_⟩
  · rw [hb, h5, Nat.zero_div]; rfl
  · intro _; rw [hb, h6]; simp
end Clock

/-! ### double precision -/

/-- a product that does not underflow is rounded with a relative error of at most `2^-53`. -/
theorem double_normal_error {x : ℝ} (h : 2 ^ (-1022 : ℤ) ≤ x) :
    x * (1 - 1 / 2 ^ 53) ≤ Rounding.double.rnd x ∧ Rounding.double.rnd x ≤ x * (1 + 1 / 2 ^ 53) := by
  have x0 : 0 < x := (two_zpow_pos _).trans_le h
  have e := binaryRound_error (p := 53) (emin := -1074) x
  have hlog : (-1022 : ℤ) ≤ Int.log 2 x := by
    by_contra hcon
    have b := (log_bounds x0).2
    have : (2 : ℝ) ^ (Int.log 2 x + 1) ≤ 2 ^ (-1022 : ℤ) := zpow_le_zpow_right₀ (by norm_num) (by omega)
    linarith
  have l : lastBit 53 (-1074) x = Int.log 2 x + (-52) := by
    unfold lastBit
    rw [abs_of_pos x0, max_eq_left] <;> push_cast <;> omega
  have b1 := (log_bounds x0).1
  have hh : (2 : ℝ) ^ lastBit 53 (-1074) x / 2 ≤ x / 2 ^ 53 := by
    rw [l, zpow_add₀ (by norm_num), le_div_iff₀ (by norm_num)]
    calc _ = (2 : ℝ) ^ Int.log 2 x := by
          rw [show (-52 : ℤ) = -((52 : ℕ) : ℤ) by norm_num, zpow_neg, zpow_natCast]; norm_num; ring
      _ ≤ _ := b1
  have e' := abs_le.1 (e.trans hh)
  show _ ≤ binaryRound 53 (-1074) x ∧ binaryRound 53 (-1074) x ≤ _
  constructor
  · linarith [e'.1]
  · linarith [e'.2]

/-- the unit of the error bounds. -/
noncomputable abbrev ulp2 : ℝ := 1 / 2 ^ 53

theorem ulp2_bounds : 0 < ulp2 ∧ ulp2 < 1 := by constructor <;> unfold ulp2 <;> norm_num

theorem roundedStep_drift {a b inc : ℝ} (hmin : 2 ^ (-1022 : ℤ) ≤ a) (hab : a ≤ b) (hinc : 1 ≤ inc)
    (ha : Rounding.double.rnd a = a) (hb : Rounding.double.rnd b = b) (q : Nat) :
    min (a * inc ^ q) b * (1 - ulp2) ^ q ≤ roundedStep .double a b inc q ∧
    roundedStep .double a b inc q ≤ min (a * inc ^ q) b * (1 + ulp2) ^ q := by
  obtain ⟨u0, u1⟩ := ulp2_bounds
  have a0 : 0 < a := (two_zpow_pos _).trans_le hmin
  induction q with
  | zero => simp [roundedStep, hab]
  | succ q ih =>
    obtain ⟨i1, i2⟩ := ih
    have hg := roundedStep_mono (R := .double) a0.le hab hinc ha hb (Nat.zero_le q)
    have hS : a ≤ roundedStep .double a b inc q := hg
    have hprod : 2 ^ (-1022 : ℤ) ≤ roundedStep .double a b inc q * inc :=
      (hmin.trans hS).trans (le_mul_of_one_le_right (a0.le.trans hS) hinc)
    obtain ⟨e1, e2⟩ := double_normal_error hprod
    show _ ≤ min _ _ ∧ min _ _ ≤ _
    set S := roundedStep .double a b inc q with hSd
    set P := (1 - ulp2) ^ q with hP
    set Q := (1 + ulp2) ^ q with hQ
    have P0 : 0 ≤ P := pow_nonneg (by linarith) _
    have P1 : P ≤ 1 := pow_le_one₀ (by linarith) (by linarith)
    have Q1 : 1 ≤ Q := one_le_pow₀ (by linarith)
    set M := min (a * inc ^ q) b with hM
    have M0 : 0 ≤ M := le_min (by positivity) (a0.le.trans hab)
    -- the next exact value is the clamped product
    have hM' : min (a * inc ^ (q + 1)) b = min (M * inc) b := by
      rw [hM, pow_succ, ← mul_assoc]
      rcases le_total (a * inc ^ q) b with h | h
      · rw [min_eq_left h]
      · rw [min_eq_right h, min_eq_right (h.trans (le_mul_of_one_le_right (a0.le.trans (hab.trans h)) hinc)),
          min_eq_right (le_mul_of_one_le_right (a0.le.trans hab) hinc)]
    have b0 : 0 ≤ b := a0.le.trans hab
    rw [hM']
    have hmi : 0 ≤ min (M * inc) b := le_min (by positivity) b0
    constructor
    · refine le_min ?_ ?_
      · refine le_trans ?_ e1
        calc min (M * inc) b * (1 - ulp2) ^ (q + 1) ≤ M * inc * (1 - ulp2) ^ (q + 1) :=
              mul_le_mul_of_nonneg_right (min_le_left _ _) (pow_nonneg (by linarith) _)
          _ = M * P * inc * (1 - 1 / 2 ^ 53) := by rw [pow_succ (1 - ulp2) q, ← hP]; unfold ulp2; ring
          _ ≤ S * inc * (1 - 1 / 2 ^ 53) := by
              refine mul_le_mul_of_nonneg_right (mul_le_mul_of_nonneg_right i1 (by linarith)) ?_
              norm_num
      · calc min (M * inc) b * (1 - ulp2) ^ (q + 1) ≤ min (M * inc) b * 1 :=
              mul_le_mul_of_nonneg_left (pow_le_one₀ (by linarith) (by linarith)) hmi
          _ ≤ b := by rw [mul_one]; exact min_le_right _ _
    · rcases le_total (M * inc) b with h | h
      · rw [min_eq_left h]
        refine (min_le_left _ _).trans (e2.trans ?_)
        calc S * inc * (1 + 1 / 2 ^ 53) ≤ M * Q * inc * (1 + 1 / 2 ^ 53) := by
              refine mul_le_mul_of_nonneg_right (mul_le_mul_of_nonneg_right i2 (by linarith)) ?_
              norm_num
          _ = _ := by rw [pow_succ (1 + ulp2) q, ← hQ]; unfold ulp2; ring
      · rw [min_eq_right h]
        refine (min_le_right _ _).trans ?_
        exact le_mul_of_one_le_right b0 (one_le_pow₀ (by linarith))

theorem roundedTime_drift {a b inc : ℝ} {l : Nat} (hmin : 2 ^ (-1022 : ℤ) ≤ a) (hab : a ≤ b) (hinc : 1 ≤ inc)
    (ha : Rounding.double.rnd a = a) (hb : Rounding.double.rnd b = b) (n : Nat) :
    expTime a b inc l n * (1 - ulp2) ^ (n + n / l) ≤ roundedTime .double a b inc l n ∧
    roundedTime .double a b inc l n ≤ expTime a b inc l n * (1 + ulp2) ^ (n + n / l) := by
  obtain ⟨u0, u1⟩ := ulp2_bounds
  have a0 : 0 < a := (two_zpow_pos _).trans_le hmin
  have T0 : ∀ n, 0 ≤ expTime a b inc l n := by
    intro n
    induction n with
    | zero => exact le_rfl
    | succ n ih => exact add_nonneg ih (le_min (by positivity) (a0.le.trans hab))
  induction n with
  | zero => simp [expTime, roundedTime]
  | succ n ih =>
    obtain ⟨i1, i2⟩ := ih
    obtain ⟨s1, s2⟩ := roundedStep_drift hmin hab hinc ha hb (n / l)
    have hrt := roundedTime_rep (R := .double) (a := a) (b := b) (inc := inc) (l := l) n
    have e := double_add_error hrt (roundedStep_rep (inc := inc) ha hb (n / l))
    have hx0 : 0 ≤ roundedTime .double a b inc l n :=
      (mul_nonneg (T0 n) (pow_nonneg (by linarith) _)).trans i1
    have hs0 := (roundedStep_grows (R := .double) a0.le hab hinc ha hb (n / l)).1
    show _ ≤ Rounding.double.rnd _ ∧ Rounding.double.rnd _ ≤ _
    set x := roundedTime .double a b inc l n
    set s := roundedStep .double a b inc (n / l)
    rw [abs_of_nonneg (by linarith : 0 ≤ x + s)] at e
    have e' := abs_le.1 e
    have e1 : Rounding.double.rnd (x + s) ≤ (x + s) * (1 + ulp2) := by unfold ulp2; linarith [e'.2]
    have e2 : (x + s) * (1 - ulp2) ≤ Rounding.double.rnd (x + s) := by unfold ulp2; linarith [e'.1]
    have hdiv : n / l ≤ (n + 1) / l := Nat.div_le_div_right (Nat.le_succ n)
    show (expTime a b inc l n + expStepSize a b inc l n) * _ ≤ _ ∧ _ ≤ (expTime a b inc l n + expStepSize a b inc l n) * _
    have hE0 : 0 ≤ expStepSize a b inc l n := le_min (by positivity) (a0.le.trans hab)
    change expStepSize a b inc l n * _ ≤ _ at s1
    change _ ≤ expStepSize a b inc l n * _ at s2
    set E := expStepSize a b inc l n
    set T := expTime a b inc l n
    have hT0 : 0 ≤ T := T0 n
    set m := n + 1 + (n + 1) / l with hm
    have hm' : n + n / l + 1 ≤ m := by omega
    have hm'' : n / l + 1 ≤ m := by omega
    have p0 : 0 ≤ 1 - ulp2 := by linarith
    constructor
    · refine le_trans ?_ e2
      have g1 : (1 - ulp2) ^ m ≤ (1 - ulp2) ^ (n + n / l + 1) := pow_le_pow_of_le_one p0 (by linarith) hm'
      have g2 : (1 - ulp2) ^ m ≤ (1 - ulp2) ^ (n / l + 1) := pow_le_pow_of_le_one p0 (by linarith) hm''
      calc (T + E) * (1 - ulp2) ^ m = T * (1 - ulp2) ^ m + E * (1 - ulp2) ^ m := by ring
        _ ≤ T * (1 - ulp2) ^ (n + n / l + 1) + E * (1 - ulp2) ^ (n / l + 1) :=
            add_le_add (mul_le_mul_of_nonneg_left g1 hT0) (mul_le_mul_of_nonneg_left g2 hE0)
        _ = (T * (1 - ulp2) ^ (n + n / l) + E * (1 - ulp2) ^ (n / l)) * (1 - ulp2) := by ring
        _ ≤ _ := mul_le_mul_of_nonneg_right (add_le_add i1 s1) p0
    · refine e1.trans ?_
      have q1 : 1 ≤ 1 + ulp2 := by linarith
      have g1 : (1 + ulp2) ^ (n + n / l + 1) ≤ (1 + ulp2) ^ m := pow_le_pow_right₀ q1 hm'
      have g2 : (1 + ulp2) ^ (n / l + 1) ≤ (1 + ulp2) ^ m := pow_le_pow_right₀ q1 hm''
      calc (x + s) * (1 + ulp2) ≤ (T * (1 + ulp2) ^ (n + n / l) + E * (1 + ulp2) ^ (n / l)) * (1 + ulp2) :=
            mul_le_mul_of_nonneg_right (add_le_add i2 s2) (by linarith)
        _ = T * (1 + ulp2) ^ (n + n / l + 1) + E * (1 + ulp2) ^ (n / l + 1) := by ring
        _ ≤ T * (1 + ulp2) ^ m + E * (1 + ulp2) ^ m :=
            add_le_add (mul_le_mul_of_nonneg_left g1 hT0) (mul_le_mul_of_nonneg_left g2 hE0)
        _ = _ := by ring

/-! ### the theorems -/

/-- what call `n` of `into_diff` returns. -/
theorem exp_double_call (c : ExpStep Double) (h : c.Fresh) (a b : Double) (l : Nat)
    (ht : c.titype = .exponential a b l) (ha : a.Rep) (hb : b.Rep) (hinc : 1 ≤ c.inc.val) (n : Nat) :
    output (TimeDiff.next ExpStep.next ExpStep.dt) n (intoDiff c) =
      .ok (if roundedTime .double a.val b.val c.inc.val l n ≤ c.tmax.val then
        some (⟨roundedTime .double a.val b.val c.inc.val l n⟩, ⟨roundedStep .double a.val b.val c.inc.val (n / l)⟩)
      else none) := by
  obtain ⟨h1, h2, h3, hat⟩ := atRounded_fresh h ht
  obtain ⟨o1, o2⟩ := atRounded_output h1 h2 hinc ha hb h3 n hat
  rw [Nat.zero_add] at o1 o2
  have hst : ∀ k, stateAfter (TimeDiff.next ExpStep.next ExpStep.dt) k (intoDiff c) =
      ⟨stateAfter ExpStep.next k c⟩ := by
    intro k
    induction k with
    | zero => rfl
    | succ k ih => rw [stateAfter_succ, stateAfter_succ, ih]; rfl
  unfold output
  rw [hst]
  unfold TimeDiff.next
  simp only
  rw [← stateAfter_succ]
  by_cases hle : roundedTime .double a.val b.val c.inc.val l n ≤ c.tmax.val
  · obtain ⟨⟨t, t1, t2⟩, d1⟩ := o2 hle
    have t2' : (ExpStep.next (stateAfter ExpStep.next n c)).2 = _ := t2
    rw [t2', if_pos hle]
    exact congrArg Res.ok (congrArg some (Prod.ext (RF.ext t1) (RF.ext d1)))
  · have t2' : (ExpStep.next (stateAfter ExpStep.next n c)).2 = _ := o1 (not_le.1 hle)
    rw [t2', if_neg hle]
    rfl

/-- The schedule in double precision.  Take any clock that has only been built and configured, with doubles
`dt_min` (at least the smallest normal number) and `dt_max` and a ratio of at least 1.  If call `n` of
`into_diff` returns the time `t` and the step `δ`, then `δ` lies in `[dt_min, dt_max]` and differs from the
documented step by at most one relative error of `u = 2^-53` for each block before it, and `t` from the
documented time by at most one for each call and each block before it.  Earlier calls return times and steps
that are not larger. -/
theorem C93_schedule (c : ExpStep Double) (h : c.Fresh) (a b : Double) (l : Nat)
    (ht : c.titype = .exponential a b l) (ha : a.Rep) (hb : b.Rep) (hmin : 2 ^ (-1022 : ℤ) ≤ a.val)
    (hinc : 1 ≤ c.inc.val) (n : Nat) (t δ : Double)
    (hn : output (TimeDiff.next ExpStep.next ExpStep.dt) n (intoDiff c) = .ok (some (t, δ))) :
    (a.val ≤ δ.val ∧ δ.val ≤ b.val) ∧
    (expStepSize a.val b.val c.inc.val l n * (1 - 1 / 2 ^ 53) ^ (n / l) ≤ δ.val ∧
      δ.val ≤ expStepSize a.val b.val c.inc.val l n * (1 + 1 / 2 ^ 53) ^ (n / l)) ∧
    (expTime a.val b.val c.inc.val l n * (1 - 1 / 2 ^ 53) ^ (n + n / l) ≤ t.val ∧
      t.val ≤ expTime a.val b.val c.inc.val l n * (1 + 1 / 2 ^ 53) ^ (n + n / l)) ∧
    ∀ m ≤ n, ∃ t' δ' : Double,
      output (TimeDiff.next ExpStep.next ExpStep.dt) m (intoDiff c) = .ok (some (t', δ')) ∧
      t'.val ≤ t.val ∧ δ'.val ≤ δ.val := by
  obtain ⟨h1, h2, h3, hat⟩ := atRounded_fresh h ht
  have hcall := exp_double_call c h a b l ht ha hb hinc
  rw [hcall n] at hn
  by_cases hle : roundedTime .double a.val b.val c.inc.val l n ≤ c.tmax.val
  swap
  · rw [if_neg hle] at hn; simp at hn
  rw [if_pos hle] at hn
  simp only [Res.ok.injEq, Option.some.injEq, Prod.mk.injEq] at hn
  obtain ⟨e1, e2⟩ := hn
  have e1' : t.val = roundedTime .double a.val b.val c.inc.val l n := by rw [← e1]
  have e2' : δ.val = roundedStep .double a.val b.val c.inc.val (n / l) := by rw [← e2]
  have hsm := roundedStep_mono (R := .double) h1 h2 hinc ha hb
  rw [e1', e2']
  refine ⟨⟨hsm (Nat.zero_le _), roundedStep_le h2 _⟩, roundedStep_drift hmin h2 hinc ha hb _,
    roundedTime_drift hmin h2 hinc ha hb _, ?_⟩
  intro m hm
  have htm := roundedTime_mono (R := .double) (l := l) h1 h2 hinc ha hb hm
  exact ⟨_, _, by rw [hcall m, if_pos (htm.trans hle)], htm, hsm (Nat.div_le_div_right hm)⟩

/-- a step that is not lost: half of it at least arrives. -/
theorem add_half {x s : ℝ} (hx : Rounding.double.rnd x = x) (hs : Rounding.double.rnd s = s) (x0 : 0 ≤ x) (s0 : 0 ≤ s)
    (h : x ≤ 2 ^ 51 * s) : x + s / 2 ≤ Rounding.double.rnd (x + s) := by
  have e := double_add_error hx hs
  rw [abs_of_nonneg (by linarith : 0 ≤ x + s)] at e
  have e' := (abs_le.1 e).1
  have : (x + s) / 2 ^ 53 ≤ s / 2 := by
    rw [div_le_iff₀ (by positivity)]
    norm_num at h ⊢
    linarith
  linarith

/-- from block `q` on the step is at least `s`: then the times rise by half of it at each call. -/
theorem roundedTime_rises {a b inc : ℝ} {l : Nat} (h0 : 0 ≤ a) (hab : a ≤ b) (hinc : 1 ≤ inc)
    (ha : Rounding.double.rnd a = a) (hb : Rounding.double.rnd b = b) {q : Nat} (hl : 0 < l) {s tmax : ℝ} (s0 : 0 ≤ s)
    (hs : Rounding.double.rnd s = s)
    (hq : s ≤ roundedStep .double a b inc q) (hmax : tmax ≤ 2 ^ 51 * s) (j : Nat)
    (hrun : roundedTime .double a b inc l (l * q + j) ≤ tmax) :
    j * (s / 2) ≤ roundedTime .double a b inc l (l * q + j) := by
  induction j with
  | zero =>
    simp only [Nat.cast_zero, zero_mul]
    exact roundedTime_mono (R := .double) (l := l) h0 hab hinc ha hb (Nat.zero_le _)
  | succ j ih =>
    have hm := roundedTime_mono (R := .double) (l := l) h0 hab hinc ha hb (by omega : l * q + j ≤ l * q + (j + 1))
    have i := ih (hm.trans hrun)
    have hqj : q ≤ (l * q + j) / l := by rw [Nat.le_div_iff_mul_le hl]; nlinarith
    have hstep := hq.trans (roundedStep_mono (R := .double) h0 hab hinc ha hb hqj)
    have x0 : 0 ≤ roundedTime .double a b inc l (l * q + j) :=
      roundedTime_mono (R := .double) (l := l) h0 hab hinc ha hb (Nat.zero_le _)
    have hx := add_half (roundedTime_rep (R := .double) (a := a) (b := b) (inc := inc) (l := l) (l * q + j)) hs
      x0 s0 ((hm.trans hrun).trans hmax)
    have hmn := Rounding.double.mono _ _ (add_le_add_right hstep (roundedTime .double a b inc l (l * q + j)))
    show _ ≤ Rounding.double.rnd (roundedTime .double a b inc l (l * q + j) + roundedStep .double a b inc ((l * q + j) / l))
    push_cast
    linarith

/-- with a ratio of at least 1.1 the step reaches `dt_max` after finitely many blocks. -/
theorem roundedStep_reaches {a b inc : ℝ} (hmin : 2 ^ (-1022 : ℤ) ≤ a) (hab : a ≤ b) (hinc : 11 / 10 ≤ inc)
    (ha : Rounding.double.rnd a = a) (hb : Rounding.double.rnd b = b) (q : Nat) :
    min (a * (21 / 20) ^ q) b ≤ roundedStep .double a b inc q := by
  have a0 : 0 < a := (two_zpow_pos _).trans_le hmin
  induction q with
  | zero => simp [roundedStep, hab]
  | succ q ih =>
    have hS : a ≤ roundedStep .double a b inc q :=
      roundedStep_mono (R := .double) a0.le hab (by linarith) ha hb (Nat.zero_le q)
    have hS0 := a0.le.trans hS
    have hprod : 2 ^ (-1022 : ℤ) ≤ roundedStep .double a b inc q * inc :=
      (hmin.trans hS).trans (le_mul_of_one_le_right hS0 (by linarith))
    obtain ⟨e1, _⟩ := double_normal_error hprod
    show _ ≤ min _ _
    refine le_min ?_ (min_le_right _ _)
    refine le_trans ?_ e1
    have g : (21 / 20 : ℝ) ≤ inc * (1 - 1 / 2 ^ 53) := by
      have : (11 / 10 : ℝ) * (1 - 1 / 2 ^ 53) ≤ inc * (1 - 1 / 2 ^ 53) := mul_le_mul_of_nonneg_right hinc (by norm_num)
      refine le_trans ?_ this
      norm_num
    have h1 : roundedStep .double a b inc q * (21 / 20) ≤ roundedStep .double a b inc q * (inc * (1 - 1 / 2 ^ 53)) :=
      mul_le_mul_of_nonneg_left g hS0
    rw [mul_assoc]
    refine le_trans ?_ h1
    rcases le_total (a * (21 / 20) ^ q) b with h | h
    · rw [min_eq_left h] at ih
      refine (min_le_left _ _).trans ?_
      rw [pow_succ, ← mul_assoc]
      exact mul_le_mul_of_nonneg_right ih (by norm_num)
    · rw [min_eq_right h] at ih
      refine (min_le_right _ _).trans ?_
      linarith

/-- the clock's own calls, from those of `into_diff`. -/
theorem exp_double_next (c : ExpStep Double) (h : c.Fresh) (a b : Double) (l : Nat)
    (ht : c.titype = .exponential a b l) (ha : a.Rep) (hb : b.Rep) (hinc : 1 ≤ c.inc.val) (n : Nat) :
    (c.tmax.val < roundedTime .double a.val b.val c.inc.val l n → output ExpStep.next n c = .ok none) ∧
    (roundedTime .double a.val b.val c.inc.val l n ≤ c.tmax.val →
      output ExpStep.next n c = .ok (some ⟨roundedTime .double a.val b.val c.inc.val l n⟩)) := by
  obtain ⟨h1, h2, h3, hat⟩ := atRounded_fresh h ht
  obtain ⟨o1, o2⟩ := atRounded_output h1 h2 hinc ha hb h3 n hat
  rw [Nat.zero_add] at o1 o2
  refine ⟨o1, fun hle => ?_⟩
  obtain ⟨⟨t, t1, t2⟩, _⟩ := o2 hle
  rw [t2]
  exact congrArg Res.ok (congrArg some (RF.ext t1))

/-- The clock ends.  With a ratio of at least 1.1 and a limit of at most `2^51` of the largest steps it returns
`None` after at most `length * q + 2 tmax / dt_max + 1` calls, `q` the number of blocks in which the step grows
from `dt_min` to `dt_max` by a twentieth each.  With a ratio of at least 1 the limit must be at most `2^51` of the smallest steps. -/
theorem C93_ends (c : ExpStep Double) (h : c.Fresh) (a b : Double) (l : Nat)
    (ht : c.titype = .exponential a b l) (ha : a.Rep) (hb : b.Rep) (hmin : 2 ^ (-1022 : ℤ) ≤ a.val) (k : Nat) :
    (11 / 10 ≤ c.inc.val → c.tmax.val ≤ 2 ^ 51 * b.val → ∀ q : Nat, b.val ≤ a.val * (21 / 20) ^ q →
      l * q + 2 * c.tmax.val / b.val < k → output ExpStep.next k c = .ok none) ∧
    (1 ≤ c.inc.val → c.tmax.val ≤ 2 ^ 51 * a.val → 2 * c.tmax.val / a.val < k →
      output ExpStep.next k c = .ok none) := by
  obtain ⟨h1, h2, h3, hat⟩ := atRounded_fresh h ht
  have a0 : 0 < a.val := (two_zpow_pos _).trans_le hmin
  have main : ∀ (q : Nat) (s : ℝ), 1 ≤ c.inc.val → 0 < s → Rounding.double.rnd s = s →
      s ≤ roundedStep .double a.val b.val c.inc.val q → c.tmax.val ≤ 2 ^ 51 * s →
      l * q + 2 * c.tmax.val / s < k → output ExpStep.next k c = .ok none := by
    intro q s hinc s0 hs hq hmax hk
    refine (exp_double_next c h a b l ht ha hb hinc k).1 ?_
    by_contra hcon
    have hrun := not_lt.1 hcon
    have t0 : 0 ≤ c.tmax.val :=
      le_trans (roundedTime_mono (R := .double) (l := l) h1 h2 hinc ha hb (Nat.zero_le k)) hrun
    have hlk : l * q ≤ k := by
      have : 0 ≤ 2 * c.tmax.val / s := by positivity
      have : ((l * q : ℕ) : ℝ) ≤ k := by push_cast; linarith
      exact_mod_cast this
    obtain ⟨j, rfl⟩ := Nat.exists_eq_add_of_le hlk
    have := (roundedTime_rises h1 h2 hinc ha hb h3 s0.le hs hq hmax j hrun).trans hrun
    push_cast at hk
    have hj : 2 * c.tmax.val / s < j := by linarith
    rw [div_lt_iff₀ s0] at hj
    linarith
  refine ⟨fun hinc hmax q hq hk => ?_, fun hinc hmax hk => ?_⟩
  · have := roundedStep_reaches hmin h2 hinc ha hb q
    rw [min_eq_right hq] at this
    exact main q b.val (by linarith) (a0.trans_le h2) hb this hmax hk
  · exact main 0 a.val hinc a0 ha le_rfl hmax (by simpa using hk)

/-- a double times `2^55` is a double. -/
theorem rep_scaled {d : ℝ} (d0 : 0 < d) (hd : Rounding.double.rnd d = d) : Rounding.double.rnd (2 ^ 55 * d) = 2 ^ 55 * d := by
  obtain ⟨n, hn⟩ := double_last hd
  have l : lastBit 53 (-1074) (2 ^ 55 * d) ≤ lastBit 53 (-1074) d + 55 := by
    have : Int.log 2 (2 ^ 55 * d) ≤ Int.log 2 d + 55 := by
      have hp : (0 : ℝ) < 2 ^ 55 * d := by positivity
      by_contra hcon
      have b := (log_bounds hp).1
      have b' := (log_bounds d0).2
      have : (2 : ℝ) ^ (Int.log 2 d + 1 + 55) ≤ 2 ^ Int.log 2 (2 ^ 55 * d) :=
        zpow_le_zpow_right₀ (by norm_num) (by omega)
      rw [zpow_add₀ (by norm_num : (2 : ℝ) ≠ 0) _ 55, show (55 : ℤ) = ((55 : ℕ) : ℤ) by norm_num, zpow_natCast] at this
      have p55 : (0 : ℝ) < 2 ^ 55 := by positivity
      nlinarith
    unfold lastBit
    rw [abs_of_pos d0, abs_of_pos (by positivity)]
    omega
  obtain ⟨m, hm⟩ := multiple_lower l ⟨n, by
    rw [zpow_add₀ (by norm_num : (2 : ℝ) ≠ 0) _ 55, show (55 : ℤ) = ((55 : ℕ) : ℤ) by norm_num, zpow_natCast,
      ← mul_assoc, ← hn, mul_comm]⟩
  exact binaryRound_of_multiple m hm

/-- The clock never ends when its limit is `2^55` of the largest steps or more (for instance none): every call
returns a time of at most `2^55 dt_max`. -/
theorem C93_never_ends (c : ExpStep Double) (h : c.Fresh) (a b : Double) (l : Nat)
    (ht : c.titype = .exponential a b l) (ha : a.Rep) (hb : b.Rep) (b0 : 0 < b.val) (hinc : 1 ≤ c.inc.val)
    (hmax : 2 ^ 55 * b.val ≤ c.tmax.val) (k : Nat) :
    ∃ t : Double, output ExpStep.next k c = .ok (some t) ∧ t.val ≤ 2 ^ 55 * b.val := by
  obtain ⟨h1, h2, h3, hat⟩ := atRounded_fresh h ht
  have key : ∀ n, roundedTime .double a.val b.val c.inc.val l n ≤ 2 ^ 55 * b.val := by
    intro n
    induction n with
    | zero => show (0 : ℝ) ≤ _; positivity
    | succ n ih =>
      have h1 := Rounding.double.mono _ _ (add_le_add ih (roundedStep_le (R := .double) (inc := c.inc.val) h2 (n / l)))
      have h2 := double_absorbs (rep_scaled b0 hb) b0 (by norm_num; linarith)
      rw [h2] at h1
      exact h1
  exact ⟨_, (exp_double_next c h a b l ht ha hb hinc k).2 ((key k).trans hmax), key k⟩

/-- every reachable clock keeps its step at or below `dt_max`. -/
theorem exp_step_le {c : ExpStep Double} (h : c.Reachable) :
    ∃ a b l, c.titype = .exponential a b l ∧ a.val ≤ b.val ∧ c.dt.val ≤ b.val := by
  have bump_le : ∀ (c : ExpStep Double) (b : Double) (l : Nat), c.dt.val ≤ b.val → (c.bump b l).dt.val ≤ b.val := by
    intro c b l hc
    unfold ExpStep.bump
    split
    · simp only
      split
      · exact le_rfl
      · rename_i hgt
        simpa [Fl.gt, RF.lt_val] using hgt
    · exact hc
  induction h with
  | @new a b l c hc =>
    unfold ExpStep.new at hc; split at hc <;> simp at hc
    rename_i hlt
    simp only [RF.lt_val, Fl.gt, Bool.or_eq_true, decide_eq_true_eq, not_or, not_lt, beq_iff_eq] at hlt
    exact ⟨a, b, l, by rw [← hc], hlt.1.2, by rw [← hc]; exact hlt.1.2⟩
  | @convert a b l tmax c hc =>
    unfold ExpStep.convertFrom at hc; split at hc <;> simp at hc
    rename_i hlt
    simp only [RF.lt_val, Fl.gt, Bool.or_eq_true, decide_eq_true_eq, not_or, not_lt] at hlt
    exact ⟨a, b, l, by rw [← hc], hlt.1.2, by rw [← hc]; exact hlt.1.2⟩
  | @next c _ ih =>
    obtain ⟨a, b, l, e1, e2, e3⟩ := ih
    obtain ⟨f1, f2, f3, f4⟩ := ExpStep.bump_fields c b l
    refine ⟨a, b, l, ?_, e2, ?_⟩
    · unfold ExpStep.next
      rw [e1]
      simp only
      split <;> simp [f1, e1]
    · unfold ExpStep.next
      rw [e1]
      simp only
      split
      · exact bump_le c b l e3
      · exact bump_le c b l e3
  | @renew c _ ih =>
    obtain ⟨a, b, l, e1, e2, e3⟩ := ih
    refine ⟨a, b, l, ?_, e2, ?_⟩
    · unfold ExpStep.renew; simp [e1]
    · unfold ExpStep.renew; simp [e1]; exact e2
  | setTmax t _ ih =>
    unfold ExpStep.setTmax; split; · exact ih
    split <;> exact ih
  | setInc x _ ih =>
    unfold ExpStep.setInc; split; · exact ih
    split
    · split <;> exact ih
    · exact ih

/-- Standstill: a clock in any state it can get into (whatever its ratio) that has passed `2^54 dt_max` returns
the same time for ever. -/
theorem C93_stands_still (c : ExpStep Double) (hc : c.Reachable) (a b : Double) (l : Nat)
    (ht : c.titype = .exponential a b l) (hbig : 2 ^ 54 * b.val < c.current.val) (hrun : c.current.val ≤ c.tmax.val)
    (k : Nat) : output ExpStep.next k c = .ok (some c.current) := by
  induction k generalizing c with
  | zero =>
    obtain ⟨f1, f2, f3, f4⟩ := ExpStep.bump_fields c b l
    show c.next.2 = _
    unfold ExpStep.next
    rw [ht]
    simp only [f2, f4]
    rw [if_pos (by simpa [RF.le_val] using hrun)]
  | succ k ih =>
    obtain ⟨f1, f2, f3, f4⟩ := ExpStep.bump_fields c b l
    obtain ⟨a', b', l', t', q1, q2⟩ := exp_step_le hc.next
    have n0 := (ExpStep.reachable_inv hc.next).2.2.1
    have hnext : c.next.1 = { c.bump b l with current := (c.bump b l).current + (c.bump b l).dt, count := (c.bump b l).count + 1 } := by
      unfold ExpStep.next
      rw [ht]
      simp only [f2, f4]
      rw [if_pos (by simpa [RF.le_val] using hrun)]
    have ht' : c.next.1.titype = .exponential a b l := by rw [hnext]; exact f1.trans ht
    have hb' : b' = b := by rw [ht'] at t'; simp at t'; exact t'.2.1.symm
    rw [hb'] at q2
    have hcur : c.next.1.current = c.current := by
      refine RF.ext ?_
      have e : c.next.1.current.val = Rounding.double.rnd (c.current.val + c.next.1.dt.val) := by
        rw [hnext]; show ((c.bump b l).current + (c.bump b l).dt).val = _; rw [RF.val_add, f2]
      rw [e]
      have hrep := (ExpStep.reachable_inv hc).1
      rcases n0.eq_or_lt with z | z
      · rw [← z, add_zero]; exact hrep
      · exact double_absorbs hrep z (lt_of_le_of_lt (by nlinarith) hbig)
    have htm : c.next.1.tmax = c.tmax := by rw [hnext]; exact f4
    rw [output_succ, ih c.next.1 hc.next ht' (by rw [hcur]; exact hbig) (by rw [hcur, htm]; exact hrun), hcur]

/-- the ratio 1.2 of `convert_from` as a double. -/
theorem ratio_double : 11 / 10 ≤ (Fl.lit (12 / 10) : Double).val := by
  rw [RF.val_lit]
  have e := (double_normal_error (x := ((12 / 10 : ℚ) : ℝ)) ?_).1
  · refine le_trans ?_ e
    push_cast; norm_num
  · push_cast
    have : (2 : ℝ) ^ (-1022 : ℤ) ≤ 2 ^ (0 : ℤ) := zpow_le_zpow_right₀ (by norm_num) (by norm_num)
    rw [zpow_zero] at this
    refine this.trans ?_
    norm_num

/-- The clock that a simulation gets from its arguments (`convert_from`), all of them doubles, the smallest step
a normal number: with a limit of at least 1e-15 (what is below counts as no limit) and at most `2^51` of the
largest steps it always ends, within the calls told in C93_ends; with none, or one of `2^55` of the largest
steps or more, never. -/
theorem C93_simulation_clock (a b tmax : Double) (l : Nat) (c : ExpStep Double) (hc : ExpStep.convertFrom a b l tmax = .ok c)
    (ha : a.Rep) (hb : b.Rep) (hmin : 2 ^ (-1022 : ℤ) ≤ a.val) (k : Nat) :
    ((Fl.lit (1 / 10 ^ 15) : Double).val ≤ tmax.val → tmax.val ≤ 2 ^ 51 * b.val →
      ∀ q : Nat, b.val ≤ a.val * (21 / 20) ^ q → l * q + 2 * tmax.val / b.val < k →
      output ExpStep.next k c = .ok none) ∧
    ((Fl.lit (1 / 10 ^ 15) : Double).val ≤ tmax.val → 2 ^ 55 * b.val ≤ tmax.val →
      ∃ t : Double, output ExpStep.next k c = .ok (some t)) ∧
    (tmax.val < (Fl.lit (1 / 10 ^ 15) : Double).val → 2 ^ 55 * b.val ≤ (Fl.maxVal : Double).val →
      ∃ t : Double, output ExpStep.next k c = .ok (some t)) := by
  have hf : c.Fresh := .convert hc
  unfold ExpStep.convertFrom at hc
  split at hc
  · simp at hc
  rename_i hlt
  replace hc := Res.ok.inj hc
  simp only [RF.lt_val, Fl.gt, Bool.or_eq_true, decide_eq_true_eq, not_or, not_lt] at hlt
  have b0 : 0 < b.val := ((two_zpow_pos _).trans_le hmin).trans_le hlt.1.2
  have ht : c.titype = .exponential a b l := by rw [← hc]
  have hi : c.inc = Fl.lit (12 / 10) := by rw [← hc]
  have hinc : 11 / 10 ≤ c.inc.val := by rw [hi]; exact ratio_double
  have htm : c.tmax = if Fl.lt tmax (Fl.lit (1 / 10 ^ 15)) then Fl.maxVal else tmax := by rw [← hc]
  have h1 : (Fl.lit (1 / 10 ^ 15) : Double).val ≤ tmax.val → c.tmax = tmax := by
    intro h
    rw [htm, if_neg]
    simpa [RF.lt_val] using h
  have h2 : tmax.val < (Fl.lit (1 / 10 ^ 15) : Double).val → c.tmax = Fl.maxVal := by
    intro h
    rw [htm, if_pos]
    simpa [RF.lt_val] using h
  refine ⟨fun h hmax q hq hk => ?_, fun h hmax => ?_, fun h hmax => ?_⟩
  · refine (C93_ends c hf a b l ht ha hb hmin k).1 hinc ?_ q hq ?_
    · rw [h1 h]; exact hmax
    · rw [h1 h]; exact hk
  · obtain ⟨t, ht', _⟩ := C93_never_ends c hf a b l ht ha hb b0 (by linarith) (by rw [h1 h]; exact hmax) k
    exact ⟨t, ht'⟩
  · obtain ⟨t, ht', _⟩ := C93_never_ends c hf a b l ht ha hb b0 (by linarith) (by rw [h2 h]; exact hmax) k
    exact ⟨t, ht'⟩

/-- the hypotheses can be met: steps from 1/1024 to 1, blocks of ten, limit 100; `q = 143` blocks. -/
example : ∃ (a b tmax : Double) (c : ExpStep Double), ExpStep.convertFrom a b 10 tmax = .ok c ∧ a.Rep ∧ b.Rep ∧
    2 ^ (-1022 : ℤ) ≤ a.val ∧ (Fl.lit (1 / 10 ^ 15) : Double).val ≤ tmax.val ∧ tmax.val ≤ 2 ^ 51 * b.val ∧
    b.val ≤ a.val * (21 / 20) ^ 143 := by
  have r2 : ∀ k : ℤ, -1074 ≤ k → Rounding.double.rnd (2 ^ k) = 2 ^ k := fun k hk => double_pow2 hk
  have e1 : Rounding.double.rnd 1 = 1 := by simpa using r2 0 (by norm_num)
  have e10 : (2 : ℝ) ^ (-10 : ℤ) = 1 / 1024 := by norm_num
  have ea : Rounding.double.rnd (1 / 1024) = 1 / 1024 := by rw [← e10]; exact r2 (-10) (by norm_num)
  have l15 : (Fl.lit (1 / 10 ^ 15) : Double).val ≤ 1 := by
    rw [RF.val_lit, ← e1]
    refine Rounding.double.mono _ _ ?_
    push_cast; norm_num
  have z : (Fl.zero : Double).val = 0 := RF.lit_zero_val
  have hc : ∃ c, ExpStep.convertFrom (⟨1 / 1024⟩ : Double) ⟨1⟩ 10 ⟨100⟩ = .ok c := by
    unfold ExpStep.convertFrom
    rw [if_neg]
    · exact ⟨_, rfl⟩
    simp only [RF.lt_val, Fl.gt, z, Bool.or_eq_true, decide_eq_true_eq, not_or, not_lt]
    norm_num
  obtain ⟨c, hc⟩ := hc
  refine ⟨⟨1 / 1024⟩, ⟨1⟩, ⟨100⟩, c, hc, ea, e1, ?_, ?_, ?_, ?_⟩
  · have : (2 : ℝ) ^ (-1022 : ℤ) ≤ 2 ^ (-10 : ℤ) := zpow_le_zpow_right₀ (by norm_num) (by norm_num)
    rw [e10] at this; exact this
  · exact l15.trans (by norm_num)
  · norm_num
  · norm_num

end Moledyn.Props
