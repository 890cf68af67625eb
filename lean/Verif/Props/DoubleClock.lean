import Verif.Lemmas.Time
import Verif.Model.Binary
import Mathlib.Algebra.Order.Ring.Pow
/-
C65: the constant clock in double precision: drift, end, standstill.
-/
set_option linter.unusedSimpArgs false
namespace Moledyn.Props
open Moledyn

/-- a double is a multiple of the smallest one. -/
theorem double_multiple {x : ℝ} (h : Rounding.double.rnd x = x) : ∃ n : ℤ, x = n * 2 ^ (-1074 : ℤ) :=
  multiple_lower (le_max_right _ _) ⟨_, h.symm⟩

/-- … and of its last bit. -/
theorem double_last {x : ℝ} (h : Rounding.double.rnd x = x) : ∃ n : ℤ, x = n * 2 ^ lastBit 53 (-1074) x :=
  ⟨_, h.symm⟩

/-- the sum of two doubles is rounded with a relative error of at most `2^-53`, underflow included. -/
theorem double_add_error {a b : ℝ} (ha : Rounding.double.rnd a = a) (hb : Rounding.double.rnd b = b) :
    |Rounding.double.rnd (a + b) - (a + b)| ≤ |a + b| / 2 ^ 53 := by
  obtain ⟨n, hn⟩ := double_multiple ha
  obtain ⟨m, hm⟩ := double_multiple hb
  rcases le_or_gt (Int.log 2 |a + b| + 1 - (53 : ℕ)) (-1074) with h | h
  · have l : lastBit 53 (-1074) (a + b) = -1074 := max_eq_right h
    have : Rounding.double.rnd (a + b) = a + b := by
      refine binaryRound_of_multiple (n + m) ?_
      rw [l]; push_cast; rw [add_mul, ← hn, ← hm]
    rw [this]; simp; positivity
  · have l : lastBit 53 (-1074) (a + b) = Int.log 2 |a + b| + 1 - (53 : ℕ) := max_eq_left h.le
    rcases eq_or_ne (a + b) 0 with h0 | h0
    · rw [h0, Rounding.double.zero]; simp
    have e := binaryRound_error (p := 53) (emin := -1074) (a + b)
    refine e.trans ?_
    have b1 := (log_bounds (abs_pos.2 h0)).1
    rw [l, show Int.log 2 |a + b| + 1 - ((53 : ℕ) : ℤ) = Int.log 2 |a + b| + (-52) by push_cast; ring,
      zpow_add₀ (by norm_num), le_div_iff₀ (by norm_num)]
    calc _ = (2 : ℝ) ^ Int.log 2 |a + b| := by
          rw [show (-52 : ℤ) = -((52 : ℕ) : ℤ) by norm_num, zpow_neg, zpow_natCast]; norm_num; ring
      _ ≤ _ := b1

/-- adding less than a quarter of the last bit changes nothing. -/
theorem double_absorbs {c d : ℝ} (hc : Rounding.double.rnd c = c) (hd : 0 < d) (h : 2 ^ 54 * d < c) :
    Rounding.double.rnd (c + d) = c := by
  have c0 : 0 < c := lt_trans (by positivity) h
  obtain ⟨n, hn⟩ := double_last hc
  set k := lastBit 53 (-1074) c with hk
  have k0 := two_zpow_pos k
  obtain ⟨b1, b2⟩ := log_bounds c0
  have klow : Int.log 2 c + 1 - (53 : ℕ) ≤ k := by
    rw [hk]; unfold lastBit; rw [abs_of_pos c0]; exact le_max_left _ _
  -- d is less than half of the last bit
  have hdk : d < 2 ^ k / 2 := by
    have h1 : (2 : ℝ) ^ (Int.log 2 c + 1) ≤ 2 ^ (k + 53) := zpow_le_zpow_right₀ (by norm_num) (by push_cast at klow; omega)
    rw [zpow_add₀ (by norm_num : (2 : ℝ) ≠ 0) k 53, show (53 : ℤ) = ((53 : ℕ) : ℤ) by norm_num, zpow_natCast] at h1
    have h2 : 2 ^ 54 * d < 2 ^ k * 2 ^ 53 := h.trans (b2.trans_le h1)
    have : (2 : ℝ) ^ 54 = 2 * 2 ^ 53 := by norm_num
    rw [this] at h2
    have p53 : (0 : ℝ) < 2 ^ 53 := by positivity
    by_contra hcon
    have : 2 ^ k / 2 * (2 * 2 ^ 53) ≤ d * (2 * (2 : ℝ) ^ 53) := mul_le_mul_of_nonneg_right (not_lt.1 hcon) (by positivity)
    linarith
  -- the sum has the same last bit
  have ksum : lastBit 53 (-1074) (c + d) = k := by
    have hs : 0 < c + d := by linarith
    have hlog : Int.log 2 (c + d) = Int.log 2 c := by
      refine le_antisymm ?_ (Int.log_mono_right c0 (by linarith))
      by_contra hgt
      have hgt' : Int.log 2 c + 1 ≤ Int.log 2 (c + d) := by omega
      have h1 : (2 : ℝ) ^ (Int.log 2 c + 1) ≤ c + d :=
        (zpow_le_zpow_right₀ (by norm_num) hgt').trans (log_bounds hs).1
      -- c is at least one last bit below the power of two
      have hke : k ≤ Int.log 2 c + 1 := by
        by_contra hcon
        have : (2 : ℝ) ^ (Int.log 2 c + 1) ≤ 2 ^ k := zpow_le_zpow_right₀ (by norm_num) (by omega)
        have hn1 : n < 1 := by
          by_contra hn1
          have : (1 : ℝ) ≤ n := by exact_mod_cast not_lt.1 hn1
          have : 2 ^ k ≤ c := by rw [hn]; nlinarith
          linarith
        have : (n : ℝ) ≤ 0 := by exact_mod_cast (by omega : n ≤ 0)
        have : c ≤ 0 := by rw [hn]; exact mul_nonpos_of_nonpos_of_nonneg this k0.le
        linarith
      obtain ⟨m, hm⟩ := multiple_lower (x := (2 : ℝ) ^ (Int.log 2 c + 1)) hke ⟨1, by simp⟩
      have hnm : n < m := by
        have : (n : ℝ) * 2 ^ k < m * 2 ^ k := by rw [← hn, ← hm]; exact b2
        exact_mod_cast lt_of_mul_lt_mul_right this k0.le
      have : (n : ℝ) + 1 ≤ m := by exact_mod_cast hnm
      have : ((n : ℝ) + 1) * 2 ^ k ≤ m * 2 ^ k := mul_le_mul_of_nonneg_right this k0.le
      rw [← hm, add_mul, ← hn, one_mul] at this
      linarith
    rw [hk]; unfold lastBit
    rw [abs_of_pos hs, abs_of_pos c0, hlog]
  show binaryRound 53 (-1074) (c + d) = c
  unfold binaryRound
  rw [ksum]
  have : roundEven ((c + d) / 2 ^ k) = n := by
    have e : (c + d) / 2 ^ k = n + d / 2 ^ k := by
      rw [add_div]; congr 1
      rw [div_eq_iff k0.ne']; exact hn
    have q1 : 0 < d / 2 ^ k := by positivity
    have q2 : d / 2 ^ k < 1 / 2 := by rw [div_lt_iff₀ k0]; linarith
    have q : |(n : ℝ) - (n + d / 2 ^ k)| = d / 2 ^ k := by
      rw [abs_of_nonpos (by linarith)]; ring
    rw [e]
    exact roundEven_unique (by rw [q]; exact q2.le) (fun h => by rw [q] at h; linarith)
  rw [this]; exact hn.symm

/-! ### the clock -/
abbrev Double := RF Rounding.double

theorem fresh_reachable {F : Type} [Fl F] {c : ConstStep F} (h : c.Fresh) : c.Reachable := by
  induction h with
  | new h => exact .new h
  | convert h => exact .convert h
  | setTmax t _ ih => exact .setTmax t ih

theorem fresh_zero {c : ConstStep Double} (h : c.Fresh) : c.current.val = 0 := by
  induction h with
  | new h =>
    unfold ConstStep.new at h
    split at h <;> simp at h
    subst h; exact RF.lit_zero_val
  | convert h =>
    unfold ConstStep.convertFrom at h
    split at h <;> simp at h
    subst h; exact RF.lit_zero_val
  | setTmax t _ ih =>
    unfold ConstStep.setTmax
    split
    · exact ih
    · split <;> exact ih

theorem next_double (d : ConstStep Double) : d.next =
    if d.current.val ≤ d.tmax.val then ({ d with current := d.current + d.dt }, .ok (some d.current))
    else (d, .ok none) := by
  unfold ConstStep.next
  simp only [RF.le_val, decide_eq_true_eq]

theorem tick {c : ConstStep Double} (k : Nat) :
    (stateAfter ConstStep.next k c).dt = c.dt ∧ (stateAfter ConstStep.next k c).tmax = c.tmax ∧
    output ConstStep.next k c = .ok (if (stateAfter ConstStep.next k c).current.val ≤ c.tmax.val then
      some (stateAfter ConstStep.next k c).current else none) ∧
    (stateAfter ConstStep.next (k + 1) c).current.val =
      if (stateAfter ConstStep.next k c).current.val ≤ c.tmax.val then
        Rounding.double.rnd ((stateAfter ConstStep.next k c).current.val + c.dt.val)
      else (stateAfter ConstStep.next k c).current.val := by
  have key : (stateAfter ConstStep.next k c).dt = c.dt ∧ (stateAfter ConstStep.next k c).tmax = c.tmax := by
    induction k with
    | zero => exact ⟨rfl, rfl⟩
    | succ k ih =>
      rw [stateAfter_succ]
      rw [next_double]
      split
      · exact ih
      · exact ih
  refine ⟨key.1, key.2, ?_, ?_⟩
  · unfold output
    rw [next_double, key.2]
    by_cases h : (stateAfter ConstStep.next k c).current.val ≤ c.tmax.val
    · rw [if_pos h, if_pos h]
    · rw [if_neg h, if_neg h]
  · rw [stateAfter_succ, next_double, key.2, key.1]
    by_cases h : (stateAfter ConstStep.next k c).current.val ≤ c.tmax.val
    · rw [if_pos h, if_pos h]; rfl
    · rw [if_neg h, if_neg h]

theorem current_rep {c : ConstStep Double} (h : c.Reachable) (k : Nat) :
    Rounding.double.rnd (stateAfter ConstStep.next k c).current.val = (stateAfter ConstStep.next k c).current.val :=
  (ConstStep.reachable_inv (ConstStep.stateAfter_inv h k)).1

/-- once the clock is over, it stays where it is. -/
theorem over_stays {c : ConstStep Double} {j : Nat}
    (h : ¬ (stateAfter ConstStep.next j c).current.val ≤ c.tmax.val) {k : Nat} (hk : j ≤ k) :
    (stateAfter ConstStep.next k c).current.val = (stateAfter ConstStep.next j c).current.val := by
  induction k, hk using Nat.le_induction with
  | base => rfl
  | succ k hk ih =>
    rw [(tick k).2.2.2, ih, if_neg h]

theorem running_before {c : ConstStep Double} {j k : Nat} (hj : j ≤ k)
    (h : (stateAfter ConstStep.next k c).current.val ≤ c.tmax.val) :
    (stateAfter ConstStep.next j c).current.val ≤ c.tmax.val := by
  by_contra hc
  rw [over_stays hc hj] at h
  exact hc h

/-- Drift: if the clock in double precision returns a time for its `k`-th call, it differs from `k * dt` by a
relative error of at most `k u / (1 - k u)`, `u = 2^-53`. -/
theorem C65_drift (c : ConstStep Double) (hc : c.Fresh) (hdt : c.dt.Rep) (k : Nat) (hk : (k : ℝ) < 2 ^ 53) (t : Double)
    (ht : output ConstStep.next k c = .ok (some t)) :
    |t.val - k * c.dt.val| ≤ k * c.dt.val * (k / 2 ^ 53 / (1 - k / 2 ^ 53)) := by
  have hr : c.Reachable := fresh_reachable hc
  have h0 : c.current.val = 0 := fresh_zero hc
  have d0 : 0 ≤ c.dt.val := (ConstStep.reachable_inv hr).2.2
  set u : ℝ := 1 / 2 ^ 53 with hu
  have u0 : 0 < u := by positivity
  have u1 : u < 1 := by rw [hu]; norm_num
  -- the bounds
  have key : ∀ j ≤ k, (stateAfter ConstStep.next j c).current.val ≤ j * c.dt.val * (1 + u) ^ j ∧
      j * c.dt.val * (1 - u) ^ j ≤ (stateAfter ConstStep.next j c).current.val := by
    have hrun : (stateAfter ConstStep.next k c).current.val ≤ c.tmax.val := by
      rw [(tick k).2.2.1] at ht
      by_contra hcon
      rw [if_neg hcon] at ht; simp at ht
    intro j
    induction j with
    | zero => intro _; simp [stateAfter, h0]
    | succ j ih =>
      intro hj
      obtain ⟨i1, i2⟩ := ih (by omega)
      rw [(tick j).2.2.2, if_pos (running_before (by omega : j ≤ k) hrun)]
      have e := double_add_error (current_rep hr j) hdt
      set x := (stateAfter ConstStep.next j c).current.val
      have p2 : 0 ≤ (1 - u) ^ j := pow_nonneg (by linarith) _
      have x0 : 0 ≤ x := le_trans (by positivity) i2
      rw [abs_of_nonneg (by linarith : 0 ≤ x + c.dt.val)] at e
      have e' := abs_le.1 e
      have e1 : Rounding.double.rnd (x + c.dt.val) ≤ (x + c.dt.val) * (1 + u) := by
        rw [hu]; linarith [e'.2]
      have e2 : (x + c.dt.val) * (1 - u) ≤ Rounding.double.rnd (x + c.dt.val) := by
        rw [hu]; linarith [e'.1]
      constructor
      · refine e1.trans ?_
        have g : (1 : ℝ) ≤ (1 + u) ^ j := one_le_pow₀ (by linarith)
        have : x + c.dt.val ≤ (j + 1) * c.dt.val * (1 + u) ^ j := by
          have := mul_le_mul_of_nonneg_left g d0
          linarith
        calc _ ≤ (j + 1) * c.dt.val * (1 + u) ^ j * (1 + u) := mul_le_mul_of_nonneg_right this (by linarith)
          _ = _ := by push_cast; ring
      · refine le_trans ?_ e2
        have g : (1 - u) ^ j ≤ 1 := pow_le_one₀ (by linarith) (by linarith)
        have : (j + 1) * c.dt.val * (1 - u) ^ j ≤ x + c.dt.val := by
          have := mul_le_mul_of_nonneg_left g d0
          linarith
        calc _ = (j + 1) * c.dt.val * (1 - u) ^ j * (1 - u) := by push_cast; ring
          _ ≤ _ := mul_le_mul_of_nonneg_right this (by linarith)
  obtain ⟨k1, k2⟩ := key k le_rfl
  have et : t.val = (stateAfter ConstStep.next k c).current.val := by
    rw [(tick k).2.2.1] at ht
    split at ht
    · simp only [Res.ok.injEq, Option.some.injEq] at ht; rw [← ht]
    · simp at ht
  rw [et]
  set x := (stateAfter ConstStep.next k c).current.val
  have ku : (k : ℝ) / 2 ^ 53 = k * u := by rw [hu]; ring
  rw [ku]
  have ku1 : k * u < 1 := by rw [hu, mul_one_div, div_lt_one (by positivity)]; exact hk
  have ku0 : 0 ≤ k * u := by positivity
  have b1 : 1 - k * u ≤ (1 - u) ^ k := by
    have := one_add_mul_le_pow (a := -u) (by linarith) k
    calc _ = 1 + k * (-u) := by ring
      _ ≤ _ := this
      _ = _ := by congr 1
  have b2 : (1 + u) ^ k ≤ 1 / (1 - k * u) := by
    rw [le_div_iff₀ (by linarith)]
    calc (1 + u) ^ k * (1 - k * u) ≤ (1 + u) ^ k * (1 - u) ^ k := mul_le_mul_of_nonneg_left b1 (by positivity)
      _ = (1 - u ^ 2) ^ k := by rw [← mul_pow]; congr 1; ring
      _ ≤ 1 := pow_le_one₀ (by nlinarith) (by nlinarith)
  have kd : 0 ≤ k * c.dt.val := by positivity
  have frac : 1 / (1 - k * u) = 1 + k * u / (1 - k * u) := by
    field_simp [(by linarith : (1 : ℝ) - k * u ≠ 0)]; ring
  rw [abs_le]
  constructor
  · have : k * u ≤ k * u / (1 - k * u) := by
      rw [le_div_iff₀ (by linarith)]; nlinarith
    have h1 : k * c.dt.val * (1 - k * u) ≤ x := (mul_le_mul_of_nonneg_left b1 kd).trans k2
    have h2 := mul_le_mul_of_nonneg_left this kd
    rw [mul_sub, mul_one] at h1
    generalize k * c.dt.val * (k * u / (1 - k * u)) = Q at h2 ⊢
    generalize k * c.dt.val * (k * u) = P at h1 h2
    linarith
  · have h1 : x ≤ k * c.dt.val * (1 + k * u / (1 - k * u)) := by
      rw [← frac]; exact k1.trans (mul_le_mul_of_nonneg_left b2 kd)
    linarith

/-- The clock ends: with a limit of at most `2^51` steps it returns `None` after at most `2 tmax/dt + 2` calls. -/
theorem C65_ends (c : ConstStep Double) (hc : c.Fresh) (hdt : c.dt.Rep) (d0 : 0 < c.dt.val)
    (hmax : c.tmax.val ≤ 2 ^ 51 * c.dt.val) (k : Nat) (hk : 2 * c.tmax.val / c.dt.val < k) :
    output ConstStep.next k c = .ok none := by
  have hr : c.Reachable := fresh_reachable hc
  have h0 : c.current.val = 0 := fresh_zero hc
  rw [(tick k).2.2.1]
  by_cases hrun : (stateAfter ConstStep.next k c).current.val ≤ c.tmax.val
  swap
  · rw [if_neg hrun]
  exfalso
  have key : ∀ j ≤ k, j * (c.dt.val / 2) ≤ (stateAfter ConstStep.next j c).current.val := by
    intro j
    induction j with
    | zero => intro _; simp [stateAfter, h0]
    | succ j ih =>
      intro hj
      have i := ih (by omega)
      have hrj := running_before (by omega : j ≤ k) hrun
      rw [(tick j).2.2.2, if_pos hrj]
      have e := double_add_error (current_rep hr j) hdt
      set x := (stateAfter ConstStep.next j c).current.val
      have x0 : 0 ≤ x := le_trans (by positivity) i
      rw [abs_of_nonneg (by linarith : 0 ≤ x + c.dt.val)] at e
      have e' := (abs_le.1 e).1
      have : (x + c.dt.val) / 2 ^ 53 ≤ c.dt.val / 2 := by
        rw [div_le_iff₀ (by positivity)]
        have : x ≤ 2 ^ 51 * c.dt.val := hrj.trans hmax
        norm_num at this ⊢
        linarith
      push_cast
      linarith
  have h1 := (key k le_rfl).trans hrun
  rw [div_lt_iff₀ d0] at hk
  linarith

/-- Standstill: at times beyond `2^54 dt` the clock returns the same time for ever. -/
theorem C65_stands_still (c : ConstStep Double) (hc : c.Reachable) (d0 : 0 < c.dt.val)
    (hbig : 2 ^ 54 * c.dt.val < c.current.val) (hrun : c.current.val ≤ c.tmax.val) (k : Nat) :
    output ConstStep.next k c = .ok (some c.current) := by
  have key : ∀ k, (stateAfter ConstStep.next k c).current = c.current := by
    intro k
    induction k with
    | zero => rfl
    | succ k ih =>
      refine RF.ext ?_
      rw [(tick k).2.2.2, ih, if_pos hrun]
      exact double_absorbs (ConstStep.reachable_inv hc).1 d0 hbig
  rw [(tick k).2.2.1, key k, if_pos hrun]

/-- So a clock with a limit of `2^55` steps or more (in particular one without limit) never ends in double precision. -/
theorem C65_never_ends (c : ConstStep Double) (hc : c.Fresh) (hdt : c.dt.Rep) (d0 : 0 < c.dt.val)
    (hmax : 2 ^ 55 * c.dt.val ≤ c.tmax.val) (k : Nat) : ∃ t, output ConstStep.next k c = .ok (some t) := by
  have hr : c.Reachable := fresh_reachable hc
  have h0 : c.current.val = 0 := fresh_zero hc
  have hrepC : Rounding.double.rnd (2 ^ 55 * c.dt.val) = 2 ^ 55 * c.dt.val := by
    obtain ⟨n, hn⟩ := double_last hdt
    have l : lastBit 53 (-1074) (2 ^ 55 * c.dt.val) ≤ lastBit 53 (-1074) c.dt.val + 55 := by
      have : Int.log 2 (2 ^ 55 * c.dt.val) ≤ Int.log 2 c.dt.val + 55 := by
        have hp : (0 : ℝ) < 2 ^ 55 * c.dt.val := by positivity
        by_contra hcon
        have b := (log_bounds hp).1
        have b' := (log_bounds d0).2
        have : (2 : ℝ) ^ (Int.log 2 c.dt.val + 1 + 55) ≤ 2 ^ Int.log 2 (2 ^ 55 * c.dt.val) :=
          zpow_le_zpow_right₀ (by norm_num) (by omega)
        rw [zpow_add₀ (by norm_num : (2 : ℝ) ≠ 0) _ 55, show (55 : ℤ) = ((55 : ℕ) : ℤ) by norm_num, zpow_natCast] at this
        have p55 : (0 : ℝ) < 2 ^ 55 := by positivity
        nlinarith
      unfold lastBit
      rw [abs_of_pos d0, abs_of_pos (by positivity)]
      omega
    obtain ⟨m, hm⟩ := multiple_lower l ⟨n, by
      rw [zpow_add₀ (by norm_num : (2 : ℝ) ≠ 0) _ 55, show (55 : ℤ) = ((55 : ℕ) : ℤ) by norm_num, zpow_natCast,
        ← mul_assoc, ← hn, mul_comm]⟩
    exact binaryRound_of_multiple m hm
  have key : ∀ k, (stateAfter ConstStep.next k c).current.val ≤ 2 ^ 55 * c.dt.val := by
    intro k
    induction k with
    | zero => simp only [stateAfter, h0]; positivity
    | succ k ih =>
      rw [(tick k).2.2.2, if_pos (ih.trans hmax)]
      have h1 := Rounding.double.mono _ _ (add_le_add_left ih c.dt.val)
      have h2 := double_absorbs hrepC d0 (by norm_num; linarith)
      rw [add_comm] at h1
      first
        | exact h1.trans (by rw [h2])
        | (rw [add_comm] at h1; exact h1.trans (by rw [h2]))
  exact ⟨_, by rw [(tick k).2.2.1, if_pos ((key k).trans hmax)]⟩

/-! ### examples: `ConstStep::convert_from(0.1, 100.0)` -/

theorem double_pow2 {e : ℤ} (he : -1074 ≤ e) : Rounding.double.rnd (2 ^ e) = 2 ^ e := by
  have l : lastBit 53 (-1074) ((2 : ℝ) ^ e) ≤ e := by
    unfold lastBit
    rw [abs_of_pos (by positivity)]
    have : Int.log 2 ((2 : ℝ) ^ e) = e := by
      have := Int.log_zpow (R := ℝ) (b := 2) (by norm_num) e
      exact_mod_cast this
    rw [this]; push_cast; omega
  obtain ⟨m, hm⟩ := multiple_lower (x := (2 : ℝ) ^ e) l ⟨1, by simp⟩
  exact binaryRound_of_multiple m hm

/-- between two powers of two a literal stays between them. -/
theorem lit_between {q : ℚ} {a b : ℤ} (ha : -1074 ≤ a) (hb : -1074 ≤ b) (h1 : (2 : ℝ) ^ a ≤ (q : ℝ)) (h2 : (q : ℝ) ≤ 2 ^ b) :
    (2 : ℝ) ^ a ≤ (Fl.lit q : Double).val ∧ (Fl.lit q : Double).val ≤ 2 ^ b := by
  constructor
  · rw [RF.val_lit, ← double_pow2 ha]; exact Rounding.double.mono _ _ h1
  · rw [RF.val_lit, ← double_pow2 hb]; exact Rounding.double.mono _ _ h2

/-- the clock of the examples. -/
theorem demo_clock : ∃ c : ConstStep Double, ConstStep.convertFrom (Fl.lit (1 / 10)) (Fl.lit 100) = .ok c ∧ c.Fresh ∧
    c.dt.Rep ∧ c.dt = Fl.lit (1 / 10) ∧ c.tmax = Fl.lit 100 ∧ (2 : ℝ) ^ (-4 : ℤ) ≤ c.dt.val ∧ c.dt.val ≤ 2 ^ (-3 : ℤ) ∧
    (2 : ℝ) ^ (6 : ℤ) ≤ c.tmax.val ∧ c.tmax.val ≤ 2 ^ (7 : ℤ) := by
  have d := lit_between (q := 1 / 10) (a := -4) (b := -3) (by norm_num) (by norm_num) (by push_cast; norm_num)
    (by push_cast; norm_num)
  have t := lit_between (q := 100) (a := 6) (b := 7) (by norm_num) (by norm_num) (by push_cast; norm_num)
    (by push_cast; norm_num)
  have s := lit_between (q := 1 / 10 ^ 10) (a := -40) (b := 0) (by norm_num) (by norm_num) (by push_cast; norm_num)
    (by push_cast; norm_num)
  have hc : ConstStep.convertFrom (Fl.lit (1 / 10) : Double) (Fl.lit 100) =
      .ok ⟨.constant (Fl.lit (1 / 10)), Fl.zero, Fl.lit (1 / 10), Fl.lit 100⟩ := by
    unfold ConstStep.convertFrom
    have g1 : Fl.lt (Fl.lit 100 : Double) Fl.zero = false := by
      rw [RF.lt_val, RF.lit_zero_val]; simp only [decide_eq_false_iff_not, not_lt]; exact le_trans (by positivity) t.1
    have g2 : Fl.lt (Fl.lit (1 / 10) : Double) Fl.zero = false := by
      rw [RF.lt_val, RF.lit_zero_val]; simp only [decide_eq_false_iff_not, not_lt]; exact le_trans (by positivity) d.1
    have g3 : Fl.lt (Fl.lit 100 : Double) (Fl.lit (1 / 10 ^ 10)) = false := by
      rw [RF.lt_val]; simp only [decide_eq_false_iff_not, not_lt]
      exact s.2.trans (le_trans (by norm_num) t.1)
    rw [g1, g2, g3]; rfl
  exact ⟨_, hc, .convert hc, RF.rep_lit _, rfl, rfl, d.1, d.2, t.1, t.2⟩

/-- 0.1 is not a double, and 500 steps of it do not add up to 50 exactly, but to less than `10^-11` away from 500 times
the double next to it; and the clock returns that time. -/
example : ∃ (c : ConstStep Double) (t : Double), c.Fresh ∧ c.dt = Fl.lit (1 / 10) ∧
    output ConstStep.next 500 c = .ok (some t) ∧ |t.val - 500 * c.dt.val| ≤ 1 / 10 ^ 11 := by
  obtain ⟨c, hc, hf, hrep, hdt, htm, d1, d2, t1, t2⟩ := demo_clock
  have d0 : 0 < c.dt.val := lt_of_lt_of_le (by positivity) d1
  -- it is still running: times after 500 steps are at most 500 dt (1+u)^500 < 64
  have hrun : ∀ k : ℕ, k ≤ 500 → (stateAfter ConstStep.next k c).current.val ≤ k * (1 / 8 + 1 / 10 ^ 6) := by
    intro k
    induction k with
    | zero => intro _; simp [stateAfter, fresh_zero hf]
    | succ k ih =>
      intro hk
      have i := ih (by omega)
      have x0 := (ConstStep.reachable_inv (ConstStep.stateAfter_inv (fresh_reachable hf) k)).2.1
      have hk' : (k : ℝ) ≤ 499 := by exact_mod_cast (by omega : k ≤ 499)
      rw [(tick k).2.2.2, if_pos]
      · have e := double_add_error (current_rep (fresh_reachable hf) k) hrep
        set x := (stateAfter ConstStep.next k c).current.val
        have e' := (abs_le.1 e).2
        rw [abs_of_nonneg (by linarith)] at e'
        have d2' : c.dt.val ≤ 1 / 8 := by norm_num at d2 ⊢; linarith
        have : (x + c.dt.val) / 2 ^ 53 ≤ 1 / 10 ^ 6 := by
          rw [div_le_iff₀ (by positivity)]
          norm_num
          nlinarith
        push_cast; linarith
      · have t1' : 64 ≤ c.tmax.val := by norm_num at t1; linarith
        nlinarith
  have h500 := hrun 500 le_rfl
  have ho : output ConstStep.next 500 c = .ok (some (stateAfter ConstStep.next 500 c).current) := by
    rw [(tick 500).2.2.1, if_pos]
    have t1' : 64 ≤ c.tmax.val := by norm_num at t1; linarith
    norm_num at h500; linarith
  refine ⟨c, _, hf, hdt, ho, ?_⟩
  have := C65_drift c hf hrep 500 (by norm_num) _ ho
  push_cast at this
  refine this.trans ?_
  have d2' : c.dt.val ≤ 1 / 8 := by norm_num at d2 ⊢; linarith
  norm_num
  nlinarith

/-- it ends. -/
example : ∃ c : ConstStep Double, c.Fresh ∧ c.dt = Fl.lit (1 / 10) ∧ output ConstStep.next 5000 c = .ok none := by
  obtain ⟨c, hc, hf, hrep, hdt, htm, d1, d2, t1, t2⟩ := demo_clock
  have d0 : 0 < c.dt.val := lt_of_lt_of_le (by positivity) d1
  refine ⟨c, hf, hdt, C65_ends c hf hrep d0 ?_ 5000 ?_⟩
  · norm_num at t2 d1; nlinarith
  · rw [div_lt_iff₀ d0]; norm_num at t2 d1 ⊢; nlinarith

/-- a clock without limit never ends, and a clock that has been running long enough stands still. -/
example : ∃ c : ConstStep Double, ConstStep.new (Fl.lit (1 / 2)) = .ok c ∧
    ∀ k, ∃ t, output ConstStep.next k c = .ok (some t) := by
  have d := lit_between (q := 1 / 2) (a := -1) (b := -1) (by norm_num) (by norm_num) (by push_cast; norm_num)
    (by push_cast; norm_num)
  have s := lit_between (q := 1 / 10 ^ 15) (a := -60) (b := -40) (by norm_num) (by norm_num) (by push_cast; norm_num)
    (by push_cast; norm_num)
  have hc : ConstStep.new (Fl.lit (1 / 2) : Double) = .ok ⟨.constant (Fl.lit (1 / 2)), Fl.zero, Fl.lit (1 / 2), Fl.maxVal⟩ := by
    unfold ConstStep.new
    rw [if_neg]
    simp only [RF.lt_val, decide_eq_true_eq, not_lt]
    exact s.2.trans (le_trans (zpow_le_zpow_right₀ (by norm_num) (by norm_num)) d.1)
  refine ⟨_, hc, fun k => C65_never_ends _ (.new hc) (RF.rep_lit _) (lt_of_lt_of_le (by positivity) d.1) ?_ k⟩
  have hmax : (2 : ℝ) ^ (1023 : ℤ) ≤ (Fl.maxVal : Double).val := by
    show _ ≤ Rounding.double.rnd _
    rw [← double_pow2 (e := 1023) (by norm_num)]
    refine Rounding.double.mono _ _ ?_
    rw [show (1023 : ℤ) = ((1023 : ℕ) : ℤ) by norm_num, zpow_natCast,
      show (2 : ℝ) ^ (1024 : ℕ) = 2 ^ (1023 : ℕ) * 2 from pow_succ _ _]
    have : (2 : ℝ) ^ (971 : ℕ) ≤ 2 ^ (1023 : ℕ) := pow_le_pow_right₀ (by norm_num) (by norm_num)
    generalize (2 : ℝ) ^ (1023 : ℕ) = z at this ⊢
    generalize (2 : ℝ) ^ (971 : ℕ) = y at this ⊢
    linarith
  refine le_trans ?_ hmax
  have h1 : 2 ^ 55 * (Fl.lit (1 / 2) : Double).val ≤ 2 ^ 55 * 2 ^ (-1 : ℤ) := mul_le_mul_of_nonneg_left d.2 (by positivity)
  refine le_trans h1 (le_trans (b := (2 : ℝ) ^ (55 : ℤ)) (by norm_num) (zpow_le_zpow_right₀ (by norm_num) (by norm_num)))

end Moledyn.Props
