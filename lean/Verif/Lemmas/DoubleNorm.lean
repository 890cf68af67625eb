import Verif.Props.DoubleHistogram
import Verif.Lemmas.Position
import Verif.Spec.Euclid
/-
The length of a vector of doubles, computed in double precision.
-/
namespace Moledyn.Props
open Moledyn Moledyn.Pos

theorem radius_sqrt (p : List ℝ) : radius p = Real.sqrt (sumSq p) := rfl
theorem apart_eq (a b : List ℝ) : apart a b = Real.sqrt (sumSq (diff a b)) := rfl
theorem radius_nn (p : List ℝ) : 0 ≤ radius p := Real.sqrt_nonneg _
theorem radius_sq (p : List ℝ) : radius p ^ 2 = sumSq p := Real.sq_sqrt (sumSq_nonneg p)

/-- the sum of squares in double precision, from above and from below. -/
theorem fold_bounds (p : List Double) (a : Double) (ha : a.Rep) (a0 : 0 ≤ a.val) {u η : ℝ} (hu : u = 1 / 2 ^ 53)
    (hη : η = 2 ^ (-1075 : ℤ)) :
    let r := (p.foldl (fun res x => res + x * x) a).val
    0 ≤ r ∧ r ≤ a.val * (1 + u) ^ p.length + (sumSq (p.map RF.val) + p.length * η) * (1 + u) ^ (p.length + 1) ∧
    a.val * (1 - u) ^ p.length + sumSq (p.map RF.val) * (1 - u) ^ (p.length + 1) - p.length * η ≤ r := by
  have u0 : 0 < u := by rw [hu]; positivity
  have u1 : u < 1 := by rw [hu]; norm_num
  have η0 : 0 < η := by rw [hη]; positivity
  induction p generalizing a with
  | nil => simp [a0]
  | cons x p ih =>
    intro r
    have hm : (x * x).val = Rounding.double.rnd (x.val * x.val) := rfl
    have em := double_error (x.val * x.val)
    rw [← hm, ← hη, div_eq_mul_one_div, ← hu, abs_of_nonneg (mul_self_nonneg x.val)] at em
    have m0 : 0 ≤ (x * x).val := by
      rw [hm, ← Rounding.double.zero]; exact Rounding.double.mono _ _ (mul_self_nonneg _)
    have es := double_add_error ha (RF.rep_mul x x)
    have e1 : (a + x * x).val = Rounding.double.rnd (a.val + (x * x).val) := rfl
    rw [← e1, div_eq_mul_one_div, ← hu, abs_of_nonneg (a := a.val + (x * x).val) (by linarith)] at es
    have s0 : 0 ≤ (a + x * x).val := by
      rw [e1, ← Rounding.double.zero]; exact Rounding.double.mono _ _ (by linarith)
    obtain ⟨i0, i1, i2⟩ := ih (a + x * x) (RF.rep_add _ _) s0
    have hr : r = (p.foldl (fun res x => res + x * x) (a + x * x)).val := rfl
    rw [← hr] at i0 i1 i2
    clear_value r
    have em' := abs_le.1 em
    have es' := abs_le.1 es
    have S0 := sumSq_nonneg (p.map RF.val)
    refine ⟨i0, i1.trans ?_, le_trans ?_ i2⟩
    · have k1 : (a + x * x).val ≤ a.val * (1 + u) + (x.val ^ 2 + η) * (1 + u) ^ 2 := by
        have j1 : (x * x).val ≤ (x.val ^ 2 + η) * (1 + u) := by nlinarith
        have j2 := mul_le_mul_of_nonneg_right j1 (by linarith : 0 ≤ 1 + u)
        have j3 : (a + x * x).val ≤ a.val * (1 + u) + (x * x).val * (1 + u) := by linarith
        have j4 : (x.val ^ 2 + η) * (1 + u) * (1 + u) = (x.val ^ 2 + η) * (1 + u) ^ 2 := by ring
        linarith
      have k2 := mul_le_mul_of_nonneg_right k1 (by positivity : 0 ≤ (1 + u) ^ p.length)
      have k3 : (sumSq (p.map RF.val) + p.length * η) * (1 + u) ^ (p.length + 1) ≤
          (sumSq (p.map RF.val) + p.length * η) * (1 + u) ^ (p.length + 2) :=
        mul_le_mul_of_nonneg_left (pow_le_pow_right₀ (by linarith) (by omega)) (by positivity)
      simp only [List.map_cons, sumSq_cons, List.length_cons, Nat.cast_add, Nat.cast_one]
      calc _ ≤ _ := add_le_add k2 k3
        _ = _ := by ring
    · have k1 : a.val * (1 - u) + x.val ^ 2 * (1 - u) ^ 2 - η ≤ (a + x * x).val := by nlinarith
      have p1 : (1 - u) ^ p.length ≤ 1 := pow_le_one₀ (by linarith) (by linarith)
      have k2 := mul_le_mul_of_nonneg_right k1 (pow_nonneg (by linarith) _ : 0 ≤ (1 - u) ^ p.length)
      have k3 : sumSq (p.map RF.val) * (1 - u) ^ (p.length + 2) ≤ sumSq (p.map RF.val) * (1 - u) ^ (p.length + 1) :=
        mul_le_mul_of_nonneg_left (pow_le_pow_of_le_one (by linarith) (by linarith) (by omega)) S0
      simp only [List.map_cons, sumSq_cons, List.length_cons, Nat.cast_add, Nat.cast_one]
      have k4 : η * (1 - u) ^ p.length ≤ η := by nlinarith
      have e : (a.val * (1 - u) + x.val ^ 2 * (1 - u) ^ 2 - η) * (1 - u) ^ p.length =
          a.val * (1 - u) ^ (p.length + 1) + x.val ^ 2 * (1 - u) ^ (p.length + 2) - η * (1 - u) ^ p.length := by ring
      rw [e] at k2
      have e2 : (x.val ^ 2 + sumSq (p.map RF.val)) * (1 - u) ^ (p.length + 1 + 1) =
          x.val ^ 2 * (1 - u) ^ (p.length + 2) + sumSq (p.map RF.val) * (1 - u) ^ (p.length + 2) := by ring
      rw [e2]
      linarith

theorem sqrt_add_le' {a b : ℝ} (ha : 0 ≤ a) (hb : 0 ≤ b) : Real.sqrt (a + b) ≤ Real.sqrt a + Real.sqrt b := by
  rw [Real.sqrt_le_left (by positivity), add_sq, Real.sq_sqrt ha, Real.sq_sqrt hb]
  have := mul_nonneg (Real.sqrt_nonneg a) (Real.sqrt_nonneg b)
  linarith

/-- `(1+u)^m ≤ 1 + (m+1) u` as long as `m² u ≤ 1`. -/
theorem pow_linear {u : ℝ} {m : Nat} (u0 : 0 ≤ u) (h : (m : ℝ) ^ 2 * u ≤ 1) : (1 + u) ^ m ≤ 1 + (m + 1) * u := by
  have k : ∀ j ≤ m, (1 + u) ^ j ≤ 1 + (j + (j : ℝ) ^ 2 * (1 / (m : ℝ) ^ 2)) * u ∨ m = 0 := by
    intro j hj
    rcases Nat.eq_zero_or_pos m with h0 | h0
    · exact Or.inr h0
    left
    have m0 : (0 : ℝ) < m := by exact_mod_cast h0
    have c0 : 0 < 1 / (m : ℝ) ^ 2 := by positivity
    have hc : u ≤ 1 / (m : ℝ) ^ 2 := by rw [le_div_iff₀ (by positivity)]; linarith
    have hc1 : (m : ℝ) ^ 2 * (1 / (m : ℝ) ^ 2) = 1 := by field_simp
    generalize hcc : 1 / (m : ℝ) ^ 2 = c at *
    induction j with
    | zero => simp
    | succ j ih =>
      have ih := ih (by omega)
      have hjm : (j : ℝ) + 1 ≤ m := by exact_mod_cast hj
      have j0 : (0 : ℝ) ≤ j := by positivity
      have q : (j : ℝ) ^ 2 * c ≤ 1 := by nlinarith
      rw [pow_succ]
      push_cast
      calc (1 + u) ^ j * (1 + u) ≤ (1 + (j + (j : ℝ) ^ 2 * c) * u) * (1 + u) :=
            mul_le_mul_of_nonneg_right ih (by linarith)
        _ = 1 + (j + 1 + (j : ℝ) ^ 2 * c) * u + (j + (j : ℝ) ^ 2 * c) * (u * u) := by ring
        _ ≤ 1 + (j + 1 + (j : ℝ) ^ 2 * c) * u + (j + 1) * (c * u) := by
            have : u * u ≤ c * u := mul_le_mul_of_nonneg_right hc u0
            have : (j + (j : ℝ) ^ 2 * c) * (u * u) ≤ (j + 1) * (c * u) :=
              mul_le_mul (by linarith) this (by positivity) (by positivity)
            linarith
        _ ≤ _ := by nlinarith [mul_nonneg c0.le u0, mul_nonneg j0 (mul_nonneg c0.le u0)]
  rcases k m le_rfl with k | k
  · rcases Nat.eq_zero_or_pos m with h0 | h0
    · subst h0; simp; exact u0
    have m0 : (0 : ℝ) < m := by exact_mod_cast h0
    have hc1 : (m : ℝ) ^ 2 * (1 / (m : ℝ) ^ 2) = 1 := by field_simp
    rwa [hc1] at k
  · subst k; simp; exact u0

/-- The length of a vector of doubles in double precision. -/
theorem norm_double (p : Pos Double) (hd : p.length ≤ 2 ^ 26) :
    |p.norm.val - radius (p.map RF.val)| ≤
      (p.length + 3) / 2 ^ 53 * radius (p.map RF.val) + (p.length + 1) * 2 ^ (-537 : ℤ) := by
  obtain ⟨u, hu⟩ : ∃ u : ℝ, u = 1 / 2 ^ 53 := ⟨_, rfl⟩
  obtain ⟨η, hη⟩ : ∃ η : ℝ, η = 2 ^ (-1075 : ℤ) := ⟨_, rfl⟩
  obtain ⟨τ, hτ⟩ : ∃ τ : ℝ, τ = 2 ^ (-537 : ℤ) := ⟨_, rfl⟩
  have u0 : 0 < u := by rw [hu]; positivity
  have u1 : u < 1 / 1000 := by rw [hu]; norm_num
  have η0 : 0 < η := by rw [hη]; positivity
  have τ0 : 0 < τ := by rw [hτ]; positivity
  have hητ : η * 2 = τ ^ 2 := by
    rw [hη, hτ, ← zpow_add_one₀ (by norm_num), ← zpow_natCast, ← zpow_mul]; norm_num
  have hτ1 : τ < 1 / 1000 := by
    rw [hτ]
    calc (2 : ℝ) ^ (-537 : ℤ) ≤ 2 ^ (-10 : ℤ) := zpow_le_zpow_right₀ (by norm_num) (by norm_num)
      _ < _ := by norm_num
  obtain ⟨b0, b1, b2⟩ := fold_bounds p (Fl.zero : Double) (RF.rep_lit 0) (by simp [Rounding.double.zero]) hu hη
  have z : (Fl.zero : Double).val = 0 := by simp [Rounding.double.zero]
  rw [z, zero_mul, zero_add] at b1 b2
  set T := (p.foldl (fun res x => res + x * x) (Fl.zero : Double)).val with hT
  have hn : p.norm.val = Rounding.double.rnd (Real.sqrt T) := rfl
  set S := sumSq (p.map RF.val) with hS
  have S0 : 0 ≤ S := sumSq_nonneg _
  set d := p.length with hdd
  have e := double_error (Real.sqrt T)
  rw [← hn, ← hη, div_eq_mul_one_div, ← hu, abs_of_nonneg (Real.sqrt_nonneg T)] at e
  have e' := abs_le.1 e
  set n := p.norm.val with hnn
  set s := radius (p.map RF.val) with hs
  have s0 : 0 ≤ s := Real.sqrt_nonneg _
  have ss : Real.sqrt S = s := rfl
  clear_value n s T d S
  have d0 : (0 : ℝ) ≤ d := by positivity
  have hdr : (d : ℝ) ≤ 2 ^ 26 := by exact_mod_cast hd
  rw [div_eq_mul_one_div ((d : ℝ) + 3) (2 ^ 53), ← hu, ← hτ]
  -- the underflow part
  have hh : Real.sqrt (d * η) ≤ 3 / 4 * (d * τ) := by
    rw [Real.sqrt_le_left (by positivity)]
    rcases Nat.eq_zero_or_pos d with h0 | h0
    · subst h0; simp
    have : (1 : ℝ) ≤ d := by exact_mod_cast h0
    have : (d : ℝ) ≤ d ^ 2 := by nlinarith
    have e1 : (d : ℝ) * η = d * τ ^ 2 / 2 := by rw [← hητ]; ring
    rw [e1]
    have : (d : ℝ) * τ ^ 2 ≤ d ^ 2 * τ ^ 2 := mul_le_mul_of_nonneg_right this (by positivity)
    nlinarith
  have hη2 : η ≤ τ / 100 := by nlinarith
  rw [abs_le]
  constructor
  · -- from below
    have q1 : Real.sqrt (S * (1 - u) ^ (d + 1)) ≤ Real.sqrt T + Real.sqrt (d * η) := by
      refine le_trans (Real.sqrt_le_sqrt ?_) (sqrt_add_le' b0 (by positivity))
      linarith
    have q2 : s * (1 - u) ^ (d + 1) ≤ Real.sqrt (S * (1 - u) ^ (d + 1)) := by
      have c0 : 0 ≤ (1 - u) ^ (d + 1) := pow_nonneg (by linarith) _
      have c1 : (1 - u) ^ (d + 1) ≤ 1 := pow_le_one₀ (by linarith) (by linarith)
      rw [Real.sqrt_mul S0, ss]
      refine mul_le_mul_of_nonneg_left (Real.le_sqrt_of_sq_le ?_) s0
      nlinarith
    have q3 : 1 - (d + 2) * u ≤ (1 - u) ^ (d + 2) := by
      have := one_add_mul_le_pow (a := -u) (by linarith) (d + 2)
      push_cast at this
      rw [← sub_eq_add_neg] at this
      linarith
    have q4 := mul_le_mul_of_nonneg_left q3 s0
    have q7 := Real.sqrt_nonneg (d * η)
    have q5 := mul_le_mul_of_nonneg_right (by linarith : s * (1 - u) ^ (d + 1) - Real.sqrt (d * η) ≤ Real.sqrt T)
      (by linarith : 0 ≤ 1 - u)
    have q6 : s * (1 - u) ^ (d + 2) = s * (1 - u) ^ (d + 1) * (1 - u) := by ring
    rw [q6] at q4
    have q8 : 0 ≤ Real.sqrt (d * η) * u := by positivity
    have q9 : 0 ≤ s * u := by positivity
    have q10 : 0 ≤ (d : ℝ) * τ := by positivity
    generalize s * (1 - u) ^ (d + 1) = A at *
    have l1 := e'.1
    linarith
  · have q1 : Real.sqrt T ≤ (s + Real.sqrt (d * η)) * (1 + u) ^ (d + 1) := by
      refine le_trans (Real.sqrt_le_sqrt b1) ?_
      rw [Real.sqrt_mul (by positivity)]
      refine mul_le_mul ?_ ?_ (Real.sqrt_nonneg _) (by positivity)
      · rw [← ss]; exact sqrt_add_le' S0 (by positivity)
      · rw [Real.sqrt_le_left (by positivity)]
        have : 1 ≤ (1 + u) ^ (d + 1) := one_le_pow₀ (by linarith)
        nlinarith
    have q2 : (1 + u) ^ (d + 2) ≤ 1 + (d + 3) * u := by
      have := pow_linear (u := u) (m := d + 2) u0.le (by
        push_cast
        rw [hu]
        rw [mul_one_div, div_le_one (by positivity)]
        have : (d : ℝ) + 2 ≤ 2 ^ 26 + 2 := by linarith
        calc ((d : ℝ) + 2) ^ 2 ≤ (2 ^ 26 + 2) ^ 2 := pow_le_pow_left₀ (by positivity) this 2
          _ ≤ _ := by norm_num)
      push_cast at this
      linarith
    have h0 := Real.sqrt_nonneg (d * η)
    have q3 : n ≤ (s + Real.sqrt (d * η)) * (1 + u) ^ (d + 2) + η := by
      have : (s + Real.sqrt (d * η)) * (1 + u) ^ (d + 2) = (s + Real.sqrt (d * η)) * (1 + u) ^ (d + 1) * (1 + u) := by ring
      rw [this]
      nlinarith
    have q4 := mul_le_mul_of_nonneg_left q2 (by positivity : 0 ≤ s + Real.sqrt (d * η))
    have du : (d + 3) * u ≤ 1 / 1000 := by
      rw [hu, mul_one_div, div_le_iff₀ (by positivity)]
      calc (d : ℝ) + 3 ≤ 2 ^ 26 + 3 := by linarith
        _ ≤ _ := by norm_num
    have q5 : Real.sqrt (d * η) * ((d + 3) * u) ≤ Real.sqrt (d * η) * (1 / 1000) := mul_le_mul_of_nonneg_left du h0
    have q10 : 0 ≤ (d : ℝ) * τ := by positivity
    have q11 : (s + Real.sqrt (d * η)) * (1 + (d + 3) * u) = s + Real.sqrt (d * η) + ((d + 3) * u * s) + Real.sqrt (d * η) * ((d + 3) * u) := by
      ring
    rw [q11] at q4
    linarith

end Moledyn.Props
