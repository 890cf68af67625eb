import Verif.Lemmas.DoubleNorm
/-
The spherical mirror in exact arithmetic does not increase distances; what it does in double precision, for one number.
-/
namespace Moledyn.Props
open Moledyn Moledyn.Pos

theorem sumSq_diff (a b : List ℝ) (h : a.length = b.length) : sumSq (diff a b) = sumSq a - 2 * ip a b + sumSq b := by
  induction a generalizing b with
  | nil => cases b with
    | nil => simp [diff]
    | cons y b => simp at h
  | cons x a ih =>
    cases b with
    | nil => simp at h
    | cons y b =>
      have := ih b (by simpa using h)
      simp only [diff] at this
      simp only [diff, List.zipWith_cons_cons, sumSq_cons, ip_cons, this]; ring

theorem ip_scale (a b : List ℝ) (c e : ℝ) : ip (a.map (· * c)) (b.map (· * e)) = c * e * ip a b := by
  induction a generalizing b with
  | nil => simp
  | cons x a ih =>
    cases b with
    | nil => simp
    | cons y b => rw [List.map_cons, List.map_cons, ip_cons, ip_cons, ih]; ring

theorem ip_le_radius (a b : List ℝ) : ip a b ≤ radius a * radius b := by
  rw [radius_sqrt, radius_sqrt, ← Real.sqrt_mul (sumSq_nonneg a)]
  exact (le_abs_self _).trans (Real.abs_le_sqrt (ip_sq_le a b))

theorem radius_map_mul (p : List ℝ) (c : ℝ) : radius (p.map (· * c)) = |c| * radius p := by
  rw [radius_sqrt, radius_sqrt, sumSq_scale, Real.sqrt_mul (sq_nonneg c), Real.sqrt_sq_eq_abs]

theorem apart_comm (a b : List ℝ) : apart a b = apart b a := by
  rw [apart_eq, apart_eq, sumSq_diff_comm]

theorem apart_triangle (a b c : List ℝ) (h1 : a.length = b.length) (h2 : b.length = c.length) :
    apart a c ≤ apart a b + apart b c := dist_triangle a b c h1 h2

theorem apart_self (a : List ℝ) : apart a a = 0 := by
  rw [apart_eq, (sumSq_diff_eq_zero a a rfl).2 rfl, Real.sqrt_zero]

theorem apart_scales (x : List ℝ) (c e : ℝ) : apart (x.map (· * c)) (x.map (· * e)) = |c - e| * radius x := by
  have : List.zipWith (· - ·) (x.map (· * c)) (x.map (· * e)) = x.map (· * (c - e)) := by
    induction x with
    | nil => rfl
    | cons y x ih => simp only [List.map_cons, List.zipWith_cons_cons, ih]; congr 1; ring
  show radius _ = _
  rw [this, radius_map_mul]

theorem radius_sub_le (a b : List ℝ) (h : a.length = b.length) : |radius a - radius b| ≤ apart a b := by
  have z : ∀ x : List ℝ, apart x (x.map (· * 0)) = radius x := fun x => by
    have := apart_scales x 1 0
    simpa using this
  have e : (b.map (· * 0) : List ℝ) = a.map (· * 0) := by
    simp only [mul_zero, List.map_const', h]
  have t1 := apart_triangle a b (b.map (· * 0)) h (by simp)
  have t2 := apart_triangle b a (a.map (· * 0)) h.symm (by simp)
  rw [z] at t1 t2
  rw [e, z] at t1
  rw [apart_comm b a, ← e, z] at t2
  rw [abs_le]; constructor <;> linarith

/-- the point a spherical mirror of radius `R` puts `y` at. -/
noncomputable def ballImage (R : ℝ) (y : List ℝ) : List ℝ :=
  if R < radius y then y.map (· * ((2 * R - radius y) / radius y)) else y

theorem radial_iff (R : ℝ) (y z : List ℝ) : RadialImage R y z ↔ z = ballImage R y := by
  have e : (y.map fun c => (2 * R - radius y) * (c / radius y)) = y.map (· * ((2 * R - radius y) / radius y)) := by
    apply List.map_congr_left; intro c _; ring
  unfold RadialImage ballImage
  rw [e]
  rcases le_or_gt (radius y) R with h | h
  · rw [if_neg (not_lt.2 h)]
    exact ⟨fun k => k.1 h, fun k => ⟨fun _ => k, fun k' => absurd h (not_le.2 k')⟩⟩
  · rw [if_pos h]
    exact ⟨fun k => k.2 h, fun k => ⟨fun k' => absurd h (not_lt.2 k'), fun _ => k⟩⟩

theorem image_scale (R : ℝ) (y : List ℝ) : ∃ c, ballImage R y = y.map (· * c) ∧
    c = if R < radius y then (2 * R - radius y) / radius y else 1 := by
  unfold ballImage
  split
  · exact ⟨_, rfl, rfl⟩
  · exact ⟨1, by simp, rfl⟩

theorem image_length (R : ℝ) (y : List ℝ) : (ballImage R y).length = y.length := by
  obtain ⟨c, e, -⟩ := image_scale R y
  rw [e]; simp

/-- The mirror does not increase distances. -/
theorem image_nonexpansive {R : ℝ} (hR : 0 ≤ R) (x y : List ℝ) (h : x.length = y.length) :
    apart (ballImage R x) (ballImage R y) ≤ apart x y := by
  obtain ⟨c, ex, hc⟩ := image_scale R x
  obtain ⟨e, ey, he⟩ := image_scale R y
  rw [ex, ey, apart_eq, apart_eq]
  apply Real.sqrt_le_sqrt
  rw [sumSq_diff _ _ (by simpa using h), sumSq_diff _ _ h, ip_scale, sumSq_scale, sumSq_scale, ← radius_sq x, ← radius_sq y]
  have hp := ip_le_radius x y
  have a0 := radius_nn x
  have b0 := radius_nn y
  generalize radius x = a at *
  generalize radius y = b at *
  generalize ip x y = P at *
  have hca : c * a = if R < a then 2 * R - a else a := by
    rw [hc]; split
    · rename_i h; have : a ≠ 0 := by linarith
      field_simp
    · ring
  have heb : e * b = if R < b then 2 * R - b else b := by
    rw [he]; split
    · rename_i h; have : b ≠ 0 := by linarith
      field_simp
    · ring
  have c1 : |c| ≤ 1 := by
    rw [hc]; split
    · rename_i h; rw [abs_div, div_le_one (by rw [abs_pos]; linarith), abs_of_nonneg a0, abs_le]; constructor <;> linarith
    · simp
  have e1 : |e| ≤ 1 := by
    rw [he]; split
    · rename_i h; rw [abs_div, div_le_one (by rw [abs_pos]; linarith), abs_of_nonneg b0, abs_le]; constructor <;> linarith
    · simp
  have ce : c * e ≤ 1 := by
    calc c * e ≤ |c * e| := le_abs_self _
      _ = |c| * |e| := abs_mul _ _
      _ ≤ 1 * 1 := mul_le_mul c1 e1 (abs_nonneg _) (by norm_num)
      _ = 1 := by norm_num
  have lip : (c * a - e * b) ^ 2 ≤ (a - b) ^ 2 := by
    rw [hca, heb]
    split <;> split <;> nlinarith
  have : 0 ≤ (1 - c * e) * (a * b - P) := mul_nonneg (by linarith) (by linarith)
  nlinarith

/-- coordinatewise errors, relative and absolute. -/
theorem apart_of_errors (a b : List ℝ) (α β : ℝ) (hα : 0 ≤ α) (hβ : 0 ≤ β)
    (h : List.Forall₂ (fun x y => |x - y| ≤ α * |y| + β) a b) :
    apart a b ≤ α * radius b + b.length * β := by
  have key : sumSq (diff a b) ≤ (α * radius b + Real.sqrt b.length * β) ^ 2 := by
    induction h with
    | nil => simp [diff]; positivity
    | @cons x y a b hxy _ ih =>
      simp only [diff, List.zipWith_cons_cons, sumSq_cons, List.length_cons, Nat.cast_add, Nat.cast_one] at ih ⊢
      have s1 := radius_sq b
      have s2 := radius_sq (y :: b)
      rw [sumSq_cons] at s2
      have l1 := radius_nn b
      have l2 := radius_nn (y :: b)
      have n0 : (0 : ℝ) ≤ b.length := by positivity
      have q1 := Real.sq_sqrt n0
      have q2 := Real.sq_sqrt (by linarith : (0 : ℝ) ≤ b.length + 1)
      have q10 := Real.sqrt_nonneg (b.length : ℝ)
      have q20 := Real.sqrt_nonneg ((b.length : ℝ) + 1)
      have hx : (x - y) ^ 2 ≤ (α * |y| + β) ^ 2 := by
        rw [← sq_abs]; exact pow_le_pow_left₀ (abs_nonneg _) hxy 2
      have yy := sq_abs y
      have y0 := abs_nonneg y
      generalize radius b = B at *
      generalize radius (y :: b) = C at *
      generalize Real.sqrt (b.length : ℝ) = k at *
      generalize Real.sqrt ((b.length : ℝ) + 1) = m at *
      generalize |y| = w at *
      generalize (b.length : ℝ) = N at *
      -- Cauchy: w + B k ≤ C m
      have cauchy : w + B * k ≤ C * m := by
        have : (w + B * k) ^ 2 ≤ (C * m) ^ 2 := by
          have : (C * m) ^ 2 = (w ^ 2 + B ^ 2) * (k ^ 2 + 1) := by rw [mul_pow, s2, q2, q1, yy, s1]
          rw [this]; nlinarith [sq_nonneg (B - w * k)]
        exact (le_abs_self _).trans (abs_le_of_sq_le_sq this (by positivity))
      have : (α * C + m * β) ^ 2 = α ^ 2 * C ^ 2 + 2 * (α * β) * (C * m) + m ^ 2 * β ^ 2 := by ring
      rw [this, s2, q2]
      have := mul_le_mul_of_nonneg_left cauchy (by positivity : 0 ≤ 2 * (α * β))
      nlinarith
  have l0 := radius_nn b
  have n0 : (0 : ℝ) ≤ b.length := by positivity
  rw [apart_eq]
  refine (Real.sqrt_le_sqrt key).trans ?_
  rw [Real.sqrt_sq (by positivity)]
  have : Real.sqrt b.length ≤ b.length := by
    rw [Real.sqrt_le_left n0]
    rcases Nat.eq_zero_or_pos b.length with h0 | h0
    · rw [h0]; simp
    · have : (1 : ℝ) ≤ b.length := by exact_mod_cast h0
      nlinarith
  nlinarith

/-- the factor by which the mirror in double precision scales. -/
theorem factor_error {u η ε τ R s n g f : ℝ} (u0 : 0 < u) (u1 : u ≤ 1 / 1000) (hη : η ≤ u / 1000) (R0 : 0 < R)
    (s0 : 0 < s) (hn : |n - s| ≤ ε * s + τ) (hR : R < n) (hg : |g - (2 * R - n)| ≤ u * |2 * R - n|)
    (hf : |f - g / n| ≤ u * |g / n| + η) :
    |f| ≤ 101 / 100 ∧ |f - (2 * R - n) / n| ≤ 202 / 100 * u ∧
    |f - (2 * R - s) / s| * s ≤ 2 * (ε * s + τ) + 202 / 100 * u * s := by
  have n0 : 0 < n := by linarith
  have a1 : |2 * R - n| ≤ n := by rw [abs_le]; constructor <;> linarith
  have h1 : |(2 * R - n) / n| ≤ 1 := by rw [abs_div, abs_of_pos n0, div_le_one n0]; exact a1
  have h2 : |g / n - (2 * R - n) / n| ≤ u := by
    rw [← sub_div, abs_div, abs_of_pos n0, div_le_iff₀ n0]
    exact hg.trans (mul_le_mul_of_nonneg_left a1 u0.le)
  have h3 : |g / n| ≤ 1 + u := by
    have := abs_sub_abs_le_abs_sub (g / n) ((2 * R - n) / n)
    linarith
  have h4 : |f - g / n| ≤ u * (1 + u) + η := hf.trans (by nlinarith)
  have h5 : |f - (2 * R - n) / n| ≤ 202 / 100 * u := by
    have := abs_sub_le f (g / n) ((2 * R - n) / n)
    nlinarith
  refine ⟨?_, h5, ?_⟩
  · have := abs_sub_abs_le_abs_sub f ((2 * R - n) / n)
    linarith
  · have h6 : |(2 * R - n) / n - (2 * R - s) / s| * s ≤ 2 * (ε * s + τ) := by
      have : (2 * R - n) / n - (2 * R - s) / s = 2 * (R / n) * ((s - n) / s) := by field_simp; ring
      rw [this, abs_mul, abs_div (s - n), abs_of_pos s0, mul_assoc, div_mul_cancel₀ _ s0.ne', abs_of_nonneg (by positivity)]
      have : R / n ≤ 1 := by rw [div_le_one n0]; exact hR.le
      have p := abs_nonneg (s - n)
      rw [abs_sub_comm n s] at hn
      nlinarith
    have h7 := abs_sub_le f ((2 * R - n) / n) ((2 * R - s) / s)
    nlinarith

end Moledyn.Props
