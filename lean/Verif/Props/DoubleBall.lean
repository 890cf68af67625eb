import Verif.Lemmas.BallMirror
import Verif.Spec.Trajectory
/-
C90: balls and targets in double precision.
-/
namespace Moledyn.Props
open Moledyn Moledyn.Pos

/-- the numbers of a position. -/
local notation "vals" => List.map RF.val

/-- Double precision: the length of a vector of `d` doubles is computed with a relative error of at most `(d+3)/2^53`
(and a bit more if coordinates are smaller than `2^-480`). -/
theorem C90_norm (p : Pos Double) (hd : p.length ≤ 2 ^ 26) :
    |p.norm.val - radius (vals p)| ≤ (p.length + 3) / 2 ^ 53 * radius (vals p) + (p.length + 1) * 2 ^ (-537 : ℤ) :=
  norm_double p hd

private theorem distance_norm (a b : Pos Double) (h : a.length = b.length) :
    Pos.distance a b = .ok (Pos.norm (List.zipWith (· - ·) a b)) := by
  unfold Pos.distance Pos.norm Pos.dim
  rw [if_neg (by simpa using h)]
  congr 2
  generalize (Fl.zero : Double) = acc
  clear h
  induction a generalizing b acc with
  | nil => simp
  | cons x a ih =>
    cases b with
    | nil => simp
    | cons y b => simp only [List.zip_cons_cons, List.foldl_cons, List.zipWith_cons_cons]; exact ih b _

/-- relative errors of sums and differences of vectors. -/
private theorem forall₂_add (a b : List Double) (h : a.length = b.length) (ha : ∀ x ∈ a, x.Rep) (hb : ∀ x ∈ b, x.Rep) :
    List.Forall₂ (fun x y => |x - y| ≤ 1 / 2 ^ 53 * |y| + 0) (vals (List.zipWith (· + ·) a b)) (List.zipWith (· + ·) (vals a) (vals b)) ∧
    List.Forall₂ (fun x y => |x - y| ≤ 1 / 2 ^ 53 * |y| + 0) (vals (List.zipWith (· - ·) a b)) (List.zipWith (· - ·) (vals a) (vals b)) := by
  induction a generalizing b with
  | nil => cases b <;> simp at h ⊢
  | cons x a ih =>
    cases b with
    | nil => simp at h
    | cons y b =>
      obtain ⟨i1, i2⟩ := ih b (by simpa using h) (fun z hz => ha z (by simp [hz])) (fun z hz => hb z (by simp [hz]))
      have hx := ha x (by simp)
      have hy := hb y (by simp)
      simp only [List.zipWith_cons_cons, List.map_cons]
      refine ⟨.cons ?_ i1, .cons ?_ i2⟩
      · have := double_add_error hx hy
        rw [RF.val_add, add_zero, one_div_mul_eq_div]; exact this
      · have hy' : Rounding.double.rnd (-y.val) = -y.val := by rw [Rounding.double.odd, hy]
        have := double_add_error hx hy'
        rw [← sub_eq_add_neg] at this
        rw [RF.val_sub, add_zero, one_div_mul_eq_div]; exact this

/-- Double precision: the distance of two points of `d` doubles. -/
theorem C90_distance (a b : Pos Double) (h : a.length = b.length) (hd : a.length ≤ 2 ^ 26) (ha : ∀ x ∈ a, x.Rep) (hb : ∀ x ∈ b, x.Rep) :
    ∃ r, Pos.distance a b = .ok r ∧
      |r.val - apart (vals a) (vals b)| ≤ (a.length + 5) / 2 ^ 53 * apart (vals a) (vals b) + (a.length + 1) * 2 ^ (-537 : ℤ) := by
  refine ⟨_, distance_norm a b h, ?_⟩
  have hl : (List.zipWith (· - ·) a b).length = a.length := by simp [h]
  have n1 := norm_double (List.zipWith (· - ·) a b) (by rw [hl]; exact hd)
  rw [hl] at n1
  have f2 := apart_of_errors _ _ _ _ (by positivity) le_rfl (forall₂_add a b h ha hb).2
  have t := radius_sub_le (vals (List.zipWith (· - ·) a b)) (List.zipWith (· - ·) (vals a) (vals b)) (by simp)
  have e : radius (List.zipWith (· - ·) (vals a) (vals b)) = apart (vals a) (vals b) := rfl
  rw [e] at t f2
  have a0 : 0 ≤ apart (vals a) (vals b) := radius_nn _
  have hdr : (a.length : ℝ) ≤ 2 ^ 26 := by exact_mod_cast hd
  have d0 : (0 : ℝ) ≤ a.length := by positivity
  generalize radius (vals (List.zipWith (· - ·) a b)) = s at *
  generalize apart (vals a) (vals b) = D at *
  generalize (Pos.norm (List.zipWith (· - ·) a b)).val = n at *
  generalize ((a.length : ℝ) + 1) * 2 ^ (-537 : ℤ) = τ at *
  generalize (a.length : ℝ) = d at *
  simp only [mul_zero, add_zero] at f2
  have t' : |s - D| ≤ 1 / 2 ^ 53 * D := t.trans f2
  have t1 := abs_le.1 t'
  have h1 := abs_sub_le n s D
  have h2 : (d + 3) / 2 ^ 53 * s ≤ (d + 3) / 2 ^ 53 * (D + 1 / 2 ^ 53 * D) :=
    mul_le_mul_of_nonneg_left (by linarith) (by positivity)
  have h3 : (d + 3) / 2 ^ 53 * (1 / 2 ^ 53 * D) ≤ 1 / 2 ^ 53 * D := by
    have : (d + 3) / 2 ^ 53 ≤ 1 := by rw [div_le_one (by positivity)]; linarith
    calc _ ≤ 1 * (1 / 2 ^ 53 * D) := mul_le_mul_of_nonneg_right this (by positivity)
      _ = _ := one_mul _
  have e3 : (d + 5) / 2 ^ 53 * D = (d + 3) / 2 ^ 53 * D + 1 / 2 ^ 53 * D + 1 / 2 ^ 53 * D := by ring
  rw [e3]
  have e4 : (d + 3) / 2 ^ 53 * (D + 1 / 2 ^ 53 * D) = (d + 3) / 2 ^ 53 * D + (d + 3) / 2 ^ 53 * (1 / 2 ^ 53 * D) := by ring
  linarith

/-! ## the ball -/

private theorem two_val : (Fl.two : Double).val = 2 := by
  show Rounding.double.rnd ((2 : ℚ) : ℝ) = 2
  have := double_pow2 (e := 1) (by norm_num)
  simpa using this

private theorem new_circ_double {R : Double} {n : Nat} {s : Circ Double} (h : Circ.new R n = .ok s) :
    0 < R.val ∧ s = ⟨.continuousCircular, .reflection, R, n⟩ := by
  unfold Circ.new at h
  split at h
  · simp at h
  · rename_i hc
    have z : (Fl.zero : Double).val = 0 := by simp [Rounding.double.zero]
    simp only [RF.le_val, z, Bool.or_eq_true, decide_eq_true_eq, not_or, not_le, beq_iff_eq] at hc
    simp only [Res.ok.injEq] at h
    exact ⟨hc.1, h.symm⟩

theorem incl_double (R : Double) (n : Nat) (p : Pos Double) (hp : p.length = n) :
    (⟨.continuousCircular, .reflection, R, n⟩ : Circ Double).checkInclusion p = .ok (decide (p.norm.val ≤ R.val)) := by
  rcases Circ.checkInclusion_cases (⟨.continuousCircular, .reflection, R, n⟩ : Circ Double) p with ⟨h, _⟩ | ⟨_, e⟩
  · exact absurd hp.symm h
  · rw [e]; simp [← not_lt]

/-- the constants of the error analysis -/
private structure Consts (d : Nat) (R u ε τ η : ℝ) : Prop where
  hu : u = 1 / 2 ^ 53
  hε : ε = (d + 3) * u
  hτ : τ = (d + 1) * 2 ^ (-537 : ℤ)
  hη : η = 2 ^ (-1075 : ℤ)
  u0 : 0 < u
  u1 : u ≤ 1 / 2 ^ 53
  ε0 : 0 < ε
  ε1 : ε ≤ 1 / 2 ^ 25
  uε : 3 * u ≤ ε
  τ0 : 0 < τ
  τR : τ ≤ u * R / 1000
  η0 : 0 < η
  ηu : η ≤ u / 1000
  dη : d * η ≤ τ

private theorem consts {d : Nat} (hd : d ≤ 2 ^ 26) {R : ℝ} (hR : 2 ^ (-440 : ℤ) ≤ R) : ∃ u ε τ η, Consts d R u ε τ η := by
  have hdr : (d : ℝ) ≤ 2 ^ 26 := by exact_mod_cast hd
  have d0 : (0 : ℝ) ≤ d := by positivity
  refine ⟨1 / 2 ^ 53, (d + 3) * (1 / 2 ^ 53), (d + 1) * 2 ^ (-537 : ℤ), 2 ^ (-1075 : ℤ), rfl, rfl, rfl, rfl, by positivity, le_rfl,
    by positivity, ?_, ?_, by positivity, ?_, by positivity, ?_, ?_⟩
  · rw [mul_one_div, div_le_iff₀ (by positivity)]
    calc (d : ℝ) + 3 ≤ 2 ^ 26 + 3 := by linarith
      _ ≤ _ := by norm_num
  · have : (0 : ℝ) ≤ d * (1 / 2 ^ 53) := by positivity
    linarith
  · have e : (2 : ℝ) ^ (-537 : ℤ) = 2 ^ (-440 : ℤ) * 2 ^ (-97 : ℤ) := by rw [← zpow_add₀ (by norm_num)]; norm_num
    rw [e]
    have h97 : ((d : ℝ) + 1) * 2 ^ (-97 : ℤ) ≤ 1 / 2 ^ 53 / 1000 := by
      rw [zpow_neg, ← div_eq_mul_inv, div_le_iff₀ (by positivity)]
      calc (d : ℝ) + 1 ≤ 2 ^ 26 + 1 := by linarith
        _ ≤ _ := by norm_num
    calc ((d : ℝ) + 1) * (2 ^ (-440 : ℤ) * 2 ^ (-97 : ℤ)) = (((d : ℝ) + 1) * 2 ^ (-97 : ℤ)) * 2 ^ (-440 : ℤ) := by ring
      _ ≤ (1 / 2 ^ 53 / 1000) * R := mul_le_mul h97 hR (by positivity) (by positivity)
      _ = _ := by ring
  · calc (2 : ℝ) ^ (-1075 : ℤ) ≤ 2 ^ (-63 : ℤ) := zpow_le_zpow_right₀ (by norm_num) (by norm_num)
      _ ≤ _ := by norm_num
  · refine mul_le_mul (by linarith) (zpow_le_zpow_right₀ (by norm_num) (by norm_num)) (by positivity) (by positivity)

private theorem scaled_errors (q : List Double) (f : Double) :
    List.Forall₂ (fun x y => |x - y| ≤ 1 / 2 ^ 53 * |y| + 2 ^ (-1075 : ℤ)) (vals (q.map (· * f))) ((vals q).map (· * f.val)) := by
  induction q with
  | nil => simp
  | cons x q ih =>
    simp only [List.map_cons]
    refine .cons ?_ ih
    have := double_error (x.val * f.val)
    rw [RF.val_mul, one_div_mul_eq_div]; exact this

/-- what the mirror does to a vector in double precision. -/
private theorem reflect_bounds {R : Double} (hR : R.Rep) {d : Nat} {u ε τ η : ℝ} (c : Consts d R.val u ε τ η) (R0 : 0 < R.val)
    (hd : d ≤ 2 ^ 26) (q : Pos Double) (hq : q.length = d) (hout : R.val < q.norm.val) :
    let f : Double := (Fl.two * R - q.norm) / q.norm
    |f.val - (2 * R.val - q.norm.val) / q.norm.val| ≤ 202 / 100 * u ∧
    |f.val| ≤ 101 / 100 ∧
    apart (vals (q.map (· * f))) ((vals q).map (· * ((2 * R.val - radius (vals q)) / radius (vals q)))) ≤
      2 * (ε * radius (vals q) + τ) + 304 / 100 * u * radius (vals q) + τ ∧
    apart (vals (q.map (· * f))) ((vals q).map (· * f.val)) ≤ 102 / 100 * u * radius (vals q) + τ := by
  intro f
  have nd := norm_double q (by rw [hq]; exact hd)
  rw [hq, div_eq_mul_one_div, ← c.hu, ← c.hε, ← c.hτ] at nd
  have nrep : q.norm.Rep := Rounding.double.idem _
  have g2 : (Fl.two * R).val = 2 * R.val := by rw [RF.val_mul, two_val]; exact rep_double hR
  have hg : |(Fl.two * R - q.norm).val - (2 * R.val - q.norm.val)| ≤ u * |2 * R.val - q.norm.val| := by
    have hn' : Rounding.double.rnd (-q.norm.val) = -q.norm.val := by rw [Rounding.double.odd, nrep]
    have h2 : Rounding.double.rnd (2 * R.val) = 2 * R.val := rep_double hR
    have := double_add_error h2 hn'
    rw [← sub_eq_add_neg] at this
    rw [RF.val_sub, g2, c.hu, one_div_mul_eq_div]; exact this
  have hf : |f.val - (Fl.two * R - q.norm).val / q.norm.val| ≤ u * |(Fl.two * R - q.norm).val / q.norm.val| + η := by
    have := double_error ((Fl.two * R - q.norm).val / q.norm.val)
    rw [c.hu, c.hη, one_div_mul_eq_div]; exact this
  have u0 := c.u0; have ε1 := c.ε1; have τ0 := c.τ0; have τR := c.τR; have ηu := c.ηu; have dη := c.dη; have ε0 := c.ε0
  have u1 : u ≤ 1 / 1000 := c.u1.trans (by norm_num)
  have s00 := radius_nn (vals q)
  have ae := apart_of_errors _ _ _ _ (by positivity) (by positivity) (scaled_errors q f)
  rw [← c.hu, ← c.hη, radius_map_mul, List.length_map, List.length_map, hq] at ae
  have hlen : ((vals q).map (· * f.val)).length = ((vals q).map (· * ((2 * R.val - radius (vals q)) / radius (vals q)))).length := by simp
  have tr := apart_triangle (vals (q.map (· * f))) _ _ (by simp) hlen
  rw [apart_scales] at tr
  generalize radius (vals q) = s at *
  generalize f.val = fv at *
  generalize q.norm.val = n at *
  generalize (Fl.two * R - q.norm).val = g at *
  generalize R.val = Rv at *
  have s0 : 0 < s := by
    by_contra hs
    have : s = 0 := by linarith
    rw [this, mul_zero, zero_add, sub_zero] at nd
    have := le_abs_self n
    have : τ < Rv := by nlinarith
    linarith
  obtain ⟨k1, k2, k3⟩ := factor_error u0 u1 ηu R0 s0 nd hout hg hf
  have ae' : u * (|fv| * s) + d * η ≤ 102 / 100 * u * s + τ := by
    have : u * (|fv| * s) ≤ u * (101 / 100 * s) := mul_le_mul_of_nonneg_left (mul_le_mul_of_nonneg_right k1 s0.le) u0.le
    nlinarith
  refine ⟨k2, k1, tr.trans ?_, ae.trans ae'⟩
  nlinarith

/-- `check_bc` of a ball in double precision, unfolded. -/
theorem checkBc_double (R : Double) (n : Nat) (pos dp : Pos Double) (hpos : pos.length = n) (hdp : dp.length = n) :
    let q := List.zipWith (· + ·) pos dp
    let m := q.map (· * ((Fl.two * R - (Pos.norm q)) / (Pos.norm q)))
    ((Pos.norm q).val ≤ R.val → (⟨.continuousCircular, .reflection, R, n⟩ : Circ Double).checkBc pos dp = (q, .ok ())) ∧
    (R.val < (Pos.norm q).val → (⟨.continuousCircular, .reflection, R, n⟩ : Circ Double).checkBc pos dp =
      (m, if (Pos.norm m).val ≤ R.val then .ok () else .err .tooLargeTimeStep)) := by
  intro q m
  have hq : q.length = n := by simp [q, hpos, hdp]
  have hm : m.length = n := by simp [m, hq]
  rw [Circ.checkBc_eq]
  refine ⟨fun h => ?_, fun h => ?_⟩
  · exact bcStep_inside (by omega) (by rw [incl_double R n _ hq, decide_eq_true h])
  · rw [bcStep_outside (q := m) (b := decide ((Pos.norm m).val ≤ R.val)) (by omega) (by rw [incl_double R n _ hq, decide_eq_false (not_le.2 h)]) rfl
      (incl_double R n _ hm)]
    simp only [decide_eq_true_eq]

private theorem sum_close (pos dp : Pos Double) (h : pos.length = dp.length) (hp : ∀ x ∈ pos, x.Rep) (hz : ∀ x ∈ dp, x.Rep) :
    apart (vals (List.zipWith (· + ·) pos dp)) (List.zipWith (· + ·) (vals pos) (vals dp)) ≤
      1 / 2 ^ 53 * radius (List.zipWith (· + ·) (vals pos) (vals dp)) := by
  have := apart_of_errors _ _ _ _ (by positivity) le_rfl (forall₂_add pos dp h hp hz).1
  simpa using this

/-- One accepted move: how far the result is from the exact image. -/
private theorem step_error {R : Double} (hR : R.Rep) (hR1 : 2 ^ (-440 : ℤ) ≤ R.val) {d : Nat} (hd : d ≤ 2 ^ 26) (pos dp : Pos Double)
    (hpos : pos.length = d) (hdp : dp.length = d) (hp : ∀ x ∈ pos, x.Rep) (hz : ∀ x ∈ dp, x.Rep)
    (hok : ((⟨.continuousCircular, .reflection, R, d⟩ : Circ Double).checkBc pos dp).2 = .ok ()) :
    let r := ((⟨.continuousCircular, .reflection, R, d⟩ : Circ Double).checkBc pos dp).1
    r.length = d ∧ (∀ x ∈ r, x.Rep) ∧
    apart (vals r) (ballImage R.val (List.zipWith (· + ·) (vals pos) (vals dp))) ≤ 10 * (d + 5) / 2 ^ 53 * R.val := by
  intro r
  obtain ⟨u, ε, τ, η, c⟩ := consts hd hR1
  have R0 : 0 < R.val := lt_of_lt_of_le (by positivity) hR1
  obtain ⟨b1, b2⟩ := checkBc_double R d pos dp hpos hdp
  have sc := sum_close pos dp (by omega) hp hz
  have hq : (List.zipWith (· + ·) pos dp).length = d := by simp [hpos, hdp]
  have hy : (List.zipWith (· + ·) (vals pos) (vals dp)).length = d := by simp [hpos, hdp]
  have qrep : ∀ x ∈ List.zipWith (· + ·) pos dp, x.Rep := by
    intro x hx
    obtain ⟨i, hi, rfl⟩ := List.mem_iff_getElem.1 hx
    simp only [List.getElem_zipWith]
    exact RF.rep_add _ _
  have sub := radius_sub_le (vals (List.zipWith (· + ·) pos dp)) (List.zipWith (· + ·) (vals pos) (vals dp)) (by simp)
  have ne := image_nonexpansive R0.le (vals (List.zipWith (· + ·) pos dp)) (List.zipWith (· + ·) (vals pos) (vals dp)) (by simp)
  generalize hyy : List.zipWith (· + ·) (vals pos) (vals dp) = y at *
  generalize hqq : List.zipWith (· + ·) pos dp = q at *
  have nd := norm_double q (by rw [hq]; exact hd)
  rw [hq, div_eq_mul_one_div, ← c.hu, ← c.hε, ← c.hτ] at nd
  rw [← c.hu] at sc
  have D0 := radius_nn y
  have s0 := radius_nn (vals q)
  have u0 := c.u0; have ε1 := c.ε1; have τ0 := c.τ0; have τR := c.τR; have ε0 := c.ε0; have uε := c.uε
  have u1 : u ≤ 1 / 2 ^ 53 := c.u1
  have nd' := abs_le.1 nd
  have sub' := abs_le.1 (sub.trans sc)
  have il : (ballImage R.val (vals q)).length = (ballImage R.val y).length := by
    rw [image_length, image_length, List.length_map, hq, hy]
  -- it suffices to compare with the image of the rounded sum
  have fin : ∀ r' : Pos Double, r'.length = d → radius (vals q) ≤ 401 / 100 * R.val →
      apart (vals r') (ballImage R.val (vals q)) ≤
        2 * (ε * radius (vals q) + τ) + 304 / 100 * u * radius (vals q) + τ →
      apart (vals r') (ballImage R.val y) ≤ 10 * (d + 5) / 2 ^ 53 * R.val := by
    intro r' hr' hs h
    have t := apart_triangle (vals r') (ballImage R.val (vals q)) (ballImage R.val y) (by rw [image_length]; simp [hr', hq]) il
    have e : 10 * ((d : ℝ) + 5) / 2 ^ 53 * R.val = 10 * (ε * R.val) + 20 * (u * R.val) := by
      rw [c.hε, c.hu]; ring
    rw [e]
    have k1 : ε * radius (vals q) ≤ ε * (401 / 100 * R.val) := mul_le_mul_of_nonneg_left hs ε0.le
    have k2 : u * radius (vals q) ≤ u * (401 / 100 * R.val) := mul_le_mul_of_nonneg_left hs u0.le
    have k3 : u * radius y ≤ u * (402 / 100 * R.val) := by
      refine mul_le_mul_of_nonneg_left ?_ u0.le
      have : u * radius y ≤ 1 / 1000 * radius y := mul_le_mul_of_nonneg_right (u1.trans (by norm_num)) D0
      nlinarith
    have k4 : 0 < u * R.val := by positivity
    have k5 : 0 < ε * R.val := by positivity
    have sc' : apart (vals q) y ≤ u * radius y := sc
    linarith
  rcases le_or_gt (Pos.norm q).val R.val with hin | hout
  · have hr : r = q := by show (Circ.checkBc _ pos dp).1 = q; rw [b1 hin]
    rw [hr]
    refine ⟨hq, qrep, ?_⟩
    have hs : radius (vals q) ≤ 101 / 100 * R.val := by
      have : ε * radius (vals q) ≤ 1 / 1000 * radius (vals q) := mul_le_mul_of_nonneg_right (ε1.trans (by norm_num)) s0
      have : u * R.val ≤ 1 / 1000 * R.val := mul_le_mul_of_nonneg_right (u1.trans (by norm_num)) R0.le
      nlinarith
    refine fin q hq (by linarith) ?_
    have p1 : 0 ≤ ε * radius (vals q) := by positivity
    have p2 : 0 ≤ u * radius (vals q) := by positivity
    unfold ballImage
    split
    · rename_i h
      have a := apart_scales (vals q) 1 ((2 * R.val - radius (vals q)) / radius (vals q))
      have s1 : 0 < radius (vals q) := by linarith
      simp only [mul_one, List.map_id'] at a
      rw [a]
      have e1 : |1 - (2 * R.val - radius (vals q)) / radius (vals q)| * radius (vals q) = 2 * (radius (vals q) - R.val) := by
        have : 1 - (2 * R.val - radius (vals q)) / radius (vals q) = 2 * (radius (vals q) - R.val) / radius (vals q) := by
          field_simp; ring
        rw [this, abs_of_nonneg (div_nonneg (by linarith) s0), div_mul_cancel₀ _ s1.ne']
      rw [e1]
      linarith
    · rw [apart_self]
      linarith
  · have hb := b2 hout
    obtain ⟨m, hm⟩ : ∃ m, m = q.map (· * ((Fl.two * R - (Pos.norm q)) / (Pos.norm q))) := ⟨_, rfl⟩
    rw [← hm] at hb
    have hr : r = m := by show (Circ.checkBc _ pos dp).1 = m; rw [hb]
    have hml : m.length = d := by rw [hm]; simp [hq]
    have hacc : (Pos.norm m).val ≤ R.val := by
      by_contra hc
      rw [hb] at hok
      simp [hc] at hok
    rw [hr]
    obtain ⟨k2, k1, k3, k4⟩ := reflect_bounds hR c R0 hd q hq hout
    simp only [← hm] at k3 k4
    generalize hF : ((Fl.two * R - (Pos.norm q)) / (Pos.norm q) : Double).val = fv at *
    refine ⟨hml, ?_, ?_⟩
    · intro x hx
      rw [hm] at hx
      obtain ⟨x', _, rfl⟩ := List.mem_map.1 hx
      exact RF.rep_mul _ _
    have n0 : 0 < (Pos.norm q).val := R0.trans hout
    have p1 : 0 ≤ ε * radius (vals q) := by positivity
    have p2 : 0 ≤ u * radius (vals q) := by positivity
    have pe : ε * radius (vals q) ≤ 1 / 1000 * radius (vals q) := mul_le_mul_of_nonneg_right (ε1.trans (by norm_num)) s0
    have pu : u * R.val ≤ 1 / 1000 * R.val := mul_le_mul_of_nonneg_right (u1.trans (by norm_num)) R0.le
    have pu' : u * radius (vals q) ≤ 1 / 1000 * radius (vals q) := mul_le_mul_of_nonneg_right (u1.trans (by norm_num)) s0
    have n4 : (Pos.norm q).val ≤ 4 * R.val := by
      by_contra hc
      push Not at hc
      have mnd := norm_double m (by rw [hml]; exact hd)
      rw [hml, div_eq_mul_one_div, ← c.hu, ← c.hε, ← c.hτ] at mnd
      have mnd' := abs_le.1 mnd
      have ms := radius_sub_le (vals m) ((vals q).map (· * fv)) (by simp [hml, hq])
      have ms' := abs_le.1 (ms.trans k4)
      rw [radius_map_mul] at ms'
      have f1 : (2 * R.val - (Pos.norm q).val) / (Pos.norm q).val ≤ -(1 / 2) := by
        rw [div_le_iff₀ n0]; linarith
      have f2 : 49 / 100 ≤ |fv| := by
        have := (abs_le.1 k2).2
        have : fv ≤ -(49 / 100) := by
          have : u ≤ 1 / 1000 := u1.trans (by norm_num)
          linarith
        rw [abs_of_neg (by linarith)]; linarith
      have f3 : 49 / 100 * radius (vals q) ≤ |fv| * radius (vals q) := mul_le_mul_of_nonneg_right f2 s0
      have pm : ε * radius (vals m) ≤ 1 / 1000 * radius (vals m) := mul_le_mul_of_nonneg_right (ε1.trans (by norm_num)) (radius_nn _)
      linarith
    have s4 : radius (vals q) ≤ 401 / 100 * R.val := by linarith
    refine fin m hml s4 ?_
    rcases lt_or_ge R.val (radius (vals q)) with hs | hs
    · have : ballImage R.val (vals q) = (vals q).map (· * ((2 * R.val - radius (vals q)) / radius (vals q))) := by
        unfold ballImage; rw [if_pos hs]
      rw [this]; exact k3
    · have : ballImage R.val (vals q) = vals q := by unfold ballImage; rw [if_neg (not_lt.2 hs)]
      rw [this]
      have t := apart_triangle (vals m) ((vals q).map (· * fv)) (vals q) (by simp [hml, hq]) (by simp)
      have a := apart_scales (vals q) fv 1
      simp only [mul_one, List.map_id'] at a
      rw [a] at t
      have e1 : |fv - 1| ≤ 202 / 100 * u + 2 * ((Pos.norm q).val - R.val) / (Pos.norm q).val := by
        have t' := abs_sub_le fv ((2 * R.val - (Pos.norm q).val) / (Pos.norm q).val) 1
        have e2 : |(2 * R.val - (Pos.norm q).val) / (Pos.norm q).val - 1| = 2 * ((Pos.norm q).val - R.val) / (Pos.norm q).val := by
          have : (2 * R.val - (Pos.norm q).val) / (Pos.norm q).val - 1 = -(2 * ((Pos.norm q).val - R.val) / (Pos.norm q).val) := by field_simp; ring
          rw [this, abs_neg, abs_of_nonneg (div_nonneg (by linarith) n0.le)]
        linarith
      have e3 := mul_le_mul_of_nonneg_right e1 s0
      have e4 : 2 * ((Pos.norm q).val - R.val) / (Pos.norm q).val * radius (vals q) ≤ 2 * ((Pos.norm q).val - R.val) := by
        rw [div_mul_eq_mul_div, div_le_iff₀ n0]
        exact mul_le_mul_of_nonneg_left (by linarith) (by linarith)
      rw [add_mul] at e3
      linarith

/-- Double precision: `check_inclusion` of a ball in `d` dimensions answers as exact arithmetic does, except possibly in a shell
of relative width `(d+3)/2^53` around the sphere. -/
theorem C90_inclusion (R : Double) (d : Nat) (s : Circ Double) (hnew : Circ.new R d = .ok s) (hd : d ≤ 2 ^ 26)
    (p : Pos Double) (hp : p.length = d) :
    ∃ b, s.checkInclusion p = .ok b ∧
      ((1 + (d + 3) / 2 ^ 53) * radius (vals p) + (d + 1) * 2 ^ (-537 : ℤ) ≤ R.val → b = true) ∧
      (R.val < (1 - (d + 3) / 2 ^ 53) * radius (vals p) - (d + 1) * 2 ^ (-537 : ℤ) → b = false) := by
  obtain ⟨-, rfl⟩ := new_circ_double hnew
  have nd := abs_le.1 (norm_double p (by rw [hp]; exact hd))
  rw [hp] at nd
  refine ⟨_, incl_double R d p hp, fun h => decide_eq_true ?_, fun h => decide_eq_false ?_⟩
  · linarith
  · rw [not_le]; linarith

/-- Double precision: `check_find` of a target in `d` dimensions answers as exact arithmetic does, except possibly in a shell of
relative width `(d+5)/2^53` around the surface of the target. -/
theorem C90_find (c p : Pos Double) (r : Double) (h : c.length = p.length) (hd : c.length ≤ 2 ^ 26)
    (hc : ∀ x ∈ c, x.Rep) (hp : ∀ x ∈ p, x.Rep) :
    ∃ b, (BulkTarget.new c r).checkFind p = .ok b ∧
      ((1 + (c.length + 5) / 2 ^ 53) * apart (vals c) (vals p) + (c.length + 1) * 2 ^ (-537 : ℤ) < r.val → b = true) ∧
      (r.val ≤ (1 - (c.length + 5) / 2 ^ 53) * apart (vals c) (vals p) - (c.length + 1) * 2 ^ (-537 : ℤ) → b = false) := by
  obtain ⟨D, hD, he⟩ := C90_distance c p h hd hc hp
  have he' := abs_le.1 he
  have e : (BulkTarget.new c r).checkFind p = .ok (decide (D.val < r.val)) := by
    unfold BulkTarget.checkFind BulkTarget.new BulkTarget.distance
    simp only [hD, Res.bind, RF.lt_val]
    by_cases hlt : D.val < r.val <;> simp [hlt]
  refine ⟨_, e, fun h => decide_eq_true ?_, fun h => decide_eq_false ?_⟩
  · linarith
  · rw [not_lt]; linarith

/-- Double precision, a ball whose radius is a double of at least `2^-440`: after an accepted move the particle is within
`10(d+5)/2^53` radii of the radial image of `pos + dp`, both taken exactly, and all its coordinates are doubles. -/
theorem C90_ball (R : Double) (hR : R.Rep) (hR1 : 2 ^ (-440 : ℤ) ≤ R.val) (d : Nat) (hd : d ≤ 2 ^ 26) (s : Circ Double)
    (hnew : Circ.new R d = .ok s) (pos dp : Pos Double) (hpos : pos.length = d) (hdp : dp.length = d)
    (hp : ∀ x ∈ pos, x.Rep) (hz : ∀ x ∈ dp, x.Rep) (hok : (s.checkBc pos dp).2 = .ok ()) :
    (s.checkBc pos dp).1.length = d ∧ (∀ x ∈ (s.checkBc pos dp).1, x.Rep) ∧
    ∀ z, RadialImage R.val (List.zipWith (· + ·) (vals pos) (vals dp)) z →
      apart (vals (s.checkBc pos dp).1) z ≤ 10 * (d + 5) / 2 ^ 53 * R.val := by
  obtain ⟨-, rfl⟩ := new_circ_double hnew
  obtain ⟨h1, h2, h3⟩ := step_error hR hR1 hd pos dp hpos hdp hp hz hok
  exact ⟨h1, h2, fun z hz => by rw [(radial_iff _ _ _).1 hz]; exact h3⟩

private theorem zip_shift (a b c : List ℝ) (h : a.length = b.length) (h' : b.length = c.length) :
    apart (List.zipWith (· + ·) a c) (List.zipWith (· + ·) b c) = apart a b := by
  unfold apart
  congr 1
  induction a generalizing b c with
  | nil => cases b <;> simp at h ⊢
  | cons x a ih =>
    cases b with
    | nil => simp at h
    | cons y b =>
      cases c with
      | nil => simp at h'
      | cons w c =>
        simp only [List.zipWith_cons_cons, List.cons.injEq]
        exact ⟨by ring, ih b c (by simpa using h) (by simpa using h')⟩

/-- A whole trajectory in double precision stays close to the exact one.  Both start from the same doubles and receive the same
displacements (doubles too).  As long as both accept every move, after `k` moves they are at most `k · 10(d+5)/2^53` radii
apart. -/
theorem C90_trajectory (R : Double) (hR : R.Rep) (hR1 : 2 ^ (-440 : ℤ) ≤ R.val) (d : Nat) (hd : d ≤ 2 ^ 26) (s : Circ Double)
    (s' : Circ ℝ) (hnew : Circ.new R d = .ok s) (hnew' : Circ.new R.val d = .ok s')
    (p q : Pos Double) (q' : Pos ℝ) (zs : List (Pos Double)) (hp : p.length = d) (hpr : ∀ x ∈ p, x.Rep)
    (hz : ∀ z ∈ zs, z.length = d ∧ ∀ x ∈ z, x.Rep)
    (hf : Follows s.checkBc p zs q) (hf' : Follows s'.checkBc (vals p) (zs.map vals) q') :
    q.length = d ∧ q'.length = d ∧ (∀ x ∈ q, x.Rep) ∧
      apart (vals q) q' ≤ zs.length * (10 * (d + 5) / 2 ^ 53 * R.val) := by
  have R0 : 0 < R.val := (new_circ_double hnew).1
  have key : ∀ p', p'.length = d → Follows s'.checkBc p' (zs.map vals) q' → q.length = d ∧ q'.length = d ∧ (∀ x ∈ q, x.Rep) ∧
      apart (vals q) q' ≤ apart (vals p) p' + zs.length * (10 * (d + 5) / 2 ^ 53 * R.val) := by
    clear hf'
    induction hf with
    | stay p =>
      intro p' hp' hf'
      cases hf'
      exact ⟨hp, hp', hpr, by simp⟩
    | @step p z p1 zs q h1 hf ih =>
      intro p' hp' hf'
      obtain ⟨hzl, hzr⟩ := hz z (by simp)
      cases hf' with
      | @step _ _ p1' _ _ h1' hf' =>
        obtain ⟨c1, c2, c3⟩ := C90_ball R hR hR1 d hd s hnew p z hp hzl hpr hzr (by rw [h1])
        rw [h1] at c1 c2 c3
        have im := (C21_sphere_image R.val d s' hnew' p' (vals z) hp' (by simpa using hzl)).1
        rw [h1'] at im
        have im' := (radial_iff _ _ _).1 im
        simp only at im' c1 c2 c3
        have l1' : p1'.length = d := by rw [im', image_length]; simp [hp', hzl]
        obtain ⟨i1, i2, i3, i4⟩ := ih c1 c2 (fun z hz' => hz z (by simp [hz'])) p1' l1' hf'
        refine ⟨i1, i2, i3, i4.trans ?_⟩
        have b1 := c3 _ ((radial_iff _ _ _).2 rfl)
        have b2 := image_nonexpansive R0.le (List.zipWith (· + ·) (vals p) (vals z)) (List.zipWith (· + ·) p' (vals z))
          (by simp [hp, hp', hzl])
        rw [zip_shift _ _ _ (by simp [hp, hp']) (by simp [hp', hzl]), ← im'] at b2
        have b3 := apart_triangle (vals p1) _ p1' (by rw [image_length]; simp [c1, hp, hzl])
          (by rw [image_length]; simp [l1', hp, hzl] : (ballImage R.val (List.zipWith (· + ·) (vals p) (vals z))).length = p1'.length)
        rw [List.length_cons]
        push_cast
        linarith
  obtain ⟨k1, k2, k3, k4⟩ := key (vals p) (by simpa using hp) hf'
  rw [apart_self, zero_add] at k4
  exact ⟨k1, k2, k3, k4⟩

/-- Double precision: which moves are accepted.  Exact arithmetic accepts a move exactly when `|pos + dp| ≤ 3R`.  So does double
precision, except possibly for moves that end in a shell of width `10(d+5)/2^53` radii, either side of the sphere itself or
of the sphere of radius `3R`. -/
theorem C90_accepts (R : Double) (hR : R.Rep) (hR1 : 2 ^ (-440 : ℤ) ≤ R.val) (d : Nat) (hd : d ≤ 2 ^ 26) (s : Circ Double)
    (hnew : Circ.new R d = .ok s) (pos dp : Pos Double) (hpos : pos.length = d) (hdp : dp.length = d)
    (hp : ∀ x ∈ pos, x.Rep) (hz : ∀ x ∈ dp, x.Rep) :
    let D := radius (List.zipWith (· + ·) (vals pos) (vals dp))
    let w := 10 * (d + 5) / 2 ^ 53 * R.val
    ((s.checkBc pos dp).2 = .ok () ∨ (s.checkBc pos dp).2 = .err .tooLargeTimeStep) ∧
    (D ≤ R.val - w ∨ R.val + w ≤ D ∧ D ≤ 3 * R.val - w → (s.checkBc pos dp).2 = .ok ()) ∧
    (3 * R.val + w ≤ D → (s.checkBc pos dp).2 = .err .tooLargeTimeStep) := by
  intro D w
  obtain ⟨-, rfl⟩ := new_circ_double hnew
  obtain ⟨u, ε, τ, η, c⟩ := consts hd hR1
  have R0 : 0 < R.val := lt_of_lt_of_le (by positivity) hR1
  obtain ⟨b1, b2⟩ := checkBc_double R d pos dp hpos hdp
  have sc := sum_close pos dp (by omega) hp hz
  have hq : (List.zipWith (· + ·) pos dp).length = d := by simp [hpos, hdp]
  have sub := radius_sub_le (vals (List.zipWith (· + ·) pos dp)) (List.zipWith (· + ·) (vals pos) (vals dp)) (by simp)
  have hw : w = 10 * (ε * R.val) + 20 * (u * R.val) := by
    show 10 * ((d : ℝ) + 5) / 2 ^ 53 * R.val = _
    rw [c.hε, c.hu]; ring
  have D0 : 0 ≤ D := radius_nn _
  change _ ≤ 1 / 2 ^ 53 * D at sc
  change |_ - D| ≤ _ at sub
  generalize D = D at *
  generalize w = w at *
  generalize List.zipWith (· + ·) pos dp = q at *
  have nd := norm_double q (by rw [hq]; exact hd)
  rw [hq, div_eq_mul_one_div, ← c.hu, ← c.hε, ← c.hτ] at nd
  rw [← c.hu] at sc
  have s0 := radius_nn (vals q)
  have u0 := c.u0; have ε1 := c.ε1; have τ0 := c.τ0; have τR := c.τR; have ε0 := c.ε0; have uε := c.uε
  have u1 : u ≤ 1 / 2 ^ 53 := c.u1
  have nd' := abs_le.1 nd
  have sub' := abs_le.1 (sub.trans sc)
  have pe : ε * radius (vals q) ≤ 1 / 1000 * radius (vals q) := mul_le_mul_of_nonneg_right (ε1.trans (by norm_num)) s0
  have pu : u * radius (vals q) ≤ 1 / 1000 * radius (vals q) := mul_le_mul_of_nonneg_right (u1.trans (by norm_num)) s0
  have pD : u * D ≤ 1 / 1000 * D := mul_le_mul_of_nonneg_right (u1.trans (by norm_num)) D0
  have pR : u * R.val ≤ 1 / 1000 * R.val := mul_le_mul_of_nonneg_right (u1.trans (by norm_num)) R0.le
  have peR : ε * R.val ≤ 1 / 1000 * R.val := mul_le_mul_of_nonneg_right (ε1.trans (by norm_num)) R0.le
  have uR0 : 0 < u * R.val := by positivity
  have eR0 : 0 < ε * R.val := by positivity
  have out : R.val + w ≤ D → R.val < (Pos.norm q).val := by
    intro h
    -- it suffices to treat the smallest D
    have h1 : (1 - u) * (R.val + w) ≤ (1 - u) * D := mul_le_mul_of_nonneg_left h (by linarith [u1.trans (by norm_num : (1 : ℝ) / 2 ^ 53 ≤ 1)])
    have h2 : (1 - ε) * ((1 - u) * D) ≤ (1 - ε) * radius (vals q) :=
      mul_le_mul_of_nonneg_left (by linarith) (by linarith [ε1.trans (by norm_num : (1 : ℝ) / 2 ^ 25 ≤ 1)])
    have h3 : (1 - ε) * ((1 - u) * (R.val + w)) ≤ (1 - ε) * ((1 - u) * D) :=
      mul_le_mul_of_nonneg_left h1 (by linarith [ε1.trans (by norm_num : (1 : ℝ) / 2 ^ 25 ≤ 1)])
    have w0 : 0 ≤ w := by rw [hw]; positivity
    have wu : u * w ≤ 1 / 1000 * w := mul_le_mul_of_nonneg_right (u1.trans (by norm_num)) w0
    have we : ε * w ≤ 1 / 1000 * w := mul_le_mul_of_nonneg_right (ε1.trans (by norm_num)) w0
    have h4 : R.val + w - ε * (R.val + w) - u * (R.val + w) ≤ (1 - ε) * ((1 - u) * (R.val + w)) := by
      have : 0 ≤ ε * (u * (R.val + w)) := by positivity
      linarith
    have e1 : ε * (R.val + w) = ε * R.val + ε * w := by ring
    have e2 : u * (R.val + w) = u * R.val + u * w := by ring
    have e3 : (1 - ε) * radius (vals q) = radius (vals q) - ε * radius (vals q) := by ring
    linarith
  have mir : R.val < (Pos.norm q).val → R.val < radius (vals q) → ∃ m : Pos Double, ∃ E,
      (⟨.continuousCircular, .reflection, R, d⟩ : Circ Double).checkBc pos dp =
      (m, if (Pos.norm m).val ≤ R.val then .ok () else .err .tooLargeTimeStep) ∧
      E = 2 * (ε * radius (vals q) + τ) + 304 / 100 * u * radius (vals q) + τ ∧
      |radius (vals m) - abs (2 * R.val - radius (vals q))| ≤ E ∧
      |(Pos.norm m).val - radius (vals m)| ≤ ε * radius (vals m) + τ := by
    intro hout hs
    obtain ⟨-, -, k3, -⟩ := reflect_bounds hR c R0 hd q hq hout
    refine ⟨_, _, b2 hout, rfl, ?_, ?_⟩
    · have t := radius_sub_le (vals (q.map (· * ((Fl.two * R - Pos.norm q) / Pos.norm q))))
        ((vals q).map (· * ((2 * R.val - radius (vals q)) / radius (vals q)))) (by simp)
      rw [radius_map_mul, abs_div, abs_of_pos (by linarith : 0 < radius (vals q)), div_mul_cancel₀ _ (by linarith)] at t
      exact t.trans k3
    · have hml : (q.map (· * ((Fl.two * R - Pos.norm q) / Pos.norm q))).length = d := by simp [hq]
      have := norm_double (q.map (· * ((Fl.two * R - Pos.norm q) / Pos.norm q))) (by rw [hml]; exact hd)
      rwa [hml, div_eq_mul_one_div, ← c.hu, ← c.hε, ← c.hτ] at this
  refine ⟨?_, ?_, ?_⟩
  · rcases le_or_gt (Pos.norm q).val R.val with h | h
    · left; rw [b1 h]
    · rw [b2 h]
      simp only
      split
      · exact .inl rfl
      · exact .inr rfl
  · rintro (h | ⟨h1, h2⟩)
    · rw [b1 ?_]
      have e1 : ε * radius (vals q) ≤ ε * (1001 / 1000 * R.val) := mul_le_mul_of_nonneg_left (by linarith) ε0.le
      have e2 : u * D ≤ u * R.val := mul_le_mul_of_nonneg_left (by linarith) u0.le
      linarith
    · have hout := out h1
      have e0 : u * D ≤ u * (3 * R.val) := mul_le_mul_of_nonneg_left (by linarith) u0.le
      have hs : R.val < radius (vals q) := by linarith
      have s3 : radius (vals q) ≤ 301 / 100 * R.val := by linarith
      have e1 : ε * radius (vals q) ≤ ε * (301 / 100 * R.val) := mul_le_mul_of_nonneg_left s3 ε0.le
      have e2 : u * radius (vals q) ≤ u * (301 / 100 * R.val) := mul_le_mul_of_nonneg_left s3 u0.le
      obtain ⟨m, E, hb, rfl, hm, hn⟩ := mir hout hs
      rw [hb]
      simp only
      rw [if_pos]
      have hm' := abs_le.1 hm
      have hn' := abs_le.1 hn
      have i1 : |2 * R.val - radius (vals q)| ≤ R.val - w + 3 * (u * R.val) := by
        rw [abs_le]; constructor <;> linarith
      have e3 : ε * radius (vals m) ≤ ε * (101 / 100 * R.val) := mul_le_mul_of_nonneg_left (by linarith) ε0.le
      linarith
  · intro h
    have hs : R.val < radius (vals q) := by linarith
    have hout := out (by linarith)
    obtain ⟨m, E, hb, rfl, hm, hn⟩ := mir hout hs
    rw [hb]
    simp only
    rw [if_neg]
    rw [not_le]
    have hm' := abs_le.1 hm
    have hn' := abs_le.1 hn
    have i1 : radius (vals q) - 2 * R.val ≤ |2 * R.val - radius (vals q)| := by
      rw [abs_sub_comm]; exact le_abs_self _
    -- everything is monotone in the radius
    have hr : 3 * R.val + w - 4 * (u * R.val) ≤ radius (vals q) := by
      have : (1 - u) * (3 * R.val + w) ≤ (1 - u) * D := mul_le_mul_of_nonneg_left h (by linarith [u1.trans (by norm_num : (1 : ℝ) / 2 ^ 53 ≤ 1)])
      have w1 : u * w ≤ u * R.val := mul_le_mul_of_nonneg_left (by linarith) u0.le
      linarith
    obtain ⟨t, ht⟩ : ∃ t, radius (vals q) = 3 * R.val + w - 4 * (u * R.val) + t := ⟨_, (by ring : _ = 3 * R.val + w - 4 * (u * R.val) + (radius (vals q) - (3 * R.val + w - 4 * (u * R.val))))⟩
    have t0 : 0 ≤ t := by linarith
    have te : ε * t ≤ 1 / 1000 * t := mul_le_mul_of_nonneg_right (ε1.trans (by norm_num)) t0
    have tu : u * t ≤ 1 / 1000 * t := mul_le_mul_of_nonneg_right (u1.trans (by norm_num)) t0
    have w1 : w ≤ 1 / 10 * R.val := by linarith
    have e1 : ε * radius (vals q) ≤ ε * (31 / 10 * R.val) + ε * t := by
      rw [ht, ← mul_add]; exact mul_le_mul_of_nonneg_left (by linarith) ε0.le
    have e2 : u * radius (vals q) ≤ u * (31 / 10 * R.val) + u * t := by
      rw [ht, ← mul_add]; exact mul_le_mul_of_nonneg_left (by linarith) u0.le
    -- lower bound on the computed norm of the mirrored point
    have L : R.val + w + 99 / 100 * t - (62 / 10 * (ε * R.val) + 135 / 10 * (u * R.val) + 3 * τ) ≤ radius (vals m) := by linarith
    have L1 : (1 - ε) * (R.val + w + 99 / 100 * t - (62 / 10 * (ε * R.val) + 135 / 10 * (u * R.val) + 3 * τ)) ≤ (1 - ε) * radius (vals m) :=
      mul_le_mul_of_nonneg_left L (by linarith [ε1.trans (by norm_num : (1 : ℝ) / 2 ^ 25 ≤ 1)])
    have e3 : ε * (R.val + w + 99 / 100 * t - (62 / 10 * (ε * R.val) + 135 / 10 * (u * R.val) + 3 * τ)) ≤ ε * (11 / 10 * R.val) + ε * t := by
      rw [← mul_add]; exact mul_le_mul_of_nonneg_left (by linarith) ε0.le
    linarith

/-- rounding of a number between two consecutive powers of two; `u` is the spacing of the doubles there. -/
theorem rnd_binade (k : ℤ) (u : ℝ) (hu : u = 2 ^ (k - 52)) (hk : -1022 ≤ k) {x : ℝ} (n : ℤ) (h1 : 2 ^ k ≤ x) (h2 : x < 2 ^ (k + 1))
    (h : |n - x / u| ≤ 1 / 2) (he : |n - x / u| = 1 / 2 → Even n) : Rounding.double.rnd x = n * u := by
  have x0 : 0 < x := lt_of_lt_of_le (by positivity) h1
  have hl : Int.log 2 |x| = k := by
    rw [abs_of_pos x0]
    apply le_antisymm
    · have := (Int.lt_zpow_iff_log_lt (b := 2) (by norm_num) (x := k + 1) (r := x) x0).1 (by exact_mod_cast h2)
      omega
    · exact (Int.zpow_le_iff_le_log (b := 2) (by norm_num) (r := x) x0).1 (by exact_mod_cast h1)
  have hb : lastBit 53 (-1074) x = k - 52 := by
    unfold lastBit; rw [hl]; push_cast
    rw [max_eq_left (by omega)]; ring
  show binaryRound 53 (-1074) x = _
  unfold binaryRound
  rw [hb, ← hu, roundEven_unique h he]

/-- the rounded square root of `x`, from two inequalities between squares. -/
theorem rnd_sqrt_binade (k : ℤ) (u : ℝ) (hu : u = 2 ^ (k - 52)) (hk : -1022 ≤ k) {x : ℝ} (n : ℕ)
    (h1 : (2 ^ k) ^ 2 ≤ x) (h2 : x < (2 ^ (k + 1)) ^ 2) (ha : ((n - 1 / 2) * u) ^ 2 < x) (hb : x < ((n + 1 / 2) * u) ^ 2) (hn : 1 ≤ n) :
    Rounding.double.rnd (Real.sqrt x) = n * u := by
  have x0 : 0 < x := lt_of_lt_of_le (by positivity) h1
  have hn' : (1 : ℝ) ≤ n := by exact_mod_cast hn
  have u0 : 0 < u := by rw [hu]; positivity
  have l1 : (n - 1 / 2) * u < Real.sqrt x := Real.lt_sqrt_of_sq_lt ha
  have l2 : Real.sqrt x < (n + 1 / 2) * u := (Real.sqrt_lt' (by positivity)).2 hb
  have := rnd_binade k u hu hk (x := Real.sqrt x) (n : ℤ) (Real.le_sqrt_of_sq_le h1) ((Real.sqrt_lt' (by positivity)).2 h2)
    (by
      rw [← lt_div_iff₀ u0] at l1; rw [← div_lt_iff₀ u0] at l2
      push_cast
      rw [abs_le]; constructor <;> linarith) (by
      intro he
      exfalso
      rw [← lt_div_iff₀ u0] at l1; rw [← div_lt_iff₀ u0] at l2
      push_cast at he
      have : |(n : ℝ) - Real.sqrt x / u| < 1 / 2 := by rw [abs_lt]; constructor <;> linarith
      linarith)
  simpa using this

/-- the length of a vector in the plane, by its four roundings -/
private theorem norm_plane {a b x y s v : ℝ} (hx : Rounding.double.rnd (a * a) = x) (hy : Rounding.double.rnd (b * b) = y)
    (hs : Rounding.double.rnd (x + y) = s) (hv : Rounding.double.rnd (Real.sqrt s) = v) :
    (Pos.norm [(⟨a⟩ : Double), ⟨b⟩]).val = v := by
  have e : (Pos.norm [(⟨a⟩ : Double), ⟨b⟩]).val =
      Rounding.double.rnd (Real.sqrt (Rounding.double.rnd (Rounding.double.rnd ((Fl.zero : Double).val + Rounding.double.rnd (a * a)) + Rounding.double.rnd (b * b)))) := rfl
  have z : (Fl.zero : Double).val = 0 := by simp [Rounding.double.zero]
  rw [e, z, zero_add, Rounding.double.idem, hx, hy, hs, hv]

/-- half the way to a point just outside the disc of radius 13. -/
noncomputable def edgePoint : Pos Double := [⟨6752732194140875 / 2 ^ 51⟩, ⟨6492949240383453 / 2 ^ 50⟩]

theorem edge_refused : ∃ (s : Circ Double) (s' : Circ ℝ),
    Circ.new ⟨13⟩ 2 = .ok s ∧ Circ.new 13 2 = .ok s' ∧ (⟨13⟩ : Double).Rep ∧ (∀ x ∈ edgePoint, x.Rep) ∧ (∀ x ∈ edgePoint, x.Rep) ∧
    s.checkInclusion edgePoint = .ok true ∧ radius (edgePoint.map RF.val) < 7 ∧
    (s'.checkBc (edgePoint.map RF.val) (edgePoint.map RF.val)).2 = .ok () ∧
    (s.checkBc edgePoint edgePoint).2 = .err .tooLargeTimeStep := by
  have rep : ∀ (m : Nat) (e : ℤ), m < 2 ^ 53 → -1074 ≤ e → (⟨m * 2 ^ e⟩ : Double).Rep := fun m e h1 h2 => double_exact m e h1 h2
  have r13 : (⟨13⟩ : Double).Rep := by have := double_nat (n := 13) (by norm_num); exact_mod_cast this
  have hp : (⟨6752732194140875 / 2 ^ 51⟩ : Double).Rep := by
    have := rep 6752732194140875 (-51) (by norm_num) (by norm_num)
    have e : ((6752732194140875 : ℕ) : ℝ) * 2 ^ (-51 : ℤ) = 6752732194140875 / 2 ^ 51 := by push_cast; norm_num
    rwa [e] at this
  have hp' : (⟨6492949240383453 / 2 ^ 50⟩ : Double).Rep := by
    have := rep 6492949240383453 (-50) (by norm_num) (by norm_num)
    have e : ((6492949240383453 : ℕ) : ℝ) * 2 ^ (-50 : ℤ) = 6492949240383453 / 2 ^ 50 := by push_cast; norm_num
    rwa [e] at this
  -- the sum is exact
  have s0 : (⟨6752732194140875 / 2 ^ 51⟩ + ⟨6752732194140875 / 2 ^ 51⟩ : Double) = ⟨6752732194140875 / 2 ^ 50⟩ := by
    apply RF.ext
    rw [RF.val_add, ← two_mul]
    exact (rep_double hp).trans (by norm_num)
  have s1 : (⟨6492949240383453 / 2 ^ 50⟩ + ⟨6492949240383453 / 2 ^ 50⟩ : Double) = ⟨6492949240383453 / 2 ^ 49⟩ := by
    apply RF.ext
    rw [RF.val_add, ← two_mul]
    exact (rep_double hp').trans (by norm_num)
  -- its length
  have n1 : (Pos.norm [(⟨6752732194140875 / 2 ^ 50⟩ : Double), ⟨6492949240383453 / 2 ^ 49⟩]).val = 7318349394477057 / 2 ^ 49 := by
    refine norm_plane (x := 5062549500255046 / 2 ^ 47) (y := 4680521507948849 / 2 ^ 45) (s := 5946158883012610 / 2 ^ 45) ?_ ?_ ?_ ?_
    · rw [rnd_binade 5 (1 / 2 ^ 47) (by norm_num) (by norm_num) 5062549500255046 (by norm_num) (by norm_num) (by rw [abs_le]; constructor <;> norm_num)
        (fun _ => by decide)]
      push_cast; norm_num
    · rw [rnd_binade 7 (1 / 2 ^ 45) (by norm_num) (by norm_num) 4680521507948849 (by norm_num) (by norm_num) (by rw [abs_le]; constructor <;> norm_num)
        (fun h => by exfalso; rw [abs_eq (by norm_num)] at h; norm_num at h)]
      push_cast; norm_num
    · rw [rnd_binade 7 (1 / 2 ^ 45) (by norm_num) (by norm_num) 5946158883012610 (by norm_num) (by norm_num) (by rw [abs_le]; constructor <;> norm_num)
        (fun _ => by decide)]
      push_cast; norm_num
    · rw [rnd_sqrt_binade 3 (1 / 2 ^ 49) (by norm_num) (by norm_num) 7318349394477057 (by norm_num) (by norm_num) (by push_cast; norm_num) (by push_cast; norm_num) (by norm_num)]
      push_cast; norm_num
  have hf : ((Fl.two * ⟨13⟩ - Pos.norm [(⟨6752732194140875 / 2 ^ 50⟩ : Double), ⟨6492949240383453 / 2 ^ 49⟩]) /
      Pos.norm [(⟨6752732194140875 / 2 ^ 50⟩ : Double), ⟨6492949240383453 / 2 ^ 49⟩] : Double) = ⟨1 - 1 / 2 ^ 52⟩ := by
    apply RF.ext
    have g : (Fl.two * ⟨13⟩ - Pos.norm [(⟨6752732194140875 / 2 ^ 50⟩ : Double), ⟨6492949240383453 / 2 ^ 49⟩] : Double).val = 7318349394477055 / 2 ^ 49 := by
      have t : (Fl.two * ⟨13⟩ : Double).val = 26 := by
        rw [RF.val_mul, two_val]; exact (rep_double r13).trans (by norm_num)
      rw [RF.val_sub, t, n1]
      rw [rnd_binade 3 (1 / 2 ^ 49) (by norm_num) (by norm_num) 7318349394477055 (by norm_num) (by norm_num) (by rw [abs_le]; constructor <;> norm_num)
        (fun h => by exfalso; rw [abs_eq (by norm_num)] at h; norm_num at h)]
      push_cast; norm_num
    show Rounding.double.rnd ((Fl.two * ⟨13⟩ - Pos.norm [(⟨6752732194140875 / 2 ^ 50⟩ : Double), ⟨6492949240383453 / 2 ^ 49⟩] : Double).val / (Pos.norm [(⟨6752732194140875 / 2 ^ 50⟩ : Double), ⟨6492949240383453 / 2 ^ 49⟩]).val) = _
    rw [g, n1]
    rw [rnd_binade (-1) (1 / 2 ^ 53) (by norm_num) (by norm_num) 9007199254740990 (by norm_num) (by norm_num) (by rw [abs_le]; constructor <;> norm_num)
        (fun _ => by decide)]
    push_cast; norm_num
  have m0 : (⟨6752732194140875 / 2 ^ 50⟩ * ⟨1 - 1 / 2 ^ 52⟩ : Double) = ⟨6752732194140874 / 2 ^ 50⟩ := by
    apply RF.ext
    rw [RF.val_mul, rnd_binade 2 (1 / 2 ^ 50) (by norm_num) (by norm_num) 6752732194140874 (by norm_num) (by norm_num) (by rw [abs_le]; constructor <;> norm_num)
        (fun _ => by decide)]
    push_cast; norm_num
  have m1 : (⟨6492949240383453 / 2 ^ 49⟩ * ⟨1 - 1 / 2 ^ 52⟩ : Double) = ⟨6492949240383452 / 2 ^ 49⟩ := by
    apply RF.ext
    rw [RF.val_mul, rnd_binade 3 (1 / 2 ^ 49) (by norm_num) (by norm_num) 6492949240383452 (by norm_num) (by norm_num) (by rw [abs_le]; constructor <;> norm_num)
        (fun _ => by decide)]
    push_cast; norm_num
  have n2 : (Pos.norm [(⟨6752732194140874 / 2 ^ 50⟩ : Double), ⟨6492949240383452 / 2 ^ 49⟩]).val = 7318349394477057 / 2 ^ 49 := by
    refine norm_plane (x := 5062549500255045 / 2 ^ 47) (y := 4680521507948848 / 2 ^ 45) (s := 5946158883012609 / 2 ^ 45) ?_ ?_ ?_ ?_
    · rw [rnd_binade 5 (1 / 2 ^ 47) (by norm_num) (by norm_num) 5062549500255045 (by norm_num) (by norm_num) (by rw [abs_le]; constructor <;> norm_num)
        (fun h => by exfalso; rw [abs_eq (by norm_num)] at h; norm_num at h)]
      push_cast; norm_num
    · rw [rnd_binade 7 (1 / 2 ^ 45) (by norm_num) (by norm_num) 4680521507948848 (by norm_num) (by norm_num) (by rw [abs_le]; constructor <;> norm_num)
        (fun _ => by decide)]
      push_cast; norm_num
    · rw [rnd_binade 7 (1 / 2 ^ 45) (by norm_num) (by norm_num) 5946158883012609 (by norm_num) (by norm_num) (by rw [abs_le]; constructor <;> norm_num)
        (fun h => by exfalso; rw [abs_eq (by norm_num)] at h; norm_num at h)]
      push_cast; norm_num
    · rw [rnd_sqrt_binade 3 (1 / 2 ^ 49) (by norm_num) (by norm_num) 7318349394477057 (by norm_num) (by norm_num) (by push_cast; norm_num) (by push_cast; norm_num) (by norm_num)]
      push_cast; norm_num
  have hnew : Circ.new ⟨13⟩ 2 = .ok (⟨.continuousCircular, .reflection, ⟨13⟩, 2⟩ : Circ Double) := by
    unfold Circ.new; rw [if_neg (by simp [Rounding.double.zero])]
  have hnew' : Circ.new 13 2 = .ok (⟨.continuousCircular, .reflection, 13, 2⟩ : Circ ℝ) := by
    unfold Circ.new; rw [if_neg (by simp)]
  have hall : ∀ x ∈ [(⟨6752732194140875 / 2 ^ 51⟩ : Double), ⟨6492949240383453 / 2 ^ 50⟩], x.Rep := by
    intro x hx
    simp only [List.mem_cons, List.not_mem_nil, or_false] at hx
    rcases hx with rfl | rfl
    · exact hp
    · exact hp'
  have rad : radius [(6752732194140875 / 2 ^ 51 : ℝ), 6492949240383453 / 2 ^ 50] < 7 := by
    rw [radius_sqrt, Real.sqrt_lt' (by norm_num)]
    simp only [sumSq_cons, sumSq_nil]
    norm_num
  unfold edgePoint
  refine ⟨_, _, hnew, hnew', r13, hall, hall, ?_, rad, ?_, ?_⟩
  · obtain ⟨b, hb, ht, -⟩ := C90_inclusion ⟨13⟩ 2 _ hnew (by norm_num) [⟨6752732194140875 / 2 ^ 51⟩, ⟨6492949240383453 / 2 ^ 50⟩] rfl
    rw [hb, ht]
    have t : (2 : ℝ) ^ (-537 : ℤ) ≤ 1 := by
      calc (2 : ℝ) ^ (-537 : ℤ) ≤ 2 ^ (0 : ℤ) := zpow_le_zpow_right₀ (by norm_num) (by norm_num)
        _ = 1 := by norm_num
    have rad' : radius (List.map RF.val [(⟨6752732194140875 / 2 ^ 51⟩ : Double), ⟨6492949240383453 / 2 ^ 50⟩]) < 7 := rad
    have r0 := radius_nn (List.map RF.val [(⟨6752732194140875 / 2 ^ 51⟩ : Double), ⟨6492949240383453 / 2 ^ 50⟩])
    generalize radius (List.map RF.val [(⟨6752732194140875 / 2 ^ 51⟩ : Double), ⟨6492949240383453 / 2 ^ 50⟩]) = r at *
    generalize (2 : ℝ) ^ (-537 : ℤ) = t at *
    push_cast
    norm_num
    linarith
  · refine (C21_sphere_image 13 2 _ hnew' _ _ rfl rfl).2.1.2 ?_
    simp only [List.map_cons, List.map_nil, List.zipWith_cons_cons, List.zipWith_nil_right]
    rw [radius_sqrt, Real.sqrt_le_left (by norm_num)]
    simp only [sumSq_cons, sumSq_nil]
    norm_num
  · obtain ⟨-, b2⟩ := checkBc_double ⟨13⟩ 2 [⟨6752732194140875 / 2 ^ 51⟩, ⟨6492949240383453 / 2 ^ 50⟩]
      [⟨6752732194140875 / 2 ^ 51⟩, ⟨6492949240383453 / 2 ^ 50⟩] rfl rfl
    simp only [List.zipWith_cons_cons, List.zipWith_nil_right, s0, s1, hf, List.map_cons, List.map_nil, m0, m1, n1, n2] at b2
    rw [b2 (by norm_num)]
    simp only
    rw [if_neg (by norm_num)]

/-- A finding: just outside the sphere the ball of double precision refuses moves it should reflect.  In a disc of radius 13
there is a position and a displacement, both well inside, whose sum is outside by less than one part in `10^15`: exact arithmetic
accepts the move, but the mirrored point, once rounded, is outside again and the answer is TooLargeTimeStep. -/
theorem C90_edge : ∃ (pos dp : Pos Double) (s : Circ Double) (s' : Circ ℝ),
    Circ.new ⟨13⟩ 2 = .ok s ∧ Circ.new 13 2 = .ok s' ∧ (⟨13⟩ : Double).Rep ∧ (∀ x ∈ pos, x.Rep) ∧ (∀ x ∈ dp, x.Rep) ∧
    s.checkInclusion pos = .ok true ∧ radius (dp.map RF.val) < 7 ∧
    (s'.checkBc (pos.map RF.val) (dp.map RF.val)).2 = .ok () ∧
    (s.checkBc pos dp).2 = .err .tooLargeTimeStep :=
  ⟨edgePoint, edgePoint, edge_refused⟩

/-- Non-vacuity: in the disc of radius 13 a particle goes from the origin to (5, 12), a hair's breadth from the wall, and then on
by (5, 12): the second move ends on the sphere of radius 26, well away from the shells, and is accepted; the particle is within
`10 · 7 · 13 / 2^53` of the origin again. -/
example : ∃ s : Circ Double, Circ.new ⟨13⟩ 2 = .ok s ∧ (s.checkBc [⟨5⟩, ⟨12⟩] [⟨5⟩, ⟨12⟩]).2 = .ok () ∧
    radius (((s.checkBc [⟨5⟩, ⟨12⟩] [⟨5⟩, ⟨12⟩]).1).map RF.val) ≤ 1 / 10 ^ 12 := by
  have hnew : Circ.new ⟨13⟩ 2 = .ok (⟨.continuousCircular, .reflection, ⟨13⟩, 2⟩ : Circ Double) := by
    unfold Circ.new; rw [if_neg (by simp [Rounding.double.zero])]
  have r : ∀ n : ℕ, n < 2 ^ 53 → (⟨n⟩ : Double).Rep := fun n h => double_nat h
  have r13 : (⟨13⟩ : Double).Rep := by exact_mod_cast r 13 (by norm_num)
  have hall : ∀ x ∈ [(⟨5⟩ : Double), ⟨12⟩], x.Rep := by
    intro x hx
    simp only [List.mem_cons, List.not_mem_nil, or_false] at hx
    rcases hx with rfl | rfl
    · exact_mod_cast r 5 (by norm_num)
    · exact_mod_cast r 12 (by norm_num)
  have t : (2 : ℝ) ^ (-440 : ℤ) ≤ 13 := by
    calc (2 : ℝ) ^ (-440 : ℤ) ≤ 2 ^ (0 : ℤ) := zpow_le_zpow_right₀ (by norm_num) (by norm_num)
      _ ≤ 13 := by norm_num
  have e : radius (List.zipWith (· + ·) (List.map RF.val [(⟨5⟩ : Double), ⟨12⟩]) (List.map RF.val [(⟨5⟩ : Double), ⟨12⟩])) = 26 := by
    simp only [List.map_cons, List.map_nil, List.zipWith_cons_cons, List.zipWith_nil_right]
    rw [radius_sqrt, Real.sqrt_eq_iff_mul_self_eq (sumSq_nonneg _) (by norm_num)]
    simp only [sumSq_cons, sumSq_nil]
    norm_num
  have hok := (C90_accepts ⟨13⟩ r13 t 2 (by norm_num) _ hnew [⟨5⟩, ⟨12⟩] [⟨5⟩, ⟨12⟩] rfl rfl hall hall).2.1
    (.inr (by rw [e]; constructor <;> norm_num))
  refine ⟨_, hnew, hok, ?_⟩
  have c := (C90_ball ⟨13⟩ r13 t 2 (by norm_num) _ hnew [⟨5⟩, ⟨12⟩] [⟨5⟩, ⟨12⟩] rfl rfl hall hall hok)
  have z := c.2.2 _ ((radial_iff _ _ _).2 rfl)
  have im : ballImage 13 (List.zipWith (· + ·) (List.map RF.val [(⟨5⟩ : Double), ⟨12⟩]) (List.map RF.val [(⟨5⟩ : Double), ⟨12⟩])) = [0, 0] := by
    unfold ballImage
    rw [e, if_pos (by norm_num)]
    simp only [List.map_cons, List.map_nil, List.zipWith_cons_cons, List.zipWith_nil_right]
    norm_num
  rw [im] at z
  have z0 : radius [(0 : ℝ), 0] = 0 := by rw [radius_sqrt]; simp
  have key : ∀ m : List Double, m.length = 2 → radius (m.map RF.val) ≤ apart (m.map RF.val) [0, 0] := by
    intro m hm
    have := (abs_le.1 (radius_sub_le (m.map RF.val) [0, 0] (by simp [hm]))).2
    linarith
  exact (key _ c.1).trans (z.trans (by norm_num))

/-- Non-vacuity of the trajectories: two moves from the origin, in double precision and exactly. -/
example : ∃ (s : Circ Double) (s' : Circ ℝ) (q : Pos Double) (q' : Pos ℝ),
    Circ.new ⟨13⟩ 2 = .ok s ∧ Circ.new 13 2 = .ok s' ∧
    Follows s.checkBc [⟨5⟩, ⟨12⟩] [[⟨5⟩, ⟨12⟩]] q ∧ Follows s'.checkBc [5, 12] [[5, 12]] q' := by
  have hnew : Circ.new ⟨13⟩ 2 = .ok (⟨.continuousCircular, .reflection, ⟨13⟩, 2⟩ : Circ Double) := by
    unfold Circ.new; rw [if_neg (by simp [Rounding.double.zero])]
  have hnew' : Circ.new 13 2 = .ok (⟨.continuousCircular, .reflection, 13, 2⟩ : Circ ℝ) := by
    unfold Circ.new; rw [if_neg (by simp)]
  have r : ∀ n : ℕ, n < 2 ^ 53 → (⟨n⟩ : Double).Rep := fun n h => double_nat h
  have r13 : (⟨13⟩ : Double).Rep := by exact_mod_cast r 13 (by norm_num)
  have hall : ∀ x ∈ [(⟨5⟩ : Double), ⟨12⟩], x.Rep := by
    intro x hx
    simp only [List.mem_cons, List.not_mem_nil, or_false] at hx
    rcases hx with rfl | rfl
    · exact_mod_cast r 5 (by norm_num)
    · exact_mod_cast r 12 (by norm_num)
  have t : (2 : ℝ) ^ (-440 : ℤ) ≤ 13 := by
    calc (2 : ℝ) ^ (-440 : ℤ) ≤ 2 ^ (0 : ℤ) := zpow_le_zpow_right₀ (by norm_num) (by norm_num)
      _ ≤ 13 := by norm_num
  have e : radius (List.zipWith (· + ·) (List.map RF.val [(⟨5⟩ : Double), ⟨12⟩]) (List.map RF.val [(⟨5⟩ : Double), ⟨12⟩])) = 26 := by
    simp only [List.map_cons, List.map_nil, List.zipWith_cons_cons, List.zipWith_nil_right]
    rw [radius_sqrt, Real.sqrt_eq_iff_mul_self_eq (sumSq_nonneg _) (by norm_num)]
    simp only [sumSq_cons, sumSq_nil]
    norm_num
  have hok := (C90_accepts ⟨13⟩ r13 t 2 (by norm_num) _ hnew [⟨5⟩, ⟨12⟩] [⟨5⟩, ⟨12⟩] rfl rfl hall hall).2.1
    (.inr (by rw [e]; constructor <;> norm_num))
  have hok' := (C21_sphere_image 13 2 _ hnew' [5, 12] [5, 12] rfl rfl).2.1.2 (le_trans (le_of_eq e) (by norm_num))
  exact ⟨_, _, _, _, hnew, hnew', .step (Prod.ext rfl hok) (.stay _), .step (Prod.ext rfl hok') (.stay _)⟩

end Moledyn.Props
