import Verif.Props.CircFirstOrder
import Verif.Lemmas.BallMirror
/-
Property theorems C97: the reflection along the radius (check_bc of src/system_mod/cont_circ.rs) compared with
the reflection at the hit point (check_bc_exact) and the tangent-plane approximation (check_bc_first_order).
-/
namespace Moledyn.Props
open Moledyn Moledyn.Pos

private theorem dot_ip (a b : List ℝ) : dot a b = ip a b := by
  induction a generalizing b with
  | nil => simp [dot]
  | cons x a ih => cases b with
    | nil => simp [dot]
    | cons y b =>
      have := ih b
      simp only [dot, List.zipWith_cons_cons, List.sum_cons, ip_cons] at this ⊢
      rw [this]

private theorem ip_diff (y s : List ℝ) (h : y.length = s.length) :
    ip (List.zipWith (· - ·) y s) s = ip y s - sumSq s := by
  induction y generalizing s with
  | nil => cases s with
    | nil => simp
    | cons _ _ => simp at h
  | cons a y ih => cases s with
    | nil => simp at h
    | cons b s =>
      have := ih s (by simpa using h)
      simp only [List.zipWith_cons_cons, ip_cons, sumSq_cons, this]; ring

/-- the squared distance of a multiple of `y` from `y` minus a multiple of `s`. -/
private theorem gap_sq (y s : List ℝ) (h : y.length = s.length) (g c : ℝ) :
    sumSq (List.zipWith (· - ·) (y.map (· * g)) (List.zipWith (fun zc sc => zc - 2 * c * sc) y s)) =
      (g - 1) ^ 2 * sumSq y + 4 * c * (g - 1) * ip y s + 4 * c ^ 2 * sumSq s := by
  induction y generalizing s with
  | nil => cases s with
    | nil => simp
    | cons _ _ => simp at h
  | cons a y ih => cases s with
    | nil => simp at h
    | cons b s =>
      have := ih s (by simpa using h)
      simp only [List.map_cons, List.zipWith_cons_cons, ip_cons, sumSq_cons, this]; ring

private theorem mirror_sq (y s : List ℝ) (h : y.length = s.length) (c : ℝ) :
    sumSq (List.zipWith (fun zc sc => zc - 2 * c * sc) y s) = sumSq y - 4 * c * ip y s + 4 * c ^ 2 * sumSq s := by
  induction y generalizing s with
  | nil => cases s with
    | nil => simp
    | cons _ _ => simp at h
  | cons a y ih => cases s with
    | nil => simp at h
    | cons b s =>
      have := ih s (by simpa using h)
      simp only [List.zipWith_cons_cons, ip_cons, sumSq_cons, this]; ring

/-- what remains of the move after the hit. -/
private theorem rest_diff (p v : List ℝ) (h : p.length = v.length) (t : ℝ) :
    List.zipWith (· - ·) (along p v 1) (along p v t) = v.map (· * (1 - t)) := by
  induction p generalizing v with
  | nil => cases v with
    | nil => rfl
    | cons _ _ => simp at h
  | cons a p ih => cases v with
    | nil => simp at h
    | cons b v =>
      have := ih v (by simpa using h)
      simp only [along] at this ⊢
      simp only [List.zipWith_cons_cons, List.map_cons, this, List.cons.injEq, and_true]; ring

private theorem new_pos {R : ℝ} {n : Nat} {s : Circ ℝ} (hnew : Circ.new R n = .ok s) :
    0 < R ∧ s = ⟨.continuousCircular, .reflection, R, n⟩ := by
  unfold Circ.new at hnew
  split at hnew
  · simp at hnew
  · rename_i hc
    simp only [fl_le, fl_zero, Bool.or_eq_true, decide_eq_true_eq, not_or, not_le] at hc
    exact ⟨hc.1, (Res.ok.inj hnew).symm⟩

private theorem incl {R : ℝ} {n : Nat} {s : Circ ℝ} (hnew : Circ.new R n = .ok s) (p : Pos ℝ) (hp : p.length = n) :
    s.checkInclusion p = .ok (decide (radius p ≤ R)) := by
  obtain ⟨hR, rfl⟩ := new_pos hnew
  rcases Circ.checkInclusion_cases (⟨.continuousCircular, .reflection, R, n⟩ : Circ ℝ) p with ⟨h, _⟩ | ⟨_, e⟩
  · exact absurd hp.symm h
  · rw [e, norm_eq_radius]; simp [← not_lt]

private theorem along_one (p v : List ℝ) : along p v 1 = List.zipWith (· + ·) p v := by simp [along]

/-- The two images of a move that left the sphere at `s = pos + t dp`: with `w = |pos+dp - s|`, `Y = |pos+dp|`,
`P = (pos+dp)·s`, the squared distance of the images. -/
private theorem gap_value (R : ℝ) (n : Nat) (s : Circ ℝ) (hnew : Circ.new R n = .ok s) (pos dp : Pos ℝ)
    (hpos : pos.length = n) (hdp : dp.length = n) (hout : R < radius (along pos dp 1)) (t : ℝ)
    (hst : radius (along pos dp t) = R)
    (hM : (s.checkBcExact pos dp).1.1 = mirrorAt (along pos dp t) (along pos dp 1)) :
    let Y := radius (along pos dp 1)
    let P := ip (along pos dp 1) (along pos dp t)
    apart (s.checkBc pos dp).1 (s.checkBcExact pos dp).1.1 ^ 2 =
      4 * ((Y - P / R) ^ 2 + 2 * (P / R - R) * (Y - R) * (1 - P / (R * Y))) ∧
    P ≤ Y * R ∧ (1 - t) ^ 2 * radius dp ^ 2 = Y ^ 2 - 2 * P + R ^ 2 := by
  intro Y P
  obtain ⟨hR, -⟩ := new_pos hnew
  have hl : pos.length = dp.length := by omega
  have hYR : R < Y := hout
  have hY : 0 < Y := by linarith
  have hlen : (along pos dp 1).length = (along pos dp t).length := by simp [along]
  have im := (C21_sphere_image R n s hnew pos dp hpos hdp).1
  rw [← along_one] at im
  have im2 : (s.checkBc pos dp).1 = (along pos dp 1).map (· * ((2 * R - Y) / Y)) := by
    have := (radial_iff R _ _).1 im
    rw [this, ballImage, if_pos hout]
  have hss : sumSq (along pos dp t) = R ^ 2 := by rw [← radius_sq, hst]
  have hyy : sumSq (along pos dp 1) = Y ^ 2 := (radius_sq _).symm
  refine ⟨?_, ?_, ?_⟩
  · rw [im2, hM, mirrorAt, dot_ip, ip_diff _ _ hlen, dot_ip]
    have hself : ip (along pos dp t) (along pos dp t) = R ^ 2 := by
      rw [← dot_ip, dot_self, hss]
    rw [hself, hss, apart]
    rw [radius_sq, gap_sq _ _ hlen, hyy, hss]
    show _ + 4 * ((P - R ^ 2) / R ^ 2) * _ * P + _ = _
    field_simp
    ring
  · have := ip_le_radius (along pos dp 1) (along pos dp t)
    rw [hst] at this
    exact this
  · have h1 := sumSq_diff (along pos dp 1) (along pos dp t) hlen
    rw [diff, rest_diff pos dp hl t, sumSq_scale, hyy, hss] at h1
    rw [radius_sq]
    show _ = Y ^ 2 - 2 * P + R ^ 2
    linarith

/-- Exact arithmetic.  A particle inside or on a sphere of radius `R`, in any dimension, and any move `dp`:
`check_bc` (reflection along the radius of the end point) and `check_bc_exact` (reflection at the point where
the path crosses the sphere) put it within `(2/√3) |dp|² / R` of each other. -/
theorem C97_radial_vs_exact (R : ℝ) (n : Nat) (s : Circ ℝ) (hnew : Circ.new R n = .ok s) (pos dp : Pos ℝ)
    (hpos : pos.length = n) (hdp : dp.length = n) (hin : radius pos ≤ R) :
    apart (s.checkBc pos dp).1 (s.checkBcExact pos dp).1.1 ≤ 2 / Real.sqrt 3 * (radius dp ^ 2 / R) := by
  obtain ⟨hR, -⟩ := new_pos hnew
  have h3 : (0 : ℝ) < Real.sqrt 3 := Real.sqrt_pos.2 (by norm_num)
  rcases le_or_gt (radius (along pos dp 1)) R with hle | hout
  · have hi := incl hnew (along pos dp 1) (by simp [along, hpos, hdp])
    rw [decide_eq_true hle, along_one] at hi
    obtain ⟨e1, e2, -⟩ := (C23_inside_is_addition (⟨.continuousCircular, .reflection, 1, 1⟩ : Cubic ℝ) s
      ⟨.continuousCircular, .reflection, 1, 1, 1⟩ pos dp (by omega)).2.1 hi
    rw [e1, e2, apart_self]
    positivity
  · obtain ⟨t, ht0, ht1, hst, -, -, hM, -⟩ := C28_exact_reflection R n s hnew pos dp hpos hdp hin hout
    obtain ⟨hgap, hPY, hW⟩ := gap_value R n s hnew pos dp hpos hdp hout t hst hM
    have hd := radius_nn dp
    have hD0 : 0 ≤ apart (s.checkBc pos dp).1 (s.checkBcExact pos dp).1.1 := radius_nn _
    generalize apart (s.checkBc pos dp).1 (s.checkBcExact pos dp).1.1 = D at *
    generalize radius (along pos dp 1) = Y at *
    generalize ip (along pos dp 1) (along pos dp t) = P at *
    generalize radius dp = d at *
    -- q = 2 (R Y - P)
    obtain ⟨q, hq⟩ : ∃ q, q = 2 * (R * Y - P) := ⟨_, rfl⟩
    have hP : P = R * Y - q / 2 := by rw [hq]; ring
    have hq0 : 0 ≤ q := by rw [hq]; linarith
    have hWd : (Y - R) ^ 2 + q ≤ d ^ 2 := by
      have : (1 - t) ^ 2 ≤ 1 := by nlinarith
      have := mul_le_mul_of_nonneg_right this (sq_nonneg d)
      rw [hW, hP] at this
      nlinarith
    obtain ⟨h, hh⟩ : ∃ h, h = Y - R := ⟨_, rfl⟩
    have hhp : 0 < h := by rw [hh]; linarith
    have hYh : Y = R + h := by rw [hh]; ring
    have hY : 0 < Y := by linarith
    have e1 : Y - P / R = q / (2 * R) := by rw [hP]; field_simp; ring
    have e2 : P / R - R = h - q / (2 * R) := by rw [hP, hYh]; field_simp; ring
    have e3 : 1 - P / (R * Y) = q / (2 * (R * Y)) := by rw [hP]; field_simp; ring
    rw [e1, e2, e3, ← hh] at hgap
    rw [← hh] at hWd
    -- D² ≤ (4/3) (d²/R)²
    have hb : D ^ 2 ≤ 4 / 3 * (d ^ 2 / R) ^ 2 := by
      have hqY : q / (2 * (R * Y)) ≤ q / (2 * R ^ 2) := by
        apply div_le_div_of_nonneg_left hq0 (by positivity)
        nlinarith
      have hq2 : 0 ≤ q / (2 * (R * Y)) := by positivity
      have t1 : 2 * (h - q / (2 * R)) * h * (q / (2 * (R * Y))) ≤ 2 * h ^ 2 * (q / (2 * R ^ 2)) := by
        have a1 : (h - q / (2 * R)) * h ≤ h ^ 2 := by
          have : 0 ≤ q / (2 * R) * h := by positivity
          nlinarith
        calc 2 * (h - q / (2 * R)) * h * (q / (2 * (R * Y)))
            = 2 * ((h - q / (2 * R)) * h) * (q / (2 * (R * Y))) := by ring
          _ ≤ 2 * h ^ 2 * (q / (2 * (R * Y))) := by
              apply mul_le_mul_of_nonneg_right _ hq2; linarith
          _ ≤ _ := mul_le_mul_of_nonneg_left hqY (by positivity)
      have t2 : D ^ 2 ≤ (q ^ 2 + 4 * h ^ 2 * q) / R ^ 2 := by
        rw [hgap]
        calc 4 * ((q / (2 * R)) ^ 2 + 2 * (h - q / (2 * R)) * h * (q / (2 * (R * Y))))
            ≤ 4 * ((q / (2 * R)) ^ 2 + 2 * h ^ 2 * (q / (2 * R ^ 2))) := by linarith
          _ = _ := by field_simp; ring
      refine t2.trans ?_
      rw [div_pow, mul_div_assoc', div_le_div_iff_of_pos_right (by positivity)]
      have w0 : 0 ≤ h ^ 2 + q := by positivity
      have : (h ^ 2 + q) ^ 2 ≤ (d ^ 2) ^ 2 := pow_le_pow_left₀ w0 hWd 2
      nlinarith [sq_nonneg (2 * h ^ 2 - q)]
    have hc : (2 / Real.sqrt 3 * (d ^ 2 / R)) ^ 2 = 4 / 3 * (d ^ 2 / R) ^ 2 := by
      rw [mul_pow, div_pow, Real.sq_sqrt (by norm_num)]; norm_num
    rw [← hc] at hb
    exact le_of_sq_le_sq hb (by positivity)

/-- the hypotheses are met: the disk of radius 1, a particle at `(1/2, 0)` moving by `(1, 0)`. -/
example : ∃ s : Circ ℝ, Circ.new 1 2 = .ok s ∧ radius [1/2, 0] ≤ 1 ∧ 1 < radius (along [1/2, 0] [1, 0] 1) := by
  refine ⟨⟨.continuousCircular, .reflection, 1, 2⟩, by simp [Circ.new], ?_, ?_⟩
  · rw [radius, Real.sqrt_le_left (by norm_num)]; norm_num
  · rw [radius, Real.lt_sqrt (by norm_num)]; norm_num [along]

/-- Exact arithmetic: the constant `2/√3` cannot be improved.  In every disk and for every length `δ` there is a
move of length `δ` starting on the circle that leaves the disk and after which the two rules disagree by at least
`(2/√3) δ² / (R + δ)`. -/
theorem C97_bound_is_sharp (R δ : ℝ) (hδ : 0 < δ) (s : Circ ℝ) (hnew : Circ.new R 2 = .ok s) :
    ∃ pos dp : Pos ℝ, pos.length = 2 ∧ dp.length = 2 ∧ radius pos = R ∧ radius dp = δ ∧
      R < radius (along pos dp 1) ∧
      2 / Real.sqrt 3 * (δ ^ 2 / (R + δ)) ≤ apart (s.checkBc pos dp).1 (s.checkBcExact pos dp).1.1 := by
  obtain ⟨hR, -⟩ := new_pos hnew
  have h3 : (0 : ℝ) < Real.sqrt 3 := Real.sqrt_pos.2 (by norm_num)
  have h2 : (0 : ℝ) < Real.sqrt 2 := Real.sqrt_pos.2 (by norm_num)
  have s3 : Real.sqrt 3 ^ 2 = 3 := Real.sq_sqrt (by norm_num)
  have s2 : Real.sqrt 2 ^ 2 = 2 := Real.sq_sqrt (by norm_num)
  obtain ⟨a, ha⟩ : ∃ a, a = δ / Real.sqrt 3 := ⟨_, rfl⟩
  obtain ⟨b, hb⟩ : ∃ b, b = δ * Real.sqrt 2 / Real.sqrt 3 := ⟨_, rfl⟩
  have a0 : 0 < a := by rw [ha]; positivity
  have b0 : 0 < b := by rw [hb]; positivity
  have a2 : a ^ 2 = δ ^ 2 / 3 := by rw [ha, div_pow, s3]
  have b2 : b ^ 2 = 2 * δ ^ 2 / 3 := by rw [hb, div_pow, mul_pow, s2, s3]; ring
  have rp : radius [R, 0] = R := by
    rw [radius, show (List.map (fun x : ℝ => x ^ 2) [R, 0]).sum = R ^ 2 by simp, Real.sqrt_sq hR.le]
  have rd : radius [a, b] = δ := by
    rw [radius, show (List.map (fun x : ℝ => x ^ 2) [a, b]).sum = δ ^ 2 by simp [a2, b2]; ring,
      Real.sqrt_sq hδ.le]
  have al : ∀ u, along [R, 0] [a, b] u = [R + u * a, u * b] := by intro u; simp [along]
  have hY : radius [R + a, b] ^ 2 = (R + a) ^ 2 + b ^ 2 := by rw [radius_sq]; simp [sumSq_cons]
  have hY0 := radius_nn [R + a, b]
  have hout : R < radius (along [R, 0] [a, b] 1) := by
    rw [al, one_mul, one_mul]
    nlinarith
  refine ⟨[R, 0], [a, b], rfl, rfl, rp, rd, hout, ?_⟩
  obtain ⟨t, ht0, ht1, hst, -, hgt, hM, -⟩ :=
    C28_exact_reflection R 2 s hnew [R, 0] [a, b] rfl rfl rp.le hout
  have t0 : t = 0 := by
    have := hst
    rw [al] at this
    have h' := radius_sq [R + t * a, t * b]
    rw [this] at h'
    simp only [sumSq_cons, sumSq_nil] at h'
    have : t * (2 * R * a + t * (a ^ 2 + b ^ 2)) = 0 := by linarith
    rcases mul_eq_zero.1 this with h | h
    · exact h
    · exfalso; have : 0 < 2 * R * a + t * (a ^ 2 + b ^ 2) := by positivity
      linarith
  obtain ⟨hgap, -, -⟩ := gap_value R 2 s hnew [R, 0] [a, b] rfl rfl hout t hst hM
  rw [t0, al, al, one_mul, one_mul] at hgap
  have hP : ip [R + a, b] [R + 0 * a, 0 * b] = R * (R + a) := by simp [ip_cons]; ring
  rw [hP] at hgap
  have hD0 : 0 ≤ apart (s.checkBc [R, 0] [a, b]).1 (s.checkBcExact [R, 0] [a, b]).1.1 := radius_nn _
  generalize apart (s.checkBc [R, 0] [a, b]).1 (s.checkBcExact [R, 0] [a, b]).1.1 = D at *
  generalize radius [R + a, b] = Y at *
  have e1 : R * (R + a) / R = R + a := by field_simp
  have e2 : R * (R + a) / (R * Y) = (R + a) / Y := by
    have : R ≠ 0 := hR.ne'
    rw [mul_div_mul_left _ _ this]
  rw [e1, e2] at hgap
  have aδ : a ≤ δ := le_of_sq_le_sq (by rw [a2]; linarith [sq_nonneg δ]) hδ.le
  have hYp : R + a < Y := by
    by_contra hc
    push Not at hc
    have := pow_le_pow_left₀ hY0 hc 2
    have := pow_pos b0 2
    linarith
  have hYle : Y ≤ R + δ := by
    refine le_of_sq_le_sq ?_ (by linarith)
    rw [hY, b2]
    nlinarith
  -- Y - (R+a) ≥ δ²/(3(R+δ))
  have hk : δ ^ 2 / (3 * (R + δ)) ≤ Y - (R + a) := by
    rw [div_le_iff₀ (by linarith)]
    have : (Y - (R + a)) * (Y + (R + a)) = 2 * δ ^ 2 / 3 := by
      rw [show (Y - (R + a)) * (Y + (R + a)) = Y ^ 2 - (R + a) ^ 2 by ring, hY, b2]; ring
    have h1 : Y + (R + a) ≤ 2 * (R + δ) := by linarith
    have := mul_le_mul_of_nonneg_left h1 (by linarith : 0 ≤ Y - (R + a))
    linarith
  have hYpos : 0 < Y := by linarith
  have hk2 : δ ^ 2 / (3 * (R + δ) ^ 2) ≤ 1 - (R + a) / Y := by
    have : 1 - (R + a) / Y = (Y - (R + a)) / Y := by field_simp
    rw [this, le_div_iff₀ hYpos]
    calc δ ^ 2 / (3 * (R + δ) ^ 2) * Y ≤ δ ^ 2 / (3 * (R + δ) ^ 2) * (R + δ) :=
          mul_le_mul_of_nonneg_left hYle (by positivity)
      _ = δ ^ 2 / (3 * (R + δ)) := by have : R + δ ≠ 0 := by linarith
                                      field_simp
      _ ≤ _ := hk
  have hk0 : 0 ≤ δ ^ 2 / (3 * (R + δ)) := by positivity
  have hk20 : 0 ≤ δ ^ 2 / (3 * (R + δ) ^ 2) := by positivity
  have f1 : (δ ^ 2 / (3 * (R + δ))) ^ 2 ≤ (Y - (R + a)) ^ 2 := pow_le_pow_left₀ hk0 hk 2
  have f2 : 2 * a * a * (δ ^ 2 / (3 * (R + δ) ^ 2)) ≤ 2 * (R + a - R) * (Y - R) * (1 - (R + a) / Y) := by
    have : 2 * a * a ≤ 2 * (R + a - R) * (Y - R) := by
      have : a * a ≤ a * (Y - R) := mul_le_mul_of_nonneg_left (by linarith) a0.le
      linarith
    exact mul_le_mul this hk2 hk20 (by have : 0 ≤ a * (Y - R) := mul_nonneg a0.le (by linarith)
                                       linarith)
  have hRd : R + δ ≠ 0 := by linarith
  have f3 : (2 / Real.sqrt 3 * (δ ^ 2 / (R + δ))) ^ 2 =
      4 * ((δ ^ 2 / (3 * (R + δ))) ^ 2 + 2 * a * a * (δ ^ 2 / (3 * (R + δ) ^ 2))) := by
    rw [mul_pow, div_pow, s3, mul_assoc 2 a a, ← sq a, a2]
    field_simp
    ring
  refine le_of_sq_le_sq ?_ hD0
  rw [f3, hgap]
  linarith

/-- Exact arithmetic: whenever the move starts inside, goes outwards and reaches the plane touching the sphere above
the particle (the case of `C61_agrees_to_first_order`), all three rules agree to first order: `check_bc` and
`check_bc_first_order` differ by at most `6 |dp|² / R`. -/
theorem C97_radial_vs_first_order (R : ℝ) (n : Nat) (s : Circ ℝ) (hnew : Circ.new R n = .ok s) (pos dp : Pos ℝ)
    (hpos : pos.length = n) (hdp : dp.length = n) (hin : radius pos ≤ R) (hout : R < radius (along pos dp 1))
    (hperp : 0 < dot pos dp) (hreach : R * radius pos ≤ dot (along pos dp 1) pos) :
    apart (s.checkBc pos dp).1 (s.checkBcFirstOrder pos dp).1.1 ≤ 6 * (radius dp ^ 2 / R) := by
  obtain ⟨hR, -⟩ := new_pos hnew
  have h1 := C97_radial_vs_exact R n s hnew pos dp hpos hdp hin
  have h2 := C61_agrees_to_first_order R n s hnew pos dp hpos hdp hin hout hperp hreach
  obtain ⟨t, -, -, -, -, -, hM, -⟩ := C28_exact_reflection R n s hnew pos dp hpos hdp hin hout
  obtain ⟨u, -, hF, -⟩ := C61_tangent_plane_rule R n s hnew pos dp hpos hdp hout hperp.ne'
  have im := (C21_sphere_image R n s hnew pos dp hpos hdp).1
  have l1 : (s.checkBc pos dp).1.length = n := by
    rw [(radial_iff R _ _).1 im, image_length]; simp [hpos, hdp]
  have l2 : (s.checkBcExact pos dp).1.1.length = n := by rw [hM]; simp [mirrorAt, along, hpos, hdp]
  have l3 : (s.checkBcFirstOrder pos dp).1.1.length = n := by rw [hF]; simp [along, hpos, hdp]
  have tri := apart_triangle (s.checkBc pos dp).1 (s.checkBcExact pos dp).1.1 (s.checkBcFirstOrder pos dp).1.1
    (by rw [l1, l2]) (by rw [l2, l3])
  have h2' : apart (s.checkBcExact pos dp).1.1 (s.checkBcFirstOrder pos dp).1.1 ≤ 9 / 2 * (radius dp ^ 2 / R) := by
    rw [← mul_div_assoc]; exact h2
  have hk : 2 / Real.sqrt 3 ≤ 3 / 2 := by
    rw [div_le_iff₀ (Real.sqrt_pos.2 (by norm_num))]
    have : (4 / 3 : ℝ) ≤ Real.sqrt 3 := by
      rw [Real.le_sqrt' (by norm_num)]; norm_num
    linarith
  have := mul_le_mul_of_nonneg_right hk (by positivity : 0 ≤ radius dp ^ 2 / R)
  linarith

/-- Exact arithmetic: which moves `check_bc_exact` refuses.  For a move from inside that crosses the sphere at
`pos + t dp`, it answers Ok exactly if the rest `w = (1-t) dp` of the move and the hit point satisfy
`|w|² ≤ 2 w·(pos + t dp)` (written with the common factor `1 - t` removed). -/
theorem C97_exact_accepts_iff (R : ℝ) (n : Nat) (s : Circ ℝ) (hnew : Circ.new R n = .ok s) (pos dp : Pos ℝ)
    (hpos : pos.length = n) (hdp : dp.length = n) (hin : radius pos ≤ R) (hout : R < radius (along pos dp 1)) :
    ∃ t, 0 ≤ t ∧ t < 1 ∧ radius (along pos dp t) = R ∧
      ((s.checkBcExact pos dp).2 = .ok () ↔ (1 - t) * radius dp ^ 2 ≤ 2 * dot dp (along pos dp t)) := by
  obtain ⟨hR, -⟩ := new_pos hnew
  have hl : pos.length = dp.length := by omega
  obtain ⟨t, ht0, ht1, hst, -, -, hM, hiff, -⟩ := C28_exact_reflection R n s hnew pos dp hpos hdp hin hout
  refine ⟨t, ht0, ht1, hst, ?_⟩
  obtain ⟨-, -, hW⟩ := gap_value R n s hnew pos dp hpos hdp hout t hst hM
  have hlen : (along pos dp 1).length = (along pos dp t).length := by simp [along]
  have hss : sumSq (along pos dp t) = R ^ 2 := by rw [← radius_sq, hst]
  have hyy : sumSq (along pos dp 1) = radius (along pos dp 1) ^ 2 := (radius_sq _).symm
  have hself : ip (along pos dp t) (along pos dp t) = R ^ 2 := by rw [← dot_ip, dot_self, hss]
  have hd : ip (along pos dp 1) (along pos dp t) - R ^ 2 = (1 - t) * dot dp (along pos dp t) := by
    have h1 := ip_diff (along pos dp 1) (along pos dp t) hlen
    rw [rest_diff pos dp hl t, hss] at h1
    have h2 := ip_scale dp (along pos dp t) (1 - t) 1
    simp only [mul_one, List.map_id'] at h2
    rw [← h1, h2, dot_ip]
  rw [hiff, mirrorAt, dot_ip, ip_diff _ _ hlen, dot_ip, hself, hss, radius_sqrt, Real.sqrt_le_left hR.le,
    mirror_sq _ _ hlen, hyy, hss]
  have e : radius (along pos dp 1) ^ 2 - 4 * ((ip (along pos dp 1) (along pos dp t) - R ^ 2) / R ^ 2) *
      ip (along pos dp 1) (along pos dp t) +
      4 * ((ip (along pos dp 1) (along pos dp t) - R ^ 2) / R ^ 2) ^ 2 * R ^ 2 =
      radius (along pos dp 1) ^ 2 - 4 * (ip (along pos dp 1) (along pos dp t) - R ^ 2) := by
    field_simp; ring
  rw [e]
  have h1t : 0 < 1 - t := by linarith
  constructor
  · intro h
    have : (1 - t) * ((1 - t) * radius dp ^ 2) ≤ (1 - t) * (2 * dot dp (along pos dp t)) := by nlinarith
    exact le_of_mul_le_mul_left this h1t
  · intro h
    have := mul_le_mul_of_nonneg_left h h1t.le
    nlinarith

/-- So arbitrarily short moves are refused: from a point of the circle along the tangent, `check_bc_exact` answers
TooLargeTimeStep however short the move is, although `check_bc` accepts it (for lengths up to `2R`). -/
theorem C97_short_moves_refused (R δ : ℝ) (hδ : 0 < δ) (s : Circ ℝ) (hnew : Circ.new R 2 = .ok s) :
    (s.checkBcExact [R, 0] [0, δ]).2 = .err .tooLargeTimeStep ∧
    (δ ≤ 2 * R → (s.checkBc [R, 0] [0, δ]).2 = .ok ()) := by
  obtain ⟨hR, -⟩ := new_pos hnew
  have rp : radius [R, 0] = R := by
    rw [radius, show (List.map (fun x : ℝ => x ^ 2) [R, 0]).sum = R ^ 2 by simp, Real.sqrt_sq hR.le]
  have al : ∀ u, along [R, 0] [0, δ] u = [R, u * δ] := by intro u; simp [along]
  have hsq : ∀ u, radius [R, u * δ] ^ 2 = R ^ 2 + u ^ 2 * δ ^ 2 := by
    intro u; rw [radius_sq]; simp only [sumSq_cons, sumSq_nil]; ring
  have rd : radius [0, δ] = δ := by
    rw [radius, show (List.map (fun x : ℝ => x ^ 2) [0, δ]).sum = δ ^ 2 by simp, Real.sqrt_sq hδ.le]
  have hout : R < radius (along [R, 0] [0, δ] 1) := by
    rw [al]
    have := hsq 1
    have := radius_nn [R, 1 * δ]
    nlinarith
  constructor
  · obtain ⟨t, ht0, ht1, hst, hiff⟩ := C97_exact_accepts_iff R 2 s hnew [R, 0] [0, δ] rfl rfl rp.le hout
    have hor := C28_exact_reflection R 2 s hnew [R, 0] [0, δ] rfl rfl rp.le hout
    obtain ⟨-, -, -, -, -, -, -, -, hor⟩ := hor
    rcases hor with h | h
    · exfalso
      have h := hiff.1 h
      have t0 : t = 0 := by
        have h2 := hsq t
        rw [al] at hst
        rw [hst] at h2
        have : t ^ 2 * δ ^ 2 = 0 := by linarith
        rcases mul_eq_zero.1 this with h | h
        · exact pow_eq_zero_iff (two_ne_zero) |>.1 h
        · exact absurd h (by positivity)
      rw [t0, rd, al] at h
      simp only [dot, List.zipWith_cons_cons, List.zipWith_nil_left, List.sum_cons, List.sum_nil] at h
      nlinarith
    · exact h
  · intro hle
    rw [(C21_sphere_image R 2 s hnew [R, 0] [0, δ] rfl rfl).2.1]
    have h1 : List.zipWith (· + ·) [R, 0] [0, δ] = [R, 1 * δ] := by simp
    rw [h1]
    refine le_of_sq_le_sq ?_ (by linarith)
    rw [hsq]
    nlinarith

/-- the hypotheses are met. -/
example : ∃ s : Circ ℝ, Circ.new 3 2 = .ok s := ⟨⟨.continuousCircular, .reflection, 3, 2⟩, by simp [Circ.new]⟩

/-- Exact arithmetic: the comparison in `tests/boundary_cond.rs` (`test_error_check_bc`, and `test_cont_circ_reflection`,
whose moves are up to 0.029 long) never meets the boundary.  For every start `(x, 0)` with `0 ≤ x ≤ 0.95` and every move of length up to `0.03` in any
direction of the unit disk, all three rules answer Ok and return `pos + dp` and `dp` untouched, so no row is written
and no step of the reflection is checked. -/
theorem C97_comparison_is_vacuous (s : Circ ℝ) (hnew : Circ.new 1 2 = .ok s) (x y θ : ℝ) (hx0 : 0 ≤ x)
    (hx : x ≤ 95 / 100) (hy0 : 0 ≤ y) (hy : y ≤ 3 / 100) :
    let dp : Pos ℝ := [y * Real.cos θ, y * Real.sin θ]
    let z : Pos ℝ := [x + y * Real.cos θ, 0 + y * Real.sin θ]
    s.checkInclusion z = .ok true ∧ s.checkBc [x, 0] dp = (z, .ok ()) ∧
    s.checkBcExact [x, 0] dp = ((z, dp), .ok ()) ∧ s.checkBcFirstOrder [x, 0] dp = ((z, dp), .ok ()) := by
  intro dp z
  have hz : radius z ≤ 1 := by
    have h1 := radius_sq z
    simp only [z, sumSq_cons, sumSq_nil] at h1
    have cs := Real.cos_sq_add_sin_sq θ
    have c1 := Real.cos_le_one θ
    have h2 : radius z ^ 2 = x ^ 2 + 2 * (x * y) * Real.cos θ + y ^ 2 := by
      have : y ^ 2 = y ^ 2 * (Real.cos θ ^ 2 + Real.sin θ ^ 2) := by rw [cs, mul_one]
      rw [h1]; nlinarith
    have h3 : (x * y) * Real.cos θ ≤ x * y := by
      have := mul_le_mul_of_nonneg_left c1 (mul_nonneg hx0 hy0); linarith
    refine le_of_sq_le_sq ?_ (by norm_num)
    rw [h2]
    nlinarith
  have hi := incl hnew z rfl
  rw [decide_eq_true hz] at hi
  have hz' : z = List.zipWith (· + ·) [x, 0] dp := rfl
  refine ⟨hi, ?_⟩
  rw [hz'] at hi ⊢
  exact (C23_inside_is_addition (⟨.continuousCircular, .reflection, 1, 1⟩ : Cubic ℝ) s
      ⟨.continuousCircular, .reflection, 1, 1, 1⟩ [x, 0] dp rfl).2.1 hi

/-- the ten starts and thirty lengths of the test are of this form. -/
example (i j : Nat) (hi : i < 10) (hj : j < 30) :
    (0 : ℝ) ≤ 5 / 100 + i * (1 / 10) ∧ (5 / 100 + i * (1 / 10) : ℝ) ≤ 95 / 100 ∧
    (0 : ℝ) ≤ j * (1 / 1000) ∧ (j * (1 / 1000) : ℝ) ≤ 3 / 100 := by
  have h1 : (i : ℝ) ≤ 9 := by exact_mod_cast (by omega : i ≤ 9)
  have h2 : (j : ℝ) ≤ 29 := by exact_mod_cast (by omega : j ≤ 29)
  refine ⟨by positivity, by linarith, by positivity, by linarith⟩

end Moledyn.Props
