import Verif.Model.BoundaryTests
import Verif.Props.BoundaryAgreement
/-
C97: which moves check_bc_exact accepts, and the checks of tests/boundary_cond.rs.
-/
namespace Moledyn.Props
open Moledyn Pos
set_option linter.unusedSimpArgs false

private theorem circ_pos {R : ℝ} {n : Nat} {s : Circ ℝ} (hnew : Circ.new R n = .ok s) :
    0 < R ∧ s = ⟨.continuousCircular, .reflection, R, n⟩ := by
  unfold Circ.new at hnew
  split at hnew
  · simp at hnew
  · rename_i hc
    simp only [fl_le, fl_zero, Bool.or_eq_true, decide_eq_true_eq, not_or, not_le] at hc
    simp only [Res.ok.injEq] at hnew
    exact ⟨hc.1, hnew.symm⟩

private theorem dot_eq_ip (a b : List ℝ) : dot a b = ip a b := by
  induction a generalizing b with
  | nil => cases b <;> simp [dot, ip]
  | cons x a ih => cases b with
    | nil => simp [dot, ip]
    | cons y b =>
      have := ih b
      simp only [dot] at this ⊢
      simp only [List.zipWith_cons_cons, List.sum_cons, this, ip_cons]

private theorem dot_dp_along (p v : List ℝ) (h : p.length = v.length) (t : ℝ) : dot v (along p v t) = ip p v + t * sumSq v := by
  induction p generalizing v with
  | nil => cases v with
    | nil => simp [along, dot]
    | cons _ _ => simp at h
  | cons x p ih => cases v with
    | nil => simp at h
    | cons y v =>
      have := ih v (by simpa using h)
      simp only [along, dot] at this ⊢
      simp only [List.zipWith_cons_cons, List.sum_cons, this, sumSq_cons, ip_cons]; ring

private theorem rad_sq (p : List ℝ) : radius p ^ 2 = sumSq p := Real.sq_sqrt (sumSq_nonneg p)

/-- Exact arithmetic, any dimension: `check_bc_exact` accepts every move from inside whose length is at most `√8` times half
the chord through the start that is perpendicular to the radius, `√(R² - |pos|²)`; so from a distance `h` to the sphere at
least every move of length `√(8 R h)`. -/
theorem C97_exact_accepts_short (R : ℝ) (n : Nat) (s : Circ ℝ) (hnew : Circ.new R n = .ok s) (pos dp : Pos ℝ)
    (hpos : pos.length = n) (hdp : dp.length = n) (hin : radius pos ≤ R) (hshort : radius dp ^ 2 ≤ 8 * (R ^ 2 - radius pos ^ 2)) :
    (s.checkBcExact pos dp).2 = .ok () := by
  obtain ⟨hR, rfl⟩ := circ_pos hnew
  have hl : pos.length = dp.length := by omega
  by_cases hout : R < radius (along pos dp 1)
  · obtain ⟨t, t0, t1, ht, hiff⟩ := C97_exact_accepts_iff R n _ hnew pos dp hpos hdp hin hout
    rw [hiff, dot_dp_along pos dp hl]
    have h1 : sumSq (along pos dp t) = R ^ 2 := by rw [← rad_sq, ht]
    rw [sumSq_along pos dp hl] at h1
    rw [rad_sq, rad_sq] at hshort
    rw [rad_sq]
    by_contra hlt
    push Not at hlt
    set A := sumSq dp
    set B := ip pos dp
    have hA : 0 ≤ A := sumSq_nonneg dp
    have h2 : A ≤ 8 * (2 * t * B + t ^ 2 * A) := by linarith
    have h3 : 2 * B ≤ A * (1 - 3 * t) := by linarith
    have h4 : t * (2 * B) ≤ t * (A * (1 - 3 * t)) := mul_le_mul_of_nonneg_left h3 t0
    have h5 : 0 ≤ A * (4 * t - 1) ^ 2 := by positivity
    have h6 : A * (4 * t - 1) ^ 2 ≤ 0 := by nlinarith
    have h7 : A * (4 * t - 1) ^ 2 = 0 := le_antisymm h6 h5
    rcases mul_eq_zero.1 h7 with h8 | h8
    · rw [h8] at h1 hlt
      have hcs := ip_sq_le pos dp
      change B ^ 2 ≤ _ * A at hcs
      rw [h8, mul_zero] at hcs
      have hB : B = 0 := by nlinarith
      rw [hB] at hlt
      linarith
    · have h9 : t = 1 / 4 := by
        have := pow_eq_zero_iff (two_ne_zero) |>.1 h8
        linarith
      rw [h9] at h2 hlt
      linarith
  · have hi : (⟨.continuousCircular, .reflection, R, n⟩ : Circ ℝ).checkInclusion (List.zipWith (· + ·) pos dp) = .ok true := by
      rcases Circ.checkInclusion_cases (⟨.continuousCircular, .reflection, R, n⟩ : Circ ℝ) (List.zipWith (· + ·) pos dp) with ⟨h, _⟩ | ⟨_, e⟩
      · exact absurd (by simp [hpos, hdp]) h
      · rw [e, norm_eq_radius]
        have : radius (List.zipWith (· + ·) pos dp) ≤ R := by
          have := not_lt.1 hout
          simpa [along] using this
        simp [this]
    rw [((C23_inside_is_addition (⟨.continuousCircular, .reflection, 1, 1⟩ : Cubic ℝ) (⟨.continuousCircular, .reflection, R, n⟩ : Circ ℝ)
      ⟨.continuousCircular, .reflection, 1, 1, 1⟩ pos dp (by omega)).2.1 hi).2.1]

/-- And this is the best bound: in every disk, from every start at a distance of at least `R/3` from the centre, there is a
direction in which every longer move is refused. -/
theorem C97_exact_accepts_sharp (R x : ℝ) (hx : 0 < x) (hxR : x ≤ R) (h3 : R ≤ 3 * x) (s : Circ ℝ) (hnew : Circ.new R 2 = .ok s) :
    ∃ a b : ℝ, a ^ 2 + b ^ 2 = 1 ∧ ∀ y : ℝ, 0 < y → 8 * (R ^ 2 - x ^ 2) < y ^ 2 →
      (s.checkBcExact [x, 0] [y * a, y * b]).2 = .err .tooLargeTimeStep := by
  obtain ⟨hR, rfl⟩ := circ_pos hnew
  set q := R ^ 2 - x ^ 2 with hq
  have hq0 : 0 ≤ q := by nlinarith
  set w := Real.sqrt (q / 8) with hw
  have hw0 : 0 ≤ w := Real.sqrt_nonneg _
  have hw2 : w ^ 2 = q / 8 := Real.sq_sqrt (by positivity)
  have hwx : w ≤ x := by
    rw [hw, Real.sqrt_le_left hx.le]
    nlinarith
  set a := w / x with ha
  have hxa : x * a = w := by rw [ha]; field_simp
  have ha1 : a ^ 2 ≤ 1 := by
    rw [ha, div_pow, div_le_one (by positivity)]
    exact pow_le_pow_left₀ hw0 hwx 2
  set b := Real.sqrt (1 - a ^ 2) with hb
  have hab : a ^ 2 + b ^ 2 = 1 := by rw [hb, Real.sq_sqrt (by linarith)]; ring
  refine ⟨a, b, hab, fun y hy hlong => ?_⟩
  have hyw : 8 * w < y := by
    by_contra hh
    push Not at hh
    nlinarith
  have rp : radius [x, 0] = x := by
    rw [radius, show (List.map (fun x : ℝ => x ^ 2) [x, 0]).sum = x ^ 2 by simp, Real.sqrt_sq hx.le]
  have hsq : ∀ u, sumSq (along [x, 0] [y * a, y * b] u) = x ^ 2 + 2 * u * y * w + u ^ 2 * y ^ 2 := by
    intro u
    have h1 : x ^ 2 + 2 * u * y * w + u ^ 2 * y ^ 2 = x ^ 2 + 2 * u * y * (x * a) + u ^ 2 * y ^ 2 * (a ^ 2 + b ^ 2) := by rw [hxa, hab]; ring
    rw [h1]
    simp only [along, List.zipWith_cons_cons, List.zipWith_nil_left, sumSq_cons, sumSq_nil]
    ring
  have hout : R < radius (along [x, 0] [y * a, y * b] 1) := by
    refine (Real.lt_sqrt hR.le).2 ?_
    change R ^ 2 < sumSq _
    rw [hsq]
    have : 0 ≤ y * w := by positivity
    linarith
  obtain ⟨t, t0, t1, ht, hiff⟩ := C97_exact_accepts_iff R 2 _ hnew [x, 0] [y * a, y * b] rfl rfl (by rw [rp]; exact hxR) hout
  obtain ⟨-, -, -, -, -, -, -, -, hor⟩ := C28_exact_reflection R 2 _ hnew [x, 0] [y * a, y * b] rfl rfl (by rw [rp]; exact hxR) hout
  rcases hor with h | h
  · exfalso
    have h := hiff.1 h
    rw [dot_dp_along [x, 0] [y * a, y * b] rfl t, rad_sq] at h
    have e1 : sumSq [y * a, y * b] = y ^ 2 := by
      simp only [sumSq_cons, sumSq_nil]
      rw [show (y * a) ^ 2 + ((y * b) ^ 2 + 0) = y ^ 2 * (a ^ 2 + b ^ 2) by ring, hab, mul_one]
    have e2 : ip [x, 0] [y * a, y * b] = y * w := by
      simp only [ip_cons]
      rw [← hxa]
      simp [ip]
      ring
    rw [e1, e2] at h
    have h1 : sumSq (along [x, 0] [y * a, y * b] t) = R ^ 2 := by rw [← rad_sq, ht]
    rw [hsq] at h1
    -- with `τ = t y`: `2 τ w + τ² = q = 8 w²`, so `τ = 2 w`
    have h2 : (t * y) ^ 2 + 2 * (t * y) * w = 8 * w ^ 2 := by rw [hw2]; nlinarith
    have h3 : (t * y - 2 * w) * (t * y + 4 * w) = 0 := by linarith [h2, (by ring : (t * y - 2 * w) * (t * y + 4 * w) = (t * y) ^ 2 + 2 * (t * y) * w - 8 * w ^ 2)]
    have hty : 0 ≤ t * y := by positivity
    have h4 : t * y = 2 * w := by
      rcases mul_eq_zero.1 h3 with h5 | h5
      · linarith
      · have : w = 0 := by linarith
        rw [this] at h5 ⊢
        linarith
    have h5 : (1 - t) * y ^ 2 = y * (y - 2 * w) := by rw [← h4]; ring
    have h6 : 2 * (y * w + t * y ^ 2) = y * (6 * w) := by
      rw [show t * y ^ 2 = y * (t * y) by ring, h4]; ring
    rw [h5, h6] at h
    have := le_of_mul_le_mul_left h hy
    linarith
  · exact h

/-- `test_check_bc_realization` of tests/boundary_cond.rs: from `(0.95, 0)` in the unit disk every move of length up to 0.79
in any direction is accepted by both rules. -/
theorem C97_realization (s : Circ ℝ) (hnew : Circ.new 1 2 = .ok s) (y θ : ℝ) (hy0 : 0 ≤ y) (hy : y ≤ 79 / 100) :
    let dp : Pos ℝ := [y * Real.cos θ, y * Real.sin θ]
    (s.checkBcExact [95 / 100, 0] dp).2 = .ok () ∧ (s.checkBc [95 / 100, 0] dp).2 = .ok () ∧
    apart (s.checkBc [95 / 100, 0] dp).1 (s.checkBcExact [95 / 100, 0] dp).1.1 ≤ 2 / Real.sqrt 3 * y ^ 2 := by
  intro dp
  have rp : radius [95 / 100, 0] = 95 / 100 := by
    rw [radius, show (List.map (fun x : ℝ => x ^ 2) [95 / 100, 0]).sum = (95 / 100) ^ 2 by simp, Real.sqrt_sq (by norm_num)]
  have cs := Real.cos_sq_add_sin_sq θ
  have rd : radius dp ^ 2 = y ^ 2 := by
    rw [rad_sq]
    simp only [dp, sumSq_cons, sumSq_nil]
    rw [show (y * Real.cos θ) ^ 2 + ((y * Real.sin θ) ^ 2 + 0) = y ^ 2 * (Real.cos θ ^ 2 + Real.sin θ ^ 2) by ring, cs, mul_one]
  refine ⟨?_, ?_, ?_⟩
  · refine C97_exact_accepts_short 1 2 s hnew _ dp rfl rfl (by rw [rp]; norm_num) ?_
    rw [rd, rp]
    nlinarith
  · rw [(C21_sphere_image 1 2 s hnew [95 / 100, 0] dp rfl rfl).2.1]
    refine Real.sqrt_le_iff.2 ⟨by norm_num, ?_⟩
    change sumSq (List.zipWith (· + ·) [95 / 100, 0] dp) ≤ _
    simp only [dp, List.zipWith_cons_cons, List.zipWith_nil_left, sumSq_cons, sumSq_nil]
    have h1 := Real.cos_le_one θ
    have h2 : (95 / 100 + y * Real.cos θ) ^ 2 + ((0 + y * Real.sin θ) ^ 2 + 0) = (95 / 100) ^ 2 + 2 * (95 / 100) * (y * Real.cos θ) + y ^ 2 * (Real.cos θ ^ 2 + Real.sin θ ^ 2) := by ring
    rw [h2, cs]
    have h3 : y * Real.cos θ ≤ y := by nlinarith
    nlinarith
  · have := C97_radial_vs_exact 1 2 s hnew [95 / 100, 0] dp rfl rfl (by rw [rp]; norm_num)
    rw [rd, div_one] at this
    exact this

/-- Exact arithmetic, any dimension: no assertion of `single_test_cont_circ_exact` of tests/boundary_cond.rs can fail for a move
from inside, and its verdict is that of `check_bc_exact`. -/
theorem C97_exact_checks (R : ℝ) (n : Nat) (s : Circ ℝ) (hnew : Circ.new R n = .ok s) (pos dp : Pos ℝ)
    (hpos : pos.length = n) (hdp : dp.length = n) (hin : radius pos ≤ R) :
    exactSteps s pos dp = (s.checkBcExact pos dp).2 := by
  obtain ⟨hR, rfl⟩ := circ_pos hnew
  have hl : pos.length = dp.length := by omega
  have hinc : ∀ p : Pos ℝ, p.length = n →
      (⟨.continuousCircular, .reflection, R, n⟩ : Circ ℝ).checkInclusion p = .ok (decide (radius p ≤ R)) := by
    intro p hp
    rcases Circ.checkInclusion_cases (⟨.continuousCircular, .reflection, R, n⟩ : Circ ℝ) p with ⟨h, _⟩ | ⟨_, e⟩
    · exact absurd hp.symm h
    · rw [e, norm_eq_radius]; simp [← not_lt]
  have hadd : ∀ a b : Pos ℝ, a.length = b.length → Pos.add a b = .ok (List.zipWith (fun x y : ℝ => x + y) a b) := by
    intro a b h
    unfold Pos.add Pos.dim
    rw [if_neg (by simpa using h)]
  have hsub : ∀ a b : Pos ℝ, a.length = b.length → Pos.sub a b = .ok (List.zipWith (fun x y : ℝ => x - y) a b) := by
    intro a b h
    unfold Pos.sub Pos.dim
    rw [if_neg (by simpa using h)]
  have halong1 : along pos dp 1 = List.zipWith (fun a b : ℝ => a + b) pos dp := by simp [along]
  by_cases hout : R < radius (along pos dp 1)
  · obtain ⟨t', t0', t1', ht', -, hafter, hM, hiff, hor⟩ := C28_exact_reflection R n _ hnew pos dp hpos hdp hin hout
    set A := sumSq dp with hA
    set B := ip pos dp with hB
    set r2 := sumSq pos with hr2
    have hA0 : 0 ≤ A := sumSq_nonneg dp
    have hq1 : R ^ 2 < r2 + 2 * B + A := by
      have h1 := (Real.lt_sqrt hR.le).1 (show R < Real.sqrt (sumSq (along pos dp 1)) from hout)
      rw [sumSq_along pos dp hl] at h1
      linarith
    have hr2R : r2 ≤ R ^ 2 := (Real.sqrt_le_left hR.le).1 (show Real.sqrt r2 ≤ R from hin)
    have hApos : 0 < A := by
      rcases hA0.lt_or_eq with h | h
      · exact h
      · exfalso
        have hcs := ip_sq_le pos dp
        rw [← hA, ← h, mul_zero] at hcs
        have hB0 : B = 0 := by
          have : B ^ 2 ≤ 0 := hcs
          nlinarith [sq_nonneg B]
        rw [hB0, ← h] at hq1; linarith
    set D := Real.sqrt (B * B + A * (R * R - r2)) with hD
    have hDsq : D ^ 2 = B * B + A * (R * R - r2) := Real.sq_sqrt (by nlinarith [mul_self_nonneg B])
    have hD0 : 0 ≤ D := Real.sqrt_nonneg _
    set t := (-B + D) / A with htdef
    have htA : A * t = D - B := by rw [htdef]; field_simp; ring
    have hq : ∀ u, A * (sumSq (along pos dp u) - R ^ 2) = (A * u + B) ^ 2 - D ^ 2 := by
      intro u; rw [sumSq_along pos dp hl, hDsq]; ring
    have hqt : sumSq (along pos dp t) = R ^ 2 := by
      have h0 : A * (sumSq (along pos dp t) - R ^ 2) = 0 := by rw [hq, htA]; ring
      rcases mul_eq_zero.1 h0 with h | h
      · exact absurd h hApos.ne'
      · linarith
    have hrt : radius (along pos dp t) = R := by rw [radius_eq, hqt, Real.sqrt_sq hR.le]
    have htt : t' = t := by
      rcases lt_trichotomy t' t with h | h | h
      · have := hafter t h
        rw [hrt] at this
        exact absurd this (lt_irrefl _)
      · exact h
      · exfalso
        have h1 : sumSq (along pos dp t') = R ^ 2 := by rw [← rad_sq, ht']
        have h2 := hq t'
        rw [h1, sub_self, mul_zero] at h2
        have h3 := mul_lt_mul_of_pos_left h hApos
        rw [htA] at h3
        nlinarith
    rw [htt] at hM hiff
    set k := (1 - t) * (B + t * A) / R ^ 2 with hk
    have hmir := mirror_along pos dp hl t k R hk hqt
    have hMl : (mirrorAt (along pos dp t) (along pos dp 1)).length = n := by rw [← hmir]; simp [hpos, hdp]
    have hnA : Pos.norm dp * Pos.norm dp = A := by rw [← sq, norm_sq]
    have hnr : Pos.norm pos * Pos.norm pos = r2 := by rw [← sq, norm_sq]
    have e1 : (-B + Fl.sqrt (B * B + Pos.norm dp * Pos.norm dp * (R * R - Pos.norm pos * Pos.norm pos))) / (Pos.norm dp * Pos.norm dp) = t := by
      rw [hnA, hnr]; rfl
    have e2 : ((Fl.one : ℝ) - t) * (B + t * Pos.norm dp * Pos.norm dp) / (R * R) = k := by
      rw [hk, show (Fl.one : ℝ) = 1 from fl_one, mul_assoc t, hnA, sq]
    have e3 : List.zipWith (fun x y : ℝ => x + y) pos (dp.map (· * t)) = along pos dp t := by
      unfold along
      refine List.ext_getElem (by simp) fun i h1 h2 => ?_
      simp [mul_comm]
    have hal : (along pos dp t).length = n := by simp [along, hpos, hdp]
    have e4 : ip (List.zipWith (fun x y : ℝ => x - y) (dp.map (· * (1 - t))) ((along pos dp t).map (· * k))) (along pos dp t) = 0 := by
      have h1 : ip (List.zipWith (fun x y : ℝ => x - y) (dp.map (· * (1 - t))) ((along pos dp t).map (· * k))) (along pos dp t) =
          (1 - t) * ip dp (along pos dp t) - k * sumSq (along pos dp t) := by
        have : ∀ (a b : List ℝ), a.length = b.length → ip (List.zipWith (fun x y : ℝ => x - y) (a.map (· * (1 - t))) (b.map (· * k))) b =
            (1 - t) * ip a b - k * sumSq b := by
          intro a
          induction a with
          | nil => intro b h; cases b with
            | nil => simp [ip]
            | cons _ _ => simp at h
          | cons x a ih => intro b h; cases b with
            | nil => simp at h
            | cons y b =>
              simp only [List.map_cons, List.zipWith_cons_cons, ip_cons, sumSq_cons, ih b (by simpa using h)]
              ring
        exact this dp (along pos dp t) (by rw [hal, hdp])
      rw [h1, ← dot_eq_ip, dot_dp_along pos dp hl, hqt, hk]
      field_simp
      ring
    have e5 : Pos.norm (along pos dp t) - R = 0 := by rw [norm_eq_radius, hrt, sub_self]
    have hsmall : assertSmall (0 : ℝ) = .ok () := by
      unfold assertSmall
      rw [if_pos]
      simp only [fl_lt, fl_abs, fl_lit, abs_zero, decide_eq_true_eq]
      push_cast
      positivity
    have hlhs : exactSteps (⟨.continuousCircular, .reflection, R, n⟩ : Circ ℝ) pos dp =
        if decide (radius (mirrorAt (along pos dp t) (along pos dp 1)) ≤ R) = true then .ok () else .err .tooLargeTimeStep := by
      unfold exactSteps
      rw [hadd pos dp hl]
      simp only [Res.bind]
      rw [← halong1, hinc _ (by simp [along, hpos, hdp]), show decide (radius (along pos dp 1) ≤ R) = false by simpa using hout]
      simp only [Bool.false_eq_true, if_false]
      rw [innerProduct_eq pos dp hl]
      simp only [fl_add, fl_sub, fl_mul, fl_neg] at e1 e2 ⊢
      rw [← hB, e1, e2]
      unfold Pos.scalarMul
      rw [hadd _ _ (by simp [hl])]
      simp only
      rw [e3]
      simp only [e5, hsmall]
      rw [hsub _ _ (by simp [hdp, hal])]
      simp only [fl_one]
      rw [innerProduct_eq _ _ (by simp [hdp, hal])]
      simp only [e4, hsmall]
      rw [hadd _ _ (by simp [hl])]
      simp only [fl_two, hmir]
      rw [hinc _ hMl]
    rw [hlhs]
    by_cases h : radius (mirrorAt (along pos dp t) (along pos dp 1)) ≤ R
    · rw [hiff.2 h]; simp [h]
    · rcases hor with h2 | h2
      · exact absurd (hiff.1 h2) h
      · rw [h2]; simp [h]
  · have hle : radius (along pos dp 1) ≤ R := not_lt.1 hout
    have hi := hinc (along pos dp 1) (by simp [along, hpos, hdp])
    rw [decide_eq_true hle, halong1] at hi
    rw [((C23_inside_is_addition (⟨.continuousCircular, .reflection, 1, 1⟩ : Cubic ℝ) (⟨.continuousCircular, .reflection, R, n⟩ : Circ ℝ)
      ⟨.continuousCircular, .reflection, 1, 1, 1⟩ pos dp (by omega)).2.1 hi).2.1]
    unfold exactSteps
    rw [hadd pos dp hl]
    simp only [Res.bind]
    rw [hi]
    simp

/-- the hypotheses are met. -/
example : ∃ s : Circ ℝ, Circ.new 1 2 = .ok s ∧ radius [95 / 100, 0] ≤ 1 ∧ exactSteps s [95 / 100, 0] [1 / 2, 0] = .ok () := by
  have hnew : Circ.new (1 : ℝ) 2 = .ok ⟨.continuousCircular, .reflection, 1, 2⟩ := by simp [Circ.new]
  have rp : radius [95 / 100, 0] = 95 / 100 := by
    rw [radius, show (List.map (fun x : ℝ => x ^ 2) [95 / 100, 0]).sum = (95 / 100) ^ 2 by simp, Real.sqrt_sq (by norm_num)]
  refine ⟨_, hnew, by rw [rp]; norm_num, ?_⟩
  rw [C97_exact_checks 1 2 _ hnew _ _ rfl rfl (by rw [rp]; norm_num)]
  have := (C97_realization _ hnew (1 / 2) 0 (by norm_num) (by norm_num)).1
  simpa using this

end Moledyn.Props
