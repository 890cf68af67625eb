import Verif.Props.System
import Verif.Props.CircExact
/-
Property theorem C59: the boundary never lengthens a step.
-/
namespace Moledyn.Props
open Moledyn Pos

private theorem sumSq_sub (a b : List ℝ) (h : a.length = b.length) :
    sumSq (List.zipWith (· - ·) a b) = sumSq a - 2 * ip a b + sumSq b := by
  induction a generalizing b with
  | nil => cases b with
    | nil => simp
    | cons y b => simp at h
  | cons x a ih => cases b with
    | nil => simp at h
    | cons y b =>
      rw [List.zipWith_cons_cons, sumSq_cons, ih b (by simpa using h), sumSq_cons, sumSq_cons, ip_cons]; ring

private theorem ip_scale (a b : List ℝ) (c : ℝ) : ip (a.map (· * c)) b = c * ip a b := by
  induction a generalizing b with
  | nil => simp
  | cons x a ih => cases b with
    | nil => simp
    | cons y b => simp only [List.map_cons, ip_cons, ih]; ring

private theorem add_sub_cancel_list (p v : List ℝ) (h : p.length = v.length) :
    List.zipWith (· - ·) (List.zipWith (· + ·) p v) p = v := by
  induction p generalizing v with
  | nil => cases v with
    | nil => rfl
    | cons _ _ => simp at h
  | cons x p ih => cases v with
    | nil => simp at h
    | cons y v => simp [ih v (by simpa using h)]

private theorem ip_le (a b : List ℝ) : ip a b ≤ radius a * radius b := by
  show ip a b ≤ Real.sqrt (sumSq a) * Real.sqrt (sumSq b)
  rw [← Real.sqrt_mul (sumSq_nonneg a)]
  exact le_trans (le_abs_self _) (Real.abs_le_sqrt (ip_sq_le a b))

private theorem radius_sq (p : List ℝ) : radius p ^ 2 = sumSq p := Real.sq_sqrt (sumSq_nonneg p)

private theorem radial_shorter {R : ℝ} (hR : 0 < R) {p q y : List ℝ} (hl : q.length = p.length)
    (hp : radius p ≤ R) (h : RadialImage R q y) :
    radius (List.zipWith (· - ·) y p) ≤ radius (List.zipWith (· - ·) q p) := by
  rcases le_or_gt (radius q) R with hq | hq
  · rw [h.1 hq]
  · set n := radius q with hn
    have hn0 : 0 < n := lt_trans hR hq
    set c := (2 * R - n) / n with hc
    have e : y = q.map (· * c) := by
      rw [h.2 hq]
      apply List.map_congr_left
      intro x _
      rw [hc]; ring
    have hcn : c * n = 2 * R - n := by rw [hc]; field_simp
    apply Real.sqrt_le_sqrt
    show sumSq _ ≤ sumSq _
    rw [e, sumSq_sub _ _ (by simp [hl]), sumSq_sub _ _ hl, sumSq_scale, ip_scale]
    have hi := ip_le q p
    rw [← hn] at hi
    have h2 : n * radius p ≤ n * R := mul_le_mul_of_nonneg_left hp hn0.le
    have hsq := radius_sq q
    rw [← hn] at hsq
    rw [← hsq]
    have hc1 : c ≤ 1 := by rw [hc, div_le_one hn0]; linarith
    have key : c ^ 2 * n ^ 2 - 2 * (c * ip q p) ≤ n ^ 2 - 2 * ip q p := by
      have e1 : n ^ 2 - 2 * ip q p - (c ^ 2 * n ^ 2 - 2 * (c * ip q p)) =
          (1 - c) * ((n + c * n) * n - 2 * ip q p) := by ring
      have : 0 ≤ (1 - c) * ((n + c * n) * n - 2 * ip q p) := by
        apply mul_nonneg (by linarith)
        rw [hcn]
        nlinarith
      linarith
    linarith

private theorem mirror_shorter {L a b y : ℝ} (ha : |a| ≤ L) (h : MirrorImage L (a + b) y) : |y - a| ≤ |b| := by
  obtain ⟨h1, h2, h3⟩ := h
  obtain ⟨a1, a2⟩ := abs_le.1 ha
  rcases le_or_gt |a + b| L with hx | hx
  · rw [h1 hx]; simp
  · rcases lt_abs.1 hx with hx | hx
    · have := h2 hx
      rw [abs_le, abs_of_pos (by linarith : (0:ℝ) < b)]
      constructor <;> linarith
    · have := h3 (by linarith)
      rw [abs_le, abs_of_neg (by linarith : b < 0)]
      constructor <;> linarith

private theorem sumSq_mono (u v : List ℝ) (hl : u.length = v.length)
    (h : ∀ (i : Nat) (a b : ℝ), u[i]? = some a → v[i]? = some b → |a| ≤ |b|) : sumSq u ≤ sumSq v := by
  induction u generalizing v with
  | nil => cases v with
    | nil => simp
    | cons _ _ => simp at hl
  | cons x u ih => cases v with
    | nil => simp at hl
    | cons y v =>
      have h0 := h 0 x y rfl rfl
      have := ih v (by simpa using hl) (fun i a b ha hb => h (i + 1) a b (by simpa using ha) (by simpa using hb))
      rw [sumSq_cons, sumSq_cons]
      have := sq_le_sq.2 h0
      linarith

/-! ## C59: boundaries never lengthen a step -/

/-- Exact arithmetic, every sphere built by `new`, every start inside or on it, every displacement of the right
dimension: `check_bc` leaves the particle at most as far from its start as the displacement is long. -/
theorem C59_sphere (R : ℝ) (n : Nat) (s : Circ ℝ) (hnew : Circ.new R n = .ok s) (pos dp : Pos ℝ)
    (hpos : pos.length = n) (hdp : dp.length = n) (hin : radius pos ≤ R) :
    radius (List.zipWith (· - ·) (s.checkBc pos dp).1 pos) ≤ radius dp := by
  have hR : 0 < R := by
    unfold Circ.new at hnew
    split at hnew
    · simp at hnew
    · rename_i hc
      simp only [fl_le, fl_zero, Bool.or_eq_true, decide_eq_true_eq, not_or, not_le] at hc
      exact hc.1
  have h := (C21_sphere_image R n s hnew pos dp hpos hdp).1
  have := radial_shorter hR (q := List.zipWith (· + ·) pos dp) (by simp [hpos, hdp]) hin h
  rwa [add_sub_cancel_list pos dp (by omega)] at this

/-- a move through the wall of a ball of radius 2: from 1 by 3 the particle is folded back to 0, and the step it
made is shorter than the displacement. -/
example : ∃ s : Circ ℝ, Circ.new 2 1 = .ok s ∧ radius [1] ≤ 2 ∧ 2 < radius (List.zipWith (· + ·) [1] [3]) := by
  have hr : ∀ x : ℝ, radius [x] = |x| := by intro x; simp [radius, Real.sqrt_sq_eq_abs]
  refine ⟨⟨.continuousCircular, .reflection, 2, 1⟩, ?_, by rw [hr]; norm_num, by simp only [List.zipWith, hr]; norm_num⟩
  simp [Circ.new]

/-- the same for the tangent-plane reflection `check_bc_exact`. -/
theorem C59_sphere_exact (R : ℝ) (n : Nat) (s : Circ ℝ) (hnew : Circ.new R n = .ok s) (pos dp : Pos ℝ)
    (hpos : pos.length = n) (hdp : dp.length = n) (hin : radius pos ≤ R) :
    radius (List.zipWith (· - ·) (s.checkBcExact pos dp).1.1 pos) ≤ radius dp := by
  have hs : 0 < R ∧ s = ⟨.continuousCircular, .reflection, R, n⟩ := by
    unfold Circ.new at hnew
    split at hnew
    · simp at hnew
    · rename_i hc
      simp only [fl_le, fl_zero, Bool.or_eq_true, decide_eq_true_eq, not_or, not_le] at hc
      simp only [Res.ok.injEq] at hnew; exact ⟨hc.1, hnew.symm⟩
  have h1 : along pos dp 1 = List.zipWith (· + ·) pos dp := by simp [along]
  rcases le_or_gt (radius (along pos dp 1)) R with hq | hq
  · have hi : s.checkInclusion (List.zipWith (· + ·) pos dp) = .ok true := by
      rw [hs.2]
      rcases Circ.checkInclusion_cases (⟨.continuousCircular, .reflection, R, n⟩ : Circ ℝ)
        (List.zipWith (· + ·) pos dp) with ⟨h, _⟩ | ⟨_, e⟩
      · exact absurd (by simp [hpos, hdp]) (Ne.symm h)
      · rw [e, norm_eq_radius, ← h1]; simp [hq]
    have hc := ((C23_inside_is_addition (⟨.network, .periodic, 0, 0⟩ : Cubic ℝ) s
      (⟨.network, .periodic, 0, 0, 0⟩ : Cyl ℝ) pos dp (by omega)).2.1 hi).2.1
    rw [hc]
    show radius (List.zipWith (· - ·) (List.zipWith (· + ·) pos dp) pos) ≤ _
    rw [add_sub_cancel_list pos dp (by omega)]
  · obtain ⟨t, ht0, ht1, hsph, -, hafter, he, -⟩ := C28_exact_reflection R n s hnew pos dp hpos hdp hin hq
    rw [he]
    -- write everything in terms of the inner products of the start and the displacement
    have hlen : pos.length = dp.length := by omega
    have along_sq : ∀ (p v : List ℝ), p.length = v.length → ∀ u : ℝ,
        sumSq (along p v u) = sumSq p + 2 * u * ip p v + u ^ 2 * sumSq v := by
      intro p
      induction p with
      | nil => intro v h u; cases v with
        | nil => simp [along]
        | cons _ _ => simp at h
      | cons x p ih => intro v h u; cases v with
        | nil => simp at h
        | cons y v =>
          have := ih v (by simpa using h) u
          simp only [along] at this ⊢
          simp only [List.zipWith_cons_cons, sumSq_cons, ip_cons, this]; ring
    have dot_al : ∀ (p v : List ℝ), p.length = v.length →
        dot (List.zipWith (· - ·) (along p v 1) (along p v t)) (along p v t) =
          (1 - t) * (ip p v + t * sumSq v) := by
      intro p
      induction p with
      | nil => intro v h; cases v with
        | nil => simp [along, dot]
        | cons _ _ => simp at h
      | cons x p ih => intro v h; cases v with
        | nil => simp at h
        | cons y v =>
          have := ih v (by simpa using h)
          simp only [along, dot] at this ⊢
          simp only [List.zipWith_cons_cons, List.sum_cons, this, sumSq_cons, ip_cons]; ring
    have hsq : sumSq (along pos dp t) = R ^ 2 := by rw [← radius_sq, hsph]
    set w := ip pos dp + t * sumSq dp with hw
    -- the displacement points outwards at the hit point
    have hout : 0 ≤ w := by
      by_contra hneg
      push Not at hneg
      have hv0 := sumSq_nonneg dp
      -- a point just after the hit
      have key : ∀ e : ℝ, 0 < e → 0 < 2 * w + e * sumSq dp := by
        intro e he0
        have h2 := hafter (t + e) (by linarith)
        have h3 : R ^ 2 < sumSq (along pos dp (t + e)) := by
          rw [← radius_sq]
          exact pow_lt_pow_left₀ h2 hs.1.le (by norm_num)
        rw [along_sq pos dp hlen] at h3 hsq
        have : sumSq pos + 2 * (t + e) * ip pos dp + (t + e) ^ 2 * sumSq dp -
            (sumSq pos + 2 * t * ip pos dp + t ^ 2 * sumSq dp) = e * (2 * w + e * sumSq dp) := by
          rw [hw]; ring
        have h4 : 0 < e * (2 * w + e * sumSq dp) := by linarith
        exact (mul_pos_iff_of_pos_left he0).1 h4
      have := key (-w / (sumSq dp + 1)) (by
        apply div_pos <;> linarith)
      have h5 : -w / (sumSq dp + 1) * sumSq dp ≤ -w := by
        rw [div_mul_eq_mul_div, div_le_iff₀ (by linarith)]
        nlinarith
      linarith
    -- the length of the mirrored displacement
    have hmir : ∀ (k : ℝ) (p v : List ℝ), p.length = v.length →
        sumSq (List.zipWith (· - ·) (List.zipWith (fun zc sc => zc - 2 * k * sc) (along p v 1) (along p v t)) p) =
          sumSq v - 4 * k * (ip p v + t * sumSq v) + 4 * k ^ 2 * (sumSq p + 2 * t * ip p v + t ^ 2 * sumSq v) := by
      intro k p
      induction p with
      | nil => intro v h; cases v with
        | nil => simp [along]
        | cons _ _ => simp at h
      | cons x p ih => intro v h; cases v with
        | nil => simp at h
        | cons y v =>
          have := ih v (by simpa using h)
          simp only [along] at this ⊢
          simp only [List.zipWith_cons_cons, sumSq_cons, ip_cons, this]; ring
    have hdd : dot (along pos dp t) (along pos dp t) = R ^ 2 := by
      rw [← hsq]
      generalize along pos dp t = z
      induction z with
      | nil => simp [dot]
      | cons x z ih =>
        simp only [dot, List.zipWith_cons_cons, List.sum_cons, sumSq_cons] at ih ⊢
        rw [ih]; ring
    unfold mirrorAt
    rw [hdd, dot_al pos dp hlen, ← hw]
    apply Real.sqrt_le_sqrt
    show sumSq _ ≤ sumSq _
    rw [hmir _ pos dp hlen, ← along_sq pos dp hlen, hsq, ← hw]
    set k := (1 - t) * w / R ^ 2 with hk
    have hR2 : 0 < R ^ 2 := by have := hs.1; positivity
    have hkR : k * R ^ 2 = (1 - t) * w := by
      rw [hk]; exact div_mul_cancel₀ _ hR2.ne'
    have hk0 : 0 ≤ k := by rw [hk]; exact div_nonneg (mul_nonneg (by linarith) hout) hR2.le
    have hkw : k * R ^ 2 ≤ w := by
      rw [hkR]; nlinarith
    nlinarith [mul_le_mul_of_nonneg_left hkw hk0]

/-- The same for a reflecting cube; under mixed conditions each mirrored coordinate moves by at most the
coordinate of the displacement, and a periodic one by that of the displacement up to whole periods. -/
theorem C59_cube (bc : BoundaryCond) (L : ℝ) (n : Nat) (s : Cubic ℝ) (hnew : Cubic.new bc L n = .ok s)
    (pos dp : Pos ℝ) (hpos : pos.length = n) (hdp : dp.length = n) (hin : ∀ x ∈ pos, |x| ≤ L) :
    (∀ (i : Nat) (a b : ℝ), pos[i]? = some a → dp[i]? = some b → ∃ y, (s.checkBc pos dp).1[i]? = some y ∧
      (bc.mirrored i → |y - a| ≤ |b|) ∧ (¬ bc.mirrored i → ∃ k : ℤ, y - a + k * (2 * L) = b)) ∧
    (bc = .reflection → radius (List.zipWith (· - ·) (s.checkBc pos dp).1 pos) ≤ radius dp) := by
  obtain ⟨h1, h2, -⟩ := C20_cube_image bc L n s hnew pos dp hpos hdp
  have key : ∀ (i : Nat) (a b : ℝ), pos[i]? = some a → dp[i]? = some b → ∃ y, (s.checkBc pos dp).1[i]? = some y ∧
      (bc.mirrored i → |y - a| ≤ |b|) ∧ (¬ bc.mirrored i → ∃ k : ℤ, y - a + k * (2 * L) = b) := by
    intro i a b ha hb
    obtain ⟨y, hy, hm, hp⟩ := h2 i a b ha hb
    refine ⟨y, hy, fun h => mirror_shorter (hin a (List.mem_of_getElem? ha)) (hm h), fun h => ?_⟩
    obtain ⟨k, hk⟩ := (C20_images L (a + b) y).1 (hp h)
    exact ⟨-k, by rw [hk]; push_cast; ring⟩
  refine ⟨key, fun hbc => Real.sqrt_le_sqrt ?_⟩
  apply sumSq_mono _ _ (by simp [h1, hpos, hdp])
  intro i a b ha hb
  rw [List.getElem?_zipWith] at ha
  have hi : i < n := by rw [← hdp]; exact (List.getElem?_eq_some_iff.1 hb).1
  have hpi : pos[i]? = some (pos[i]'(by omega)) := List.getElem?_eq_getElem _
  obtain ⟨y, hy, hm, -⟩ := key i _ b hpi hb
  rw [hy, hpi] at ha
  simp only [Option.some.injEq] at ha
  rw [← ha]
  exact hm (by rw [hbc]; trivial)

/-- The same for a cylinder: its cross-section (the first `d` coordinates) moves by at most the length of the
displacement's cross-section, and along the axis the particle moves by the displacement up to whole periods. -/
theorem C59_cylinder (d : Nat) (R L : ℝ) (n : Nat) (s : Cyl ℝ) (hnew : Cyl.new d R L n = .ok s)
    (pos dp : Pos ℝ) (hpos : pos.length = n) (hdp : dp.length = n) (hin : radius (pos.take d) ≤ R) :
    radius (List.zipWith (· - ·) ((s.checkBc pos dp).1.take d) (pos.take d)) ≤ radius (dp.take d) ∧
    ∀ (i : Nat) (a b : ℝ), d ≤ i → pos[i]? = some a → dp[i]? = some b →
      ∃ y, (s.checkBc pos dp).1[i]? = some y ∧ ∃ k : ℤ, y - a + k * (2 * L) = b := by
  obtain ⟨-, h2, h3, -⟩ := C22_cylinder_image d R L n s hnew pos dp hpos hdp
  have hR : 0 < R := by obtain ⟨h, -⟩ := new_cyl hnew; exact h
  constructor
  · rw [List.take_zipWith] at h2
    have hl : (pos.take d).length = (dp.take d).length := by simp [hpos, hdp]
    have := radial_shorter hR (p := pos.take d) (by simp [hl]) hin h2
    rwa [add_sub_cancel_list _ _ hl] at this
  · intro i a b hi ha hb
    obtain ⟨y, hy, hp⟩ := h3 i a b hi ha hb
    obtain ⟨k, hk⟩ := (C20_images L (a + b) y).1 hp
    exact ⟨y, hy, -k, by rw [hk]; push_cast; ring⟩

end Moledyn.Props
