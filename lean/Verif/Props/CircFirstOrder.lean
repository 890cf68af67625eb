import Verif.Props.CircExact
/-
Property theorem C61 (src/system_mod/cont_circ.rs, check_bc_first_order).
-/
namespace Moledyn.Props
open Pos

private theorem dot_eq_ip (a b : List ℝ) : dot a b = ip a b := by
  induction a generalizing b with
  | nil => simp [dot]
  | cons x a ih => cases b with
    | nil => simp [dot]
    | cons y b =>
      have := ih b
      simp only [dot, List.zipWith_cons_cons, List.sum_cons, ip_cons] at this ⊢
      rw [this]

private theorem dot_along_self (p v : List ℝ) (h : p.length = v.length) (u : ℝ) :
    dot (along p v u) p = sumSq p + u * ip p v := by
  induction p generalizing v with
  | nil => simp [dot]
  | cons x p ih => cases v with
    | nil => simp at h
    | cons y v =>
      have := ih v (by simpa using h)
      simp only [along, dot] at this ⊢
      simp only [List.zipWith_cons_cons, List.sum_cons, this, sumSq_cons, ip_cons]; ring

private theorem scaled_sum (p v : List ℝ) (h : p.length = v.length) (k u : ℝ) :
    List.zipWith (fun a b : ℝ => a + b) (p.map (· * (1 - 2 * k))) (v.map (· * (1 - 2 * k * u))) =
      List.zipWith (fun z q : ℝ => z - 2 * k * q) (along p v 1) (along p v u) := by
  induction p generalizing v with
  | nil => simp [along]
  | cons x p ih => cases v with
    | nil => simp at h
    | cons y v =>
      have := ih v (by simpa using h)
      simp only [along] at this ⊢
      simp only [List.map_cons, List.zipWith_cons_cons, this, List.cons.injEq, and_true]
      ring

private theorem diff_mirror (p v : List ℝ) (h : p.length = v.length) (k c u t : ℝ) :
    List.zipWith (fun a b : ℝ => a - b)
      (List.zipWith (fun z s : ℝ => z - 2 * c * s) (along p v 1) (along p v t))
      (List.zipWith (fun z q : ℝ => z - 2 * k * q) (along p v 1) (along p v u)) =
    List.zipWith (· + ·) ((along p v t).map (· * (2 * (k - c)))) (v.map (· * (2 * k * (u - t)))) := by
  induction p generalizing v with
  | nil => simp [along]
  | cons x p ih => cases v with
    | nil => simp at h
    | cons y v =>
      have := ih v (by simpa using h)
      simp only [along] at this ⊢
      simp only [List.map_cons, List.zipWith_cons_cons, this, List.cons.injEq, and_true]
      ring

/-- Exact arithmetic.  A particle at distance `r > 0` from the centre of a sphere of radius `R`, inside it,
whose move `pos + dp` ends outside and is not perpendicular to `pos`.  Let `q` be the point where the straight
line of the move meets the plane that touches the sphere right above the particle (the plane of the points
whose scalar product with `pos` is `R r`).  Then `check_bc_first_order` subtracts from `pos + dp` the vector
`2 (r h / R²) q`, where `h` is the height of `pos + dp` above that plane; it answers Ok exactly if the result
is inside and TooLargeTimeStep otherwise. -/
theorem C61_tangent_plane_rule (R : ℝ) (n : Nat) (s : Circ ℝ) (hnew : Circ.new R n = .ok s) (pos dp : Pos ℝ)
    (hpos : pos.length = n) (hdp : dp.length = n) (hout : R < radius (along pos dp 1))
    (hperp : dot pos dp ≠ 0) :
    ∃ u, dot (along pos dp u) pos = R * radius pos ∧
      (s.checkBcFirstOrder pos dp).1.1 =
        List.zipWith (fun z q => z - 2 * ((dot (along pos dp 1) pos - R * radius pos) / R ^ 2) * q)
          (along pos dp 1) (along pos dp u) ∧
      ((s.checkBcFirstOrder pos dp).2 = .ok () ↔ radius (s.checkBcFirstOrder pos dp).1.1 ≤ R) ∧
      ((s.checkBcFirstOrder pos dp).2 = .ok () ∨ (s.checkBcFirstOrder pos dp).2 = .err .tooLargeTimeStep) := by
  have hs : 0 < R ∧ s = ⟨.continuousCircular, .reflection, R, n⟩ := by
    unfold Circ.new at hnew
    split at hnew
    · simp at hnew
    · rename_i hc
      simp only [fl_le, fl_zero, Bool.or_eq_true, decide_eq_true_eq, not_or, not_le] at hc
      simp only [Res.ok.injEq] at hnew; exact ⟨hc.1, hnew.symm⟩
  obtain ⟨hR, rfl⟩ := hs
  have hl : pos.length = dp.length := by omega
  have hB : ip pos dp ≠ 0 := by rwa [← dot_eq_ip]
  have hr : radius pos ≠ 0 := by
    intro h0
    have h1 : sumSq pos = 0 := by
      have := norm_sq pos; rw [norm_eq_radius, h0] at this; simpa using this.symm
    have := ip_sq_le pos dp
    rw [h1, zero_mul] at this
    exact hB (by nlinarith [sq_nonneg (ip pos dp), pow_eq_zero_iff (n := 2) (a := ip pos dp) two_ne_zero])
  have hd : radius dp ≠ 0 := by
    intro h0
    have h1 : sumSq dp = 0 := by
      have := norm_sq dp; rw [norm_eq_radius, h0] at this; simpa using this.symm
    have := ip_sq_le pos dp
    rw [h1, mul_zero] at this
    exact hB (by nlinarith [sq_nonneg (ip pos dp), pow_eq_zero_iff (n := 2) (a := ip pos dp) two_ne_zero])
  have hr2 : sumSq pos = radius pos ^ 2 := by rw [← norm_eq_radius, norm_sq]
  set B := ip pos dp with hBdef
  set r := radius pos with hrdef
  set d := radius dp with hddef
  have hinc : ∀ p : Pos ℝ, p.length = n →
      (⟨.continuousCircular, .reflection, R, n⟩ : Circ ℝ).checkInclusion p = .ok (decide (radius p ≤ R)) := by
    intro p hp
    rcases Circ.checkInclusion_cases (⟨.continuousCircular, .reflection, R, n⟩ : Circ ℝ) p with ⟨h, _⟩ | ⟨_, e⟩
    · exact absurd hp.symm h
    · rw [e, norm_eq_radius]; simp [← not_lt]
  have halong1 : along pos dp 1 = List.zipWith (fun a b : ℝ => a + b) pos dp := by simp [along]
  set u := (R - r) * r / B with hu
  set k := (sumSq pos + 1 * B - R * r) / R ^ 2 with hk
  have hsum := scaled_sum pos dp hl k u
  set M := List.zipWith (fun z q : ℝ => z - 2 * k * q) (along pos dp 1) (along pos dp u) with hM
  have hMl : M.length = n := by rw [← hsum]; simp [hpos, hdp]
  have hfin : (⟨.continuousCircular, .reflection, R, n⟩ : Circ ℝ).checkBcFirstOrder pos dp =
      ((M, dp.map (· * (1 - 2 * k * u))),
        if decide (radius M ≤ R) = true then .ok () else .err .tooLargeTimeStep) := by
    unfold Circ.checkBcFirstOrder
    rw [mutAdd_eq (by omega)]
    simp only
    rw [show List.zipWith (· + ·) pos dp = List.zipWith (fun a b : ℝ => a + b) pos dp from rfl, ← halong1,
      hinc _ (by rw [halong1]; simp [hpos, hdp])]
    rw [show decide (radius (along pos dp 1) ≤ R) = false by simpa using hout]
    simp only
    rw [show Pos.mutSub (along pos dp 1) dp = (pos, .ok ()) by
      unfold Pos.mutSub
      rw [mutZip_fst _ _ _ (by rw [halong1]; simp)]
      congr 1
      rw [halong1]
      exact addsub pos dp hl]
    simp only
    rw [innerProduct_eq pos dp hl]
    simp only [norm_eq_radius]
    have e1 : ((Fl.one : ℝ) - r / R) / (d / R * (B / (r * d))) = u := by
      rw [hu, show (Fl.one : ℝ) = 1 from fl_one]; field_simp
    have e2 : r / R * (d / R) * (B / (r * d)) - r / R * ((Fl.one : ℝ) - r / R) = k := by
      rw [hk, show (Fl.one : ℝ) = 1 from fl_one, hr2]; field_simp; ring
    simp only [fl_sub, fl_mul] at e1 e2 ⊢
    rw [← hrdef, ← hddef, ← hBdef, e1, e2]
    unfold Circ.finish Pos.mutScalarMul
    rw [mutAdd_eq (by simp [hl])]
    simp only [fl_one, fl_two, fl_mul]
    rw [show List.zipWith (· + ·) (pos.map (· * (1 - 2 * k))) (dp.map (· * (1 - 2 * k * u))) = M from hsum,
      hinc M hMl]
    by_cases h : radius M ≤ R <;> simp [h]
  rw [hfin]
  refine ⟨u, ?_, ?_, ?_, ?_⟩
  · rw [dot_along_self pos dp hl, ← hBdef, hr2, hu]; field_simp; ring
  · rw [dot_along_self pos dp hl, ← hBdef]
  · by_cases h : radius M ≤ R <;> simp [h]
  · by_cases h : radius M ≤ R <;> simp [h]

set_option maxHeartbeats 1000000 in
/-- Exact arithmetic.  If moreover the particle starts inside, moves outwards and its move reaches that plane,
the particle ends up within `9 |dp|² / (2 R)` of where `check_bc_exact` would put it: the two rules agree to
first order in the length of the move. -/
theorem C61_agrees_to_first_order (R : ℝ) (n : Nat) (s : Circ ℝ) (hnew : Circ.new R n = .ok s) (pos dp : Pos ℝ)
    (hpos : pos.length = n) (hdp : dp.length = n) (hin : radius pos ≤ R) (hout : R < radius (along pos dp 1))
    (hperp : 0 < dot pos dp) (hreach : R * radius pos ≤ dot (along pos dp 1) pos) :
    radius (List.zipWith (· - ·) (s.checkBcExact pos dp).1.1 (s.checkBcFirstOrder pos dp).1.1) ≤
      9 / 2 * radius dp ^ 2 / R := by
  have hl : pos.length = dp.length := by omega
  have hR : 0 < R := by
    unfold Circ.new at hnew
    split at hnew
    · simp at hnew
    · rename_i hc
      simp only [fl_le, fl_zero, Bool.or_eq_true, decide_eq_true_eq, not_or, not_le] at hc
      exact hc.1
  obtain ⟨t, ht0, ht1, hst, -, -, hM, -⟩ := C28_exact_reflection R n s hnew pos dp hpos hdp hin hout
  obtain ⟨u, hu, hF, -⟩ := C61_tangent_plane_rule R n s hnew pos dp hpos hdp hout hperp.ne'
  rw [hM, hF]
  have hB : 0 < ip pos dp := by rwa [← dot_eq_ip]
  have hss : sumSq (along pos dp t) = R ^ 2 := by
    rw [← hst, ← norm_eq_radius, norm_sq]
  have hdd : sumSq dp = radius dp ^ 2 := by rw [← norm_eq_radius, norm_sq]
  have hrr : sumSq pos = radius pos ^ 2 := by rw [← norm_eq_radius, norm_sq]
  unfold mirrorAt
  rw [dot_along pos dp hl, dot_self, hss]
  rw [dot_along_self pos dp hl] at hu hreach ⊢
  set B := ip pos dp with hBdef
  set r := radius pos with hrdef
  set d := radius dp with hddef
  have hr0 : 0 ≤ r := radius_nonneg _
  have hd0 : 0 ≤ d := radius_nonneg _
  have hcs : B ^ 2 ≤ r ^ 2 * d ^ 2 := by
    have := ip_sq_le pos dp; rwa [hrr, hdd] at this
  have hBle : B ≤ r * d := by
    have : B ^ 2 ≤ (r * d) ^ 2 := by rw [mul_pow]; exact hcs
    exact le_of_sq_le_sq this (by positivity)
  have hrpos : 0 < r := by
    rcases hr0.lt_or_eq with h | h
    · exact h
    · rw [← h] at hBle; simp at hBle; linarith
  rw [sumSq_along pos dp hl, ← hBdef, hrr, hdd] at hss
  rw [hrr] at hu hreach
  have hu1 : u ≤ 1 := by
    have : u * B ≤ 1 * B := by linarith
    exact le_of_mul_le_mul_right this hB
  -- s·p ≤ R r
  have hlag : R ^ 2 * r ^ 2 - (r ^ 2 + t * B) ^ 2 = t ^ 2 * (d ^ 2 * r ^ 2 - B ^ 2) := by
    rw [← hss]; ring
  have hsp0 : 0 ≤ r ^ 2 + t * B := by positivity
  have hsp : r ^ 2 + t * B ≤ R * r := by
    apply le_of_sq_le_sq _ (by positivity)
    have : 0 ≤ t ^ 2 * (d ^ 2 * r ^ 2 - B ^ 2) := mul_nonneg (sq_nonneg t) (by linarith)
    rw [mul_pow]; linarith
  have htu : t ≤ u := by
    have : t * B ≤ u * B := by linarith
    exact le_of_mul_le_mul_right this hB
  have hgap : (u - t) * B ≤ d ^ 2 := by
    have e : (u - t) * B = R * r - (r ^ 2 + t * B) := by linarith
    rw [e]
    set x := R * r - (r ^ 2 + t * B) with hx
    have hx0 : 0 ≤ x := by linarith
    have h1 : x * (R * r + (r ^ 2 + t * B)) ≤ d ^ 2 * r ^ 2 := by
      have e2 : x * (R * r + (r ^ 2 + t * B)) = t ^ 2 * (d ^ 2 * r ^ 2 - B ^ 2) := by
        rw [← hlag, hx]; ring
      rw [e2]
      have ht2 : t ^ 2 ≤ 1 := by nlinarith
      have : 0 ≤ d ^ 2 * r ^ 2 - B ^ 2 := by linarith
      nlinarith [sq_nonneg B]
    have h2 : x * (r * r) ≤ d ^ 2 * (r * r) := by
      have : x * (r * r) ≤ x * (R * r + (r ^ 2 + t * B)) := by
        apply mul_le_mul_of_nonneg_left _ hx0
        nlinarith
      nlinarith
    exact le_of_mul_le_mul_right h2 (by positivity)
  set k := (sumSq pos + 1 * B - R * r) / R ^ 2 with hk
  set c := (1 - t) * (B + t * sumSq dp) / R ^ 2 with hc
  rw [diff_mirror pos dp hl k c u t]
  have hkB : k * R ^ 2 = (1 - u) * B := by
    rw [hk, hrr]; field_simp; linarith
  have hcB : c * R ^ 2 = (1 - t) * (B + t * d ^ 2) := by
    rw [hc, hdd]; field_simp
  have hRR : 0 < R ^ 2 := by positivity
  have hk0 : 0 ≤ k := by
    have : 0 ≤ k * R ^ 2 := by rw [hkB]; exact mul_nonneg (by linarith) hB.le
    exact nonneg_of_mul_nonneg_left this hRR
  have hkle : k * R ≤ d := by
    have h1 : k * R * R ≤ d * R := by
      have : k * R * R = (1 - u) * B := by rw [← hkB]; ring
      rw [this]
      have hu0 : 0 ≤ u := le_trans ht0 htu
      have h2 : (1 - u) * B ≤ 1 * B := mul_le_mul_of_nonneg_right (by linarith) hB.le
      have h3 : r * d ≤ R * d := mul_le_mul_of_nonneg_right hin hd0
      linarith
    exact le_of_mul_le_mul_right h1 hR
  have hck0 : 0 ≤ (c - k) * R ^ 2 := by
    rw [sub_mul, hcB, hkB]
    have : (1 - t) * (B + t * d ^ 2) - (1 - u) * B = (u - t) * B + t * (1 - t) * d ^ 2 := by ring
    rw [this]
    have h1 : 0 ≤ (u - t) * B := mul_nonneg (by linarith) hB.le
    have h2 : 0 ≤ t * (1 - t) * d ^ 2 := mul_nonneg (mul_nonneg ht0 (by linarith)) (sq_nonneg d)
    linarith
  have hck1 : (c - k) * R ^ 2 ≤ 5 / 4 * d ^ 2 := by
    rw [sub_mul, hcB, hkB]
    have : (1 - t) * (B + t * d ^ 2) - (1 - u) * B = (u - t) * B + t * (1 - t) * d ^ 2 := by ring
    rw [this]
    have h2 : t * (1 - t) ≤ 1 / 4 := by nlinarith [sq_nonneg (t - 1 / 2)]
    have := mul_le_mul_of_nonneg_right h2 (sq_nonneg d)
    linarith
  have hck : 0 ≤ c - k := nonneg_of_mul_nonneg_left hck0 hRR
  have htri := sqrt_sq_add_le ((along pos dp t).map (· * (2 * (k - c)))) (dp.map (· * (2 * k * (u - t))))
    (by simp [along, hpos, hdp])
  refine le_trans htri ?_
  rw [← norm_eq, ← norm_eq, norm_scale, norm_scale, norm_eq_radius, norm_eq_radius, hst, ← hddef]
  rw [show |2 * (k - c)| = 2 * (c - k) by rw [abs_of_nonpos (by linarith)]; ring,
    abs_of_nonneg (by have : 0 ≤ u - t := by linarith
                      positivity)]
  rw [le_div_iff₀ hR]
  have hut : u - t ≤ 1 := by linarith
  have h1 : 2 * k * (u - t) * d * R ≤ 2 * d ^ 2 := by
    have e : 2 * k * (u - t) * d * R = 2 * (k * R) * ((u - t) * d) := by ring
    rw [e]
    have : (k * R) * ((u - t) * d) ≤ d * d := by
      apply mul_le_mul hkle _ _ hd0
      · have := mul_le_mul_of_nonneg_right hut hd0
        linarith
      · have : 0 ≤ u - t := by linarith
        positivity
    linarith [sq d]
  have h3 : (2 * (c - k) * R + 2 * k * (u - t) * d) * R = 2 * ((c - k) * R ^ 2) + 2 * k * (u - t) * d * R := by
    ring
  rw [h3]
  linarith

/-- the hypotheses are met: the disk of radius 1, a particle at `(1/2, 0)` moving by `(1, 0)`. -/
example : ∃ s : Circ ℝ, Circ.new 1 2 = .ok s ∧ radius [1/2, 0] ≤ 1 ∧ 1 < radius (along [1/2, 0] [1, 0] 1) ∧
    0 < dot [1/2, 0] [1, 0] ∧ 1 * radius [1/2, 0] ≤ dot (along [1/2, 0] [1, 0] 1) [1/2, 0] := by
  have e : radius [1/2, 0] = 1/2 := by
    simp only [radius]
    rw [show (List.map (fun x : ℝ => x ^ 2) [1/2, 0]).sum = (1/2) ^ 2 by norm_num, Real.sqrt_sq (by norm_num)]
  refine ⟨⟨.continuousCircular, .reflection, 1, 2⟩, by simp [Circ.new], ?_, ?_, ?_, ?_⟩
  · rw [e]; norm_num
  · rw [radius, Real.lt_sqrt (by norm_num)]; norm_num [along]
  · norm_num [dot]
  · rw [e]; norm_num [dot, along]

/-- Exact arithmetic: the agreement is lost when the move does not reach the plane.  In the disk of radius 1,
a particle at `(9/10, 0)` moving by `(1/1000, 3/5)` just leaves the disk; `check_bc_exact` puts it back inside,
`check_bc_first_order` throws it further out than eleven radii and answers TooLargeTimeStep. -/
theorem C61_grazing_moves_thrown_out (s : Circ ℝ) (hnew : Circ.new 1 2 = .ok s) :
    (s.checkBcExact [9/10, 0] [1/1000, 3/5]).2 = .ok () ∧
    (s.checkBcFirstOrder [9/10, 0] [1/1000, 3/5]).2 = .err .tooLargeTimeStep ∧
    11 < radius (s.checkBcFirstOrder [9/10, 0] [1/1000, 3/5]).1.1 := by
  have hin : radius [9/10, 0] ≤ 1 := by
    rw [radius, Real.sqrt_le_left (by norm_num)]; norm_num
  have hr : radius [9/10, 0] = 9/10 := by
    simp only [radius]
    rw [show (List.map (fun x : ℝ => x ^ 2) [9/10, 0]).sum = (9/10) ^ 2 by norm_num, Real.sqrt_sq (by norm_num)]
  have hout : 1 < radius (along [9/10, 0] [1/1000, 3/5] 1) := by
    rw [radius, Real.lt_sqrt (by norm_num)]; norm_num [along]
  obtain ⟨u, hu, hF, hok, hor⟩ := C61_tangent_plane_rule 1 2 s hnew [9/10, 0] [1/1000, 3/5] rfl rfl hout
    (by norm_num [dot])
  have hu' : u = 100 := by
    rw [hr] at hu
    simp only [dot, along, List.zipWith_cons_cons, List.zipWith_nil_left, List.sum_cons, List.sum_nil] at hu
    linarith
  have hbig : 11 < radius (s.checkBcFirstOrder [9/10, 0] [1/1000, 3/5]).1.1 := by
    rw [hF, hr, hu', radius, Real.lt_sqrt (by norm_num)]
    norm_num [along, dot]
  refine ⟨?_, ?_, hbig⟩
  · obtain ⟨t, ht0, ht1, hst, -, -, -, hiff, -⟩ :=
      C28_exact_reflection 1 2 s hnew [9/10, 0] [1/1000, 3/5] rfl rfl hin hout
    rw [hiff]
    have hss : (9/10 + t * (1/1000)) ^ 2 + (t * (3/5)) ^ 2 = 1 := by
      have := norm_sq (along [9/10, 0] [1/1000, 3/5] t)
      rw [norm_eq_radius, hst] at this
      simp only [along, List.zipWith_cons_cons, List.zipWith_nil_left, sumSq_cons, sumSq_nil] at this
      linarith
    rw [radius, Real.sqrt_le_left (by norm_num)]
    simp only [mirrorAt, along, dot, List.zipWith_cons_cons, List.zipWith_nil_left, List.map_cons, List.map_nil,
      List.sum_cons, List.sum_nil]
    rw [show ((9/10 + t * (1/1000)) * (9/10 + t * (1/1000)) + ((0 + t * (3/5)) * (0 + t * (3/5)) + 0) : ℝ) = 1 by
      linarith]
    have h7 : 7/10 < t := by nlinarith
    have h8 : t < 3/4 := by nlinarith
    nlinarith
  · rcases hor with h | h
    · exact absurd (hok.1 h) (by linarith)
    · exact h

example : ∃ s : Circ ℝ, Circ.new 1 2 = .ok s := ⟨⟨.continuousCircular, .reflection, 1, 2⟩, by simp [Circ.new]⟩

end Moledyn.Props
