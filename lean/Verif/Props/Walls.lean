import Verif.Props.System
import Verif.Props.Laws
import Verif.Spec.SearchLaw
/-
C77: the walls of the three systems.
-/
namespace Moledyn.Props
open Moledyn MeasureTheory
set_option linter.unusedSimpArgs false
variable {G : Type} {d : Nat}

private theorem mirrorPut_image {L : ℝ} (hL : 0 < L) (x : ℝ) : MirrorImage L x (mirrorPut L x) := by
  unfold mirrorPut
  refine ⟨fun h => ?_, fun h => ?_, fun h => ?_⟩
  · rw [abs_le] at h; rw [if_neg (by linarith), if_neg (by linarith)]
  · rw [if_pos h]; ring
  · rw [if_neg (by linarith), if_pos h]; ring

private theorem periodicPut_image {L : ℝ} (hL : 0 < L) (x : ℝ) : PeriodicImage L x (periodicPut L x) := by
  unfold periodicPut
  refine ⟨fun h => ?_, fun h => ?_, fun h => ?_⟩
  · rw [abs_le] at h; rw [if_neg (by linarith), if_neg (by linarith)]
  · rw [if_pos h]
  · rw [if_neg (by linarith), if_pos h]

private theorem mirror_unique {L x y z : ℝ} (h1 : MirrorImage L x y) (h2 : MirrorImage L x z) : y = z := by
  rcases le_or_gt |x| L with h | h
  · rw [h1.1 h, h2.1 h]
  · rcases lt_abs.1 h with h | h
    · linarith [h1.2.1 h, h2.2.1 h]
    · linarith [h1.2.2 (by linarith), h2.2.2 (by linarith)]

private theorem periodic_unique {L x y z : ℝ} (h1 : PeriodicImage L x y) (h2 : PeriodicImage L x z) : y = z := by
  rcases le_or_gt |x| L with h | h
  · rw [h1.1 h, h2.1 h]
  · rcases lt_abs.1 h with h | h
    · linarith [h1.2.1 h, h2.2.1 h]
    · linarith [h1.2.2 (by linarith), h2.2.2 (by linarith)]

private theorem near_coord {c y : Fin d → ℝ} {ε : ℝ} (h : y ∈ nearSet c ε) (i : Fin d) : |y i - c i| < ε := by
  refine lt_of_le_of_lt ?_ h
  rw [← Real.sqrt_sq_eq_abs]
  exact Real.sqrt_le_sqrt (Finset.single_le_sum (f := fun i => (y i - c i) ^ 2) (fun i _ => sq_nonneg _) (Finset.mem_univ i))

private theorem mirrorPut_measurable (L : ℝ) : Measurable (mirrorPut L) := by
  unfold mirrorPut
  exact Measurable.ite measurableSet_Ioi (by fun_prop) (Measurable.ite measurableSet_Iio (by fun_prop) (by fun_prop))

private theorem periodicPut_measurable (L : ℝ) : Measurable (periodicPut L) := by
  unfold periodicPut
  exact Measurable.ite measurableSet_Ioi (by fun_prop) (Measurable.ite measurableSet_Iio (by fun_prop) (by fun_prop))

private theorem sum_lists (x y : Fin d → ℝ) : List.zipWith (· + ·) (List.ofFn x) (List.ofFn y) = List.ofFn (x + y) :=
  List.ext_getElem (by simp) fun i h1 h2 => by simp

private theorem get_ofFn (x : Fin d → ℝ) (i : Fin d) : (List.ofFn x)[i.1]? = some (x i) := by simp

private theorem cubePut_iff (bc : BoundaryCond) {L : ℝ} (hL : 0 < L) (y : Fin d → ℝ) :
    cubePut bc L y ∈ cubeSet d L ↔ ∀ i, |y i| ≤ 3 * L := by
  refine forall_congr' fun i => ?_
  unfold cubePut
  by_cases h : bc.mirrored i
  · rw [if_pos h]; exact mirror_inside_iff hL (mirrorPut_image hL _)
  · rw [if_neg h]; exact periodic_inside_iff hL (periodicPut_image hL _)

private theorem cube_walls (rng : RngOps G ℝ) {bc : BoundaryCond} {L : ℝ} {n : Nat} {s : Cubic ℝ} (hnew : Cubic.new bc L n = .ok s) :
    Walls (s.ops rng) (cubeSet n L) (cubePut bc L) := by
  have key := C20_cube_image bc L n s hnew
  obtain ⟨hL, hn, -, -⟩ := new_cubic hnew
  have key : ∀ x dx : Fin n → ℝ, (s.checkBc (List.ofFn x) (List.ofFn dx)).1 = List.ofFn (cubePut bc L (x + dx)) ∧
      ((s.checkBc (List.ofFn x) (List.ofFn dx)).2 = .ok () ↔ cubePut bc L (x + dx) ∈ cubeSet n L) ∧
      ((s.checkBc (List.ofFn x) (List.ofFn dx)).2 = .ok () ∨ (s.checkBc (List.ofFn x) (List.ofFn dx)).2 = .err .tooLargeTimeStep) := by
    intro x dx
    obtain ⟨k1, k2, k3, k4⟩ := key (List.ofFn x) (List.ofFn dx) (by simp) (by simp)
    refine ⟨List.ext_getElem (by simp [k1]) fun i h1 h2 => ?_, ?_, k4⟩
    · have hi : i < n := by simpa using h2
      obtain ⟨y, hy, m1, m2⟩ := k2 i _ _ (get_ofFn x ⟨i, hi⟩) (get_ofFn dx ⟨i, hi⟩)
      rw [List.getElem?_eq_getElem h1, Option.some.injEq] at hy
      rw [hy, List.getElem_ofFn]
      unfold cubePut
      by_cases h : bc.mirrored i
      · rw [if_pos h]; exact mirror_unique (m1 h) (mirrorPut_image hL _)
      · rw [if_neg h]; exact periodic_unique (m2 h) (periodicPut_image hL _)
    · rw [k3, cubePut_iff bc hL]
      constructor
      · intro h i
        exact h i _ _ (get_ofFn x i) (get_ofFn dx i)
      · intro h i a b ha hb
        have hi : i < n := by
          have := (List.getElem?_eq_some_iff.1 ha).1; simpa using this
        have e1 := get_ofFn x ⟨i, hi⟩
        have e2 := get_ofFn dx ⟨i, hi⟩
        simp only at e1 e2
        rw [ha, Option.some.injEq] at e1
        rw [hb, Option.some.injEq] at e2
        rw [e1, e2]
        exact h ⟨i, hi⟩
  refine ⟨?_, cube_measurable _ _, ⟨L, fun x hx => hx⟩, fun y hy => ?_, ⟨fun _ => 4 * L, L, hL, fun y hy => ?_⟩, fun x dx h => ?_, fun x dx h => ?_⟩
  · refine measurable_pi_lambda _ fun i => ?_
    unfold cubePut
    by_cases h : bc.mirrored i
    · simp only [if_pos h]; exact (mirrorPut_measurable L).comp (measurable_pi_apply i)
    · simp only [if_neg h]; exact (periodicPut_measurable L).comp (measurable_pi_apply i)
  · funext i
    unfold cubePut
    by_cases h : bc.mirrored i
    · rw [if_pos h]; exact (mirrorPut_image hL _).1 (hy i)
    · rw [if_neg h]; exact (periodicPut_image hL _).1 (hy i)
  · rw [cubePut_iff bc hL]
    intro h
    have h1 := near_coord hy ⟨0, hn⟩
    have h2 := h ⟨0, hn⟩
    rw [abs_lt] at h1
    rw [abs_le] at h2
    linarith [h1.1, h2.2]
  · obtain ⟨k1, k2, -⟩ := key x dx
    exact Prod.ext k1 (k2.2 h)
  · obtain ⟨k1, k2, k3⟩ := key x dx
    exact Prod.ext k1 (k3.resolve_left fun e => h (k2.1 e))

theorem radius_take (k : Nat) (x : Fin d → ℝ) : radius ((List.ofFn x).take k) = Real.sqrt (axisSq k x) := by
  unfold radius axisSq
  congr 1
  rw [List.map_take, List.map_ofFn, List.sum_take_ofFn, Finset.sum_filter]
  rfl

private theorem axisSq_cont (k : Nat) : Continuous fun x : Fin d → ℝ => axisSq k x := by
  unfold axisSq
  refine continuous_finsetSum _ fun i _ => ?_
  by_cases h : i.1 < k
  · simp only [h, if_true]; fun_prop
  · simp only [h, if_false]; fun_prop

private theorem axisSq_nonneg (k : Nat) (x : Fin d → ℝ) : 0 ≤ axisSq k x :=
  Finset.sum_nonneg fun i _ => by split <;> positivity

private theorem cylSet_iff (k : Nat) {R : ℝ} (hR : 0 < R) (L : ℝ) (x : Fin d → ℝ) :
    x ∈ cylSet d k R L ↔ Real.sqrt (axisSq k x) ≤ R ∧ ∀ i : Fin d, k ≤ i.1 → |x i| ≤ L := by
  rw [Real.sqrt_le_left hR.le]; rfl

private theorem cylPut_front (k : Nat) (R L : ℝ) (y : Fin d → ℝ) :
    RadialImage R ((List.ofFn y).take k) ((List.ofFn (cylPut k R L y)).take k) := by
  rw [RadialImage, radius_take]
  constructor
  · intro h
    refine List.ext_getElem (by simp) fun i h1 h2 => ?_
    have : i < k := by simp at h1; omega
    simp [cylPut, this, not_lt.2 h]
  · intro h
    refine List.ext_getElem (by simp) fun i h1 h2 => ?_
    have : i < k := by simp at h1; omega
    simp [cylPut, this, h]

private theorem cylPut_iff (k : Nat) {R L : ℝ} (hR : 0 < R) (hL : 0 < L) (y : Fin d → ℝ) :
    cylPut k R L y ∈ cylSet d k R L ↔ Real.sqrt (axisSq k y) ≤ 3 * R ∧ ∀ i : Fin d, k ≤ i.1 → |y i| ≤ 3 * L := by
  rw [cylSet_iff k hR, ← radius_take, radial_inside_iff hR (cylPut_front k R L y), radius_take]
  refine and_congr_right fun _ => forall_congr' fun i => imp_congr_right fun hi => ?_
  rw [cylPut, if_neg (by omega)]
  exact periodic_inside_iff hL (periodicPut_image hL _)

private theorem cylPut_inside (k : Nat) {R L : ℝ} (hR : 0 < R) (hL : 0 < L) (y : Fin d → ℝ) (hy : y ∈ cylSet d k R L) :
    cylPut k R L y = y := by
  rw [cylSet_iff k hR] at hy
  funext i
  unfold cylPut
  by_cases h : i.1 < k
  · rw [if_pos h, if_neg (not_lt.2 hy.1)]
  · rw [if_neg h]; exact (periodicPut_image hL _).1 (hy.2 i (by omega))

private theorem cylPut_measurable (k : Nat) (R L : ℝ) : Measurable (cylPut (d := d) k R L) := by
  refine measurable_pi_lambda _ fun i => ?_
  unfold cylPut
  have hs : Measurable fun x : Fin d → ℝ => Real.sqrt (axisSq k x) := (Real.continuous_sqrt.comp (axisSq_cont k)).measurable
  by_cases h : i.1 < k
  · simp only [h, if_true]
    refine Measurable.ite (measurableSet_lt measurable_const hs) ?_ (measurable_pi_apply i)
    exact (measurable_const.sub hs).mul ((measurable_pi_apply i).div hs)
  · simp only [h, if_false]; exact (periodicPut_measurable L).comp (measurable_pi_apply i)

private theorem cyl_far (k : Nat) {R L : ℝ} (hR : 0 < R) (hL : 0 < L) (hd : 0 < d) (y : Fin d → ℝ)
    (hy : y ∈ nearSet (fun _ => 4 * (R + L)) (R + L)) : cylPut k R L y ∉ cylSet d k R L := by
  rw [cylPut_iff k hR hL]
  rintro ⟨h1, h2⟩
  have h3 := near_coord hy ⟨0, hd⟩
  rw [abs_lt] at h3
  by_cases hk : 0 < k
  · have h4 : y ⟨0, hd⟩ ^ 2 ≤ axisSq k y := by
      have := Finset.single_le_sum (f := fun i : Fin d => if i.1 < k then y i ^ 2 else 0)
        (fun i _ => by split <;> positivity) (Finset.mem_univ ⟨0, hd⟩)
      simpa [hk, axisSq] using this
    rw [Real.sqrt_le_left (by positivity)] at h1
    nlinarith [h3.1]
  · have h4 := h2 ⟨0, hd⟩ (by simp only; omega)
    rw [abs_le] at h4
    linarith [h3.1, h4.2]

private theorem cyl_bounded (k : Nat) {R L : ℝ} (hR : 0 < R) (x : Fin d → ℝ) (hx : x ∈ cylSet d k R L) (i : Fin d) :
    |x i| ≤ max R L := by
  by_cases hi : i.1 < k
  · refine le_trans ?_ (le_max_left _ _)
    refine abs_le_of_sq_le_sq (le_trans ?_ hx.1) hR.le
    have := Finset.single_le_sum (f := fun i : Fin d => if i.1 < k then x i ^ 2 else 0)
        (fun i _ => by split <;> positivity) (Finset.mem_univ i)
    simpa [hi] using this
  · exact (hx.2 i (by omega)).trans (le_max_right _ _)

private theorem cyl_walls (rng : RngOps G ℝ) {k n : Nat} {R L : ℝ} {s : Cyl ℝ} (hnew : Cyl.new k R L n = .ok s) :
    Walls (s.ops rng) (cylSet n k R L) (cylPut k R L) := by
  have key := C22_cylinder_image k R L n s hnew
  obtain ⟨hR, hL, hkn, hn, -⟩ := new_cyl hnew
  have key : ∀ x dx : Fin n → ℝ, (s.checkBc (List.ofFn x) (List.ofFn dx)).1 = List.ofFn (cylPut k R L (x + dx)) ∧
      ((s.checkBc (List.ofFn x) (List.ofFn dx)).2 = .ok () ↔ cylPut k R L (x + dx) ∈ cylSet n k R L) ∧
      ((s.checkBc (List.ofFn x) (List.ofFn dx)).2 = .ok () ∨ (s.checkBc (List.ofFn x) (List.ofFn dx)).2 = .err .tooLargeTimeStep) := by
    intro x dx
    obtain ⟨k1, k2, k3, k4, k5⟩ := key (List.ofFn x) (List.ofFn dx) (by simp) (by simp)
    rw [sum_lists] at k2 k4
    refine ⟨?_, ?_, k5⟩
    · have hfront : (s.checkBc (List.ofFn x) (List.ofFn dx)).1.take k = (List.ofFn (cylPut k R L (x + dx))).take k := by
        have him := cylPut_front k R L (x + dx)
        rcases le_or_gt (radius ((List.ofFn (x + dx)).take k)) R with h | h
        · rw [k2.1 h, him.1 h]
        · rw [k2.2 h, him.2 h]
      refine List.ext_getElem (by simp [k1]) fun i h1 h2 => ?_
      have hi : i < n := by simpa using h2
      by_cases hik : i < k
      · have := congrArg (fun l => l[i]?) hfront
        simp only [List.getElem?_take, hik, if_true] at this
        rw [List.getElem?_eq_getElem h1, List.getElem?_eq_getElem h2] at this
        exact Option.some.inj this
      · obtain ⟨y, hy, m⟩ := k3 i _ _ (by omega) (get_ofFn x ⟨i, hi⟩) (get_ofFn dx ⟨i, hi⟩)
        rw [List.getElem?_eq_getElem h1, Option.some.injEq] at hy
        rw [hy, List.getElem_ofFn, cylPut, if_neg (by simpa using hik)]
        exact periodic_unique m (periodicPut_image hL _)
    · rw [k4, cylPut_iff k hR hL, radius_take]
      refine and_congr_right fun _ => ?_
      constructor
      · intro h i hi
        exact h i _ _ hi (get_ofFn x i) (get_ofFn dx i)
      · intro h i a b hki ha hb
        have hi : i < n := by
          have := (List.getElem?_eq_some_iff.1 ha).1; simpa using this
        have e1 := get_ofFn x ⟨i, hi⟩
        have e2 := get_ofFn dx ⟨i, hi⟩
        simp only at e1 e2
        rw [ha, Option.some.injEq] at e1
        rw [hb, Option.some.injEq] at e2
        rw [e1, e2]
        exact h ⟨i, hi⟩ hki
  refine ⟨cylPut_measurable k R L, cyl_measurable _ _ _ _, ⟨max R L, fun x hx => cyl_bounded k hR x hx⟩,
    fun y hy => cylPut_inside k hR hL y hy, ⟨_, _, by positivity, fun y hy => cyl_far k hR hL hn y hy⟩, fun x dx h => ?_, fun x dx h => ?_⟩
  · obtain ⟨k1, k2, -⟩ := key x dx
    exact Prod.ext k1 (k2.2 h)
  · obtain ⟨k1, k2, k3⟩ := key x dx
    exact Prod.ext k1 (k3.resolve_left fun e => h (k2.1 e))

private theorem ballPut_cyl (R L : ℝ) : (ballPut R : (Fin d → ℝ) → Fin d → ℝ) = cylPut d R L := by
  funext y i
  simp [ballPut, cylPut, axisSq]

private theorem ball_walls (rng : RngOps G ℝ) {n : Nat} {R : ℝ} {s : Circ ℝ} (hnew : Circ.new R n = .ok s) :
    Walls (s.ops rng) (ballSet n R) (ballPut R) := by
  have hRn : 0 < R ∧ 0 < n := by
    unfold Circ.new at hnew
    split at hnew
    · simp at hnew
    · rename_i hc
      simp only [fl_le, fl_zero, Bool.or_eq_true, decide_eq_true_eq, not_or, not_le, beq_iff_eq] at hc
      exact ⟨hc.1, Nat.pos_of_ne_zero hc.2⟩
  obtain ⟨hR, hn⟩ := hRn
  have key := C21_sphere_image R n s hnew
  rw [ballPut_cyl R 1, ball_cyl n R 1]
  have hfull : ∀ y : Fin n → ℝ, (List.ofFn y).take n = List.ofFn y := fun y => List.take_of_length_le (by simp)
  have key : ∀ x dx : Fin n → ℝ, (s.checkBc (List.ofFn x) (List.ofFn dx)).1 = List.ofFn (cylPut n R 1 (x + dx)) ∧
      ((s.checkBc (List.ofFn x) (List.ofFn dx)).2 = .ok () ↔ cylPut n R 1 (x + dx) ∈ cylSet n n R 1) ∧
      ((s.checkBc (List.ofFn x) (List.ofFn dx)).2 = .ok () ∨ (s.checkBc (List.ofFn x) (List.ofFn dx)).2 = .err .tooLargeTimeStep) := by
    intro x dx
    obtain ⟨k1, k2, k3, -⟩ := key (List.ofFn x) (List.ofFn dx) (by simp) (by simp)
    rw [sum_lists] at k1 k2
    have him := cylPut_front n R 1 (x + dx)
    rw [hfull, hfull] at him
    refine ⟨?_, ?_, k3⟩
    · rcases le_or_gt (radius (List.ofFn (x + dx))) R with h | h
      · rw [k1.1 h, him.1 h]
      · rw [k1.2 h, him.2 h]
    · rw [k2, cylPut_iff n hR one_pos, ← radius_take, hfull]
      exact ⟨fun h => ⟨h, fun i hi => absurd i.2 (by omega)⟩, fun h => h.1⟩
  refine ⟨cylPut_measurable n R 1, cyl_measurable _ _ _ _, ⟨max R 1, fun x hx => cyl_bounded n hR x hx⟩,
    fun y hy => cylPut_inside n hR one_pos y hy, ⟨_, _, by positivity, fun y hy => cyl_far n hR one_pos hn y hy⟩, fun x dx h => ?_, fun x dx h => ?_⟩
  · obtain ⟨k1, k2, -⟩ := key x dx
    exact Prod.ext k1 (k2.2 h)
  · obtain ⟨k1, k2, k3⟩ := key x dx
    exact Prod.ext k1 (k3.resolve_left fun e => h (k2.1 e))

/-- The three systems have walls in the sense of `Walls`: mirrors and periodic ends of a
cube, the mirror of a ball, the mirror and the periodic ends of a cylinder. -/
theorem C77_walls (rng : RngOps G ℝ) :
    (∀ (bc : BoundaryCond) (L : ℝ) (n : Nat) (s : Cubic ℝ), Cubic.new bc L n = .ok s →
      Walls (s.ops rng) (cubeSet n L) (cubePut bc L)) ∧
    (∀ (R : ℝ) (n : Nat) (s : Circ ℝ), Circ.new R n = .ok s → Walls (s.ops rng) (ballSet n R) (ballPut R)) ∧
    (∀ (k : Nat) (R L : ℝ) (n : Nat) (s : Cyl ℝ), Cyl.new k R L n = .ok s →
      Walls (s.ops rng) (cylSet n k R L) (cylPut k R L)) :=
  ⟨fun _ _ _ _ h => cube_walls rng h, fun _ _ _ h => ball_walls rng h, fun _ _ _ _ _ h => cyl_walls rng h⟩

private theorem axis_triangle (k : Nat) (x z : Fin d → ℝ) {r : ℝ} (hr : 0 ≤ r) {a : ℝ} (ha : 0 ≤ a) (hx : axisSq k x ≤ r ^ 2) (hz : ∀ i, |z i| ≤ a) :
    Real.sqrt (axisSq k (x + z)) ≤ r + a * Real.sqrt k := by
  have h1 : axisSq k z ≤ a ^ 2 * k := by
    unfold axisSq
    calc ∑ i : Fin d, (if i.1 < k then z i ^ 2 else 0) ≤ ∑ i : Fin d, (if i.1 < k then a ^ 2 else 0) := by
          refine Finset.sum_le_sum fun i _ => ?_
          split
          · rw [← sq_abs]; exact pow_le_pow_left₀ (abs_nonneg _) (hz i) 2
          · exact le_rfl
      _ = a ^ 2 * ((Finset.univ.filter fun i : Fin d => i.1 < k).card : ℝ) := by
          rw [← Finset.sum_filter, Finset.sum_const, nsmul_eq_mul, mul_comm]
      _ ≤ a ^ 2 * k := by
          refine mul_le_mul_of_nonneg_left ?_ (sq_nonneg a)
          have : (Finset.univ.filter fun i : Fin d => i.1 < k).card ≤ (Finset.range k).card :=
            Finset.card_le_card_of_injOn (fun i => i.1) (fun i hi => by simpa using hi) (fun i _ j _ e => Fin.ext e)
          rw [Finset.card_range] at this
          exact_mod_cast this
  have h2 : axisSq k z ≤ (a * Real.sqrt k) ^ 2 := by rw [mul_pow, Real.sq_sqrt (Nat.cast_nonneg k)]; exact h1
  have hb : 0 ≤ a * Real.sqrt k := by positivity
  have hcs : (∑ i : Fin d, (if i.1 < k then x i else 0) * (if i.1 < k then z i else 0)) ^ 2 ≤ axisSq k x * axisSq k z := by
    have := Finset.sum_mul_sq_le_sq_mul_sq Finset.univ (fun i : Fin d => if i.1 < k then x i else 0) (fun i => if i.1 < k then z i else 0)
    refine this.trans (le_of_eq ?_)
    unfold axisSq
    congr 1 <;> exact Finset.sum_congr rfl fun i _ => by split <;> simp
  have hexp : axisSq k (x + z) = axisSq k x + 2 * (∑ i : Fin d, (if i.1 < k then x i else 0) * (if i.1 < k then z i else 0)) + axisSq k z := by
    unfold axisSq
    rw [Finset.mul_sum, ← Finset.sum_add_distrib, ← Finset.sum_add_distrib]
    refine Finset.sum_congr rfl fun i _ => ?_
    split <;> simp [Pi.add_apply]
    ring
  rw [Real.sqrt_le_left (by positivity), hexp]
  have hx0 := axisSq_nonneg k x
  have hz0 := axisSq_nonneg k z
  generalize (∑ i : Fin d, (if i.1 < k then x i else 0) * (if i.1 < k then z i else 0)) = u at *
  have hu : u ≤ r * (a * Real.sqrt k) := by
    refine le_of_sq_le_sq ?_ (by positivity)
    refine hcs.trans ?_
    rw [mul_pow]
    exact mul_le_mul hx h2 hz0 (sq_nonneg r)
  nlinarith

/-- Steps that are never too large: up to `2 L` in every direction in a cube, `2 R / √d` in a ball; in a cylinder, where walkers
start up to `2 L` from the middle, up to `L` if `a √k ≤ 2 R`. -/
theorem C77_safe_steps (n : Nat) (x z : Fin n → ℝ) :
    (∀ (bc : BoundaryCond) (L : ℝ), 0 < L → x ∈ cubeSet n L ∪ cubeSet n L → (∀ i, |z i| ≤ 2 * L) → cubePut bc L (x + z) ∈ cubeSet n L) ∧
    (∀ R : ℝ, 0 < R → 0 < n → x ∈ ballSet n R ∪ ballSet n R → (∀ i, |z i| ≤ 2 * R / Real.sqrt n) → ballPut R (x + z) ∈ ballSet n R) ∧
    (∀ (k : Nat) (R L a : ℝ), 0 < R → 0 < L → 0 ≤ a → a ≤ L → a * Real.sqrt k ≤ 2 * R → x ∈ cylSet n k R (2 * L) ∪ cylSet n k R L →
      (∀ i, |z i| ≤ a) → cylPut k R L (x + z) ∈ cylSet n k R L) := by
  refine ⟨fun bc L hL hx hz => ?_, fun R hR hn hx hz => ?_, fun k R L a hR hL ha haL hak hx hz => ?_⟩
  · rw [cubePut_iff bc hL]
    intro i
    have h1 : |x i| ≤ L := by rcases hx with h | h <;> exact h i
    calc |(x + z) i| ≤ |x i| + |z i| := abs_add_le _ _
      _ ≤ 3 * L := by linarith [hz i]
  · have hx : x ∈ ballSet n R := by rcases hx with h | h <;> exact h
    rw [ballPut_cyl R 1, ball_cyl n R 1, cylPut_iff n hR one_pos]
    refine ⟨?_, fun i hi => absurd i.2 (by omega)⟩
    have hn' : 0 < Real.sqrt n := Real.sqrt_pos.2 (by exact_mod_cast hn)
    have hx2 : axisSq n x ≤ R ^ 2 := by simpa [axisSq, ballSet] using hx
    have := axis_triangle n x z hR.le (a := 2 * R / Real.sqrt n) (by positivity) hx2 hz
    rw [div_mul_cancel₀ _ hn'.ne'] at this
    linarith
  · have hx : axisSq k x ≤ R ^ 2 ∧ ∀ i : Fin n, k ≤ i.1 → |x i| ≤ 2 * L := by
      rcases hx with h | h
      · exact h
      · exact ⟨h.1, fun i hi => (h.2 i hi).trans (by linarith)⟩
    rw [cylPut_iff k hR hL]
    refine ⟨?_, fun i hi => ?_⟩
    · have := axis_triangle k x z hR.le ha hx.1 hz
      linarith
    · calc |(x + z) i| ≤ |x i| + |z i| := abs_add_le _ _
        _ ≤ 3 * L := by linarith [hz i, hx.2 i hi]

end Moledyn.Props
