import Verif.Lemmas.Law
import Verif.Lemmas.Position
import Verif.Lemmas.System
import Verif.Model.Agent
import Mathlib.Analysis.Convex.Measure
/-
C72: the distribution of the positions drawn by the systems.
-/
namespace Moledyn.Props
open Moledyn MeasureTheory ProbabilityTheory
open scoped ENNReal
set_option linter.unusedSimpArgs false
variable {G : Type} [MeasurableSpace G]

/-- the points of a cube of half width `L`. -/
def cubeSet (d : Nat) (L : ℝ) : Set (Fin d → ℝ) := {x | ∀ i, |x i| ≤ L}
/-- the points of a ball of radius `R` around 0. -/
def ballSet (d : Nat) (R : ℝ) : Set (Fin d → ℝ) := {x | ∑ i, x i ^ 2 ≤ R ^ 2}
/-- the points of a cylinder: the first `k` coordinates lie in the ball of radius `R`, the others are at most `L`. -/
def cylSet (d k : Nat) (R L : ℝ) : Set (Fin d → ℝ) :=
  {x | ∑ i, (if i.1 < k then x i ^ 2 else 0) ≤ R ^ 2 ∧ ∀ i : Fin d, k ≤ i.1 → |x i| ≤ L}

private theorem uniformVec (rng : RngOps G ℝ) (d : Nat) (w : ℝ) (g : G) :
    ((Pos.add (Random.getUniformVec rng g d).1 (List.replicate d (-(Fl.lit (1 / 2) : ℝ)))).map
      fun p => Pos.mutScalarMul p ((Fl.two : ℝ) * w)) =
      .ok (List.ofFn (stretch (fun _ : Fin d => w) (drawsN rng.uniform d g).1)) ∧
    (Random.getUniformVec rng g d).2 = (drawsN rng.uniform d g).2 := by
  unfold Random.getUniformVec
  rw [sweep_draws' (d := d) rng.uniform _ (List.replicate d Fl.zero) (by simp) g]
  refine ⟨?_, rfl⟩
  simp only [zipWith_const, Pos.add, Pos.dim, List.length_ofFn, List.length_replicate, ne_eq, not_true_eq_false,
    if_false, Res.map, Pos.mutScalarMul]
  congr 1
  refine List.ext_getElem (by simp) fun i h1 h2 => ?_
  simp only [stretch, Fl.two, List.getElem_map, List.getElem_zipWith, List.getElem_ofFn, List.getElem_replicate,
    fl_add, fl_mul, fl_neg, fl_lit]
  push_cast
  ring

private theorem uniformToVec (rng : RngOps G ℝ) (d : Nat) (w : ℝ) (vec : Pos ℝ) (hv : vec.length = d) (g : G) :
    Random.getUniformToVecNonstandard rng g (vec.clear Fl.zero) (-w) w =
      (List.ofFn (stretch (fun _ : Fin d => w) (drawsN rng.uniform d g).1), (drawsN rng.uniform d g).2) := by
  unfold Random.getUniformToVecNonstandard
  have e : vec.clear (Fl.zero : ℝ) = List.replicate d (Fl.zero : ℝ) := by
    unfold Pos.clear; rw [List.map_const', hv]
  rw [e, sweep_draws' (d := d) rng.uniform _ (List.replicate d Fl.zero) (by simp) g, zipWith_const]
  refine Prod.ext ?_ rfl
  simp only
  congr 1
  funext i
  simp [stretch]
  ring

/-- the proposals. -/
private theorem box_mp {rng : RngOps G ℝ} {P : Measure G} {ν : Measure ℝ} (h : IndepRng rng P ν) {d : Nat} {w : Fin d → ℝ} (hw : ∀ i, 0 < w i) :
    MeasurePreserving (fun g => (stretch w (drawsN rng.uniform d g).1, (drawsN rng.uniform d g).2)) P
      ((uniformLaw (openBox w)).prod P) := by
  have := h.prob
  have := uniformLaw_prob (openBox_pos hw) (openBox_finite w)
  exact ((stretch_mp hw).prod (MeasurePreserving.id P)).comp (drawsN_mp h.uniform d)

/-- Cube of any dimension, with any boundary condition, both ways of drawing: every point is equally likely, whatever
was drawn before. -/
theorem C72_cube (rng : RngOps G ℝ) (P : Measure G) {ν : Measure ℝ} (h : IndepRng rng P ν) (s : Cubic ℝ) (hL : 0 < s.sysSize)
    (vec : Pos ℝ) (hv : vec.length = s.dim) :
    Samples P (fun _ g => some (s.randomPos rng g)) List.ofFn (uniformLaw (cubeSet s.dim s.sysSize)) ∧
    Samples P (fun _ g => let r := s.randomPosToVec rng g vec; some (r.1.2.map fun _ => r.1.1, r.2)) List.ofFn
      (uniformLaw (cubeSet s.dim s.sysSize)) := by
  have hw : ∀ i : Fin s.dim, 0 < (fun _ : Fin s.dim => s.sysSize) i := fun _ => hL
  have e : uniformLaw (cubeSet s.dim s.sysSize) = uniformLaw (openBox fun _ : Fin s.dim => s.sysSize) :=
    uniformLaw_congr (openBox_ae _)
  rw [e]
  refine ⟨⟨_, box_mp h hw, .of_forall fun g => ⟨0, fun _ _ => ?_⟩⟩, ⟨_, box_mp h hw, .of_forall fun g => ⟨0, fun _ _ => ?_⟩⟩⟩
  · obtain ⟨a, b⟩ := uniformVec rng s.dim s.sysSize g
    simp only [Cubic.randomPos, a, b]
  · simp only [Cubic.randomPosToVec, Pos.dim, hv, ne_eq, not_true_eq_false, if_false, uniformToVec rng s.dim s.sysSize vec hv g,
      Res.map]

/-! ### balls and cylinders -/

/-- squared distance from the axis of the last `d - k` coordinates. -/
def axis2 (d k : Nat) (x : Fin d → ℝ) : ℝ := ∑ i, (if i.1 < k then x i ^ 2 else 0)

private theorem axis2_cont (d k : Nat) : Continuous (axis2 d k) := by
  unfold axis2
  refine continuous_finsetSum _ fun i _ => ?_
  split
  · exact (continuous_apply i).pow 2
  · exact continuous_const

private theorem axis2_smul (d k : Nat) (t : ℝ) (x : Fin d → ℝ) : axis2 d k (t • x) = t ^ 2 * axis2 d k x := by
  unfold axis2
  rw [Finset.mul_sum]
  refine Finset.sum_congr rfl fun i _ => ?_
  split
  · simp; ring
  · simp

theorem axis2_convex (d k : Nat) (c : ℝ) : Convex ℝ {x | axis2 d k x ≤ c} := by
  intro x hx y hy a b ha hb hab
  simp only [Set.mem_ofPred_eq] at hx hy ⊢
  have : axis2 d k (a • x + b • y) ≤ a * axis2 d k x + b * axis2 d k y := by
    unfold axis2
    rw [Finset.mul_sum, Finset.mul_sum, ← Finset.sum_add_distrib]
    refine Finset.sum_le_sum fun i _ => ?_
    split
    · simp only [Pi.add_apply, Pi.smul_apply, smul_eq_mul]
      obtain rfl : b = 1 - a := by linarith
      nlinarith [mul_nonneg ha hb, sq_nonneg (x i - y i), mul_nonneg (mul_nonneg ha hb) (sq_nonneg (x i - y i))]
    · simp
  calc _ ≤ a * axis2 d k x + b * axis2 d k y := this
    _ ≤ a * c + b * c := add_le_add (mul_le_mul_of_nonneg_left hx ha) (mul_le_mul_of_nonneg_left hy hb)
    _ = c := by rw [← add_mul, hab, one_mul]

/-- the curved surface has no volume. -/
private theorem axis2_surface (d k : Nat) {c : ℝ} (hc : 0 < c) : volume {x : Fin d → ℝ | axis2 d k x = c} = 0 := by
  refine measure_mono_null ?_ (Convex.addHaar_frontier volume (axis2_convex d k c))
  intro x hx
  simp only [Set.mem_ofPred_eq] at hx
  rw [frontier_eq_closure_inter_closure]
  refine ⟨subset_closure hx.le, ?_⟩
  have ht : Filter.Tendsto (fun n : ℕ => ((1 : ℝ) + 1 / ((n : ℝ) + 1)) • x) Filter.atTop (nhds x) := by
    have : Filter.Tendsto (fun n : ℕ => (1 : ℝ) + 1 / ((n : ℝ) + 1)) Filter.atTop (nhds (1 + 0)) :=
      tendsto_const_nhds.add tendsto_one_div_add_atTop_nhds_zero_nat
    rw [add_zero] at this
    simpa using this.smul_const x
  refine mem_closure_of_tendsto ht (.of_forall fun n => ?_)
  simp only [Set.mem_compl_iff, Set.mem_ofPred_eq, not_le, axis2_smul, hx]
  have ht : (0 : ℝ) < 1 / ((n : ℝ) + 1) := by positivity
  generalize 1 / ((n : ℝ) + 1) = t at ht
  nlinarith [mul_pos ht hc, mul_pos (mul_pos ht ht) hc]

private theorem norm_take {d : Nat} (k : Nat) (x : Fin d → ℝ) :
    Pos.norm ((List.ofFn x).take k) = Real.sqrt (axis2 d k x) := by
  rw [norm_eq_radius]
  unfold radius axis2
  congr 1
  rw [List.map_take, List.map_ofFn, List.sum_take_ofFn, Finset.sum_filter]
  rfl

/-- what is accepted: the points near the axis in a box. -/
private theorem cyl_ae (d k : Nat) {R : ℝ} (hR : 0 < R) (w : Fin d → ℝ) (h : ∀ i : Fin d, i.1 < k → R ≤ w i) (L : ℝ)
    (hL : ∀ i : Fin d, k ≤ i.1 → w i = L) :
    ({x | axis2 d k x < R ^ 2} ∩ openBox w : Set (Fin d → ℝ)) =ᵐ[volume] cylSet d k R L := by
  have h1 : ∀ᵐ x : Fin d → ℝ, axis2 d k x ≠ R ^ 2 := by
    rw [ae_iff]; simpa using axis2_surface d k (c := R ^ 2) (by positivity)
  filter_upwards [h1, openBox_ae w] with x hx hb
  have hb : (∀ i, |x i| ≤ w i) ↔ ∀ i, |x i| < w i := Iff.of_eq hb
  refine propext ⟨fun ⟨a, b⟩ => ⟨le_of_lt a, fun i hi => ?_⟩, fun ⟨a, b⟩ => ?_⟩
  · rw [← hL i hi]; exact (b i).le
  · have hlt : axis2 d k x < R ^ 2 := lt_of_le_of_ne a hx
    refine ⟨hlt, hb.1 fun i => ?_⟩
    rcases lt_or_ge i.1 k with hi | hi
    · refine le_trans ?_ (h i hi)
      have : x i ^ 2 ≤ axis2 d k x := by
        have := Finset.single_le_sum (f := fun i : Fin d => if i.1 < k then x i ^ 2 else 0)
          (fun j _ => by split <;> positivity) (Finset.mem_univ i)
        unfold axis2; simpa [hi] using this
      exact abs_le_of_sq_le_sq (by linarith) hR.le
    · rw [hL i hi]; exact b i hi

theorem cyl_measurable (d k : Nat) (R L : ℝ) : MeasurableSet (cylSet d k R L) := by
  have : cylSet d k R L = {x | axis2 d k x ≤ R ^ 2} ∩ ⋂ i : Fin d, ⋂ _ : k ≤ i.1, {x | |x i| ≤ L} := by
    ext x; simp [cylSet, axis2]
  rw [this]
  refine ((isClosed_le (axis2_cont d k) continuous_const).measurableSet).inter (.iInter fun i => .iInter fun _ => ?_)
  exact (isClosed_le (continuous_apply i).abs continuous_const).measurableSet

theorem cyl_vol (d k : Nat) {R L : ℝ} (hR : 0 < R) (hL : 0 < L) :
    volume (cylSet d k R L) ≠ 0 ∧ volume (cylSet d k R L) ≠ ∞ := by
  let w : Fin d → ℝ := fun i => if i.1 < k then R else L
  have hw : ∀ i, 0 < w i := fun i => by simp only [w]; split <;> assumption
  have e := cyl_ae d k hR w (fun i hi => by simp [w, hi]) L (fun i hi => by simp [w, not_lt.2 hi])
  rw [← measure_congr e]
  constructor
  · refine (IsOpen.measure_pos volume ((isOpen_lt (axis2_cont d k) continuous_const).inter (openBox_open w)) ⟨0, ?_, ?_⟩).ne'
    · show axis2 d k 0 < R ^ 2
      have : axis2 d k 0 = 0 := by simp [axis2]
      rw [this]; positivity
    · intro i; simpa using hw i
  · exact ne_top_of_le_ne_top (openBox_finite w) (measure_mono Set.inter_subset_right)

theorem ball_cyl (d : Nat) (R L : ℝ) : ballSet d R = cylSet d d R L := by
  ext x
  simp only [ballSet, cylSet, Set.mem_ofPred_eq, Fin.is_lt, if_true]
  constructor
  · intro h; exact ⟨h, fun i hi => absurd i.2 (by omega)⟩
  · exact fun h => h.1

theorem ball_measurable (d : Nat) (R : ℝ) : MeasurableSet (ballSet d R) := by
  rw [ball_cyl d R 0]; exact cyl_measurable _ _ _ _

theorem ball_vol (d : Nat) {R : ℝ} (hR : 0 < R) : volume (ballSet d R) ≠ 0 ∧ volume (ballSet d R) ≠ ∞ := by
  rw [ball_cyl d R R]; exact cyl_vol d d hR hR

theorem cube_measurable (d : Nat) (L : ℝ) : MeasurableSet (cubeSet d L) := by
  have : cubeSet d L = ⋂ i : Fin d, {x | |x i| ≤ L} := by ext x; simp [cubeSet]
  rw [this]
  exact .iInter fun i => (isClosed_le (continuous_apply i).abs continuous_const).measurableSet

theorem cube_vol (d : Nat) {L : ℝ} (hL : 0 < L) : volume (cubeSet d L) ≠ 0 ∧ volume (cubeSet d L) ≠ ∞ := by
  have : volume (cubeSet d L) = volume (openBox fun _ : Fin d => L) := measure_congr (openBox_ae _)
  rw [this]
  exact ⟨openBox_pos fun _ => hL, openBox_finite _⟩

/-- draw in a box and keep what is near the axis. -/
private theorem axis_samples {rng : RngOps G ℝ} {P : Measure G} {ν : Measure ℝ} (h : IndepRng rng P ν) (d k : Nat) {R L : ℝ} (hR : 0 < R)
    (w : Fin d → ℝ) (hw : ∀ i, 0 < w i) (h1 : ∀ i : Fin d, i.1 < k → R ≤ w i) (h2 : ∀ i : Fin d, k ≤ i.1 → w i = L)
    (hL : 0 < L) (S : Set (Fin d → ℝ)) (hS : S = {x | axis2 d k x < R ^ 2} ∨ S = {x | axis2 d k x ≤ R ^ 2})
    (try_ : G → Res (Option (Pos ℝ)) × G)
    (t1 : ∀ g, stretch w (drawsN rng.uniform d g).1 ∈ S →
      try_ g = (.ok (some (List.ofFn (stretch w (drawsN rng.uniform d g).1))), (drawsN rng.uniform d g).2))
    (t2 : ∀ g, stretch w (drawsN rng.uniform d g).1 ∉ S → try_ g = (.ok none, (drawsN rng.uniform d g).2)) :
    Samples P (rejectLoop try_) List.ofFn (uniformLaw (cylSet d k R L)) := by
  have := h.prob
  have := uniformLaw_prob (openBox_pos hw) (openBox_finite w)
  have hm : MeasurableSet S := by
    rcases hS with rfl | rfl
    · exact (isOpen_lt (axis2_cont d k) continuous_const).measurableSet
    · exact (isClosed_le (axis2_cont d k) continuous_const).measurableSet
  have hae : (S ∩ openBox w : Set (Fin d → ℝ)) =ᵐ[volume] cylSet d k R L := by
    have e := cyl_ae d k hR w h1 L h2
    rcases hS with rfl | rfl
    · exact e
    · have hs : ∀ᵐ x : Fin d → ℝ, axis2 d k x ≠ R ^ 2 := by
        rw [ae_iff]; simpa using axis2_surface d k (c := R ^ 2) (by positivity)
      refine Filter.EventuallyEq.trans ?_ e
      filter_upwards [hs] with x hx
      exact propext ⟨fun ⟨a, b⟩ => ⟨lt_of_le_of_ne a hx, b⟩, fun ⟨a, b⟩ => ⟨(le_of_lt a : axis2 d k x ≤ R ^ 2), b⟩⟩
  have hv := cyl_vol d k hR hL
  have hpos : uniformLaw (openBox w) S ≠ 0 := by
    simp only [uniformLaw, Measure.smul_apply, Measure.restrict_apply hm, smul_eq_mul, measure_congr hae]
    exact mul_ne_zero (ENNReal.inv_ne_zero.2 (openBox_finite w)) hv.1
  have := rejectLoop_samples (box_mp h hw) hm hpos List.ofFn try_ t1 t2
  rwa [condLaw_uniform (openBox_pos hw) (openBox_finite w) hm, uniformLaw_congr hae] at this

/-- Ball of any dimension: both ways of drawing come to an end with probability one, and every point of the ball is
equally likely, whatever was drawn before. -/
theorem C72_ball (rng : RngOps G ℝ) (P : Measure G) {ν : Measure ℝ} (h : IndepRng rng P ν) (s : Circ ℝ) (hR : 0 < s.sysSize)
    (vec : Pos ℝ) (hv : vec.length = s.dim) :
    Samples P (s.randomPos rng) List.ofFn (uniformLaw (ballSet s.dim s.sysSize)) ∧
    Samples P (fun fuel g => s.randomPosToVec rng fuel g vec) List.ofFn (uniformLaw (ballSet s.dim s.sysSize)) := by
  have hin : ∀ x : Fin s.dim → ℝ, s.checkInclusion (List.ofFn x) = .ok (decide (axis2 s.dim s.dim x ≤ s.sysSize ^ 2)) := by
    intro x
    have e : Pos.norm (List.ofFn x) = Real.sqrt (axis2 s.dim s.dim x) := by
      have := norm_take s.dim x
      rwa [List.take_of_length_le (by simp)] at this
    unfold Circ.checkInclusion
    rw [if_neg (by simp), e]
    have a0 : 0 ≤ axis2 s.dim s.dim x := Finset.sum_nonneg fun i _ => by split <;> positivity
    by_cases hle : axis2 s.dim s.dim x ≤ s.sysSize ^ 2
    · rw [if_neg, decide_eq_true hle]
      simp only [Fl.gt, fl_lt, decide_eq_true_eq, not_lt]
      exact (Real.sqrt_le_left hR.le).2 hle
    · rw [if_pos, decide_eq_false hle]
      simp only [Fl.gt, fl_lt, decide_eq_true_eq]
      push Not at hle
      exact Real.lt_sqrt_of_sq_lt hle
  rw [ball_cyl s.dim s.sysSize s.sysSize]
  constructor
  · refine axis_samples h s.dim s.dim hR (fun _ => s.sysSize) (fun _ => hR) (fun _ _ => le_rfl) (fun _ _ => rfl) hR
      {x | axis2 s.dim s.dim x ≤ s.sysSize ^ 2} (.inr rfl) (Circ.propose rng s) (fun g hg => ?_) (fun g hg => ?_)
    all_goals
      obtain ⟨a, b⟩ := uniformVec rng s.dim s.sysSize g
      unfold Circ.propose
      simp only [b]
      refine Prod.ext ?_ rfl
      cases hp : Pos.add (Random.getUniformVec rng g s.dim).1 (List.replicate s.dim (-(Fl.lit (1 / 2) : ℝ))) with
      | err e => rw [hp] at a; simp [Res.map] at a
      | panic => rw [hp] at a; simp [Res.map] at a
      | ok p =>
        rw [hp] at a
        simp only [Res.map, Res.ok.injEq] at a
        simp only [Res.bind, a, hin, Res.map]
        simp only [Set.mem_ofPred_eq] at hg
        simp [hg]
  · have e : (fun fuel g => s.randomPosToVec rng fuel g vec) = rejectLoop (s.proposeToVec rng vec) := by
      funext fuel g
      unfold Circ.randomPosToVec
      rw [if_neg (by simp [Pos.dim, hv])]
    rw [e]
    refine axis_samples h s.dim s.dim hR (fun _ => s.sysSize) (fun _ => hR) (fun _ _ => le_rfl) (fun _ _ => rfl) hR
      {x | axis2 s.dim s.dim x ≤ s.sysSize ^ 2} (.inr rfl) (Circ.proposeToVec rng s vec) (fun g hg => ?_) (fun g hg => ?_)
    all_goals
      simp only [Circ.proposeToVec, uniformToVec rng s.dim s.sysSize vec hv g, hin, Res.map]
      simp only [Set.mem_ofPred_eq] at hg
      simp [hg]

private theorem scaleTest_eq (s : Cyl ℝ) (k : Nat) (hk : k ≤ s.dim) (hR : 0 < s.sysRadius) (y x : Fin s.dim → ℝ)
    (hx : ∀ i, x i = y i * if i.1 < k then 2 * s.sysRadius else 2 * s.sysLength) :
    s.scaleTest k (List.ofFn y) = .ok (if axis2 s.dim k x < s.sysRadius ^ 2 then some (List.ofFn x) else none) := by
  have e : ((List.ofFn y).take k).map (· * ((Fl.two : ℝ) * s.sysRadius)) ++
      ((List.ofFn y).drop k).map (· * ((Fl.two : ℝ) * s.sysLength)) = List.ofFn x := by
    refine List.ext_getElem (by simp; omega) fun i h1 h2 => ?_
    simp only [List.length_ofFn] at h2
    simp only [List.getElem_ofFn, hx, List.getElem_append, List.length_map, List.length_take, List.length_ofFn,
      List.getElem_map, List.getElem_take, List.getElem_drop, Fl.two, fl_lit]
    by_cases hi : i < k
    · rw [dif_pos (by omega), if_pos hi]; push_cast; rfl
    · rw [dif_neg (by omega), if_neg hi]
      have : k + (i - min k s.dim) = i := by omega
      simp only [this]; push_cast; rfl
  have hf : ((List.ofFn y).take k).map (· * ((Fl.two : ℝ) * s.sysRadius)) = (List.ofFn x).take k := by
    rw [← e, List.take_left' (by simp [hk])]
  have h0 : 0 ≤ axis2 s.dim k x := Finset.sum_nonneg fun i _ => by split <;> positivity
  unfold Cyl.scaleTest
  rw [if_neg (by simpa using hk)]
  simp only [e]
  rw [hf, norm_take]
  simp only [fl_lt, decide_eq_true_eq, Real.sqrt_lt' hR]
  split <;> rfl

/-- Cylinder of any dimension: both ways of drawing come to an end with probability one.  Every point drawn by the first
is equally likely in the cylinder; every point drawn by the second is equally likely in a cylinder of twice the length. -/
theorem C72_cylinder (rng : RngOps G ℝ) (P : Measure G) {ν : Measure ℝ} (h : IndepRng rng P ν) (s : Cyl ℝ) (k : Nat)
    (ht : s.sysType = .continuousCylindrical k) (hk : k ≤ s.dim) (hR : 0 < s.sysRadius) (hL : 0 < s.sysLength)
    (vec : Pos ℝ) (hv : vec.length = s.dim) :
    Samples P (s.randomPos rng) List.ofFn (uniformLaw (cylSet s.dim k s.sysRadius s.sysLength)) ∧
    Samples P (fun fuel g => s.randomPosToVec rng fuel g vec) List.ofFn
      (uniformLaw (cylSet s.dim k s.sysRadius (2 * s.sysLength))) := by
  constructor
  · let w : Fin s.dim → ℝ := fun i => if i.1 < k then s.sysRadius else s.sysLength
    have hw : ∀ i, 0 < w i := fun i => by simp only [w]; split <;> assumption
    let t : G → Res (Option (Pos ℝ)) × G := fun g =>
      let u := Random.getUniformVec rng g s.dim
      ((Pos.add u.1 (List.replicate s.dim (-(Fl.lit (1 / 2))))).bind (s.scaleTest k), u.2)
    have et : s.randomPos rng = rejectLoop t := by funext fuel g; unfold Cyl.randomPos; rw [ht]
    have key : ∀ g, t g = (.ok (if axis2 s.dim k (stretch w (drawsN rng.uniform s.dim g).1) < s.sysRadius ^ 2 then
        some (List.ofFn (stretch w (drawsN rng.uniform s.dim g).1)) else none), (drawsN rng.uniform s.dim g).2) := by
      intro g
      simp only [t, Random.getUniformVec]
      rw [sweep_draws' (d := s.dim) rng.uniform _ (List.replicate s.dim Fl.zero) (by simp) g, zipWith_const]
      have e2 : Pos.add (List.ofFn fun i => (drawsN rng.uniform s.dim g).1 i) (List.replicate s.dim (-(Fl.lit (1 / 2) : ℝ))) =
          .ok (List.ofFn fun i => (drawsN rng.uniform s.dim g).1 i - 1 / 2) := by
        simp only [Pos.add, Pos.dim, List.length_ofFn, List.length_replicate, ne_eq, not_true_eq_false, if_false]
        congr 1
        refine List.ext_getElem (by simp) fun i h1 h2 => ?_
        simp only [List.getElem_zipWith, List.getElem_ofFn, List.getElem_replicate, fl_lit, fl_neg, fl_add]
        push_cast; ring
      simp only [e2, Res.bind]
      rw [scaleTest_eq s k hk hR _ (stretch w (drawsN rng.uniform s.dim g).1)]
      intro i
      simp only [stretch, w]
      split <;> ring
    rw [et]
    refine axis_samples h s.dim k hR w hw (fun i hi => by simp [w, hi]) (fun i hi => by simp [w, not_lt.2 hi]) hL
      {x | axis2 s.dim k x < s.sysRadius ^ 2} (.inl rfl) t (fun g hg => ?_) (fun g hg => ?_)
    · rw [key, if_pos (by exact hg)]
    · rw [key, if_neg (by exact hg)]
  · let w : Fin s.dim → ℝ := fun i => if i.1 < k then 2 * s.sysRadius else 2 * s.sysLength
    have hw : ∀ i, 0 < w i := fun i => by simp only [w]; split <;> linarith
    let t : G → Res (Option (Pos ℝ)) × G := fun g =>
      let r := Random.getUniformToVecNonstandard rng g (vec.clear Fl.zero) (-Fl.one) Fl.one
      (s.scaleTest k r.1, r.2)
    have et : (fun fuel g => s.randomPosToVec rng fuel g vec) = rejectLoop t := by
      funext fuel g; unfold Cyl.randomPosToVec; rw [ht]; simp only [Pos.dim, hv, ne_eq, not_true_eq_false, if_false]; rfl
    have key : ∀ g, t g = (.ok (if axis2 s.dim k (stretch w (drawsN rng.uniform s.dim g).1) < s.sysRadius ^ 2 then
        some (List.ofFn (stretch w (drawsN rng.uniform s.dim g).1)) else none), (drawsN rng.uniform s.dim g).2) := by
      intro g
      simp only [t, uniformToVec rng s.dim Fl.one vec hv g]
      rw [scaleTest_eq s k hk hR _ (stretch w (drawsN rng.uniform s.dim g).1)]
      intro i
      simp only [stretch, w, Fl.one, fl_lit]
      push_cast
      split <;> ring
    rw [et]
    refine axis_samples h s.dim k hR w hw (fun i hi => ?_) (fun i hi => by simp [w, not_lt.2 hi]) (by linarith)
      {x | axis2 s.dim k x < s.sysRadius ^ 2} (.inl rfl) t (fun g hg => ?_) (fun g hg => ?_)
    · simp only [w, hi, if_true]; linarith
    · rw [key, if_pos (by exact hg)]
    · rw [key, if_neg (by exact hg)]

/-- so with probability `1 - 1/2 ^ (number of long directions)` the position drawn by the second is outside. -/
theorem C72_cylinder_outside (d k : Nat) (R L : ℝ) (hR : 0 < R) (hL : 0 < L) :
    uniformLaw (cylSet d k R (2 * L)) (cylSet d k R L) = 2⁻¹ ^ (d - k) := by
  have hle : cylSet d k R L ⊆ cylSet d k R (2 * L) := fun x hx => ⟨hx.1, fun i hi => (hx.2 i hi).trans (by linarith)⟩
  have hm := cyl_measurable d k R
  let D : Fin d → ℝ := fun i => if i.1 < k then 1 else 2
  have hdet : Matrix.det (Matrix.diagonal D) = 2 ^ (d - k) := by
    rw [Matrix.det_diagonal, Finset.prod_ite]
    simp only [Finset.prod_const_one, one_mul, Finset.prod_const]
    congr 1
    rw [← Finset.card_image_of_injective _ Fin.val_injective]
    rw [show (Finset.image Fin.val (Finset.univ.filter fun i : Fin d => ¬ i.1 < k)) = Finset.Ico k d from ?_, Nat.card_Ico]
    ext j
    simp only [Finset.mem_image, Finset.mem_filter, Finset.mem_univ, true_and, Finset.mem_Ico, not_lt]
    constructor
    · rintro ⟨a, h1, rfl⟩; exact ⟨h1, a.2⟩
    · rintro ⟨h1, h2⟩; exact ⟨⟨j, h2⟩, h1, rfl⟩
  have h := Real.smul_map_diagonal_volume_pi (D := D) (by rw [hdet]; positivity)
  have hv : volume (cylSet d k R (2 * L)) = 2 ^ (d - k) * volume (cylSet d k R L) := by
    have hmeas : Measurable (Matrix.toLin' (Matrix.diagonal D)) := (LinearMap.continuous_on_pi _).measurable
    have h1 : volume (cylSet d k R (2 * L)) = (ENNReal.ofReal |Matrix.det (Matrix.diagonal D)| •
        Measure.map (Matrix.toLin' (Matrix.diagonal D)) volume) (cylSet d k R (2 * L)) := by rw [h]
    rw [h1, hdet, Measure.smul_apply, Measure.map_apply hmeas (hm _), smul_eq_mul]
    congr 1
    · rw [abs_of_pos (by positivity), ENNReal.ofReal_pow (by norm_num)]; simp
    · congr 1
      ext x
      simp only [Set.mem_preimage, Matrix.toLin'_apply, cylSet, Set.mem_ofPred_eq, Matrix.mulVec_diagonal, D]
      refine and_congr ?_ (forall_congr' fun i => ?_)
      · rw [Finset.sum_congr rfl fun i _ => ?_]
        split <;> simp
      · refine imp_congr_right fun hi => ?_
        rw [if_neg (by omega), abs_mul, abs_two]
        constructor <;> intro <;> linarith
  have ⟨v0, v1⟩ := cyl_vol d k hR hL
  simp only [uniformLaw, Measure.smul_apply, Measure.restrict_apply (hm L), smul_eq_mul, Set.inter_eq_self_of_subset_left hle, hv]
  rw [ENNReal.mul_inv (.inr v1) (.inr v0), mul_assoc, ENNReal.inv_mul_cancel v0 v1, mul_one, ENNReal.inv_pow]

end Moledyn.Props
