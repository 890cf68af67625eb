import Verif.Lemmas.PushChain
import Verif.Lemmas.BallWord
import Verif.Lemmas.SearchLaw
import Mathlib.Analysis.Convex.Measure
/-
Which outcomes of a process are possible: searchers that push each other away may stay together as long as they like, and may
come to the target in any turn.
-/
set_option linter.unusedSectionVars false
namespace Moledyn
open MeasureTheory ProbabilityTheory
open scoped ENNReal

/-! ### reaching a set of states -/

section
variable {X Y Z V : Type} [MeasurableSpace X] [MeasurableSpace Y] [MeasurableSpace Z] [MeasurableSpace V]

/-- the process is in `A` after some number of steps with positive probability. -/
def Reached (start : Y → X) (T : X → Z → X) (on : Set X) (μ : Measure Z) (π : Measure Y) (A : Set X) : Prop :=
  ∃ k, ((fun κ => (drawn T μ κ).restrict on)^[k] (π.map start)) A ≠ 0

theorem drawn_ne_zero {T : X → Z → X} (hT : Measurable fun p : X × Z => T p.1 p.2) {μ : Measure Z} [IsProbabilityMeasure μ] {κ : Measure X}
    {A B : Set X} (hA : κ A ≠ 0) (hB : MeasurableSet B) (h : ∀ x ∈ A, μ {z | T x z ∈ B} ≠ 0) : drawn T μ κ B ≠ 0 := by
  unfold drawn
  rw [Measure.map_apply hT hB]
  intro h0
  rw [Measure.measure_prod_null (hT hB)] at h0
  refine hA (measure_mono_null (fun x hx => ?_) (ae_iff.1 h0))
  exact h x hx

theorem reached_step {start : Y → X} {T : X → Z → X} (hT : Measurable fun p : X × Z => T p.1 p.2) {on : Set X} {μ : Measure Z} [IsProbabilityMeasure μ]
    {π : Measure Y} {A B : Set X} (hA : Reached start T on μ π A) (hB : MeasurableSet B) (hBon : B ⊆ on)
    (h : ∀ x ∈ A, μ {z | T x z ∈ B} ≠ 0) : Reached start T on μ π B := by
  obtain ⟨k, hk⟩ := hA
  refine ⟨k + 1, ?_⟩
  rw [Function.iterate_succ_apply', Measure.restrict_apply hB, Set.inter_eq_self_of_subset_left hBon]
  exact drawn_ne_zero hT hk hB h

theorem reached_end {start : Y → X} {T : X → Z → X} (hT : Measurable fun p : X × Z => T p.1 p.2) {on : Set X} (hon : MeasurableSet on) {μ : Measure Z} [IsProbabilityMeasure μ]
    {π : Measure Y} {A : Set X} (hA : Reached start T on μ π A) {res : X → V} (hres : Measurable res) {C : Set V} (hC : MeasurableSet C)
    (h : ∀ x ∈ A, μ {z | T x z ∉ on ∧ res (T x z) ∈ C} ≠ 0) : endLaw start T on res μ π C ≠ 0 := by
  obtain ⟨k, hk⟩ := hA
  have hB : MeasurableSet (res ⁻¹' C ∩ onᶜ) := (hres hC).inter hon.compl
  have h1 := drawn_ne_zero hT hk hB (fun x hx h0 => h x hx (by
    refine measure_mono_null ?_ h0
    exact fun z hz => ⟨hz.2, hz.1⟩))
  unfold endLaw
  rw [Measure.sum_apply _ hC]
  intro h0
  have h2 := ENNReal.tsum_eq_zero.1 h0 k
  rw [Measure.map_apply hres hC, Measure.restrict_apply (hres hC)] at h2
  exact h1 h2
end

section
variable {X Y Z V : Type} [MeasurableSpace X] [MeasurableSpace Y] [MeasurableSpace Z] [MeasurableSpace V]

/-- What holds at the start and after every step holds at the end. -/
theorem endLaw_inv {start : Y → X} (hs : Measurable start) {T : X → Z → X} (hT : Measurable fun p : X × Z => T p.1 p.2) {on : Set X}
    {μ : Measure Z} [IsProbabilityMeasure μ] {π : Measure Y} {res : X → V} (hres : Measurable res) {I : Set X} (hI : MeasurableSet I) {C : Set V} (hC : MeasurableSet C)
    (h0 : ∀ y, start y ∈ I) (h1 : ∀ x ∈ I, ∀ z, T x z ∈ I) (h2 : ∀ x ∈ I, x ∉ on → res x ∈ C) : endLaw start T on res μ π Cᶜ = 0 := by
  have hd : ∀ κ : Measure X, κ Iᶜ = 0 → drawn T μ κ Iᶜ = 0 := by
    intro κ hκ
    by_contra hne
    unfold drawn at hne
    rw [Measure.map_apply hT hI.compl] at hne
    refine hne ((Measure.measure_prod_null (hT hI.compl)).2 ?_)
    have hκ' : ∀ᵐ x ∂κ, x ∈ I := by rw [ae_iff]; exact hκ
    filter_upwards [hκ'] with x hx
    have : Prod.mk x ⁻¹' ((fun p : X × Z => T p.1 p.2) ⁻¹' Iᶜ) = ∅ := by
      ext z
      simp [h1 x hx z]
    rw [this, measure_empty]
    rfl
  have hk : ∀ k, ((fun κ => (drawn T μ κ).restrict on)^[k] (π.map start)) Iᶜ = 0 := by
    intro k
    induction k with
    | zero =>
      rw [Function.iterate_zero, id, Measure.map_apply hs hI.compl]
      have : start ⁻¹' Iᶜ = ∅ := by
        ext y
        simp [h0 y]
      rw [this, measure_empty]
    | succ k ih =>
      rw [Function.iterate_succ_apply', Measure.restrict_apply hI.compl]
      exact measure_mono_null Set.inter_subset_left (hd _ ih)
  unfold endLaw
  rw [Measure.sum_apply _ hC.compl, ENNReal.tsum_eq_zero]
  intro k
  rw [Measure.map_apply hres hC.compl, Measure.restrict_apply (hres hC.compl)]
  exact measure_mono_null (fun x hx hxI => hx.1 (h2 x hxI hx.2)) (hd _ (hk k))
end

/-! ### lengths -/

section
variable {d : ℕ}

theorem lengthOf_norm (v : Fin d → ℝ) : lengthOf v = ‖BallSweep.pt v‖ := by
  rw [EuclideanSpace.norm_eq]
  unfold lengthOf
  congr 1
  exact Finset.sum_congr rfl fun i _ => by rw [Real.norm_eq_abs, sq_abs]

theorem near_length {x c : Fin d → ℝ} {r : ℝ} : x ∈ nearSet c r ↔ lengthOf (x - c) < r := Iff.rfl

theorem lengthOf_zero : lengthOf (0 : Fin d → ℝ) = 0 := by simp [lengthOf]

theorem lengthOf_nonneg (v : Fin d → ℝ) : 0 ≤ lengthOf v := Real.sqrt_nonneg _

theorem lengthOf_tri (x y z : Fin d → ℝ) : lengthOf (x - z) ≤ lengthOf (x - y) + lengthOf (y - z) := by
  simp only [lengthOf_norm]
  have : BallSweep.pt (x - z) = BallSweep.pt (x - y) + BallSweep.pt (y - z) := by
    ext i
    simp [BallSweep.pt]
  rw [this]
  exact norm_add_le _ _

theorem lengthOf_swap (x y : Fin d → ℝ) : lengthOf (x - y) = lengthOf (y - x) := by
  unfold lengthOf
  congr 1
  exact Finset.sum_congr rfl fun i _ => by simp only [Pi.sub_apply]; ring

theorem near_open (c : Fin d → ℝ) (r : ℝ) : IsOpen (nearSet c r) :=
  isOpen_lt (Real.continuous_sqrt.comp (continuous_finsetSum _ fun i _ => ((continuous_apply i).sub continuous_const).pow 2)) continuous_const

theorem near_self (c : Fin d → ℝ) {r : ℝ} (hr : 0 < r) : c ∈ nearSet c r := by
  rw [near_length, sub_self, lengthOf_zero]
  exact hr

/-- An open set contains a small ball around each of its points. -/
theorem near_inside {U : Set (Fin d → ℝ)} (hU : IsOpen U) {x : Fin d → ℝ} (hx : x ∈ U) : ∃ ε, 0 < ε ∧ nearSet x ε ⊆ U := by
  obtain ⟨ε, hε, h⟩ := Metric.isOpen_iff.1 hU x hx
  refine ⟨ε, hε, fun y hy => h ?_⟩
  rw [Metric.mem_ball, dist_pi_lt_iff hε]
  intro i
  rw [Real.dist_eq]
  refine lt_of_le_of_lt ?_ hy
  rw [← Real.sqrt_sq_eq_abs]
  exact Real.sqrt_le_sqrt (Finset.single_le_sum (f := fun i => (y i - x i) ^ 2) (fun i _ => sq_nonneg _) (Finset.mem_univ i))

theorem shortened_id {limit : ℝ} {v : Fin d → ℝ} (h : lengthOf v ≤ limit) : shortened limit v = v := by
  unfold shortened
  rw [if_neg (not_lt.2 h)]
end

/-! ### normal steps -/

section
variable {d n : ℕ}

/-- From anywhere, and whatever the force, a normal step leads into a small ball that is not farther than the limit. -/
theorem push_hits {W : PushWorld d} {turns : ℕ} {dt : ℝ} (hdt : W.clk turns = some dt) (hd : 0 < dt) (hD : 0 < W.dif)
    (x0 x : Fin n → Fin d → ℝ) (i : Fin n) (u : Fin d → ℝ) {ε : ℝ} (hε : 0 < ε) (hput : ∀ y ∈ nearSet u ε, W.put y = y)
    (hlim : ∀ y ∈ nearSet u ε, lengthOf (y - x i) ≤ W.limit) :
    (Measure.pi fun _ : Fin d => gaussianReal 0 1) {z | pushTo W turns x0 x i z ∈ nearSet u ε} ≠ 0 := by
  have hv : 0 < 2 * W.dif * dt := by positivity
  set m : Fin d → ℝ := fun k => x i k + forceOn W.force x0 i k * dt with hm
  obtain ⟨p, hp, hh⟩ := normal_hits hv (∑ k, |m k|) u hε
  have h1 := hh m fun k => Finset.single_le_sum (f := fun k => |m k|) (fun _ _ => abs_nonneg _) (Finset.mem_univ k)
  have hmeas : MeasurableSet {z : Fin d → ℝ | m + z ∈ nearSet u ε} := (measurable_const.add measurable_id) (near_meas u ε)
  have hsc : MeasurePreserving (fun (z : Fin d → ℝ) i => z i * Real.sqrt (2 * W.dif * dt)) (Measure.pi fun _ => gaussianReal 0 1) (normalLaw d (2 * W.dif * dt)) := by
    refine measurePreserving_pi (fun _ : Fin d => gaussianReal 0 1) (fun _ : Fin d => gaussianReal 0 (2 * W.dif * dt).toNNReal)
      (f := fun _ x => x * Real.sqrt (2 * W.dif * dt)) fun _ => ⟨by fun_prop, ?_⟩
    rw [gaussianReal_map_mul_const]
    congr 1
    · simp
    · rw [mul_one]
      refine NNReal.eq ?_
      simp [Real.sq_sqrt hv.le, hv.le]
  rw [← hsc.measure_preimage hmeas.nullMeasurableSet] at h1
  refine fun h0 => (hp.trans_le (h1.trans (measure_mono fun z hz => ?_))).ne' h0
  have hz : (m + fun k => z k * Real.sqrt (2 * W.dif * dt)) ∈ nearSet u ε := hz
  show pushTo W turns x0 x i z ∈ nearSet u ε
  have e : (fun k => forceOn W.force x0 i k * dt + z k * Real.sqrt (2 * W.dif * dt)) = (m + fun k => z k * Real.sqrt (2 * W.dif * dt)) - x i := by
    funext k
    simp only [hm, Pi.sub_apply, Pi.add_apply]
    ring
  unfold pushTo
  rw [hdt]
  simp only [Option.getD_some]
  rw [e, shortened_id (hlim _ hz), add_sub_cancel, hput _ hz]
  exact hz

variable {W : PushWorld d} (hT : Measurable fun p : PushState n d × (Fin d → ℝ) => pushMove W p.1 p.2)
  (π : Measure (Fin n → Fin d → ℝ)) (hD : 0 < W.dif) {K : ℕ} (hclk : ∀ k < K, ∃ dt, 0 < dt ∧ W.clk k = some dt)
  (u : Fin d → ℝ) {ε : ℝ} (hε : 0 < ε) (hu : nearSet u ε ⊆ W.room \ W.target) (hput : ∀ y ∈ W.room, W.put y = y) (hlim : 2 * ε ≤ W.limit)
  (hstart : π {x | ∀ i, x i ∈ nearSet u ε} ≠ 0)

/-- all searchers are in a small ball, at the turn `t` of the searcher `m`. -/
def gathered (n : ℕ) (u : Fin d → ℝ) (ε : ℝ) (t m : ℕ) : Set (PushState n d) := {x | x.1 = ⟨t, m, none⟩ ∧ ∀ j, x.2.2 j ∈ nearSet u ε}

theorem gathered_meas (u : Fin d → ℝ) (ε : ℝ) (t m : ℕ) : MeasurableSet (gathered n u ε t m) := by
  have e : gathered n u ε t m = Prod.fst ⁻¹' {⟨t, m, none⟩} ∩ ⋂ j, (fun x : PushState n d => x.2.2 j) ⁻¹' nearSet u ε := by
    ext x
    simp [gathered]
  rw [e]
  refine (measurable_fst (MeasurableSet.of_discrete (s := {(⟨t, m, none⟩ : PushCtl)}))).inter (.iInter fun j => ?_)
  exact ((measurable_pi_apply j).comp (measurable_snd.comp measurable_snd)) (near_meas u ε)

theorem gathered_on (u : Fin d → ℝ) (ε : ℝ) (t m : ℕ) : gathered n u ε t m ⊆ {x : PushState n d | x.1.over = none} := fun x hx => by
  show x.1.over = none
  rw [hx.1]

include hD hε hu hput hlim

theorem gathered_hits (x : Fin n → Fin d → ℝ) (hx : ∀ j, x j ∈ nearSet u ε) {t : ℕ} (ht : ∃ dt, 0 < dt ∧ W.clk t = some dt) (x0 : Fin n → Fin d → ℝ) (i : Fin n) :
    (Measure.pi fun _ : Fin d => gaussianReal 0 1) {z | pushTo W t x0 x i z ∈ nearSet u ε} ≠ 0 := by
  obtain ⟨dt, h1, h2⟩ := ht
  refine push_hits h2 h1 hD x0 x i u hε (fun y hy => hput y (hu hy).1) fun y hy => ?_
  have := lengthOf_tri y u (x i)
  rw [near_length] at hy
  have h3 := hx i
  rw [near_length, lengthOf_swap] at h3
  linarith

include hT hclk hstart

/-- The searchers may stay together until any turn that there is. -/
theorem gathered_reached (hn : 0 < n) : ∀ t < K, ∀ m < n, Reached pushStart (pushMove W) {x | x.1.over = none} (Measure.pi fun _ : Fin d => gaussianReal 0 1) π (gathered n u ε t m) := by
  have hturn : ∀ t < K, Reached pushStart (pushMove W) {x | x.1.over = none} (Measure.pi fun _ : Fin d => gaussianReal 0 1) π (gathered n u ε t 0) →
      ∀ m < n, Reached pushStart (pushMove W) {x | x.1.over = none} (Measure.pi fun _ : Fin d => gaussianReal 0 1) π (gathered n u ε t m) := by
    intro t ht h0 m
    induction m with
    | zero => exact fun _ => h0
    | succ m ih =>
      intro hm
      refine reached_step hT (ih (by omega)) (gathered_meas u ε t (m + 1)) (gathered_on u ε t (m + 1)) fun x hx => ?_
      obtain ⟨ctl, x0, y⟩ := x
      obtain ⟨hc, hy⟩ := hx
      simp only at hc hy
      subst hc
      have hm' : m < n := by omega
      refine fun h00 => gathered_hits hD u hε hu hput hlim y hy (hclk t ht) x0 ⟨m, hm'⟩ (measure_mono_null (fun z hz => ?_) h00)
      have hz : pushTo W t x0 y ⟨m, hm'⟩ z ∈ nearSet u ε := hz
      show pushMove W (⟨t, m, none⟩, x0, y) z ∈ gathered n u ε t (m + 1)
      rw [push_next hm' (hu hz).1 (hu hz).2 (by omega)]
      refine ⟨rfl, fun j => ?_⟩
      show Function.update y ⟨m, hm'⟩ _ j ∈ _
      by_cases hj : j = ⟨m, hm'⟩
      · subst hj; rw [Function.update_self]; exact hz
      · rw [Function.update_of_ne hj]; exact hy j
  intro t
  induction t with
  | zero =>
    intro h0
    refine hturn 0 h0 ⟨0, ?_⟩
    rw [Function.iterate_zero, id, Measure.map_apply pushStart_meas (gathered_meas u ε 0 0)]
    refine fun h00 => hstart (measure_mono_null (fun x hx => ?_) h00)
    exact ⟨rfl, hx⟩
  | succ t ih =>
    intro ht
    refine hturn (t + 1) ht (reached_step hT (ih (by omega) (n - 1) (by omega)) (gathered_meas u ε (t + 1) 0) (gathered_on u ε (t + 1) 0) fun x hx => ?_)
    obtain ⟨ctl, x0, y⟩ := x
    obtain ⟨hc, hy⟩ := hx
    simp only at hc hy
    subst hc
    have hm' : n - 1 < n := by omega
    refine fun h00 => gathered_hits hD u hε hu hput hlim y hy (hclk t (by omega)) x0 ⟨n - 1, hm'⟩ (measure_mono_null (fun z hz => ?_) h00)
    have hz : pushTo W t x0 y ⟨n - 1, hm'⟩ z ∈ nearSet u ε := hz
    show pushMove W (⟨t, n - 1, none⟩, x0, y) z ∈ gathered n u ε (t + 1) 0
    obtain ⟨dt, -, hdt⟩ := hclk (t + 1) ht
    rw [push_last hm' (hu hz).1 (hu hz).2 (by omega), hdt]
    refine ⟨rfl, fun j => ?_⟩
    show Function.update y ⟨n - 1, hm'⟩ _ j ∈ _
    by_cases hj : j = ⟨n - 1, hm'⟩
    · subst hj; rw [Function.update_self]; exact hz
    · rw [Function.update_of_ne hj]; exact hy j

/-- The clock may end before the target is found. -/
theorem clock_possible (hn : 0 < n) (hK : 0 < K) (hend : W.clk K = none) : pushLaw W (Measure.pi fun _ : Fin d => gaussianReal 0 1) π {(K, .clock)} ≠ 0 := by
  refine reached_end hT pushesOn_meas (gathered_reached hT π hD hclk u hε hu hput hlim hstart hn (K - 1) (by omega) (n - 1) (by omega)) pushOutcome_meas
    (measurableSet_singleton _) fun x hx => ?_
  obtain ⟨ctl, x0, y⟩ := x
  obtain ⟨hc, hy⟩ := hx
  simp only at hc hy
  subst hc
  have hm' : n - 1 < n := by omega
  refine fun h00 => gathered_hits hD u hε hu hput hlim y hy (hclk (K - 1) (by omega)) x0 ⟨n - 1, hm'⟩ (measure_mono_null (fun z hz => ?_) h00)
  have hz : pushTo W (K - 1) x0 y ⟨n - 1, hm'⟩ z ∈ nearSet u ε := hz
  have e : pushMove W (⟨K - 1, n - 1, none⟩, x0, y) z = (⟨K, 0, some .clock⟩, Function.update y ⟨n - 1, hm'⟩ (pushTo W (K - 1) x0 y ⟨n - 1, hm'⟩ z),
      Function.update y ⟨n - 1, hm'⟩ (pushTo W (K - 1) x0 y ⟨n - 1, hm'⟩ z)) := by
    rw [push_last hm' (hu hz).1 (hu hz).2 (by omega), show K - 1 + 1 = K by omega, hend]
    rfl
  show pushMove W (⟨K - 1, n - 1, none⟩, x0, y) z ∉ _ ∧ pushOutcome (pushMove W (⟨K - 1, n - 1, none⟩, x0, y) z) ∈ _
  rw [e]
  exact ⟨by simp, by simp [pushOutcome]⟩

/-- The target may be found in any turn. -/
theorem found_possible (hn : 0 < n) (w : Fin d → ℝ) {η : ℝ} (hη : 0 < η) (hw : nearSet w η ⊆ W.room ∩ W.target) (hfar : lengthOf (w - u) + η + ε ≤ W.limit)
    {t : ℕ} (ht : t < K) : pushLaw W (Measure.pi fun _ : Fin d => gaussianReal 0 1) π {(t + 1, .found)} ≠ 0 := by
  refine reached_end hT pushesOn_meas (gathered_reached hT π hD hclk u hε hu hput hlim hstart hn t ht 0 hn) pushOutcome_meas
    (measurableSet_singleton _) fun x hx => ?_
  obtain ⟨ctl, x0, y⟩ := x
  obtain ⟨hc, hy⟩ := hx
  simp only at hc hy
  subst hc
  obtain ⟨dt, h1, h2⟩ := hclk t ht
  refine fun h00 => push_hits (i := ⟨0, hn⟩) h2 h1 hD x0 y w hη (fun y hy => hput y (hw hy).1) (fun p hp => ?_) (measure_mono_null (fun z hz => ?_) h00)
  · have a1 := lengthOf_tri p w (y ⟨0, hn⟩)
    have a2 := lengthOf_tri w u (y ⟨0, hn⟩)
    have a3 := hy ⟨0, hn⟩
    rw [near_length, lengthOf_swap] at a3
    rw [near_length] at hp
    linarith
  · have hz : pushTo W t x0 y ⟨0, hn⟩ z ∈ nearSet w η := hz
    show pushMove W (⟨t, 0, none⟩, x0, y) z ∉ _ ∧ pushOutcome (pushMove W (⟨t, 0, none⟩, x0, y) z) ∈ _
    rw [push_found hn (hw hz).1 (hw hz).2]
    exact ⟨by simp, by simp [pushOutcome]⟩
end

/-! ### near the border of the target -/

/-- If the target covers a part of a convex room, but not all of it, then there are places in the room just outside the target
from which it is as near as one likes. -/
theorem border {d : ℕ} {S : Set (Fin d → ℝ)} (hS : Convex ℝ S) {c : Fin d → ℝ} {r : ℝ} (h1 : volume (S ∩ nearSet c r) ≠ 0) (h2 : volume (S \ nearSet c r) ≠ 0)
    {limit : ℝ} (hl : 0 < limit) : ∃ u w : Fin d → ℝ, ∃ ε, 0 < ε ∧ nearSet u ε ⊆ S \ nearSet c r ∧ nearSet w ε ⊆ S ∩ nearSet c r ∧ lengthOf (w - u) + 2 * ε ≤ limit := by
  set T := nearSet c r with hT
  have hTo : IsOpen T := near_open c r
  have hTc : Convex ℝ T := by
    intro x hx y hy a b ha hb hab
    rw [hT, BallSweep.pt_near] at hx hy ⊢
    have e : BallSweep.pt (a • x + b • y) - BallSweep.pt c = a • (BallSweep.pt x - BallSweep.pt c) + b • (BallSweep.pt y - BallSweep.pt c) := by
      have : BallSweep.pt c = (a + b) • BallSweep.pt c := by rw [hab, one_smul]
      ext i
      simp only [BallSweep.pt, PiLp.sub_apply, PiLp.add_apply, PiLp.smul_apply, Pi.add_apply, Pi.smul_apply, smul_eq_mul]
      have : c i = (a + b) * c i := by rw [hab, one_mul]
      linear_combination -this
    rw [e]
    refine (norm_add_le _ _).trans_lt ?_
    rw [norm_smul, norm_smul, Real.norm_of_nonneg ha, Real.norm_of_nonneg hb]
    rcases ha.eq_or_lt with rfl | ha'
    · have : b = 1 := by linarith
      subst this
      simpa using hy
    · have : r = a * r + b * r := by rw [← add_mul, hab, one_mul]
      nlinarith
  have hfr : ∀ C : Set (Fin d → ℝ), Convex ℝ C → volume (closure C \ interior C) = 0 := fun C hC => hC.addHaar_frontier volume
  obtain ⟨q, hq1, hq2⟩ : ∃ q, q ∈ interior S ∧ q ∈ T := by
    by_contra hne
    push Not at hne
    refine h1 (measure_mono_null (fun x hx => ?_) (hfr S hS))
    exact ⟨subset_closure hx.1, fun hi => hne x hi hx.2⟩
  obtain ⟨p, hp1, hp2⟩ : ∃ p, p ∈ interior S ∧ p ∉ closure T := by
    by_contra hne
    push Not at hne
    refine h2 (measure_mono_null (fun x hx => ?_) (measure_union_null (hfr S hS) (hfr T hTc)))
    by_cases hi : x ∈ interior S
    · exact Or.inr ⟨hne x hi, by rw [hTo.interior_eq]; exact hx.2⟩
    · exact Or.inl ⟨subset_closure hx.1, hi⟩
  have hint : interior (closure T) = T := by
    rw [hTc.interior_closure_eq_interior_of_nonempty_interior ⟨q, by rwa [hTo.interior_eq]⟩, hTo.interior_eq]
  obtain ⟨m, hmO, hm1, hm2⟩ : ∃ m, m ∈ interior S ∧ m ∈ closure T ∧ m ∉ T := by
    have hseg : segment ℝ p q ⊆ interior S := hS.interior.segment_subset hp1 hq1
    have hconn : IsPreconnected (segment ℝ p q) := (convex_segment p q).isPreconnected
    by_contra hne
    push Not at hne
    obtain ⟨x, -, hx⟩ := hconn (closure T)ᶜ T isClosed_closure.isOpen_compl hTo (fun x hx => by
      by_cases hx2 : x ∈ closure T
      · exact Or.inr (hne x (hseg hx) hx2)
      · exact Or.inl hx2) ⟨p, left_mem_segment ℝ p q, hp2⟩ ⟨q, right_mem_segment ℝ p q, hq2⟩
    exact hx.1 (subset_closure hx.2)
  have hN : IsOpen (interior S ∩ nearSet m (limit / 4)) := isOpen_interior.inter (near_open _ _)
  have hmN : m ∈ interior S ∩ nearSet m (limit / 4) := ⟨hmO, near_self m (by positivity)⟩
  obtain ⟨w, hw1, hw2⟩ := mem_closure_iff.1 hm1 _ hN hmN
  obtain ⟨u, hu1, hu2⟩ : ∃ u, u ∈ interior S ∩ nearSet m (limit / 4) ∧ u ∉ closure T := by
    by_contra hne
    push Not at hne
    exact hm2 (hint ▸ mem_interior.2 ⟨_, hne, hN, hmN⟩)
  obtain ⟨e1, he1, h1'⟩ := near_inside (isOpen_interior.inter isClosed_closure.isOpen_compl) (⟨hu1.1, hu2⟩ : u ∈ interior S ∩ (closure T)ᶜ)
  obtain ⟨e2, he2, h2'⟩ := near_inside (isOpen_interior.inter hTo) (⟨hw1.1, hw2⟩ : w ∈ interior S ∩ T)
  have hle : ∀ (x : Fin d → ℝ) {a b : ℝ}, a ≤ b → nearSet x a ⊆ nearSet x b := fun x a b hab y hy => lt_of_lt_of_le hy hab
  refine ⟨u, w, min (limit / 4) (min e1 e2), by positivity, ?_, ?_, ?_⟩
  · refine (hle u ((min_le_right _ _).trans (min_le_left _ _))).trans (h1'.trans fun x hx => ⟨interior_subset hx.1, fun h => hx.2 (subset_closure h)⟩)
  · exact (hle w ((min_le_right _ _).trans (min_le_right _ _))).trans (h2'.trans fun x hx => ⟨interior_subset hx.1, hx.2⟩)
  · have a1 := lengthOf_tri w m u
    have a2 : lengthOf (w - m) < limit / 4 := hw1.2
    have a3 : lengthOf (u - m) < limit / 4 := hu1.2
    rw [lengthOf_swap] at a3
    have a4 := min_le_left (limit / 4) (min e1 e2)
    linarith

end Moledyn
