import Verif.Lemmas.SearchLaw
import Mathlib.Analysis.Convex.Basic
/-
A walker that can come nearer to its target from everywhere finds it: long searches are exponentially rare.
-/
set_option linter.unusedSectionVars false
namespace Moledyn
open MeasureTheory ProbabilityTheory
open scoped ENNReal NNReal

variable {d : Nat}

section
variable (put : (Fin d → ℝ) → Fin d → ℝ) (S T : Set (Fin d → ℝ)) (μ : Measure (Fin d → ℝ)) [IsProbabilityMeasure μ]

/-- the probability that a walker at `x` is still searching after `n` steps. -/
noncomputable def alive : ℕ → (Fin d → ℝ) → ℝ≥0∞
  | 0, _ => 1
  | n + 1, x => ∫⁻ z, (S \ T).indicator (alive n) (put (x + z)) ∂μ

variable {put S T}

theorem alive_meas (hput : Measurable put) (hS : MeasurableSet S) (hT : MeasurableSet T) (n : ℕ) :
    Measurable (alive put S T μ n) := by
  induction n with
  | zero => exact measurable_const
  | succ n ih =>
    have hm : Measurable fun p : (Fin d → ℝ) × (Fin d → ℝ) => (S \ T).indicator (alive put S T μ n) (put (p.1 + p.2)) :=
      (ih.indicator (hS.diff hT)).comp (hput.comp (measurable_fst.add measurable_snd))
    exact hm.lintegral_prod_right'

theorem alive_le (n : ℕ) (x : Fin d → ℝ) : alive put S T μ n x ≤ 1 := by
  induction n generalizing x with
  | zero => exact le_rfl
  | succ n ih =>
    rw [alive]
    calc ∫⁻ z, (S \ T).indicator (alive put S T μ n) (put (x + z)) ∂μ ≤ ∫⁻ _, 1 ∂μ :=
          lintegral_mono fun z => (Set.indicator_le_self _ _ _).trans (ih _)
      _ = 1 := by simp

theorem searching_mass (hput : Measurable put) (hS : MeasurableSet S) (hT : MeasurableSet T) (n : ℕ) (π : Measure (Fin d → ℝ))
    [IsFiniteMeasure π] : searching put S T μ π n Set.univ = ∫⁻ x, alive put S T μ n x ∂π := by
  induction n generalizing π with
  | zero => simp [searching, alive]
  | succ n ih =>
    have hm : Measurable fun p : (Fin d → ℝ) × (Fin d → ℝ) => put (p.1 + p.2) := hput.comp (measurable_fst.add measurable_snd)
    have ha := (alive_meas μ hput hS hT n).indicator (hS.diff hT)
    have e : searching put S T μ π (n + 1) = searching put S T μ ((walked put μ π).restrict (S \ T)) n := by
      rw [searching, Function.iterate_succ_apply]; rfl
    rw [e, ih, ← lintegral_indicator (hS.diff hT), walked, lintegral_map ha hm]
    exact lintegral_prod _ (ha.comp hm).aemeasurable

/-- if from level `k` the next level is reached with probability at least `p`, and there is nothing to search on level `M`. -/
theorem alive_levels (hput : Measurable put) (hS : MeasurableSet S) (hT : MeasurableSet T) (L : ℕ → Set (Fin d → ℝ))
    (hL : ∀ k, MeasurableSet (L k)) (p : ℝ≥0∞) (M : ℕ) (hM : L M ⊆ T)
    (hp : ∀ k, ∀ x ∈ L k ∩ (S \ T), p ≤ μ {z | put (x + z) ∈ L (k + 1) ∩ S}) (j k : ℕ) (hjk : k + j = M) (x : Fin d → ℝ)
    (hx : x ∈ L k ∩ (S \ T)) : alive put S T μ j x + p ^ j ≤ 1 := by
  induction j generalizing k x with
  | zero =>
    obtain rfl : k = M := by omega
    exact absurd (hM hx.1) hx.2.2
  | succ j ih =>
    have hE : MeasurableSet {z : Fin d → ℝ | put (x + z) ∈ L (k + 1) ∩ S} :=
      (hput.comp (measurable_const.add measurable_id)) ((hL _).inter hS)
    have hg : Measurable fun z => (S \ T).indicator (alive put S T μ j) (put (x + z)) :=
      ((alive_meas μ hput hS hT j).indicator (hS.diff hT)).comp (hput.comp (measurable_const.add measurable_id))
    have hle : p ^ (j + 1) ≤ ∫⁻ z, {z : Fin d → ℝ | put (x + z) ∈ L (k + 1) ∩ S}.indicator (fun _ => p ^ j) z ∂μ := by
      rw [lintegral_indicator_const hE, pow_succ]
      exact mul_le_mul_right (hp k x hx) _
    rw [alive]
    refine (add_le_add_right hle _).trans ?_
    rw [← lintegral_add_left hg]
    calc _ ≤ ∫⁻ _, 1 ∂μ := lintegral_mono fun z => ?_
      _ = 1 := by simp
    by_cases hz : put (x + z) ∈ L (k + 1) ∩ S
    · rw [Set.indicator_of_mem (s := {z : Fin d → ℝ | put (x + z) ∈ L (k + 1) ∩ S}) hz]
      by_cases hT' : put (x + z) ∈ T
      · rw [Set.indicator_of_notMem fun h => h.2 hT', zero_add]
        refine pow_le_one₀ bot_le ?_
        exact (hp k x hx).trans prob_le_one
      · rw [Set.indicator_of_mem (show put (x + z) ∈ S \ T from ⟨hz.2, hT'⟩)]
        exact ih (k + 1) (by omega) _ ⟨hz.1, hz.2, hT'⟩
    · rw [Set.indicator_of_notMem (s := {z : Fin d → ℝ | put (x + z) ∈ L (k + 1) ∩ S}) hz, add_zero]
      exact (Set.indicator_le_self _ _ _).trans (alive_le μ j _)

/-- blocks of `M` steps. -/
theorem searching_blocks (hput : Measurable put) (hS : MeasurableSet S) (hT : MeasurableSet T) {p : ℝ≥0∞} {M : ℕ}
    (h : ∀ x ∈ S \ T, alive put S T μ M x + p ^ M ≤ 1) (π : Measure (Fin d → ℝ)) [IsProbabilityMeasure π] (n : ℕ) :
    searching put S T μ π (M * n + 1) Set.univ ≤ (1 - p ^ M) ^ n := by
  have hfin : ∀ k, IsFiniteMeasure (searching put S T μ π k) := by
    intro k
    induction k with
    | zero => exact inferInstanceAs (IsFiniteMeasure π)
    | succ k ih =>
      rw [searching, Function.iterate_succ_apply']
      exact inferInstanceAs (IsFiniteMeasure ((walked put μ (searching put S T μ π k)).restrict (S \ T)))
  have hsup : ∀ k, ∀ᵐ x ∂searching put S T μ π (k + 1), x ∈ S \ T := by
    intro k
    rw [searching, Function.iterate_succ_apply']
    exact ae_restrict_mem (hS.diff hT)
  have hadd : ∀ k j, searching put S T μ π (k + j) = searching put S T μ (searching put S T μ π j) k := by
    intro k j
    rw [searching, Function.iterate_add_apply]; rfl
  induction n with
  | zero =>
    rw [pow_zero, searching_mass μ hput hS hT]
    calc ∫⁻ x, alive put S T μ (M * 0 + 1) x ∂π ≤ ∫⁻ _, 1 ∂π := lintegral_mono fun x => alive_le μ _ x
      _ = 1 := by simp
  | succ n ih =>
    have := hfin (M * n + 1)
    rw [show M * (n + 1) + 1 = M + (M * n + 1) by ring, hadd, searching_mass μ hput hS hT]
    calc ∫⁻ x, alive put S T μ M x ∂searching put S T μ π (M * n + 1)
        ≤ ∫⁻ _, (1 - p ^ M) ∂searching put S T μ π (M * n + 1) := by
          refine lintegral_mono_ae ?_
          filter_upwards [hsup (M * n)] with x hx
          exact ENNReal.le_sub_of_add_le_right (ne_top_of_le_ne_top ENNReal.one_ne_top (le_trans le_add_self (h x hx))) (h x hx)
      _ = (1 - p ^ M) * searching put S T μ π (M * n + 1) Set.univ := by rw [lintegral_const]
      _ ≤ (1 - p ^ M) * (1 - p ^ M) ^ n := mul_le_mul_right ih _
      _ = (1 - p ^ M) ^ (n + 1) := by rw [pow_succ, mul_comm]

theorem searching_anti (hput : Measurable put) (hS : MeasurableSet S) (hT : MeasurableSet T) (π : Measure (Fin d → ℝ))
    [IsFiniteMeasure π] : Antitone fun n => searching put S T μ π n Set.univ := by
  refine antitone_nat_of_succ_le fun n => ?_
  have hfin : IsFiniteMeasure (searching put S T μ π n) := by
    induction n with
    | zero => exact inferInstanceAs (IsFiniteMeasure π)
    | succ k ih =>
      rw [searching, Function.iterate_succ_apply']
      exact inferInstanceAs (IsFiniteMeasure ((walked put μ (searching put S T μ π k)).restrict (S \ T)))
  have e : searching put S T μ π (n + 1) = searching put S T μ (searching put S T μ π n) 1 := by
    rw [searching, Function.iterate_succ_apply']; rfl
  show searching put S T μ π (n + 1) Set.univ ≤ _
  rw [e, searching_mass μ hput hS hT]
  calc _ ≤ ∫⁻ _, 1 ∂searching put S T μ π n := lintegral_mono fun x => alive_le μ _ x
    _ = _ := by simp
end

/-- In a convex room, with steps that may lead anywhere near the walker, and a target that contains a small ball of the room. -/
theorem search_short {G : Type} {sys : SysOps G ℝ} {put : (Fin d → ℝ) → Fin d → ℝ} {S T : Set (Fin d → ℝ)} (w : Walls sys S put)
    (hconv : Convex ℝ S) (hT : MeasurableSet T) {c : Fin d → ℝ} {ε : ℝ} (hε : 0 < ε) (hsub : nearSet c ε ⊆ S ∩ T)
    (μ : Measure (Fin d → ℝ)) [IsProbabilityMeasure μ]
    (hspread : ∃ a > 0, ∀ δ > 0, ∃ p > 0, ∀ m : Fin d → ℝ, ‖m‖ ≤ a → p ≤ μ {z | ‖z - m‖ < δ}) :
    ∃ (M : ℕ) (r : ℝ≥0∞), 0 < M ∧ r < 1 ∧ ∀ (π : Measure (Fin d → ℝ)) [IsProbabilityMeasure π] (n : ℕ),
      searching put S T μ π (M * n + 1) Set.univ ≤ r ^ n := by
  obtain ⟨a, ha, hsp⟩ := hspread
  obtain ⟨K, hK⟩ := w.bounded
  set η := ε / (d + 1) with hη
  have hη0 : 0 < η := by positivity
  have hball : ∀ y : Fin d → ℝ, ‖y - c‖ < η → y ∈ S ∩ T := fun y hy =>
    hsub (box_near c hε fun i => lt_of_le_of_lt (norm_le_pi_norm (y - c) i) hy)
  have hcS : c ∈ S := (hball c (by simpa using hη0)).1
  set R := 2 * |K| with hR
  have hR0 : 0 ≤ R := by positivity
  have hdist : ∀ x ∈ S, ‖x - c‖ ≤ R := by
    intro x hx
    rw [pi_norm_le_iff_of_nonneg hR0]
    intro i
    have h1 := (hK x hx i).trans (le_abs_self K)
    have h2 := (hK c hcS i).trans (le_abs_self K)
    calc ‖(x - c) i‖ ≤ |x i| + |c i| := abs_sub _ _
      _ ≤ R := by rw [hR]; linarith
  set l := a / (a + R) with hl
  have hl0 : 0 < l := by positivity
  have hl1 : l ≤ 1 := by rw [hl, div_le_one (by positivity)]; linarith
  have hlR : l * R ≤ a := by
    have e : l * R = a * (R / (a + R)) := by rw [hl]; ring
    have h1 : R / (a + R) ≤ 1 := by rw [div_le_one (by positivity)]; linarith
    calc l * R = a * (R / (a + R)) := e
      _ ≤ a * 1 := mul_le_mul_of_nonneg_left h1 ha.le
      _ = a := mul_one a
  obtain ⟨p, hp0, hp⟩ := hsp (l * (η / 2)) (by positivity)
  let L : ℕ → Set (Fin d → ℝ) := fun k => {x | ‖x - c‖ ≤ η / 2 + R * (1 - l) ^ k}
  have hLm : ∀ k, MeasurableSet (L k) := fun k => measurableSet_le (by fun_prop) measurable_const
  obtain ⟨M, hM0, hM⟩ : ∃ M : ℕ, 0 < M ∧ R * (1 - l) ^ M < η / 2 := by
    have ht : Filter.Tendsto (fun n : ℕ => R * (1 - l) ^ n) Filter.atTop (nhds (R * 0)) :=
      (tendsto_pow_atTop_nhds_zero_of_lt_one (by linarith) (by linarith)).const_mul R
    rw [mul_zero] at ht
    obtain ⟨M, h1, h2⟩ := ((ht.eventually (gt_mem_nhds (by positivity : 0 < η / 2))).and (Filter.eventually_gt_atTop 0)).exists
    exact ⟨M, h2, h1⟩
  have hLM : L M ⊆ T := fun x hx => (hball x (lt_of_le_of_lt hx (by linarith))).2
  have hstep : ∀ k, ∀ x ∈ L k ∩ (S \ T), p ≤ μ {z | put (x + z) ∈ L (k + 1) ∩ S} := by
    intro k x hx
    have hm : ‖l • (c - x)‖ ≤ a := by
      rw [norm_smul, Real.norm_of_nonneg hl0.le, norm_sub_rev]
      exact (mul_le_mul_of_nonneg_left (hdist x hx.2.1) hl0.le).trans hlR
    refine (hp _ hm).trans (measure_mono fun z hz => ?_)
    have hz : ‖z - l • (c - x)‖ < l * (η / 2) := hz
    set u : Fin d → ℝ := c + l⁻¹ • (z - l • (c - x)) with hu
    have huc : ‖u - c‖ < η / 2 := by
      rw [hu, add_sub_cancel_left, norm_smul, norm_inv, Real.norm_of_nonneg hl0.le, inv_mul_lt_iff₀ hl0]
      exact hz
    have hy : x + z = (1 - l) • x + l • u := by
      rw [hu, smul_add, smul_smul, mul_inv_cancel₀ hl0.ne', one_smul]
      module
    have hyS : x + z ∈ S := by
      rw [hy]
      exact hconv hx.2.1 (hball u (by linarith)).1 (by linarith) hl0.le (by ring)
    have hyc : x + z - c = (1 - l) • (x - c) + l • (u - c) := by rw [hy]; module
    show put (x + z) ∈ L (k + 1) ∩ S
    rw [w.inside _ hyS]
    refine ⟨?_, hyS⟩
    have hxk : ‖x - c‖ ≤ η / 2 + R * (1 - l) ^ k := hx.1
    have h1l : 0 ≤ 1 - l := by linarith
    show ‖x + z - c‖ ≤ η / 2 + R * (1 - l) ^ (k + 1)
    calc ‖x + z - c‖ = ‖(1 - l) • (x - c) + l • (u - c)‖ := by rw [hyc]
      _ ≤ ‖(1 - l) • (x - c)‖ + ‖l • (u - c)‖ := norm_add_le _ _
      _ = (1 - l) * ‖x - c‖ + l * ‖u - c‖ := by
        rw [norm_smul, norm_smul, Real.norm_of_nonneg hl0.le, Real.norm_of_nonneg h1l]
      _ ≤ (1 - l) * (η / 2 + R * (1 - l) ^ k) + l * (η / 2) :=
        add_le_add (mul_le_mul_of_nonneg_left hxk h1l) (mul_le_mul_of_nonneg_left huc.le hl0.le)
      _ = η / 2 + R * (1 - l) ^ (k + 1) := by rw [pow_succ]; ring
  have hp1 : p ≠ ∞ := by
    have h1 := hp 0 (by simpa using ha.le)
    exact ne_top_of_le_ne_top ENNReal.one_ne_top (h1.trans prob_le_one)
  refine ⟨M, 1 - p ^ M, hM0, ENNReal.sub_lt_self ENNReal.one_ne_top one_ne_zero (pow_ne_zero M hp0.ne'), fun π _ n => ?_⟩
  refine searching_blocks μ w.measurable w.room_measurable hT (fun x hx => ?_) π n
  refine alive_levels μ w.measurable w.room_measurable hT L hLm p M hLM hstep M 0 (by omega) x ⟨?_, hx⟩
  show ‖x - c‖ ≤ η / 2 + R * (1 - l) ^ 0
  have := hdist x hx.1
  rw [pow_zero, mul_one]
  linarith

/-- intervals near 0 that are all hit are hit with a certain probability at least. -/
theorem spread_uniform {ν : Measure ℝ} {a : ℝ} (ha : 0 < a) (h : ∀ m, |m| ≤ a → ∀ ε > 0, ν {z | |z - m| < ε} ≠ 0) {ε : ℝ} (hε : 0 < ε) :
    ∃ p > 0, ∀ m, |m| ≤ a → p ≤ ν {z | |z - m| < ε} := by
  have hc : IsCompact (Set.Icc (-a) a) := isCompact_Icc
  obtain ⟨t, ht, hcov⟩ := hc.elim_nhds_subcover (fun m => Metric.ball m (ε / 2)) fun m _ => Metric.ball_mem_nhds m (by positivity)
  have hne : t.Nonempty := by
    by_contra h0
    rw [Finset.not_nonempty_iff_eq_empty] at h0
    have : (0 : ℝ) ∈ Set.Icc (-a) a := ⟨by linarith, ha.le⟩
    have := hcov this
    simp [h0] at this
  refine ⟨t.inf' hne fun m => ν {z | |z - m| < ε / 2}, ?_, fun m hm => ?_⟩
  · rw [gt_iff_lt, Finset.lt_inf'_iff]
    intro m hm
    exact pos_iff_ne_zero.2 (h m (abs_le.2 (ht m hm)) _ (by positivity))
  · have := hcov (abs_le.1 hm)
    simp only [Set.mem_iUnion, Metric.mem_ball, Real.dist_eq, exists_prop] at this
    obtain ⟨m', hm', hd⟩ := this
    refine (Finset.inf'_le _ hm').trans (measure_mono fun z hz => ?_)
    have hz : |z - m'| < ε / 2 := hz
    show |z - m| < ε
    calc |z - m| = |(z - m') + -(m - m')| := by ring_nf
      _ ≤ |z - m'| + |-(m - m')| := abs_add_le _ _
      _ < ε := by rw [abs_neg]; linarith
end Moledyn
