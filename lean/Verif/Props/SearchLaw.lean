import Verif.Props.MoveLaws
import Verif.Props.Walls
import Verif.Lemmas.SearchLaw
/-
C77: the distribution of search times.
-/
namespace Moledyn.Props
open Moledyn MeasureTheory ProbabilityTheory
open scoped ENNReal NNReal
set_option linter.unusedSimpArgs false
set_option linter.unusedSectionVars false
variable {G : Type} [MeasurableSpace G]

/-- the walker at `x`. -/
noncomputable def walkerAt {d : Nat} (D : ℝ) (x : Fin d → ℝ) : IndepAgent ℝ :=
  ⟨.continuousPassiveIndependent, .brownian D, .uniform, d, List.ofFn x⟩

/-- the numbers of one step. -/
noncomputable def stepDraw (rng : RngOps G ℝ) (d : Nat) (v : ℝ) (g : G) : (Fin d → ℝ) × G :=
  ((fun i => (drawsN rng.gaussian d g).1 i * Real.sqrt v), (drawsN rng.gaussian d g).2)

theorem turn_eq {rng : RngOps G ℝ} {sys : SysOps G ℝ} {d : Nat} {S : Set (Fin d → ℝ)} {put : (Fin d → ℝ) → Fin d → ℝ}
    (w : Walls sys S put) (D dt : ℝ) (x : Fin d → ℝ) (g : G) [DecidablePred (· ∈ S)] :
    freshTurn rng sys dt (walkerAt D x, g) =
      ((walkerAt D (walkStepAt put (stepDraw rng d (2 * D * dt)) (x, g)).1, (walkStepAt put (stepDraw rng d (2 * D * dt)) (x, g)).2),
        if (walkStepAt put (stepDraw rng d (2 * D * dt)) (x, g)).1 ∈ S then .ok () else .err .tooLargeTimeStep) := by
  by_cases h : (walkStepAt put (stepDraw rng d (2 * D * dt)) (x, g)).1 ∈ S
  · rw [if_pos h]
    simp only [freshTurn, walkerAt, IndepAgent.randomMove]
    rw [move_eq]
    simp only [walkStepAt, stepDraw] at h ⊢
    rw [w.step_ok _ _ h]
  · rw [if_neg h]
    simp only [freshTurn, walkerAt, IndepAgent.randomMove]
    rw [move_eq]
    simp only [walkStepAt, stepDraw] at h ⊢
    rw [w.step_err _ _ h]

private theorem search_eq {rng : RngOps G ℝ} {sys : SysOps G ℝ} {d : Nat} {S : Set (Fin d → ℝ)} {put : (Fin d → ℝ) → Fin d → ℝ}
    (w : Walls sys S put) (D dt : ℝ) (c : Fin d → ℝ) (t : BulkTarget ℝ) (ht : t.targetPos = List.ofFn c)
    [DecidablePred (· ∈ S)] (n : Nat) :
    ∀ (x : Fin d → ℝ) (g : G) (time : ℝ), x ∉ nearSet c t.targetSize →
    (∀ m < n, (walkStepAt put (stepDraw rng d (2 * D * dt)))^[m + 1] (x, g) ∈ (S \ nearSet c t.targetSize) ×ˢ Set.univ) →
    (walkStepAt put (stepDraw rng d (2 * D * dt)))^[n + 1] (x, g) ∉ (S \ nearSet c t.targetSize) ×ˢ Set.univ →
    ∃ time' : ℝ, ∀ fuel ≥ n + 2, whileSearch (fun s => t.ops.checkFind s.1.pos) (freshTurn rng sys dt) dt fuel (walkerAt D x, g) time =
      (((walkerAt D ((walkStepAt put (stepDraw rng d (2 * D * dt)))^[n + 1] (x, g)).1,
          ((walkStepAt put (stepDraw rng d (2 * D * dt)))^[n + 1] (x, g)).2), time'),
        some (if ((walkStepAt put (stepDraw rng d (2 * D * dt)))^[n + 1] (x, g)).1 ∈ S then .ok (time + (n + 1) * dt)
          else .err .tooLargeTimeStep)) := by
  induction n with
  | zero =>
    intro x g time hx _ hn
    simp only [Nat.zero_add, Function.iterate_one] at hn ⊢
    have ht0 : t.ops.checkFind (walkerAt D x).pos = .ok false := (checkFind_eq c x t ht).2 hx
    by_cases hS : (walkStepAt put (stepDraw rng d (2 * D * dt)) (x, g)).1 ∈ S
    · refine ⟨time + dt, fun fuel hf => ?_⟩
      obtain ⟨k, rfl⟩ : ∃ k, fuel = k + 2 := ⟨fuel - 2, by omega⟩
      have hT : (walkStepAt put (stepDraw rng d (2 * D * dt)) (x, g)).1 ∈ nearSet c t.targetSize := by
        by_contra hT
        exact hn ⟨⟨hS, hT⟩, trivial⟩
      have ht1 := (checkFind_eq c _ t ht).1 hT
      rw [whileSearch]
      simp only [ht0, turn_eq w, if_pos hS]
      rw [whileSearch]
      simp only [walkerAt] at ht1 ⊢
      simp only [ht1]
      norm_num
    · refine ⟨time, fun fuel hf => ?_⟩
      obtain ⟨k, rfl⟩ : ∃ k, fuel = k + 2 := ⟨fuel - 2, by omega⟩
      rw [whileSearch]
      simp only [ht0, turn_eq w, if_neg hS]
  | succ n ih =>
    intro x g time hx ha hn
    have h0 := ha 0 (by omega)
    simp only [Nat.zero_add, Function.iterate_one] at h0
    have ht0 : t.ops.checkFind (walkerAt D x).pos = .ok false := (checkFind_eq c x t ht).2 hx
    obtain ⟨time', h⟩ := ih _ (walkStepAt put (stepDraw rng d (2 * D * dt)) (x, g)).2 (time + dt) h0.1.2
      (fun m hm => by have := ha (m + 1) (by omega); rwa [Function.iterate_succ_apply] at this)
      (by rwa [Function.iterate_succ_apply] at hn)
    refine ⟨time', fun fuel hf => ?_⟩
    obtain ⟨k, rfl⟩ : ∃ k, fuel = k + 1 := ⟨fuel - 1, by omega⟩
    rw [whileSearch]
    simp only [ht0, turn_eq w, if_pos h0.1.1]
    rw [h k (by omega)]
    rw [show ((walkStepAt put (stepDraw rng d (2 * D * dt)))^[n + 1 + 1] (x, g)) = (walkStepAt put (stepDraw rng d (2 * D * dt)))^[n + 1]
      (walkStepAt put (stepDraw rng d (2 * D * dt)) (x, g)) from Function.iterate_succ_apply _ _ _]
    have e : time + dt + ((n : ℝ) + 1) * dt = time + (((n + 1 : ℕ) : ℝ) + 1) * dt := by push_cast; ring
    rw [e]

/-- from the room and a bounded region, a step ends the search with a certain probability at least. -/
private theorem rate {sys : SysOps G ℝ} {d : Nat} {S : Set (Fin d → ℝ)} {put : (Fin d → ℝ) → Fin d → ℝ} (w : Walls sys S put)
    {v : ℝ} (hv : 0 < v) (T : Set (Fin d → ℝ)) (M : ℝ) :
    ∃ r : ℝ≥0∞, r < 1 ∧ ∀ x : Fin d → ℝ, (∀ i, |x i| ≤ M) → normalLaw d v {z | put (x + z) ∈ S \ T} ≤ r := by
  obtain ⟨c, ε, hε, hfar⟩ := w.tooFar
  obtain ⟨p, hp, h⟩ := normal_hits hv M c hε
  refine ⟨1 - p, ENNReal.sub_lt_self ENNReal.one_ne_top one_ne_zero hp.ne', fun x hx => ?_⟩
  have hm : MeasurableSet {z : Fin d → ℝ | x + z ∈ nearSet c ε} := (measurable_const.add measurable_id) (near_meas c ε)
  have hsub : {z | put (x + z) ∈ S \ T} ⊆ {z : Fin d → ℝ | x + z ∈ nearSet c ε}ᶜ := fun z hz hz' => hfar _ hz' hz.1
  refine (measure_mono hsub).trans ?_
  rw [measure_compl hm (measure_ne_top _ _), measure_univ]
  exact tsub_le_tsub_left (h x hx) 1

open Classical in
/-- the outcome of a search, counted from the last position before its end. -/
theorem searchLaw_succ {sys : SysOps G ℝ} {d : Nat} {S : Set (Fin d → ℝ)} {put : (Fin d → ℝ) → Fin d → ℝ} (w : Walls sys S put)
    (μ : Measure (Fin d → ℝ)) [IsProbabilityMeasure μ] (π : Measure (Fin d → ℝ)) [IsFiniteMeasure π] (T : Set (Fin d → ℝ)) :
    searchLaw put S T μ π = (Measure.sum fun n => (((walked put μ ((fun π => (walked put μ π).restrict (S \ T))^[n] π)).restrict (S \ T)ᶜ).map
      fun x => decide (x ∈ S)).map fun b => (n, b)).map fun y => (y.1 + 1, y.2) := by
  have hsucc : Measurable fun y : ℕ × Bool => (y.1 + 1, y.2) := (measurable_fst.add_const 1).prodMk measurable_snd
  have hfn : ∀ n, IsFiniteMeasure (searching put S T μ π n) := by
    intro n
    induction n with
    | zero => exact inferInstanceAs (IsFiniteMeasure π)
    | succ n ih =>
      rw [searching, Function.iterate_succ_apply']
      exact inferInstanceAs (IsFiniteMeasure ((walked put μ (searching put S T μ π n)).restrict (S \ T)))
  rw [Measure.map_sum hsucc.aemeasurable]
  refine congrArg Measure.sum (funext fun n => ?_)
  have := hfn n
  have e := last_law (walked put μ (searching put S T μ π n)) w.room_measurable (T := T)
  simp only [searching] at e ⊢
  rw [e, Measure.map_map hsucc (by fun_prop)]
  have hm : Measurable ((fun y : ℕ × Bool => (y.1 + 1, y.2)) ∘ fun b : Bool => (n, b)) := .of_discrete
  rw [Measure.map_add _ _ hm, Measure.map_smul, Measure.map_smul, Measure.map_dirac' hm, Measure.map_dirac' hm]
  rfl

/-- A search with independent steps: if long searches are ever rarer, every search ends, with the outcome distributed as in a
random walk. -/
theorem search_yields (rng : RngOps G ℝ) (P : Measure G) [IsProbabilityMeasure P] (sys : SysOps G ℝ) (d : Nat) (S₀ S : Set (Fin d → ℝ))
    (room : Room P sys d S₀) (put : (Fin d → ℝ) → Fin d → ℝ) (w : Walls sys S put)
    (c : Fin d → ℝ) (t : BulkTarget ℝ) (ht : t.targetPos = List.ofFn c) (hpos : volume (S₀ \ nearSet c t.targetSize) ≠ 0)
    (D dt : ℝ) (μ : Measure (Fin d → ℝ)) [IsProbabilityMeasure μ]
    (hq : MeasurePreserving (stepDraw rng d (2 * D * dt)) P (μ.prod P))
    (hdec : Filter.Tendsto (fun n => searching put S (nearSet c t.targetSize) μ (uniformLaw (S₀ \ nearSet c t.targetSize)) n Set.univ)
      Filter.atTop (nhds 0)) :
    Yields P (fun n g => oneSearcher rng sys t.ops n n n (.brownian D) dt g) (reported dt)
      (searchLaw put S (nearSet c t.targetSize) μ (uniformLaw (S₀ \ nearSet c t.targetSize))) ∧
    IsProbabilityMeasure (searchLaw put S (nearSet c t.targetSize) μ (uniformLaw (S₀ \ nearSet c t.targetSize))) ∧
    (∀ n, searchLaw put S (nearSet c t.targetSize) μ (uniformLaw (S₀ \ nearSet c t.targetSize)) {y | n < y.1} =
      searching put S (nearSet c t.targetSize) μ (uniformLaw (S₀ \ nearSet c t.targetSize)) n Set.univ) := by
  classical
  set T := nearSet c t.targetSize with hT
  have hTm : MeasurableSet T := near_meas _ _
  have hfin : volume (S₀ \ T) ≠ ∞ := ne_top_of_le_ne_top room.volume_finite (measure_mono Set.sdiff_subset)
  have hprob := uniformLaw_prob hpos hfin
  have R := search_rounds w.measurable hq w.room_measurable hTm hTm.compl (r := 1) (fun x hx => hx.2) (fun x _ => prob_le_one)
  have hπB : uniformLaw (S₀ \ T) Tᶜᶜ = 0 := by
    rw [compl_compl]
    simp only [uniformLaw, Measure.smul_apply, Measure.restrict_apply hTm, smul_eq_mul]
    refine mul_eq_zero_of_right _ (measure_mono_null ?_ (measure_empty (μ := volume)))
    rintro x ⟨a, b⟩
    exact absurd a b.2
  obtain ⟨F, ρ, hρ, hρe, hF, hmass, hae⟩ := R.run (uniformLaw (S₀ \ T)) hπB hdec
  have hsucc : Measurable fun y : ℕ × Bool => (y.1 + 1, y.2) := (measurable_fst.add_const 1).prodMk measurable_snd
  have hlaw : searchLaw put S T μ (uniformLaw (S₀ \ T)) = ρ.map fun y => (y.1 + 1, y.2) := by
    rw [hρe]
    exact searchLaw_succ w μ (uniformLaw (S₀ \ T)) T
  rw [hlaw]
  refine ⟨?_, Measure.isProbabilityMeasure_map hsucc.aemeasurable, fun n => ?_⟩
  · obtain ⟨f, hf, hfae⟩ := off_target room c t ht hpos
    refine ⟨fun g => (((F (f g)).1.1 + 1, (F (f g)).1.2), (F (f g)).2), ?_, ?_⟩
    · have h3 : MeasurePreserving (fun y : ℕ × Bool => (y.1 + 1, y.2)) ρ (ρ.map fun y => (y.1 + 1, y.2)) := ⟨hsucc, rfl⟩
      exact (h3.prod (MeasurePreserving.id P)).comp (hF.comp hf)
    · have hstart : ∀ᵐ y ∂((uniformLaw (S₀ \ T)).prod P), y.1 ∉ T := by
        have : ∀ᵐ x ∂uniformLaw (S₀ \ T), x ∉ T := by
          rw [ae_iff]
          refine measure_mono_null ?_ hπB
          intro x hx hx'
          simp only [Set.mem_ofPred_eq, not_not] at hx
          exact hx' hx
        exact (Measure.quasiMeasurePreserving_fst (μ := uniformLaw (S₀ \ T)) (ν := P)).ae this
      filter_upwards [hfae, hf.quasiMeasurePreserving.ae hae, hf.quasiMeasurePreserving.ae hstart] with g ⟨N, hN⟩ ⟨n, a1, a2, a3⟩ hx
      have e1 : ∀ m < n, (walkStepAt put (stepDraw rng d (2 * D * dt)))^[m + 1] (f g) ∈ (S \ T) ×ˢ Set.univ := by
        intro m hm
        have := a1 m hm
        rw [Function.iterate_succ_apply']
        simp only [Set.mem_preimage, Set.mem_prod, Set.mem_compl_iff, Set.mem_univ, and_true, not_not] at this ⊢
        exact this
      have e2 : (walkStepAt put (stepDraw rng d (2 * D * dt)))^[n + 1] (f g) ∉ (S \ T) ×ˢ Set.univ := by
        rw [Function.iterate_succ_apply']
        simp only [Set.mem_preimage, Set.mem_prod, Set.mem_compl_iff, Set.mem_univ, and_true] at a2 ⊢
        exact a2
      obtain ⟨time', hw⟩ := search_eq (rng := rng) w D dt c t ht n (f g).1 (f g).2 0 hx e1 e2
      refine ⟨max N (n + 2), fun loops hl => ?_⟩
      have hl1 : N ≤ loops := le_trans (le_max_left _ _) hl
      have hnew : IndepAgent.newUniform sys t.ops loops loops g (.brownian D) = some (.ok (walkerAt D (f g).1), (f g).2) := by
        simp [IndepAgent.newUniform, hN loops hl1 loops hl1 _ room.outDim, Pos.dim, walkerAt]
      have := hw loops (le_trans (le_max_right _ _) hl)
      simp only [oneSearcher, hnew]
      rw [show (Fl.zero : ℝ) = 0 by simp [Fl.zero], this]
      simp only [a3]
      rw [← Function.iterate_succ_apply' (walkStepAt put (stepDraw rng d (2 * D * dt))) n (f g)]
      simp only [reported, Prod.mk.eta, decide_eq_true_eq, zero_add, Nat.cast_add, Nat.cast_one]
  · rw [Measure.map_apply hsucc (measurableSet_lt measurable_const measurable_fst)]
    refine Eq.trans ?_ (hmass n)
    congr 1
    ext y
    simp only [Set.mem_preimage, Set.mem_ofPred_eq]
    omega

section
variable (rng : RngOps G ℝ) (P : Measure G) (h : IdealRng rng P) (sys : SysOps G ℝ) (d : Nat) (S₀ S : Set (Fin d → ℝ))
  (room : Room P sys d S₀) (hbd : ∃ M, ∀ x ∈ S₀, ∀ i, |x i| ≤ M) (put : (Fin d → ℝ) → Fin d → ℝ) (w : Walls sys S put)
  (c : Fin d → ℝ) (t : BulkTarget ℝ) (ht : t.targetPos = List.ofFn c) (hpos : volume (S₀ \ nearSet c t.targetSize) ≠ 0)
  (D dt : ℝ) (hD : 0 < D) (hdt : 0 < dt)
include h room hbd w ht hpos hD hdt

/-- A search from a uniformly distributed start ends with probability one, with the outcome distributed as in a random walk
with independent normal steps of variance `2 D dt` in every direction, with the walls of the room: either the number of
steps to the target times `dt`, or `TooLargeTimeStep`.  The outcome does not depend on what was drawn before, nor on what
will be drawn after.  Long searches are exponentially rare. -/
theorem C77_search :
    Yields P (fun n g => oneSearcher rng sys t.ops n n n (.brownian D) dt g) (reported dt)
      (searchLaw put S (nearSet c t.targetSize) (normalLaw _ (2 * D * dt)) (uniformLaw (S₀ \ nearSet c t.targetSize))) ∧
    IsProbabilityMeasure (searchLaw put S (nearSet c t.targetSize) (normalLaw _ (2 * D * dt)) (uniformLaw (S₀ \ nearSet c t.targetSize))) ∧
    (∀ n, searchLaw put S (nearSet c t.targetSize) (normalLaw _ (2 * D * dt)) (uniformLaw (S₀ \ nearSet c t.targetSize)) {y | n < y.1} =
      searching put S (nearSet c t.targetSize) (normalLaw _ (2 * D * dt)) (uniformLaw (S₀ \ nearSet c t.targetSize)) n Set.univ) ∧
    ∃ r : ℝ≥0∞, r < 1 ∧ ∀ n, searchLaw put S (nearSet c t.targetSize) (normalLaw _ (2 * D * dt)) (uniformLaw (S₀ \ nearSet c t.targetSize))
      {y | n < y.1} ≤ r ^ n := by
  have := h.prob
  have hTm : MeasurableSet (nearSet c t.targetSize) := near_meas _ _
  have hv : 0 < 2 * D * dt := by positivity
  have hfin : volume (S₀ \ nearSet c t.targetSize) ≠ ∞ := ne_top_of_le_ne_top room.volume_finite (measure_mono Set.sdiff_subset)
  have hprob := uniformLaw_prob hpos hfin
  have hq : MeasurePreserving (stepDraw rng d (2 * D * dt)) P ((normalLaw d (2 * D * dt)).prod P) := normal_mp h d hv.le
  obtain ⟨M₀, hM₀⟩ := hbd
  obtain ⟨M₁, hM₁⟩ := w.bounded
  obtain ⟨r, hr1, hr⟩ := rate w hv (nearSet c t.targetSize) (max M₀ M₁)
  have hle : ∀ n, searching put S (nearSet c t.targetSize) (normalLaw _ (2 * D * dt)) (uniformLaw (S₀ \ nearSet c t.targetSize)) n
      Set.univ ≤ r ^ n := by
    classical
    set B : Set (Fin d → ℝ) := {x | ∀ i, |x i| ≤ max M₀ M₁} with hB
    have hBm : MeasurableSet B := by
      have : {x : Fin d → ℝ | ∀ i, |x i| ≤ max M₀ M₁} = ⋂ i, {x | |x i| ≤ max M₀ M₁} := by ext x; simp
      rw [hB, this]
      exact .iInter fun i => measurableSet_le (by fun_prop) measurable_const
    have R := search_rounds w.measurable hq w.room_measurable hTm hBm (r := r)
      (fun x hx i => (hM₁ x hx.1 i).trans (le_max_right _ _)) (fun x hx => hr x hx)
    have hπB : uniformLaw (S₀ \ nearSet c t.targetSize) Bᶜ = 0 := by
      simp only [uniformLaw, Measure.smul_apply, Measure.restrict_apply hBm.compl, smul_eq_mul]
      refine mul_eq_zero_of_right _ (measure_mono_null ?_ (measure_empty (μ := volume)))
      rintro x ⟨a, b⟩
      exact absurd (fun i => (hM₀ x b.1 i).trans (le_max_left _ _)) a
    intro n
    have := (R.laws (uniformLaw (S₀ \ nearSet c t.targetSize)) inferInstance hπB n).2.2.2.2
    rwa [measure_univ (μ := uniformLaw (S₀ \ nearSet c t.targetSize)), mul_one] at this
  have hdec := tendsto_of_tendsto_of_tendsto_of_le_of_le tendsto_const_nhds (ENNReal.tendsto_pow_atTop_nhds_zero_of_lt_one hr1)
    (fun _ => bot_le) hle
  obtain ⟨h1, h2, h3⟩ := search_yields rng P sys d S₀ S room put w c t ht hpos D dt _ hq hdec
  exact ⟨h1, h2, h3, r, hr1, fun n => (h3 n).le.trans (hle n)⟩

omit [MeasurableSpace G] h room hbd w ht hpos hD hdt in
private theorem steps_mean (ρ : Measure (ℕ × Bool)) : ∫⁻ y, (y.1 : ℝ≥0∞) ∂ρ = ∑' n : ℕ, ρ {y | n < y.1} := by
  have e : ∀ y : ℕ × Bool, (y.1 : ℝ≥0∞) = ∑' n : ℕ, Set.indicator {y : ℕ × Bool | n < y.1} 1 y := by
    intro y
    rw [tsum_eq_sum (s := Finset.range y.1) (fun n hn => by
      rw [Finset.mem_range] at hn
      exact Set.indicator_of_notMem (s := {y : ℕ × Bool | n < y.1}) (a := y) hn (1 : ℕ × Bool → ℝ≥0∞))]
    rw [Finset.sum_congr rfl (g := fun _ => (1 : ℝ≥0∞)) fun n hn => by
      rw [Finset.mem_range] at hn
      exact Set.indicator_of_mem (s := {y : ℕ × Bool | n < y.1}) (a := y) hn (1 : ℕ × Bool → ℝ≥0∞)]
    simp
  simp only [e]
  have hm : ∀ n : ℕ, MeasurableSet {y : ℕ × Bool | n < y.1} := fun n => measurableSet_lt measurable_const measurable_fst
  rw [lintegral_tsum fun n => (measurable_one.indicator (hm n)).aemeasurable]
  simp only [lintegral_indicator_one (hm _)]

/-- The time of a search has a mean. -/
theorem C77_mean (ρ : Measure (ℕ × Bool))
    (hρ : ρ = searchLaw put S (nearSet c t.targetSize) (normalLaw _ (2 * D * dt)) (uniformLaw (S₀ \ nearSet c t.targetSize))) :
    Integrable (fun y => (y.1 : ℝ) * dt) ρ := by
  obtain ⟨-, hprob, -, r, hr, htail⟩ := C77_search rng P h sys d S₀ S room hbd put w c t ht hpos D dt hD hdt
  rw [← hρ] at hprob htail
  refine Integrable.mul_const ⟨(measurable_from_nat.comp measurable_fst).aestronglyMeasurable, ?_⟩ dt
  show ∫⁻ y, ‖(y.1 : ℝ)‖ₑ ∂ρ < ∞
  have e : ∀ y : ℕ × Bool, ‖(y.1 : ℝ)‖ₑ = (y.1 : ℝ≥0∞) := fun y => by simp
  simp only [e]
  rw [steps_mean]
  calc ∑' n, ρ {y | n < y.1} ≤ ∑' n, r ^ n := ENNReal.tsum_le_tsum htail
    _ = (1 - r)⁻¹ := ENNReal.tsum_geometric r
    _ < ∞ := ENNReal.inv_lt_top.2 (tsub_pos_of_lt hr)

private theorem hits {A : Set (Fin d → ℝ)} (hA : MeasurableSet A) (hin : ∃ c' ε, 0 < ε ∧ ∀ y ∈ nearSet c' ε, put y ∈ A) :
    walked put (normalLaw _ (2 * D * dt)) (uniformLaw (S₀ \ nearSet c t.targetSize)) A ≠ 0 := by
  have hv : 0 < 2 * D * dt := by positivity
  have hTm := near_meas c t.targetSize
  have hfin : volume (S₀ \ nearSet c t.targetSize) ≠ ∞ := ne_top_of_le_ne_top room.volume_finite (measure_mono Set.sdiff_subset)
  have hprob := uniformLaw_prob hpos hfin
  obtain ⟨M, hM⟩ := hbd
  obtain ⟨c', ε, hε, hsub⟩ := hin
  obtain ⟨p, hp, hh⟩ := normal_hits hv M c' hε
  rw [walked_apply w.measurable _ _ hA]
  have : ∫⁻ _, p ∂uniformLaw (S₀ \ nearSet c t.targetSize) ≤
      ∫⁻ x, normalLaw d (2 * D * dt) {z | put (x + z) ∈ A} ∂uniformLaw (S₀ \ nearSet c t.targetSize) := by
    refine lintegral_mono_ae ?_
    have hS : ∀ᵐ x ∂uniformLaw (S₀ \ nearSet c t.targetSize), x ∈ S₀ \ nearSet c t.targetSize :=
      Measure.ae_smul_measure (ae_restrict_mem (room.measurable.diff hTm)) _
    filter_upwards [hS] with x hx
    exact (hh x (hM x hx.1)).trans (measure_mono fun z hz => hsub _ hz)
  rw [lintegral_const, measure_univ, mul_one] at this
  exact (lt_of_lt_of_le hp this).ne'

/-- If some small ball belongs both to the room and to the target, the target may be found, even with the first step.  In
any case the first step may be too large: every search can fail. -/
theorem C77_outcomes (ρ : Measure (ℕ × Bool))
    (hρ : ρ = searchLaw put S (nearSet c t.targetSize) (normalLaw _ (2 * D * dt)) (uniformLaw (S₀ \ nearSet c t.targetSize))) :
    ρ {(1, false)} ≠ 0 ∧
    ((∃ c' ε, 0 < ε ∧ nearSet c' ε ⊆ S ∩ nearSet c t.targetSize) → ρ {(1, true)} ≠ 0) := by
  have hTm := near_meas c t.targetSize
  have hge : ∀ b : Bool, walked put (normalLaw _ (2 * D * dt)) (uniformLaw (S₀ \ nearSet c t.targetSize)) (bif b then S ∩ nearSet c t.targetSize else Sᶜ) ≤ ρ {(1, b)} := by
    intro b
    rw [hρ, searchLaw, Measure.sum_apply _ (measurableSet_singleton _)]
    refine le_trans ?_ (ENNReal.le_tsum 0)
    cases b <;> simp [searching]
  refine ⟨fun h0 => ?_, fun ⟨c', ε, hε, hsub⟩ h0 => ?_⟩
  · refine hits rng P h sys d S₀ S room hbd put w c t ht hpos D dt hD hdt w.room_measurable.compl w.tooFar ?_
    exact le_antisymm ((hge false).trans h0.le) bot_le
  · refine hits rng P h sys d S₀ S room hbd put w c t ht hpos D dt hD hdt (w.room_measurable.inter hTm)
      ⟨c', ε, hε, fun y hy => ?_⟩ (le_antisymm ((hge true).trans h0.le) bot_le)
    rw [w.inside y (hsub hy).1]
    exact hsub hy

/-- How likely is a failure?  If steps of at most `a` in every direction are never too large, the probability that a search
fails is at most `2 d exp(-a² / (4 D dt))` times the mean number of its steps. -/
theorem C77_failure_bound (ρ : Measure (ℕ × Bool))
    (hρ : ρ = searchLaw put S (nearSet c t.targetSize) (normalLaw _ (2 * D * dt)) (uniformLaw (S₀ \ nearSet c t.targetSize)))
    (a : ℝ) (ha : 0 ≤ a) (hsafe : ∀ x ∈ S₀ ∪ S, ∀ z : Fin d → ℝ, (∀ i, |z i| ≤ a) → put (x + z) ∈ S) :
    ρ {y | y.2 = false} ≤ ENNReal.ofReal (2 * d * Real.exp (-(a ^ 2 / (4 * D * dt)))) * ∫⁻ y, (y.1 : ℝ≥0∞) ∂ρ := by
  have hv : 0 < 2 * D * dt := by positivity
  have hmass := (C77_search rng P h sys d S₀ S room hbd put w c t ht hpos D dt hD hdt).2.2.1
  rw [← hρ] at hmass
  have hTm := near_meas c t.targetSize
  have hfin : volume (S₀ \ nearSet c t.targetSize) ≠ ∞ := ne_top_of_le_ne_top room.volume_finite (measure_mono Set.sdiff_subset)
  have hprob := uniformLaw_prob hpos hfin
  rw [steps_mean, ← ENNReal.tsum_mul_left]
  set π := uniformLaw (S₀ \ nearSet c t.targetSize) with hπ
  have hsup : ∀ n, IsFiniteMeasure (searching put S (nearSet c t.targetSize) (normalLaw _ (2 * D * dt)) π n) ∧
      ∀ᵐ x ∂searching put S (nearSet c t.targetSize) (normalLaw _ (2 * D * dt)) π n, x ∈ S₀ ∪ S := by
    intro n
    induction n with
    | zero =>
      refine ⟨inferInstanceAs (IsFiniteMeasure π), ?_⟩
      have hS : ∀ᵐ x ∂π, x ∈ S₀ \ nearSet c t.targetSize :=
        Measure.ae_smul_measure (ae_restrict_mem (room.measurable.diff hTm)) _
      show ∀ᵐ x ∂π, x ∈ S₀ ∪ S
      filter_upwards [hS] with x hx using .inl hx.1
    | succ n ih =>
      have := ih.1
      rw [searching, Function.iterate_succ_apply']
      refine ⟨inferInstanceAs (IsFiniteMeasure ((walked put (normalLaw _ (2 * D * dt)) (searching put S (nearSet c t.targetSize) (normalLaw _ (2 * D * dt)) π n)).restrict
        (S \ nearSet c t.targetSize))), ?_⟩
      filter_upwards [ae_restrict_mem (w.room_measurable.diff hTm)] with x hx using .inr hx.1
  have hfm : MeasurableSet {y : ℕ × Bool | y.2 = false} := measurable_snd (measurableSet_singleton false)
  rw [hρ, searchLaw, Measure.sum_apply _ hfm]
  refine ENNReal.tsum_le_tsum fun n => ?_
  rw [← searchLaw, ← hρ, hmass]
  obtain ⟨hf, hae⟩ := hsup n
  have e1 : (walked put (normalLaw _ (2 * D * dt)) (searching put S (nearSet c t.targetSize) (normalLaw _ (2 * D * dt)) π n) (S ∩ nearSet c t.targetSize) • Measure.dirac (n + 1, true) +
      walked put (normalLaw _ (2 * D * dt)) (searching put S (nearSet c t.targetSize) (normalLaw _ (2 * D * dt)) π n) Sᶜ • Measure.dirac (n + 1, false)) {y : ℕ × Bool | y.2 = false} =
      walked put (normalLaw _ (2 * D * dt)) (searching put S (nearSet c t.targetSize) (normalLaw _ (2 * D * dt)) π n) Sᶜ := by
    simp [Measure.dirac_apply' _ hfm]
  rw [e1, walked_apply w.measurable _ _ w.room_measurable.compl, ← lintegral_const]
  refine lintegral_mono_ae ?_
  filter_upwards [hae] with x hx
  have e2 : a ^ 2 / (4 * D * dt) = a ^ 2 / (2 * (2 * D * dt)) := by ring
  rw [e2]
  refine le_trans (measure_mono ?_) (normal_tail hv ha)
  intro z hz
  by_contra hc
  simp only [Set.mem_ofPred_eq, not_exists, not_lt] at hc
  exact hz (hsafe x hx z hc)
end

theorem drawsN_after {X : Type} (f : G → X × G) (n : Nat) (g : G) (i : Fin n) :
    (drawsN f n g).1 i = (f (after f i g)).1 := by
  induction n generalizing g with
  | zero => exact i.elim0
  | succ n ih =>
    refine Fin.cases ?_ (fun j => ?_) i
    · rfl
    · simp [drawsN, ih (f g).2 j, after, Function.iterate_succ_apply]

theorem sum_says {run : Nat → G → Option (Res ℝ × G)} {f : G → (ℕ × Bool) × G} (dt : ℝ) (n : Nat) (g : G) (data : ℝ)
    (h : ∀ m < n, ∃ N, ∀ loops ≥ N, run loops (after f m g) = some (reported dt (f (after f m g)).1, (f (after f m g)).2)) :
    ∃ N, ∀ loops ≥ N, ((∀ m < n, (f (after f m g)).1.2 = true) →
        (ensembleSum (run loops) n g data).map (·.1) = some (.ok (data + ∑ m ∈ Finset.range n, (f (after f m g)).1.1 * dt)) ∧
        ∀ m0 : ℝ, (minLoop (run loops) n g m0).map (·.1) =
          some (.ok ((List.range n).foldl (fun m i => min m ((f (after f i g)).1.1 * dt)) m0))) ∧
      ((∃ m < n, (f (after f m g)).1.2 = false) →
        (ensembleSum (run loops) n g data).map (·.1) = some (.err .tooLargeTimeStep) ∧
        ∀ m0 : ℝ, (minLoop (run loops) n g m0).map (·.1) = some (.err .tooLargeTimeStep)) := by
  induction n generalizing g data with
  | zero => exact ⟨0, fun loops _ => ⟨fun _ => by simp [ensembleSum, minLoop], fun ⟨m, hm, _⟩ => absurd hm (by omega)⟩⟩
  | succ n ih =>
    have hs : ∀ m, after f (m + 1) g = after f m (f g).2 := fun m => by simp [after, Function.iterate_succ_apply]
    have h0 : after f 0 g = g := rfl
    obtain ⟨N0, hN0⟩ := h 0 (by omega)
    rw [h0] at hN0
    obtain ⟨N, hN⟩ := ih (f g).2 (data + (f g).1.1 * dt) fun m hm => by
      have := h (m + 1) (by omega)
      rwa [hs] at this
    refine ⟨max N0 N, fun loops hl => ?_⟩
    have e0 := hN0 loops (le_trans (le_max_left _ _) hl)
    obtain ⟨i1, i2⟩ := hN loops (le_trans (le_max_right _ _) hl)
    cases hb : (f g).1.2 with
    | false =>
      refine ⟨fun ha => absurd (ha 0 (by omega)) (by rw [h0, hb]; simp), fun _ => ⟨?_, fun m0 => ?_⟩⟩
      · rw [ensembleSum, e0]; simp [reported, hb]
      · rw [minLoop, e0]; simp [reported, hb]
    | true =>
      constructor
      · intro ha
        obtain ⟨j1, j2⟩ := i1 fun m hm => by rw [← hs]; exact ha (m + 1) (by omega)
        refine ⟨?_, fun m0 => ?_⟩
        · rw [ensembleSum, e0]
          simp only [reported, hb, if_true]
          rw [j1, Finset.sum_range_succ', h0]
          simp only [hs]
          congr 2; ring
        · rw [minLoop, e0]
          simp only [reported, hb, if_true]
          rw [j2, List.range_succ_eq_map, List.foldl_cons, List.foldl_map, h0]
          simp only [hs]
          congr 3
          simp only [Fl.gt, fl_lt, decide_eq_true_eq]
          rcases lt_or_ge ((f g).1.1 * dt) m0 with hlt | hge
          · rw [if_pos hlt, min_eq_right hlt.le]
          · rw [if_neg (not_lt.2 hge), min_eq_left hge]
      · rintro ⟨m, hm, hf⟩
        have hm0 : m ≠ 0 := by rintro rfl; rw [h0, hb] at hf; simp at hf
        obtain ⟨k, rfl⟩ : ∃ k, m = k + 1 := ⟨m - 1, by omega⟩
        obtain ⟨j1, j2⟩ := i2 ⟨k, by omega, by rwa [← hs]⟩
        refine ⟨?_, fun m0 => ?_⟩
        · rw [ensembleSum, e0]
          simp only [reported, hb, if_true]
          exact j1
        · rw [minLoop, e0]
          simp only [reported, hb, if_true]
          exact j2 _


private theorem foldl_min {ι : Type} (l : List ι) (u : ι → ℝ) (m0 : ℝ) :
    l.foldl (fun m i => min m (u i)) m0 ≤ m0 ∧ (∀ i ∈ l, l.foldl (fun m i => min m (u i)) m0 ≤ u i) ∧
      (l.foldl (fun m i => min m (u i)) m0 = m0 ∨ ∃ i ∈ l, l.foldl (fun m i => min m (u i)) m0 = u i) := by
  induction l generalizing m0 with
  | nil => simp
  | cons a l ih =>
    obtain ⟨h1, h2, h3⟩ := ih (min m0 (u a))
    simp only [List.foldl_cons]
    refine ⟨h1.trans (min_le_left _ _), fun i hi => ?_, ?_⟩
    · rcases List.mem_cons.1 hi with rfl | hi
      · exact h1.trans (min_le_right _ _)
      · exact h2 i hi
    · rcases h3 with h3 | ⟨i, hi, h3⟩
      · rcases min_choice m0 (u a) with e | e
        · left; rw [h3, e]
        · right; exact ⟨a, by simp, by rw [h3, e]⟩
      · right; exact ⟨i, by simp [hi], h3⟩

theorem runs_of_yields {P : Measure G} [IsProbabilityMeasure P] {ρ : Measure (ℕ × Bool)} [IsProbabilityMeasure ρ] {dt : ℝ}
    {run : Nat → G → Option (Res ℝ × G)} (hy : Yields P run (reported dt) ρ) :
    ∃ f : G → (ℕ × Bool) × G, MeasurePreserving f P (ρ.prod P) ∧
    ∀ᵐ g ∂P, ∀ m, ∃ N, ∀ loops ≥ N, run loops (after f m g) = some (reported dt (f (after f m g)).1, (f (after f m g)).2) := by
  obtain ⟨f, hf, hae⟩ := hy
  refine ⟨f, hf, ?_⟩
  rw [ae_all_iff]
  exact fun m => (after_mp hf m).quasiMeasurePreserving.ae hae

/-- Ensembles of searches, whatever the distribution of one. -/
theorem ensemble_of_searches {P : Measure G} [IsProbabilityMeasure P] {ρ : Measure (ℕ × Bool)} [IsProbabilityMeasure ρ]
    {rng : RngOps G ℝ} {sys : SysOps G ℝ} {t : BulkTarget ℝ} {D dt : ℝ}
    (hy : Yields P (fun n g => oneSearcher rng sys t.ops n n n (.brownian D) dt g) (reported dt) ρ) (n : Nat) : ∃ x : G → Fin n → ℕ × Bool, MeasurePreserving x P (Measure.pi fun _ => ρ) ∧
    ∀ᵐ g ∂P, ∃ N, ∀ loops ≥ N,
      ((∀ i, (x g i).2 = true) →
        (ensembleMean (oneSearcher rng sys t.ops loops loops loops (.brownian D) dt) n g).map (·.1) =
          some (.ok ((∑ i, (x g i).1 * dt) / n)) ∧
        ∃ m, (nSearchersFpt rng sys t.ops loops loops loops (.brownian D) dt n g).map (·.1) = some (.ok m) ∧
          m ≤ Fl.maxVal ∧ (∀ i, m ≤ (x g i).1 * dt) ∧ (m = Fl.maxVal ∨ ∃ i, m = (x g i).1 * dt)) ∧
      ((∃ i, (x g i).2 = false) →
        (ensembleMean (oneSearcher rng sys t.ops loops loops loops (.brownian D) dt) n g).map (·.1) = some (.err .tooLargeTimeStep) ∧
        (nSearchersFpt rng sys t.ops loops loops loops (.brownian D) dt n g).map (·.1) = some (.err .tooLargeTimeStep)) := by
  obtain ⟨f, hf, hae⟩ := runs_of_yields hy
  refine ⟨fun g => (drawsN f n g).1, measurePreserving_fst.comp (drawsN_mp hf n), ?_⟩
  filter_upwards [hae] with g hg
  obtain ⟨N, hN⟩ := sum_says (run := fun loops => oneSearcher rng sys t.ops loops loops loops (.brownian D) dt) dt n g 0 fun m _ => hg m
  refine ⟨N, fun loops hl => ?_⟩
  obtain ⟨k1, k2⟩ := hN loops hl
  simp only [drawsN_after]
  have hz : (Fl.zero : ℝ) = 0 := by simp [Fl.zero]
  constructor
  · intro ha
    obtain ⟨j1, j2⟩ := k1 fun m hm => ha ⟨m, hm⟩
    refine ⟨?_, _, j2 _, ?_⟩
    · unfold ensembleMean
      rw [hz]
      rcases he : ensembleSum (oneSearcher rng sys t.ops loops loops loops (.brownian D) dt) n g 0 with _ | ⟨r, g'⟩
      · rw [he] at j1; simp at j1
      · rw [he] at j1
        simp only [Option.map_some, Option.some.injEq] at j1
        simp only [Option.map_some, j1, Res.map, zero_add, Finset.sum_range]
        simp
    · obtain ⟨a1, a2, a3⟩ := foldl_min (List.range n) (fun i => ((f (after f i g)).1.1 : ℝ) * dt) Fl.maxVal
      refine ⟨a1, fun i => a2 i.1 (by simp), a3.imp_right ?_⟩
      rintro ⟨i, hi, e⟩
      exact ⟨⟨i, by simpa using hi⟩, e⟩
  · rintro ⟨i, hi⟩
    obtain ⟨j1, j2⟩ := k2 ⟨i.1, i.2, hi⟩
    refine ⟨?_, j2 _⟩
    unfold ensembleMean
    rw [hz]
    rcases he : ensembleSum (oneSearcher rng sys t.ops loops loops loops (.brownian D) dt) n g 0 with _ | ⟨r, g'⟩
    · rw [he] at j1; simp at j1
    · rw [he] at j1
      simp only [Option.map_some, Option.some.injEq] at j1
      simp only [Option.map_some, j1, Res.map]

section
variable (rng : RngOps G ℝ) (P : Measure G) (h : IdealRng rng P) (sys : SysOps G ℝ) (d : Nat) (S₀ S : Set (Fin d → ℝ))
  (room : Room P sys d S₀) (hbd : ∃ M, ∀ x ∈ S₀, ∀ i, |x i| ≤ M) (put : (Fin d → ℝ) → Fin d → ℝ) (w : Walls sys S put)
  (c : Fin d → ℝ) (t : BulkTarget ℝ) (ht : t.targetPos = List.ofFn c) (hpos : volume (S₀ \ nearSet c t.targetSize) ≠ 0)
  (D dt : ℝ) (hD : 0 < D) (hdt : 0 < dt) (ρ : Measure (ℕ × Bool))
  (hρ : ρ = searchLaw put S (nearSet c t.targetSize) (normalLaw _ (2 * D * dt)) (uniformLaw (S₀ \ nearSet c t.targetSize)))
include h room hbd w ht hpos hD hdt hρ

private theorem all_runs : ∃ f : G → (ℕ × Bool) × G, IsProbabilityMeasure ρ ∧ MeasurePreserving f P (ρ.prod P) ∧
    ∀ᵐ g ∂P, ∀ m, ∃ N, ∀ loops ≥ N, oneSearcher rng sys t.ops loops loops loops (.brownian D) dt (after f m g) =
      some (reported dt (f (after f m g)).1, (f (after f m g)).2) := by
  have := h.prob
  obtain ⟨hy, hprob, -⟩ := C77_search rng P h sys d S₀ S room hbd put w c t ht hpos D dt hD hdt
  rw [← hρ] at hy hprob
  obtain ⟨f, hf, hae⟩ := runs_of_yields hy
  exact ⟨f, hprob, hf, hae⟩

/-- The searches of an ensemble, and those of the searchers of one run, are independent and each has the distribution of
`C77_search`.  If all find the target, the ensemble reports the mean of the times, and the run the shortest of them (at most
`f64::MAX`); if one of them fails, so does the whole. -/
theorem C77_ensemble (n : Nat) : ∃ x : G → Fin n → ℕ × Bool, MeasurePreserving x P (Measure.pi fun _ => ρ) ∧
    ∀ᵐ g ∂P, ∃ N, ∀ loops ≥ N,
      ((∀ i, (x g i).2 = true) →
        (ensembleMean (oneSearcher rng sys t.ops loops loops loops (.brownian D) dt) n g).map (·.1) =
          some (.ok ((∑ i, (x g i).1 * dt) / n)) ∧
        ∃ m, (nSearchersFpt rng sys t.ops loops loops loops (.brownian D) dt n g).map (·.1) = some (.ok m) ∧
          m ≤ Fl.maxVal ∧ (∀ i, m ≤ (x g i).1 * dt) ∧ (m = Fl.maxVal ∨ ∃ i, m = (x g i).1 * dt)) ∧
      ((∃ i, (x g i).2 = false) →
        (ensembleMean (oneSearcher rng sys t.ops loops loops loops (.brownian D) dt) n g).map (·.1) = some (.err .tooLargeTimeStep) ∧
        (nSearchersFpt rng sys t.ops loops loops loops (.brownian D) dt n g).map (·.1) = some (.err .tooLargeTimeStep)) := by
  have := h.prob
  obtain ⟨hy, hprob, -⟩ := C77_search rng P h sys d S₀ S room hbd put w c t ht hpos D dt hD hdt
  rw [← hρ] at hy hprob
  exact ensemble_of_searches hy n

/-- An ensemble of `n` searches succeeds with probability `q ^ n`, `q` being the probability that one search does; and
`q < 1`, because any step may be too large. -/
theorem C77_success (n : Nat) :
    P {g | ∃ N, ∀ loops ≥ N, ∃ m g', ensembleMean (oneSearcher rng sys t.ops loops loops loops (.brownian D) dt) n g = some (.ok m, g')} =
      ρ {y | y.2 = true} ^ n ∧ ρ {y | y.2 = true} < 1 := by
  have := h.prob
  have hprob : IsProbabilityMeasure ρ := hρ ▸ (C77_search rng P h sys d S₀ S room hbd put w c t ht hpos D dt hD hdt).2.1
  have hfm : MeasurableSet {y : ℕ × Bool | y.2 = true} := measurable_snd (measurableSet_singleton true)
  constructor
  · obtain ⟨x, hx, hae⟩ := C77_ensemble rng P h sys d S₀ S room hbd put w c t ht hpos D dt hD hdt ρ hρ n
    have e : (Measure.pi fun _ : Fin n => ρ) (Set.univ.pi fun _ => {y | y.2 = true}) = ρ {y | y.2 = true} ^ n := by
      rw [Measure.pi_pi]; simp
    rw [← e, ← hx.measure_preimage (MeasurableSet.univ_pi fun _ => hfm).nullMeasurableSet]
    refine measure_congr ?_
    filter_upwards [hae] with g ⟨N, hN⟩
    refine propext ⟨fun ⟨M, hM⟩ i _ => ?_, fun hg => ⟨N, fun loops hl => ?_⟩⟩
    · by_contra hc
      obtain ⟨m, g', hm⟩ := hM (max N M) (le_max_right _ _)
      have := ((hN (max N M) (le_max_left _ _)).2 ⟨i, by simpa using hc⟩).1
      rw [hm] at this
      simp at this
    · have := ((hN loops hl).1 fun i => hg i trivial).1
      rcases he : ensembleMean (oneSearcher rng sys t.ops loops loops loops (.brownian D) dt) n g with _ | ⟨r, g'⟩
      · rw [he] at this; simp at this
      · rw [he] at this
        simp only [Option.map_some, Option.some.injEq] at this
        exact ⟨_, g', by rw [this]⟩
  · have h1 := (C77_outcomes rng P h sys d S₀ S room hbd put w c t ht hpos D dt hD hdt ρ hρ).1
    refine lt_of_le_of_ne prob_le_one fun h1' => h1 ?_
    have h2 : ρ {y | y.2 = true}ᶜ = 0 := by rw [measure_compl hfm (measure_ne_top _ _), measure_univ, h1', tsub_self]
    refine measure_mono_null ?_ h2
    intro y hy
    rw [Set.mem_singleton_iff] at hy
    simp [hy]

/-- With probability one, all large enough ensembles fail. -/
theorem C77_large_ensembles_fail :
    ∀ᵐ g ∂P, ∃ n₀, ∀ n ≥ n₀, ∃ N, ∀ loops ≥ N,
      ∃ g', ensembleMean (oneSearcher rng sys t.ops loops loops loops (.brownian D) dt) n g = some (.err .tooLargeTimeStep, g') := by
  have := h.prob
  obtain ⟨f, hprob, hf, hae⟩ := all_runs rng P h sys d S₀ S room hbd put w c t ht hpos D dt hD hdt ρ hρ
  have hq := fun n => (C77_success rng P h sys d S₀ S room hbd put w c t ht hpos D dt hD hdt ρ hρ n).2
  have hfm : MeasurableSet {y : ℕ × Bool | y.2 = true} := measurable_snd (measurableSet_singleton true)
  have hfail : ∀ᵐ g ∂P, ∃ m, (f (after f m g)).1.2 = false := by
    rw [ae_iff]
    refine le_antisymm (ge_of_tendsto' (ENNReal.tendsto_pow_atTop_nhds_zero_of_lt_one (hq 0)) fun n => ?_) bot_le
    have e : (Measure.pi fun _ : Fin n => ρ) (Set.univ.pi fun _ => {y | y.2 = true}) = ρ {y | y.2 = true} ^ n := by
      rw [Measure.pi_pi]; simp
    rw [← e, ← (measurePreserving_fst.comp (drawsN_mp hf n)).measure_preimage (MeasurableSet.univ_pi fun _ => hfm).nullMeasurableSet]
    refine measure_mono fun g hg i _ => ?_
    simp only [Set.mem_ofPred_eq, not_exists, Bool.not_eq_false] at hg
    simp only [Function.comp, drawsN_after, Set.mem_ofPred_eq]
    exact hg _
  filter_upwards [hae, hfail] with g hg ⟨m, hm⟩
  refine ⟨m + 1, fun n hn => ?_⟩
  obtain ⟨N, hN⟩ := sum_says (run := fun loops => oneSearcher rng sys t.ops loops loops loops (.brownian D) dt) dt n g 0 fun m _ => hg m
  refine ⟨N, fun loops hl => ?_⟩
  have j1 := ((hN loops hl).2 ⟨m, by omega, hm⟩).1
  unfold ensembleMean
  rw [show (Fl.zero : ℝ) = 0 by simp [Fl.zero]]
  rcases he : ensembleSum (oneSearcher rng sys t.ops loops loops loops (.brownian D) dt) n g 0 with _ | ⟨r, g'⟩
  · rw [he] at j1; simp at j1
  · rw [he] at j1
    simp only [Option.map_some, Option.some.injEq] at j1
    exact ⟨g', by simp only [Option.map_some, j1, Res.map]⟩
end

/-- The three systems.  In a cylinder the walkers start anywhere in a cylinder of twice its length. -/
theorem C77_systems (rng : RngOps G ℝ) (P : Measure G) (h : IdealRng rng P) (n : Nat) (c : Fin n → ℝ) (t : BulkTarget ℝ)
    (ht : t.targetPos = List.ofFn c) (D dt : ℝ) (hD : 0 < D) (hdt : 0 < dt) :
    (∀ (bc : BoundaryCond) (L : ℝ) (s : Cubic ℝ), Cubic.new bc L n = .ok s → volume (cubeSet n L \ nearSet c t.targetSize) ≠ 0 →
      Yields P (fun loops g => oneSearcher rng (s.ops rng) t.ops loops loops loops (.brownian D) dt g) (reported dt)
        (searchLaw (cubePut bc L) (cubeSet n L) (nearSet c t.targetSize) (normalLaw _ (2 * D * dt)) (uniformLaw (cubeSet n L \ nearSet c t.targetSize)))) ∧
    (∀ (R : ℝ) (s : Circ ℝ), Circ.new R n = .ok s → volume (ballSet n R \ nearSet c t.targetSize) ≠ 0 →
      Yields P (fun loops g => oneSearcher rng (s.ops rng) t.ops loops loops loops (.brownian D) dt g) (reported dt)
        (searchLaw (ballPut R) (ballSet n R) (nearSet c t.targetSize) (normalLaw _ (2 * D * dt)) (uniformLaw (ballSet n R \ nearSet c t.targetSize)))) ∧
    (∀ (k : Nat) (R L : ℝ) (s : Cyl ℝ), Cyl.new k R L n = .ok s → volume (cylSet n k R (2 * L) \ nearSet c t.targetSize) ≠ 0 →
      Yields P (fun loops g => oneSearcher rng (s.ops rng) t.ops loops loops loops (.brownian D) dt g) (reported dt)
        (searchLaw (cylPut k R L) (cylSet n k R L) (nearSet c t.targetSize) (normalLaw _ (2 * D * dt))
          (uniformLaw (cylSet n k R (2 * L) \ nearSet c t.targetSize)))) := by
  obtain ⟨r1, r2, r3⟩ := C73_systems rng P h
  obtain ⟨w1, w2, w3⟩ := C77_walls rng
  refine ⟨fun bc L s hs hpos => ?_, fun R s hs hpos => ?_, fun k R L s hs hpos => ?_⟩
  · have w := w1 bc L n s hs
    obtain ⟨hL, hn, rfl, -⟩ := new_cubic hs
    exact (C77_search rng P h _ n _ _ (r1 _ hL) w.bounded _ w c t ht hpos D dt hD hdt).1
  · have w := w2 R n s hs
    have hR : 0 < R ∧ s = ⟨.continuousCircular, .reflection, R, n⟩ := by
      unfold Circ.new at hs
      split at hs
      · simp at hs
      · rename_i hc
        simp only [fl_le, fl_zero, Bool.or_eq_true, decide_eq_true_eq, not_or, not_le, beq_iff_eq] at hc
        simp only [Res.ok.injEq] at hs
        exact ⟨hc.1, hs.symm⟩
    obtain ⟨hR, rfl⟩ := hR
    exact (C77_search rng P h _ n _ _ (r2 _ hR) w.bounded _ w c t ht hpos D dt hD hdt).1
  · have w := w3 k R L n s hs
    obtain ⟨hR, hL, hk, hn, e⟩ := new_cyl hs
    have hs2 : Cyl.new k R (2 * L) n = .ok ⟨.continuousCylindrical k, .mixed k, R, 2 * L, n⟩ := by
      unfold Cyl.new
      rw [if_neg]
      simp only [fl_le, fl_zero, Bool.or_eq_true, decide_eq_true_eq, not_or, not_le, not_lt, beq_iff_eq]
      exact ⟨⟨⟨hk, hR⟩, by linarith⟩, by omega⟩
    subst e
    exact (C77_search rng P h _ n _ _ (r3 _ k rfl hk hR hL) (w3 k R (2 * L) n _ hs2).bounded _ w c t ht hpos D dt hD hdt).1

theorem square_example : volume (cubeSet 2 1 \ nearSet (fun _ : Fin 2 => 0) (1 / 4)) ≠ 0 := by
  have hopen : IsOpen (openBox (fun _ : Fin 2 => (1 : ℝ)) ∩ {x | 1 / 2 < x 0}) :=
    (openBox_open _).inter (isOpen_lt continuous_const (continuous_apply 0))
  refine ne_of_gt (lt_of_lt_of_le (hopen.measure_pos volume ⟨fun _ => 3 / 4, fun i => by norm_num, by norm_num⟩) (measure_mono ?_))
  rintro x ⟨h1, h2⟩
  refine ⟨fun i => (h1 i).le, ?_⟩
  show ¬ Real.sqrt _ < _
  simp only [Fin.sum_univ_two, sub_zero, not_lt]
  simp only [Set.mem_ofPred_eq] at h2
  exact Real.le_sqrt_of_sq_le (by nlinarith [sq_nonneg (x 1)])

theorem square_target : nearSet (fun _ : Fin 2 => 0) (1 / 4) ⊆ cubeSet 2 1 ∩ nearSet (fun _ : Fin 2 => 0) (1 / 4) := by
  intro y hy
  refine ⟨fun i => ?_, hy⟩
  have h1 : Real.sqrt (∑ i, (y i - 0) ^ 2) < 1 / 4 := hy
  have h2 : |y i| ≤ Real.sqrt (∑ i, (y i - 0) ^ 2) := by
    rw [← Real.sqrt_sq_eq_abs]
    refine Real.sqrt_le_sqrt ?_
    have := Finset.single_le_sum (f := fun i => (y i - 0) ^ 2) (fun i _ => sq_nonneg _) (Finset.mem_univ i)
    simpa using this
  linarith

/-- The hypotheses are met by an ideal generator, a square of half width 1 with mirrors, a target of radius 1/4 in its
middle, `D = 1` and `dt = 1/100`: large ensembles fail, and a search may succeed. -/
example : let s : Cubic ℝ := ⟨.continuousRectangular, .reflection, 1, 2⟩
    (∀ᵐ g ∂tapeLaw, ∃ n₀, ∀ n ≥ n₀, ∃ N, ∀ loops ≥ N, ∃ g',
      ensembleMean (oneSearcher tapeRng (s.ops tapeRng) (BulkTarget.new [0, 0] (1 / 4)).ops loops loops loops (.brownian 1) (1 / 100)) n g =
        some (.err .tooLargeTimeStep, g')) ∧
    searchLaw (cubePut .reflection 1) (cubeSet 2 1) (nearSet (fun _ => 0) (1 / 4)) (normalLaw _ (2 * 1 * (1 / 100)))
      (uniformLaw (cubeSet 2 1 \ nearSet (fun _ => 0) (1 / 4))) {(1, true)} ≠ 0 := by
  intro s
  have hs : Cubic.new .reflection (1 : ℝ) 2 = .ok s := by
    unfold Cubic.new; rw [if_neg (by simp)]
  have w := (C77_walls tapeRng).1 .reflection 1 2 s hs
  have room := (C73_systems tapeRng tapeLaw tape_ideal).1 s (by simp [s])
  refine ⟨C77_large_ensembles_fail tapeRng tapeLaw tape_ideal _ 2 _ _ room w.bounded _ w (fun _ => 0) (BulkTarget.new [0, 0] (1 / 4))
    (by simp [BulkTarget.new]) square_example 1 (1 / 100) (by norm_num) (by norm_num) _ rfl, ?_⟩
  refine (C77_outcomes tapeRng tapeLaw tape_ideal _ 2 _ _ room w.bounded _ w (fun _ => 0) (BulkTarget.new [0, 0] (1 / 4))
    (by simp [BulkTarget.new]) square_example 1 (1 / 100) (by norm_num) (by norm_num) _ rfl).2 ⟨fun _ => 0, 1 / 4, by norm_num, square_target⟩

/-- The numbers of tests/rts_n_searcher.rs: a disc of radius 10 with a target of radius 1, `D = 1`, `dt = 1/100`.  The
probability that a search fails is at most `4 exp(-5000)` times the mean number of steps. -/
example (ρ : Measure (ℕ × Bool)) (hρ : ρ = searchLaw (ballPut 10) (ballSet 2 10) (nearSet (fun _ => 0) 1) (normalLaw _ (2 * 1 * (1 / 100)))
      (uniformLaw (ballSet 2 10 \ nearSet (fun _ => 0) 1))) :
    ρ {y | y.2 = false} ≤ ENNReal.ofReal (4 * Real.exp (-5000)) * ∫⁻ y, (y.1 : ℝ≥0∞) ∂ρ := by
  have hs : Circ.new (10 : ℝ) 2 = .ok ⟨.continuousCircular, .reflection, 10, 2⟩ := by
    unfold Circ.new; rw [if_neg (by simp)]
  have w := (C77_walls tapeRng).2.1 10 2 _ hs
  have room := (C73_systems tapeRng tapeLaw tape_ideal).2.1 ⟨.continuousCircular, .reflection, 10, 2⟩ (by norm_num)
  have hvol : volume (ballSet 2 10 \ nearSet (fun _ : Fin 2 => 0) 1) ≠ 0 := by
    have hopen : IsOpen (openBox (fun _ : Fin 2 => (5 : ℝ)) ∩ {x | 2 < x 0}) :=
      (openBox_open _).inter (isOpen_lt continuous_const (continuous_apply 0))
    refine ne_of_gt (lt_of_lt_of_le (hopen.measure_pos volume ⟨fun _ => 3, fun i => by norm_num, by norm_num⟩) (measure_mono ?_))
    rintro x ⟨h1, h2⟩
    simp only [Set.mem_ofPred_eq] at h2
    have a0 := abs_lt.1 (h1 0)
    have a1 := abs_lt.1 (h1 1)
    constructor
    · show ∑ i, x i ^ 2 ≤ _
      rw [Fin.sum_univ_two]
      nlinarith [a0.1, a0.2, a1.1, a1.2]
    · show ¬ Real.sqrt _ < _
      simp only [Fin.sum_univ_two, sub_zero, not_lt]
      exact Real.le_sqrt_of_sq_le (by nlinarith [sq_nonneg (x 1)])
  have := C77_failure_bound tapeRng tapeLaw tape_ideal _ 2 _ _ room w.bounded _ w (fun _ => 0) (BulkTarget.new [0, 0] 1)
    (by simp [BulkTarget.new]) hvol 1 (1 / 100) (by norm_num) (by norm_num) ρ hρ (2 * 10 / Real.sqrt (2 : ℕ)) (by positivity)
    fun x hx z hz => (C77_safe_steps 2 x z).2.1 10 (by norm_num) (by norm_num) hx hz
  refine this.trans (le_of_eq ?_)
  congr 3
  · norm_num
  · congr 1
    rw [div_pow, Real.sq_sqrt (by positivity)]
    norm_num

end Moledyn.Props
