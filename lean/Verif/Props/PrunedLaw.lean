import Verif.Props.Pruned
import Verif.Props.BoundedSearch
import Verif.Lemmas.Race
import Verif.Lemmas.CutChain
/-
C102, the distribution of the times written by the program of tests/test_setup.rs.
-/
namespace Moledyn.Props
open Moledyn MeasureTheory ProbabilityTheory Filter Topology
open scoped ENNReal NNReal
set_option linter.unusedSimpArgs false
set_option linter.unusedSectionVars false
variable {G : Type} [MeasurableSpace G]

section
variable {rng : RngOps G ℝ} {sys : SysOps G ℝ} {d : Nat} {S : Set (Fin d → ℝ)} {put : (Fin d → ℝ) → Fin d → ℝ}
  (w : Walls sys S put) (D dt fpt : ℝ) (c : Fin d → ℝ) (t : BulkTarget ℝ) (ht : t.targetPos = List.ofFn c)
include w ht

private theorem pruned_stop [DecidablePred (· ∈ S)] (n : Nat) :
    ∀ (x : Fin d → ℝ) (g : G) (time : ℝ), x ∉ nearSet c t.targetSize →
    (∀ m < n, (walkStepAt put (stepDraw rng d (2 * D * dt)))^[m + 1] (x, g) ∈ (S \ nearSet c t.targetSize) ×ˢ Set.univ) →
    (walkStepAt put (stepDraw rng d (2 * D * dt)))^[n + 1] (x, g) ∉ (S \ nearSet c t.targetSize) ×ˢ Set.univ →
    (∀ i ≤ n, time + i * dt < fpt) →
    ∃ time' : ℝ, ∀ fuel ≥ n + 2, prunedSearch (fun s => t.ops.checkFind s.1.pos) (freshTurn rng sys dt) dt fpt fuel (walkerAt D x, g) time =
      (((walkerAt D ((walkStepAt put (stepDraw rng d (2 * D * dt)))^[n + 1] (x, g)).1,
          ((walkStepAt put (stepDraw rng d (2 * D * dt)))^[n + 1] (x, g)).2), time'),
        some (if ((walkStepAt put (stepDraw rng d (2 * D * dt)))^[n + 1] (x, g)).1 ∈ S then .ok (time + (n + 1) * dt)
          else .err .tooLargeTimeStep)) := by
  induction n with
  | zero =>
    intro x g time hx _ hn hi
    have hlt : time < fpt := by simpa using hi 0 le_rfl
    simp only [Nat.zero_add, Function.iterate_one] at hn ⊢
    have ht0 : t.ops.checkFind (walkerAt D x).pos = .ok false := (checkFind_eq c x t ht).2 hx
    by_cases hS : (walkStepAt put (stepDraw rng d (2 * D * dt)) (x, g)).1 ∈ S
    · refine ⟨time + dt, fun fuel hf => ?_⟩
      obtain ⟨k, rfl⟩ : ∃ k, fuel = k + 2 := ⟨fuel - 2, by omega⟩
      have hT : (walkStepAt put (stepDraw rng d (2 * D * dt)) (x, g)).1 ∈ nearSet c t.targetSize := by
        by_contra hT
        exact hn ⟨⟨hS, hT⟩, trivial⟩
      have ht1 := (checkFind_eq c _ t ht).1 hT
      rw [prunedSearch]
      simp only [ht0, turn_eq w, if_pos hS, fl_lt, decide_eq_true_eq, if_pos hlt]
      rw [prunedSearch]
      simp only [walkerAt] at ht1 ⊢
      simp only [ht1]
      norm_num
    · refine ⟨time, fun fuel hf => ?_⟩
      obtain ⟨k, rfl⟩ : ∃ k, fuel = k + 2 := ⟨fuel - 2, by omega⟩
      rw [prunedSearch]
      simp only [ht0, turn_eq w, if_neg hS, fl_lt, decide_eq_true_eq, if_pos hlt]
  | succ n ih =>
    intro x g time hx ha hn hi
    have hlt : time < fpt := by simpa using hi 0 (by omega)
    have h0 := ha 0 (by omega)
    simp only [Nat.zero_add, Function.iterate_one] at h0
    have ht0 : t.ops.checkFind (walkerAt D x).pos = .ok false := (checkFind_eq c x t ht).2 hx
    obtain ⟨time', h⟩ := ih _ (walkStepAt put (stepDraw rng d (2 * D * dt)) (x, g)).2 (time + dt) h0.1.2
      (fun m hm => by have := ha (m + 1) (by omega); rwa [Function.iterate_succ_apply] at this)
      (by rwa [Function.iterate_succ_apply] at hn)
      (fun i h => by have := hi (i + 1) (by omega); push_cast at this; linarith)
    refine ⟨time', fun fuel hf => ?_⟩
    obtain ⟨k, rfl⟩ : ∃ k, fuel = k + 1 := ⟨fuel - 1, by omega⟩
    rw [prunedSearch]
    simp only [ht0, turn_eq w, if_pos h0.1.1, fl_lt, decide_eq_true_eq, if_pos hlt]
    rw [h k (by omega)]
    rw [show ((walkStepAt put (stepDraw rng d (2 * D * dt)))^[n + 1 + 1] (x, g)) = (walkStepAt put (stepDraw rng d (2 * D * dt)))^[n + 1]
      (walkStepAt put (stepDraw rng d (2 * D * dt)) (x, g)) from Function.iterate_succ_apply _ _ _]
    have e : time + dt + ((n : ℝ) + 1) * dt = time + (((n + 1 : ℕ) : ℝ) + 1) * dt := by push_cast; ring
    rw [e]

private theorem pruned_alive [DecidablePred (· ∈ S)] (n : Nat) :
    ∀ (x : Fin d → ℝ) (g : G) (time : ℝ), x ∉ nearSet c t.targetSize →
    (∀ m < n, (walkStepAt put (stepDraw rng d (2 * D * dt)))^[m + 1] (x, g) ∈ (S \ nearSet c t.targetSize) ×ˢ Set.univ) →
    (∀ i < n, time + i * dt < fpt) → ¬ time + n * dt < fpt →
    ∀ fuel ≥ n + 1, prunedSearch (fun s => t.ops.checkFind s.1.pos) (freshTurn rng sys dt) dt fpt fuel (walkerAt D x, g) time =
      (((walkerAt D ((walkStepAt put (stepDraw rng d (2 * D * dt)))^[n] (x, g)).1,
          ((walkStepAt put (stepDraw rng d (2 * D * dt)))^[n] (x, g)).2), time + n * dt), some (.ok (time + n * dt))) := by
  induction n with
  | zero =>
    intro x g time hx _ _ hn fuel hf
    have hlt : ¬ time < fpt := by simpa using hn
    obtain ⟨k, rfl⟩ : ∃ k, fuel = k + 1 := ⟨fuel - 1, by omega⟩
    have ht0 : t.ops.checkFind (walkerAt D x).pos = .ok false := (checkFind_eq c x t ht).2 hx
    rw [prunedSearch]
    simp only [ht0, fl_lt, decide_eq_true_eq, if_neg hlt]
    simp
  | succ n ih =>
    intro x g time hx ha hi hn fuel hf
    have hlt : time < fpt := by simpa using hi 0 (by omega)
    have h0 := ha 0 (by omega)
    simp only [Nat.zero_add, Function.iterate_one] at h0
    have ht0 : t.ops.checkFind (walkerAt D x).pos = .ok false := (checkFind_eq c x t ht).2 hx
    obtain ⟨k, rfl⟩ : ∃ k, fuel = k + 1 := ⟨fuel - 1, by omega⟩
    have h := ih _ (walkStepAt put (stepDraw rng d (2 * D * dt)) (x, g)).2 (time + dt) h0.1.2
      (fun m hm => by have := ha (m + 1) (by omega); rwa [Function.iterate_succ_apply] at this)
      (fun i h => by have := hi (i + 1) (by omega); push_cast at this; linarith)
      (by push_cast at hn; intro h; exact hn (by linarith)) k (by omega)
    rw [prunedSearch]
    simp only [ht0, turn_eq w, if_pos h0.1.1, fl_lt, decide_eq_true_eq, if_pos hlt]
    rw [h]
    rw [show ((walkStepAt put (stepDraw rng d (2 * D * dt)))^[n + 1] (x, g)) = (walkStepAt put (stepDraw rng d (2 * D * dt)))^[n]
      (walkStepAt put (stepDraw rng d (2 * D * dt)) (x, g)) from Function.iterate_succ_apply _ _ _]
    have e : time + dt + (n : ℝ) * dt = time + ((n + 1 : ℕ) : ℝ) * dt := by push_cast; ring
    rw [e]
end

/-- the limit after a record of `m` steps. -/
private theorem limit_record {dt : ℝ} (hdt : 0 < dt) {m : ℕ} (hm : m ≤ ⌈(Fl.maxVal : ℝ) / dt⌉₊) :
    (∀ i : ℕ, i < m → 0 + (i : ℝ) * dt < min (m * dt) Fl.maxVal) ∧ ¬ 0 + (m : ℝ) * dt < min (m * dt) Fl.maxVal := by
  constructor
  · intro i hi
    rw [lt_min_iff]
    constructor
    · rw [zero_add]
      exact mul_lt_mul_of_pos_right (by exact_mod_cast hi) hdt
    · exact (limit_steps hdt).1 i (by omega)
  · simp

/-- One searcher: the outcome is that of the complete search, cut. -/
private theorem pruned_yields (rng : RngOps G ℝ) (P : Measure G) [IsProbabilityMeasure P] (sys : SysOps G ℝ) (d : Nat) (S₀ S : Set (Fin d → ℝ))
    (room : Room P sys d S₀) (put : (Fin d → ℝ) → Fin d → ℝ) (w : Walls sys S put)
    (c : Fin d → ℝ) (t : BulkTarget ℝ) (ht : t.targetPos = List.ofFn c) (hpos : volume (S₀ \ nearSet c t.targetSize) ≠ 0)
    (D dt : ℝ) (hdt : 0 < dt) (μ : Measure (Fin d → ℝ)) [IsProbabilityMeasure μ]
    (hq : MeasurePreserving (stepDraw rng d (2 * D * dt)) P (μ.prod P))
    (hdec : Tendsto (fun n => searching put S (nearSet c t.targetSize) μ (uniformLaw (S₀ \ nearSet c t.targetSize)) n Set.univ)
      atTop (nhds 0)) (m : ℕ) :
    ∃ f : G → (ℕ × Bool) × G,
      MeasurePreserving f P (((searchLaw put S (nearSet c t.targetSize) μ (uniformLaw (S₀ \ nearSet c t.targetSize))).map (cutSteps m)).prod P) ∧
      (m ≤ ⌈(Fl.maxVal : ℝ) / dt⌉₊ → ∀ᵐ g ∂P, (f g).1.1 ≤ m ∧ ∃ N, ∀ loops ≥ N, ∀ buf : Pos ℝ, buf.length = d → ∃ buf' : Pos ℝ, buf'.length = d ∧
        prunedSearcher rng sys t.ops loops loops loops (.brownian D) dt (min (m * dt) Fl.maxVal) (buf, g) =
          some (reported dt (f g).1, (buf', (f g).2))) := by
  classical
  set T := nearSet c t.targetSize with hT
  have hTm : MeasurableSet T := near_meas _ _
  have hfin : volume (S₀ \ T) ≠ ∞ := ne_top_of_le_ne_top room.volume_finite (measure_mono Set.sdiff_subset)
  have hprob := uniformLaw_prob hpos hfin
  have R := search_rounds w.measurable hq w.room_measurable hTm hTm.compl (r := 1) (fun x hx => hx.2) (fun x _ => prob_le_one)
  have hπB : uniformLaw (S₀ \ T) Tᶜᶜ = 0 := by
    rw [compl_compl]
    simp only [uniformLaw, Measure.smul_apply, Measure.restrict_apply hTm, smul_eq_mul]
    refine mul_eq_zero_of_right _ (measure_mono_null ?_ (measure_empty (μ := volume)))
    rintro x ⟨a, b⟩
    exact absurd a b.2
  have hcut := R.cut true (uniformLaw (S₀ \ T)) hπB hdec m
  have hsays := cutRun_says true (walkStepAt put (stepDraw rng d (2 * D * dt)))
    (walkStepAt put (stepDraw rng d (2 * D * dt)) ⁻¹' ((S \ T)ᶜ ×ˢ Set.univ))
    (fun y => (decide ((walkStepAt put (stepDraw rng d (2 * D * dt)) y).1 ∈ S), (walkStepAt put (stepDraw rng d (2 * D * dt)) y).2)) m
  generalize cutRun true (walkStepAt put (stepDraw rng d (2 * D * dt)))
    (walkStepAt put (stepDraw rng d (2 * D * dt)) ⁻¹' ((S \ T)ᶜ ×ˢ Set.univ))
    (fun y => (decide ((walkStepAt put (stepDraw rng d (2 * D * dt)) y).1 ∈ S), (walkStepAt put (stepDraw rng d (2 * D * dt)) y).2)) m = Q
    at hcut hsays
  obtain ⟨f, hf, hfae⟩ := off_target room c t ht hpos
  have hsucc : Measurable fun y : ℕ × Bool => (y.1 + 1, y.2) := .of_discrete
  have hmin : Measurable fun y : ℕ × Bool => (min (y.1 + 1) m, y.2) := .of_discrete
  rw [searchLaw_succ w μ (uniformLaw (S₀ \ T)) T]
  set ρ₀ : Measure (ℕ × Bool) := Measure.sum fun n => (((walked put μ ((fun π => (walked put μ π).restrict (S \ T))^[n] (uniformLaw (S₀ \ T)))).restrict
    (S \ T)ᶜ).map fun x => decide (x ∈ S)).map fun b => (n, b) with hρ₀
  obtain ⟨F, ρ', hρ', hρe, -⟩ := R.run (uniformLaw (S₀ \ T)) hπB hdec
  have hp0 : IsProbabilityMeasure ρ₀ := by rw [hρe] at hρ'; exact hρ'
  have hlaw : (ρ₀.map fun y => (y.1 + 1, y.2)).map (cutSteps m) = (ρ₀.map (cutAt true m)).map fun y => (min (y.1 + 1) m, y.2) := by
    rw [Measure.map_map .of_discrete hsucc, Measure.map_map hmin (cutAt_meas true m)]
    congr 1
    funext y
    simp only [Function.comp_apply, cutSteps, cutAt]
    by_cases hy : y.1 < m
    · rw [if_pos hy, if_pos (by omega)]; simp only [Prod.mk.injEq, and_true]; omega
    · rw [if_neg hy, if_neg (by omega)]; simp only [Prod.mk.injEq, and_true]; omega
  rw [hlaw]
  have : IsProbabilityMeasure (ρ₀.map (cutAt true m)) := Measure.isProbabilityMeasure_map (cutAt_meas true m).aemeasurable
  have : IsProbabilityMeasure ((ρ₀.map (cutAt true m)).map fun y => (min (y.1 + 1) m, y.2)) :=
    Measure.isProbabilityMeasure_map hmin.aemeasurable
  refine ⟨fun g => ((min ((Q (f g)).1.1 + 1) m, (Q (f g)).1.2), (Q (f g)).2), ?_, ?_⟩
  · have h3 : MeasurePreserving (fun y : ℕ × Bool => (min (y.1 + 1) m, y.2)) (ρ₀.map (cutAt true m))
      ((ρ₀.map (cutAt true m)).map fun y => (min (y.1 + 1) m, y.2)) := ⟨hmin, rfl⟩
    exact (h3.prod (MeasurePreserving.id P)).comp (hcut.comp hf)
  · intro hm
    have hstart : ∀ᵐ y ∂((uniformLaw (S₀ \ T)).prod P), y.1 ∉ T := by
      have : ∀ᵐ x ∂uniformLaw (S₀ \ T), x ∉ T := by
        rw [ae_iff]
        refine measure_mono_null ?_ hπB
        intro x hx hx'
        simp only [Set.mem_ofPred_eq, not_not] at hx
        exact hx' hx
      exact (Measure.quasiMeasurePreserving_fst (μ := uniformLaw (S₀ \ T)) (ν := P)).ae this
    filter_upwards [hfae, hf.quasiMeasurePreserving.ae hstart] with g ⟨N, hN⟩ hx
    refine ⟨min_le_right _ _, max N (m + 2), fun loops hl buf hbuf => ?_⟩
    have hl1 : N ≤ loops := le_trans (le_max_left _ _) hl
    have hl2 : m + 2 ≤ loops := le_trans (le_max_right _ _) hl
    have hnew : IndepAgent.newUniform sys t.ops loops loops g (.brownian D) = some (.ok (walkerAt D (f g).1), (f g).2) := by
      simp [IndepAgent.newUniform, hN loops hl1 loops hl1 _ room.outDim, Pos.dim, walkerAt]
    obtain ⟨buf', hbuf', he⟩ := prunedSearcher_fresh rng sys t.ops loops loops loops (.brownian D) dt (min (m * dt) Fl.maxVal) buf hbuf g
      (f g).2 (walkerAt D (f g).1) (by simp [walkerAt]) hnew
    refine ⟨buf', hbuf', he.trans ?_⟩
    obtain ⟨l1, l2⟩ := limit_record hdt hm
    unfold freshPruned
    have key : ∀ j, (walkStepAt put (stepDraw rng d (2 * D * dt)))^[j] (f g) ∉
        (walkStepAt put (stepDraw rng d (2 * D * dt))) ⁻¹' ((S \ T)ᶜ ×ˢ Set.univ) →
        (walkStepAt put (stepDraw rng d (2 * D * dt)))^[j + 1] (f g) ∈ (S \ T) ×ˢ Set.univ := by
      intro j this
      rw [Function.iterate_succ_apply']
      simp only [Set.mem_preimage, Set.mem_prod, Set.mem_compl_iff, Set.mem_univ, and_true, not_not] at this ⊢
      exact this
    rcases hsays (f g) with ⟨n, hn, a1, a2, a3⟩ | ⟨a1, a2⟩
    · have e2 : (walkStepAt put (stepDraw rng d (2 * D * dt)))^[n + 1] (f g) ∉ (S \ T) ×ˢ Set.univ := by
        rw [Function.iterate_succ_apply']
        simp only [Set.mem_preimage, Set.mem_prod, Set.mem_compl_iff, Set.mem_univ, and_true] at a2 ⊢
        exact a2
      obtain ⟨time', hw⟩ := pruned_stop (rng := rng) w D dt (min (m * dt) Fl.maxVal) c t ht n (f g).1 (f g).2 0 hx
        (fun j hj => key j (a1 j hj)) e2 (fun i hi => l1 i (by omega))
      have := hw loops (by omega)
      rw [this]
      simp only [a3]
      rw [← Function.iterate_succ_apply' (walkStepAt put (stepDraw rng d (2 * D * dt))) n (f g), min_eq_left (by omega : n + 1 ≤ m)]
      simp only [reported, Prod.mk.eta, decide_eq_true_eq, zero_add, Nat.cast_add, Nat.cast_one]
    · have hw := pruned_alive (rng := rng) w D dt (min (m * dt) Fl.maxVal) c t ht m (f g).1 (f g).2 0 hx
        (fun j hj => key j (a1 j hj)) l1 l2 loops (by omega)
      rw [hw]
      simp only [a2]
      rw [min_eq_right (by omega : m ≤ m + 1)]
      simp [reported]

/-- All searchers of an ensemble: the outcome is that of the race. -/
private theorem race_yields (rng : RngOps G ℝ) (P : Measure G) [IsProbabilityMeasure P] (sys : SysOps G ℝ) (d : Nat) (S₀ S : Set (Fin d → ℝ))
    (room : Room P sys d S₀) (put : (Fin d → ℝ) → Fin d → ℝ) (w : Walls sys S put)
    (c : Fin d → ℝ) (t : BulkTarget ℝ) (ht : t.targetPos = List.ofFn c) (hpos : volume (S₀ \ nearSet c t.targetSize) ≠ 0)
    (D dt : ℝ) (hdt : 0 < dt) (μ : Measure (Fin d → ℝ)) [IsProbabilityMeasure μ]
    (hq : MeasurePreserving (stepDraw rng d (2 * D * dt)) P (μ.prod P))
    (hdec : Tendsto (fun n => searching put S (nearSet c t.targetSize) μ (uniformLaw (S₀ \ nearSet c t.targetSize)) n Set.univ)
      atTop (nhds 0)) (ρ : Measure (ℕ × Bool)) [IsProbabilityMeasure ρ]
    (hρ : ρ = searchLaw put S (nearSet c t.targetSize) μ (uniformLaw (S₀ \ nearSet c t.targetSize))) (n : ℕ) : ∀ m : ℕ,
    ∃ f : G → (ℕ × Bool) × G, MeasurePreserving f P ((raceLaw ρ m n).prod P) ∧
      (m ≤ ⌈(Fl.maxVal : ℝ) / dt⌉₊ → ∀ᵐ g ∂P, ∃ N, ∀ loops ≥ N, ∀ buf : Pos ℝ, buf.length = d → ∃ buf' : Pos ℝ, buf'.length = d ∧
        prunedLoop (prunedSearcher rng sys t.ops loops loops loops (.brownian D) dt) n (buf, g) (min (m * dt) Fl.maxVal) =
          some (written dt (f g).1, (buf', (f g).2))) := by
  induction n with
  | zero =>
    intro m
    refine ⟨fun g => ((m, true), g), ?_, fun _ => .of_forall fun g => ⟨0, fun loops _ buf hb => ⟨buf, hb, rfl⟩⟩⟩
    rw [raceLaw_zero]
    refine ⟨measurable_const.prodMk measurable_id, ?_⟩
    rw [Measure.dirac_prod]
  | succ n ih =>
    intro m
    choose cc hc1 hc2 using ih
    obtain ⟨f, hf, hfae⟩ := pruned_yields rng P sys d S₀ S room put w c t ht hpos D dt hdt μ hq hdec m
    rw [← hρ] at hf
    have hcutp : IsProbabilityMeasure (ρ.map (cutSteps m)) := Measure.isProbabilityMeasure_map (Measurable.of_discrete).aemeasurable
    have hνp : ∀ y : ℕ × Bool, IsProbabilityMeasure (if y.2 then raceLaw ρ y.1 n else Measure.dirac y) := fun y => by
      cases y.2 <;> simp <;> infer_instance
    have hc : ∀ y : ℕ × Bool, MeasurePreserving (fun g => if y.2 then cc y.1 g else (y, g)) P
        ((if y.2 then raceLaw ρ y.1 n else Measure.dirac y).prod P) := by
      intro y
      cases hy : y.2
      · simp only [Bool.false_eq_true, if_false]
        refine ⟨measurable_const.prodMk measurable_id, ?_⟩
        rw [Measure.dirac_prod]
      · simp only [if_true]
        exact hc1 y.1
    obtain ⟨-, hmp⟩ := bind_mp hf hc
    rw [← raceLaw_succ] at hmp
    refine ⟨_, hmp, fun hm => ?_⟩
    have hall : ∀ᵐ g ∂P, ∀ k, k ≤ ⌈(Fl.maxVal : ℝ) / dt⌉₊ → ∃ N, ∀ loops ≥ N, ∀ buf : Pos ℝ, buf.length = d → ∃ buf' : Pos ℝ, buf'.length = d ∧
        prunedLoop (prunedSearcher rng sys t.ops loops loops loops (.brownian D) dt) n (buf, g) (min (k * dt) Fl.maxVal) =
          some (written dt (cc k g).1, (buf', (cc k g).2)) := by
      rw [ae_all_iff]
      intro k
      by_cases hk : k ≤ ⌈(Fl.maxVal : ℝ) / dt⌉₊
      · filter_upwards [hc2 k hk] with g hg _ using hg
      · exact .of_forall fun g h => absurd h hk
    have hsnd : Measure.QuasiMeasurePreserving (fun g => (f g).2) P P := (measurePreserving_snd.comp hf).quasiMeasurePreserving
    filter_upwards [hfae hm, hsnd.ae hall] with g ⟨hle, N1, h1⟩ h2
    obtain ⟨N2, h2⟩ := h2 (f g).1.1 (hle.trans hm)
    refine ⟨max N1 N2, fun loops hl buf hb => ?_⟩
    obtain ⟨b1, hb1, e1⟩ := h1 loops (le_trans (le_max_left _ _) hl) buf hb
    obtain ⟨b2, hb2, e2⟩ := h2 loops (le_trans (le_max_right _ _) hl) b1 hb1
    cases hy : (f g).1.2 with
    | false =>
      refine ⟨b1, hb1, ?_⟩
      rw [prunedLoop, e1]
      simp [reported, written, hy]
    | true =>
      refine ⟨b2, hb2, ?_⟩
      rw [prunedLoop, e1]
      have hr : reported dt (f g).1 = .ok ((f g).1.1 * dt) := by simp [reported, hy]
      rw [hr]
      simp only [if_true, fl_lt, decide_eq_true_eq]
      have hmin : (if ((f g).1.1 : ℝ) * dt < min (m * dt) Fl.maxVal then ((f g).1.1 : ℝ) * dt else min (m * dt) Fl.maxVal) =
          min ((f g).1.1 * dt) Fl.maxVal := by
        have hle' : ((f g).1.1 : ℝ) * dt ≤ m * dt := mul_le_mul_of_nonneg_right (by exact_mod_cast hle) hdt.le
        split_ifs with h
        · exact (min_eq_left (h.le.trans (min_le_right _ _))).symm
        · rw [not_lt] at h
          refine le_antisymm (le_min h (min_le_right _ _)) (min_le_min hle' le_rfl)
      rw [hmin, e2]

/-- the program begins with `f64::MAX`. -/
private theorem run_yields (rng : RngOps G ℝ) (P : Measure G) [IsProbabilityMeasure P] (sys : SysOps G ℝ) (d : Nat) (S₀ S : Set (Fin d → ℝ))
    (room : Room P sys d S₀) (put : (Fin d → ℝ) → Fin d → ℝ) (w : Walls sys S put)
    (c : Fin d → ℝ) (t : BulkTarget ℝ) (ht : t.targetPos = List.ofFn c) (hpos : volume (S₀ \ nearSet c t.targetSize) ≠ 0)
    (D dt : ℝ) (hdt : 0 < dt) (μ : Measure (Fin d → ℝ)) [IsProbabilityMeasure μ]
    (hq : MeasurePreserving (stepDraw rng d (2 * D * dt)) P (μ.prod P))
    (hdec : Tendsto (fun n => searching put S (nearSet c t.targetSize) μ (uniformLaw (S₀ \ nearSet c t.targetSize)) n Set.univ)
      atTop (nhds 0)) (ρ : Measure (ℕ × Bool)) [IsProbabilityMeasure ρ]
    (hρ : ρ = searchLaw put S (nearSet c t.targetSize) μ (uniformLaw (S₀ \ nearSet c t.targetSize))) (n : ℕ) :
    ∃ f : G → (ℕ × Bool) × G, MeasurePreserving f P ((raceLaw ρ ⌈(Fl.maxVal : ℝ) / dt⌉₊ n).prod P) ∧
      ∀ᵐ g ∂P, ∃ N, ∀ loops ≥ N, ∀ buf : Pos ℝ, buf.length = d → ∃ buf' : Pos ℝ, buf'.length = d ∧
        prunedRun rng sys t.ops loops loops loops (.brownian D) dt n (buf, g) = some (written dt (f g).1, (buf', (f g).2)) := by
  obtain ⟨f, hf, hae⟩ := race_yields rng P sys d S₀ S room put w c t ht hpos D dt hdt μ hq hdec ρ hρ n ⌈(Fl.maxVal : ℝ) / dt⌉₊
  refine ⟨f, hf, ?_⟩
  have := hae le_rfl
  rw [min_eq_right (by have := (limit_steps (fpt := (Fl.maxVal : ℝ)) hdt).2; rw [zero_add] at this; exact not_lt.1 this)] at this
  exact this

section
variable (rng : RngOps G ℝ) (P : Measure G) (h : IdealRng rng P) (sys : SysOps G ℝ) (d : Nat) (S₀ S : Set (Fin d → ℝ))
  (room : Room P sys d S₀) (hbd : ∃ M, ∀ x ∈ S₀, ∀ i, |x i| ≤ M) (put : (Fin d → ℝ) → Fin d → ℝ) (w : Walls sys S put)
  (c : Fin d → ℝ) (t : BulkTarget ℝ) (ht : t.targetPos = List.ofFn c) (hpos : volume (S₀ \ nearSet c t.targetSize) ≠ 0)
  (D dt : ℝ) (hD : 0 < D) (hdt : 0 < dt) (ρ : Measure (ℕ × Bool))
  (hρ : ρ = searchLaw put S (nearSet c t.targetSize) (normalLaw _ (2 * D * dt)) (uniformLaw (S₀ \ nearSet c t.targetSize)))
include h room hbd w ht hpos hD hdt hρ

/-- An ensemble of `n` searchers with an ideal generator, whatever the buffer contains: it ends with probability one, with the
outcome of a race of `n` independent complete searches, each distributed as in a random walk (C77), although they are not
followed to their ends.  The outcome does not depend on the state the generator is left in, which again has the distribution
`P`, so ensembles after each other are independent. -/
theorem C102_law (n : ℕ) : ∃ f : G → (ℕ × Bool) × G, MeasurePreserving f P ((raceLaw ρ ⌈(Fl.maxVal : ℝ) / dt⌉₊ n).prod P) ∧
    ∀ᵐ g ∂P, ∃ N, ∀ loops ≥ N, ∀ buf : Pos ℝ, buf.length = d → ∃ buf' : Pos ℝ, buf'.length = d ∧
      prunedRun rng sys t.ops loops loops loops (.brownian D) dt n (buf, g) = some (written dt (f g).1, (buf', (f g).2)) := by
  have := h.prob
  obtain ⟨-, hprob, hmass, r, hr, htail⟩ := C77_search rng P h sys d S₀ S room hbd put w c t ht hpos D dt hD hdt
  rw [← hρ] at hprob hmass htail
  refine run_yields rng P sys d S₀ S room put w c t ht hpos D dt hdt _ (normal_mp h d (by positivity)) ?_ ρ hρ n
  simp only [← hmass]
  exact tendsto_of_tendsto_of_tendsto_of_le_of_le tendsto_const_nhds (ENNReal.tendsto_pow_atTop_nhds_zero_of_lt_one hr)
    (fun _ => bot_le) htail

/-- The program is no less reliable than the one that follows all `n` searchers to their ends, which succeeds with probability
`q ^ n` where `q` is the probability that a search finds the target (`C77_success`): it succeeds and writes a number above
`k dt` with at least the probability with which the other does (`C99_fastest`). -/
theorem C102_reliable (n k : ℕ) (hk : (k : ℝ) * dt < Fl.maxVal) :
    ρ found ^ n ≤ P {g | ∃ N, ∀ loops ≥ N, ∀ buf : Pos ℝ, buf.length = d → ∃ m s',
      prunedRun rng sys t.ops loops loops loops (.brownian D) dt n (buf, g) = some (.ok m, s')} ∧
    ρ {y | y.2 = true ∧ k < y.1} ^ n ≤ P {g | ∃ N, ∀ loops ≥ N, ∀ buf : Pos ℝ, buf.length = d → ∃ m s',
      prunedRun rng sys t.ops loops loops loops (.brownian D) dt n (buf, g) = some (.ok m, s') ∧ k * dt < m} := by
  have := h.prob
  have hprob := (C77_search rng P h sys d S₀ S room hbd put w c t ht hpos D dt hD hdt).2.1
  rw [← hρ] at hprob
  obtain ⟨f, hf, hae⟩ := C102_law rng P h sys d S₀ S room hbd put w c t ht hpos D dt hD hdt ρ hρ n
  have hf1 : MeasurePreserving (fun g => (f g).1) P (raceLaw ρ ⌈(Fl.maxVal : ℝ) / dt⌉₊ n) := measurePreserving_fst.comp hf
  have hK : k < ⌈(Fl.maxVal : ℝ) / dt⌉₊ := Nat.lt_ceil.2 (by rwa [lt_div_iff₀ hdt])
  have pow : ∀ A : Set (ℕ × Bool), ρ A ^ n = (Measure.pi fun _ : Fin n => ρ) (Set.univ.pi fun _ => A) := by
    intro A; rw [Measure.pi_pi]; simp
  have go : ∀ (A B : Set (ℕ × Bool)), (∀ x : Fin n → ℕ × Bool, (∀ i, x i ∈ A) → race ⌈(Fl.maxVal : ℝ) / dt⌉₊ (List.ofFn x) ∈ B) →
      ρ A ^ n ≤ P ((fun g => (f g).1) ⁻¹' B) := by
    intro A B hAB
    rw [hf1.measure_preimage (MeasurableSet.of_discrete).nullMeasurableSet, raceLaw, Measure.map_apply (race_meas _ n) .of_discrete, pow]
    exact measure_mono fun x hx => hAB x fun i => hx i trivial
  constructor
  · refine (go found {y | y.2 = true} fun x hx => race_ok _ _ fun y hy => ?_).trans (measure_mono_ae ?_)
    · obtain ⟨i, rfl⟩ := (List.mem_ofFn' _ _).1 hy
      exact hx i
    · filter_upwards [hae] with g ⟨N, hN⟩ hg
      refine ⟨N, fun loops hl buf hb => ?_⟩
      obtain ⟨b', -, e⟩ := hN loops hl buf hb
      have hg : (f g).1.2 = true := hg
      rw [written, if_pos hg] at e
      exact ⟨_, _, e⟩
  · refine (go {y | y.2 = true ∧ k < y.1} {y | y.2 = true ∧ k < y.1} fun x hx => ?_).trans (measure_mono_ae ?_)
    · have h1 : ∀ y ∈ List.ofFn x, y.2 = true ∧ k < y.1 := by
        intro y hy
        obtain ⟨i, rfl⟩ := (List.mem_ofFn' _ _).1 hy
        exact hx i
      exact ⟨race_ok _ _ fun y hy => (h1 y hy).1, (race_gt hK _ fun y hy => (h1 y hy).1).2 fun y hy => (h1 y hy).2⟩
    · filter_upwards [hae] with g ⟨N, hN⟩ hg
      refine ⟨N, fun loops hl buf hb => ?_⟩
      obtain ⟨b', -, e⟩ := hN loops hl buf hb
      have hg : (f g).1.2 = true ∧ k < (f g).1.1 := hg
      rw [written, if_pos hg.1] at e
      have : (k : ℝ) < (f g).1.1 := by exact_mod_cast hg.2
      exact ⟨_, _, e, lt_min (mul_lt_mul_of_pos_right this hdt) hk⟩
end

section
variable (rng : RngOps G ℝ) (P : Measure G) (ν : Measure ℝ) (b : ℝ) (h : IndepRng rng P ν) (hν : BoundedSpread ν b)
  (sys : SysOps G ℝ) (d : Nat) (S₀ S : Set (Fin d → ℝ)) (room : Room P sys d S₀) (hconv : Convex ℝ S)
  (put : (Fin d → ℝ) → Fin d → ℝ) (w : Walls sys S put)
  (c : Fin d → ℝ) (t : BulkTarget ℝ) (ht : t.targetPos = List.ofFn c) (hpos : volume (S₀ \ nearSet c t.targetSize) ≠ 0)
  (hin : ∃ c' ε, 0 < ε ∧ nearSet c' ε ⊆ S ∩ nearSet c t.targetSize)
  (D dt : ℝ) (hD : 0 < D) (hdt : 0 < dt)
  (hsafe : ∀ x ∈ S₀ ∪ S, ∀ z : Fin d → ℝ, (∀ i, |z i| ≤ b * Real.sqrt (2 * D * dt)) → put (x + z) ∈ S)
  (ρ : Measure (ℕ × Bool))
  (hρ : ρ = searchLaw put S (nearSet c t.targetSize) (stepLaw d ν (Real.sqrt (2 * D * dt))) (uniformLaw (S₀ \ nearSet c t.targetSize)))
include h hν room hconv w ht hpos hin hD hdt hsafe hρ

/-- With bounded normal numbers (the setting of C100) the program writes a number above `k dt` with just the probability with
which the program that follows all `n` searchers to their ends does (`C100_fastest`): giving up searchers that cannot win
changes nothing in the distribution of the times written. -/
theorem C102_same_law (n k : ℕ) (hk : (k : ℝ) * dt < Fl.maxVal) :
    P {g | ∃ N, ∀ loops ≥ N, ∀ buf : Pos ℝ, buf.length = d → ∃ m s',
      prunedRun rng sys t.ops loops loops loops (.brownian D) dt n (buf, g) = some (.ok m, s') ∧ k * dt < m} = ρ {y | k < y.1} ^ n := by
  have := h.prob
  have := hν.prob
  have hμ := stepLaw_prob d (ν := ν) (Real.sqrt (2 * D * dt))
  obtain ⟨-, hprob, hfail, -⟩ := C100_search rng P ν b h hν sys d S₀ S room hconv put w c t ht hpos hin D dt hD hdt hsafe ρ hρ
  obtain ⟨-, -, -, -, -, hdec⟩ := bounded_short P ν b hν sys d S₀ S room hconv put w c t ht hpos hin D dt hD hdt
  obtain ⟨f, hf, hae⟩ := run_yields rng P sys d S₀ S room put w c t ht hpos D dt hdt _ (step_mp h d (2 * D * dt)) hdec ρ hρ n
  have hf1 : MeasurePreserving (fun g => (f g).1) P (raceLaw ρ ⌈(Fl.maxVal : ℝ) / dt⌉₊ n) := measurePreserving_fst.comp hf
  have hK : k < ⌈(Fl.maxVal : ℝ) / dt⌉₊ := Nat.lt_ceil.2 (by rwa [lt_div_iff₀ hdt])
  have h1 : ∀ᵐ y ∂ρ, y.2 = true := by rw [ae_iff]; simpa using hfail
  have hall : ∀ᵐ x ∂(Measure.pi fun _ : Fin n => ρ), ∀ i, (x i).2 = true := by
    rw [ae_all_iff]
    exact fun i => (measurePreserving_eval (fun _ : Fin n => ρ) i).quasiMeasurePreserving.ae h1
  have e : ρ {y | k < y.1} ^ n = P ((fun g => (f g).1) ⁻¹' {y | y.2 = true ∧ k < y.1}) := by
    rw [hf1.measure_preimage (MeasurableSet.of_discrete).nullMeasurableSet, raceLaw, Measure.map_apply (race_meas _ n) .of_discrete]
    have : ρ {y | k < y.1} ^ n = (Measure.pi fun _ : Fin n => ρ) (Set.univ.pi fun _ => {y | k < y.1}) := by
      rw [Measure.pi_pi]; simp
    rw [this]
    refine measure_congr ?_
    filter_upwards [hall] with x hx
    have hx' : ∀ y ∈ List.ofFn x, y.2 = true := by
      intro y hy
      obtain ⟨i, rfl⟩ := (List.mem_ofFn' _ _).1 hy
      exact hx i
    refine propext ⟨fun hg => ⟨race_ok _ _ hx', (race_gt hK _ hx').2 fun y hy => ?_⟩, fun hg i _ => ?_⟩
    · obtain ⟨i, rfl⟩ := (List.mem_ofFn' _ _).1 hy
      exact hg i trivial
    · exact (race_gt hK _ hx').1 hg.2 _ ((List.mem_ofFn' _ _).2 ⟨i, rfl⟩)
  rw [e]
  refine measure_congr ?_
  filter_upwards [hae] with g ⟨N, hN⟩
  refine propext ⟨fun ⟨M, hM⟩ => ?_, fun hg => ⟨N, fun loops hl buf hb => ?_⟩⟩
  · obtain ⟨m, s', hm, hkm⟩ := hM (max N M) (le_max_right _ _) (List.replicate d 0) (by simp)
    obtain ⟨b', -, e⟩ := hN (max N M) (le_max_left _ _) (List.replicate d 0) (by simp)
    rw [hm] at e
    simp only [Option.some.injEq, Prod.mk.injEq] at e
    have e := e.1
    unfold written at e
    split_ifs at e with hb
    have e := Res.ok.inj e
    rw [e] at hkm
    refine ⟨hb, ?_⟩
    have := lt_of_mul_lt_mul_right (hkm.trans_le (min_le_left _ _)) hdt.le
    exact_mod_cast this
  · obtain ⟨b', -, e⟩ := hN loops hl buf hb
    have hg : (f g).1.2 = true ∧ k < (f g).1.1 := hg
    rw [written, if_pos hg.1] at e
    have : (k : ℝ) < (f g).1.1 := by exact_mod_cast hg.2
    exact ⟨_, _, e, lt_min (mul_lt_mul_of_pos_right this hdt) hk⟩
end

/-! ### examples -/

-- two searches of 5 and 3 steps; one that fails after the record; one that fails before it
example : race 100 [(5, true), (3, true)] = (3, true) ∧ race 100 [(3, true), (5, false)] = (3, true) ∧
    race 100 [(5, true), (3, false), (2, true)] = (3, false) := by decide

/-- The hypotheses are met by an ideal generator, a square of half width 1 with mirrors, a target of radius 1/4 in its
middle, `D = 1` and `dt = 1/100`: an ensemble of three searchers. -/
example : let s : Cubic ℝ := ⟨.continuousRectangular, .reflection, 1, 2⟩
    ∃ ρ : Measure (ℕ × Bool), ρ {(1, true)} ≠ 0 ∧ ρ found ^ 3 ≤ tapeLaw {g | ∃ N, ∀ loops ≥ N, ∀ buf : Pos ℝ, buf.length = 2 → ∃ m s',
      prunedRun tapeRng (s.ops tapeRng) (BulkTarget.new [0, 0] (1 / 4)).ops loops loops loops (.brownian 1) (1 / 100) 3 (buf, g) = some (.ok m, s')} := by
  intro s
  have hs : Cubic.new .reflection (1 : ℝ) 2 = .ok s := by
    unfold Cubic.new; rw [if_neg (by simp)]
  have w := (C77_walls tapeRng).1 .reflection 1 2 s hs
  have room := (C73_systems tapeRng tapeLaw tape_ideal).1 s (by simp [s])
  refine ⟨_, (C77_outcomes tapeRng tapeLaw tape_ideal _ 2 _ _ room w.bounded _ w (fun _ => 0) (BulkTarget.new [0, 0] (1 / 4))
    (by simp [BulkTarget.new]) square_example 1 (1 / 100) (by norm_num) (by norm_num) _ rfl).2 ⟨fun _ => 0, 1 / 4, by norm_num, square_target⟩,
    (C102_reliable tapeRng tapeLaw tape_ideal _ 2 _ _ room w.bounded _ w (fun _ => 0) (BulkTarget.new [0, 0] (1 / 4))
    (by simp [BulkTarget.new]) square_example 1 (1 / 100) (by norm_num) (by norm_num) _ rfl 3 0 ?_).1⟩
  exact lt_of_lt_of_le (by norm_num : ((0 : ℕ) : ℝ) * (1 / 100) < 1) one_le_maxVal

/-- With normal numbers cut at 10: the time of the fastest of three searchers. -/
example : let s : Cubic ℝ := ⟨.continuousRectangular, .reflection, 1, 2⟩
    ∃ ρ : Measure (ℕ × Bool), ρ {y | y.2 = false} = 0 ∧
    tapeLaw {g | ∃ N, ∀ loops ≥ N, ∀ buf : Pos ℝ, buf.length = 2 → ∃ m s',
      prunedRun (cutRng tapeRng 10) (s.ops (cutRng tapeRng 10)) (BulkTarget.new [0, 0] (1 / 4)).ops loops loops loops (.brownian 1) (1 / 100) 3 (buf, g) =
        some (.ok m, s') ∧ ((1 : ℕ) : ℝ) * (1 / 100) < m} = ρ {y | 1 < y.1} ^ 3 := by
  intro s
  have hs : Cubic.new .reflection (1 : ℝ) 2 = .ok s := by
    unfold Cubic.new; rw [if_neg (by simp)]
  have w := (C77_walls (cutRng tapeRng 10)).1 .reflection 1 2 s hs
  have room := (C73_systems (cutRng tapeRng 10) tapeLaw (cut_indep tape_ideal 10)).1 s (by simp [s])
  have h1 : Real.sqrt (2 * 1 * (1 / 100)) ≤ 1 / 5 := by
    rw [Real.sqrt_le_left (by norm_num)]; norm_num
  have hsafe : ∀ x ∈ cubeSet 2 1 ∪ cubeSet 2 1, ∀ z : Fin 2 → ℝ, (∀ i, |z i| ≤ 10 * Real.sqrt (2 * 1 * (1 / 100))) →
      cubePut .reflection 1 (x + z) ∈ cubeSet 2 1 := fun x hx z hz =>
    (C77_safe_steps 2 x z).1 .reflection 1 one_pos hx fun i => (hz i).trans (by linarith)
  exact ⟨_, (C100_search _ tapeLaw _ 10 (cut_indep tape_ideal 10) (C100_cut_normal (by norm_num)) _ 2 _ _ room (cube_convex 2 1) _ w (fun _ => 0)
    (BulkTarget.new [0, 0] (1 / 4)) (by simp [BulkTarget.new]) square_example ⟨fun _ => 0, 1 / 4, by norm_num, square_target⟩ 1 (1 / 100) (by norm_num)
    (by norm_num) hsafe _ rfl).2.2.1,
    C102_same_law _ tapeLaw _ 10 (cut_indep tape_ideal 10) (C100_cut_normal (by norm_num)) _ 2 _ _ room (cube_convex 2 1) _ w (fun _ => 0)
    (BulkTarget.new [0, 0] (1 / 4)) (by simp [BulkTarget.new]) square_example ⟨fun _ => 0, 1 / 4, by norm_num, square_target⟩ 1 (1 / 100) (by norm_num)
    (by norm_num) hsafe _ rfl 3 1 (lt_of_lt_of_le (by norm_num : ((1 : ℕ) : ℝ) * (1 / 100) < 1) one_le_maxVal)⟩

end Moledyn.Props
