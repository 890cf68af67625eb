import Verif.Lemmas.MergeSimulates
import Verif.Props.MergeSearch
/-
C106: the distribution of the outcome of a search by merging searchers (tests/merge_fpt.rs).
-/
namespace Moledyn.Props
open Moledyn LList MeasureTheory ProbabilityTheory Filter
open scoped ENNReal NNReal Topology
set_option linter.unusedSectionVars false
variable {G : Type} [MeasurableSpace G]

theorem start_turn {n d : ℕ} (hn : 0 < n) (D alpha radius : ℝ) (y : Fin n → Fin d → ℝ) (g : G) (ms : List (Nat × Nat)) :
    TurnStart D alpha radius (List.ofFn fun i : Fin n => (i, 1)) y ⟨LList.from' (List.ofFn fun i => crew D alpha radius 1 (y i)), g, ms⟩ := by
  refine ⟨?_, _, rep_from _, ?_, ?_, ?_⟩
  · intro h
    have := congrArg List.length h
    simp at this
    omega
  · show List.range _ = _
    refine List.ext_getElem (by simp [slotsOf]) fun i h1 h2 => ?_
    simp [slotsOf]
  · intro a ha
    obtain ⟨i, rfl⟩ := List.mem_ofFn.1 ha
    refine ⟨?_, le_rfl⟩
    show (List.ofFn fun i => crew D alpha radius 1 (y i))[i.val]? = _
    rw [List.getElem?_eq_getElem (by simp), List.getElem_ofFn]
  · show (List.ofFn fun i => crew D alpha radius 1 (y i)).length = n
    simp

/-- with an endless clock, the clock does not end. -/
theorem move_clock {n d : ℕ} (W : MergeWorld d) (hclk : ∀ k, (W.clk k).isSome) (x : MergeState n d) (z : Fin d → ℝ)
    (h : x.1.over ≠ some .clock) : (mergeMove W x z).1.over ≠ some .clock := by
  rcases x with ⟨⟨turns, dn, _ | ⟨⟨i, m⟩, rest⟩, over⟩, y⟩
  · exact h
  · by_cases h1 : movedTo W turns y i m z ∈ W.room
    · by_cases h2 : movedTo W turns y i m z ∈ W.target
      · rw [move_found W h1 h2]; simp
      · by_cases h3 : rest = []
        · subst h3
          rw [move_last W h1 h2]
          have := hclk (turns + 1)
          simp [Option.isNone_iff_eq_none, Option.isSome_iff_ne_none.1 this]
        · rw [move_next W h1 h2 h3]; exact h
    · rw [move_tooFar W h1]; simp

/-- The process with a random source: if it ends with probability one, the outcome has the distribution `mergeLaw`, and does
not depend on the state the source is left in. -/
theorem merge_process {n d : ℕ} {P : Measure G} [IsProbabilityMeasure P] {W : MergeWorld d}
    (hT : Measurable fun p : MergeState n d × (Fin d → ℝ) => mergeMove W p.1 p.2) {q : G → (Fin d → ℝ) × G} {μ : Measure (Fin d → ℝ)} [IsProbabilityMeasure μ]
    (hq : MeasurePreserving q P (μ.prod P)) (π : Measure (Fin n → Fin d → ℝ)) [IsProbabilityMeasure π]
    (hend : ∀ᵐ y ∂(π.prod P), ∃ N, ((drawStep (mergeMove W) q)^[N + 1] (mergeStart y.1, y.2)).1 ∉ searchesOn n d) :
    IsProbabilityMeasure (mergeLaw W μ π) ∧ ∃ F : (Fin n → Fin d → ℝ) × G → (ℕ × Ending) × G,
      MeasurePreserving F (π.prod P) ((mergeLaw W μ π).prod P) ∧
      ∀ᵐ y ∂(π.prod P), ∃ N, (∀ m < N, ((drawStep (mergeMove W) q)^[m + 1] (mergeStart y.1, y.2)).1 ∈ searchesOn n d) ∧
        ((drawStep (mergeMove W) q)^[N + 1] (mergeStart y.1, y.2)).1 ∉ searchesOn n d ∧
        F y = (mergeOutcome ((drawStep (mergeMove W) q)^[N + 1] (mergeStart y.1, y.2)).1, ((drawStep (mergeMove W) q)^[N + 1] (mergeStart y.1, y.2)).2) := by
  have hms : MeasurePreserving (mergeStart : (Fin n → Fin d → ℝ) → MergeState n d) π (π.map mergeStart) := ⟨mergeStart_meas, rfl⟩
  have hprob' : IsProbabilityMeasure (π.map (mergeStart : (Fin n → Fin d → ℝ) → MergeState n d)) :=
    Measure.isProbabilityMeasure_map mergeStart_meas.aemeasurable
  have h1 : MeasurePreserving (fun y : (Fin n → Fin d → ℝ) × G => (mergeStart y.1, y.2)) (π.prod P) ((π.map mergeStart).prod P) := hms.prod (.id P)
  have hmeas : ∀ N, MeasurableSet {y : MergeState n d × G | ((drawStep (mergeMove W) q)^[N + 1] y).1 ∉ searchesOn n d} := fun N =>
    (measurable_fst.comp ((drawStep_meas hT hq).iterate _)) searchesOn_meas.compl
  have hend' : ∀ᵐ y ∂((π.map mergeStart).prod P), ∃ N, ((drawStep (mergeMove W) q)^[N + 1] y).1 ∉ searchesOn n d := by
    rw [← h1.map_eq, ae_map_iff h1.measurable.aemeasurable (by
      rw [show {y : MergeState n d × G | ∃ N, ((drawStep (mergeMove W) q)^[N + 1] y).1 ∉ searchesOn n d} = ⋃ N, {y | ((drawStep (mergeMove W) q)^[N + 1] y).1 ∉ searchesOn n d} by ext y; simp]
      exact .iUnion hmeas)]
    exact hend
  obtain ⟨F, ρ, hρ, hρe, hF, hFae⟩ := draw_run hT hq searchesOn_meas mergeOutcome_meas (π.map mergeStart) hend'
  have hlaw : ρ.map Prod.snd = mergeLaw W μ π := by
    rw [hρe, Measure.map_sum measurable_snd.aemeasurable, mergeLaw]
    congr 1
    funext k
    rw [Measure.map_map measurable_snd (by fun_prop)]
    exact Measure.map_id
  have hlp : IsProbabilityMeasure (mergeLaw W μ π) := by
    rw [← hlaw]; exact Measure.isProbabilityMeasure_map measurable_snd.aemeasurable
  have h2 : MeasurePreserving (Prod.map Prod.snd id : (ℕ × ℕ × Ending) × G → (ℕ × Ending) × G) (ρ.prod P) ((mergeLaw W μ π).prod P) := by
    have : MeasurePreserving (Prod.snd : ℕ × ℕ × Ending → ℕ × Ending) ρ (mergeLaw W μ π) := ⟨measurable_snd, hlaw⟩
    exact this.prod (.id P)
  refine ⟨hlp, fun y => Prod.map Prod.snd id (F (mergeStart y.1, y.2)), h2.comp (hF.comp h1), ?_⟩
  filter_upwards [h1.quasiMeasurePreserving.ae hFae] with y ⟨N, hN1, hN2, hN3⟩
  exact ⟨N, hN1, hN2, by rw [hN3]; rfl⟩

section
variable (rng : RngOps G ℝ) (P : Measure G) (ν : Measure ℝ) (h : IndepRng rng P ν) (hν : IsProbabilityMeasure ν)
  (sys : SysOps G ℝ) (d : Nat) (S₀ S : Set (Fin d → ℝ)) (room : Room P sys d S₀)
  (put : (Fin d → ℝ) → Fin d → ℝ) (w : Walls sys S put)
  (c : Fin d → ℝ) (t : BulkTarget ℝ) (ht : t.targetPos = List.ofFn c) (hpos : volume (S₀ \ nearSet c t.targetSize) ≠ 0)
  (D dt alpha radius : ℝ) (n : ℕ) (hn : 0 < n)
include h hν room w ht hpos hn

/-- A run of the program, if the process ends with probability one.  A run of more than `k` turns is one in which the process
is on after `k` steps. -/
theorem merge_yields (hend : ∀ᵐ y ∂(((Measure.pi fun _ : Fin n => uniformLaw (S₀ \ nearSet c t.targetSize)).map mergeStart).prod P),
      ∃ N, ((drawStep (mergeMove (worldOf put S (nearSet c t.targetSize) D alpha radius fun _ => some dt)) (drawsN rng.gaussian d))^[N + 1] y).1 ∉
        searchesOn n d) :
    IsProbabilityMeasure (mergeLaw (worldOf put S (nearSet c t.targetSize) D alpha radius fun _ => some dt) (Measure.pi fun _ : Fin d => ν)
      (Measure.pi fun _ : Fin n => uniformLaw (S₀ \ nearSet c t.targetSize))) ∧
    Yields P (fun loops g => mergeRun rng sys t.ops loops loops loops loops (.brownian D) radius alpha dt n g) (mergeReported fun k => k * dt)
      (mergeLaw (worldOf put S (nearSet c t.targetSize) D alpha radius fun _ => some dt) (Measure.pi fun _ : Fin d => ν)
        (Measure.pi fun _ : Fin n => uniformLaw (S₀ \ nearSet c t.targetSize))) ∧
    ∀ k, mergeLaw (worldOf put S (nearSet c t.targetSize) D alpha radius fun _ => some dt) (Measure.pi fun _ : Fin d => ν)
        (Measure.pi fun _ : Fin n => uniformLaw (S₀ \ nearSet c t.targetSize)) {y | k < y.1} ≤
      (((Measure.pi fun _ : Fin n => uniformLaw (S₀ \ nearSet c t.targetSize)).map mergeStart).prod P)
        {y | ∀ m < k, ((drawStep (mergeMove (worldOf put S (nearSet c t.targetSize) D alpha radius fun _ => some dt)) (drawsN rng.gaussian d))^[m + 1] y).1 ∈
          searchesOn n d} := by
  have := h.prob
  have hq := drawsN_mp h.gaussian d
  set W : MergeWorld d := worldOf put S (nearSet c t.targetSize) D alpha radius fun _ => some dt with hW
  have hT : Measurable fun p : MergeState n d × (Fin d → ℝ) => mergeMove W p.1 p.2 :=
    mergeMove_meas w.measurable w.room_measurable (near_meas c t.targetSize)
  have hfin : volume (S₀ \ nearSet c t.targetSize) ≠ ∞ := ne_top_of_le_ne_top room.volume_finite (measure_mono Set.sdiff_subset)
  have hprob := uniformLaw_prob hpos hfin
  set π := Measure.pi fun _ : Fin n => uniformLaw (S₀ \ nearSet c t.targetSize) with hπ
  have hms : MeasurePreserving (mergeStart : (Fin n → Fin d → ℝ) → MergeState n d) π (π.map mergeStart) := ⟨mergeStart_meas, rfl⟩
  have hprob' : IsProbabilityMeasure (π.map (mergeStart : (Fin n → Fin d → ℝ) → MergeState n d)) :=
    Measure.isProbabilityMeasure_map mergeStart_meas.aemeasurable
  obtain ⟨F, ρ, hρ, hρe, hF, hFae⟩ := draw_run hT hq searchesOn_meas mergeOutcome_meas (π.map mergeStart) hend
  have hlaw : ρ.map Prod.snd = mergeLaw W (Measure.pi fun _ : Fin d => ν) π := by
    rw [hρe, Measure.map_sum measurable_snd.aemeasurable, mergeLaw]
    congr 1
    funext k
    rw [Measure.map_map measurable_snd (by fun_prop)]
    exact Measure.map_id
  have hlp : IsProbabilityMeasure (mergeLaw W (Measure.pi fun _ : Fin d => ν) π) := by
    rw [← hlaw]; exact Measure.isProbabilityMeasure_map measurable_snd.aemeasurable
  refine ⟨hlp, ?_, ?_⟩
  swap
  · intro k
    have hmk : MeasurableSet {y : ℕ × Ending | k < y.1} := .of_discrete
    rw [← hlaw, Measure.map_apply measurable_snd hmk]
    have e : ρ (Prod.snd ⁻¹' {y : ℕ × Ending | k < y.1}) = ((π.map mergeStart).prod P) (F ⁻¹' ((Prod.snd ⁻¹' {y : ℕ × Ending | k < y.1}) ×ˢ Set.univ)) := by
      rw [hF.measure_preimage ((measurable_snd hmk).prod .univ).nullMeasurableSet, Measure.prod_prod, measure_univ, mul_one]
    rw [e]
    refine measure_mono_ae ?_
    have hs : ∀ᵐ y ∂((π.map (mergeStart : (Fin n → Fin d → ℝ) → MergeState n d)).prod P), y.1.1.turns = 0 ∧ y.1.1.over = none := by
      have : ∀ᵐ x ∂(π.map (mergeStart : (Fin n → Fin d → ℝ) → MergeState n d)), x.1.turns = 0 ∧ x.1.over = none := by
        rw [ae_map_iff mergeStart_meas.aemeasurable ?_]
        · exact .of_forall fun x => ⟨rfl, rfl⟩
        · exact (measurable_fst (MeasurableSet.of_discrete (s := {c : MergeCtl n | c.turns = 0 ∧ c.over = none})))
      exact (Measure.quasiMeasurePreserving_fst).ae this
    filter_upwards [hFae, hs] with y ⟨N, hN1, hN2, hN3⟩ ⟨hs1, hs2⟩ hk m hm
    have hturn : ∀ j, ((drawStep (mergeMove W) (drawsN rng.gaussian d))^[j] y).1.1.turns ≤ j := by
      intro j
      induction j with
      | zero => exact hs1.le
      | succ j ih =>
        rw [Function.iterate_succ_apply']
        exact (move_turns W _ _).1.trans (by omega)
    have hlast : (mergeOutcome ((drawStep (mergeMove W) (drawsN rng.gaussian d))^[N + 1] y).1).1 ≤ N + 1 := by
      have hon : ((drawStep (mergeMove W) (drawsN rng.gaussian d))^[N] y).1.1.over = none := by
        cases N with
        | zero => exact hs2
        | succ N => exact hN1 N (by omega)
      rw [Function.iterate_succ_apply'] at hN2 ⊢
      rcases (move_turns W ((drawStep (mergeMove W) (drawsN rng.gaussian d))^[N] y).1 (drawsN rng.gaussian d ((drawStep (mergeMove W) (drawsN rng.gaussian d))^[N] y).2).1).2 hon with h | h
      · exact h.trans (by have := hturn N; omega)
      · exact absurd h hN2
    have hk : k < (F y).1.2.1 := hk.1
    rw [hN3] at hk
    exact hN1 m (by simp only at hk; omega)
  obtain ⟨f0, hf0, hae0⟩ := off_target room c t ht hpos
  have hnew : Samples P (fun loops g => MergeAgent.newUniform sys t.ops loops loops g (.brownian D) radius alpha)
      (fun x : Fin d → ℝ => crew D alpha radius 1 x) (uniformLaw (S₀ \ nearSet c t.targetSize)) := by
    refine ⟨f0, hf0, ?_⟩
    filter_upwards [hae0] with g ⟨n, hn⟩
    exact ⟨n, fun m hm => by simp [MergeAgent.newUniform, hn m hm m hm _ room.outDim, Res.map, Pos.dim, crew, slowedTo]⟩
  obtain ⟨f, hf, hae⟩ := many_samples hnew n
  have h1 : MeasurePreserving (fun g => (mergeStart (f g).1, (f g).2)) P ((π.map mergeStart).prod P) := (hms.prod (.id P)).comp hf
  have h2 : MeasurePreserving (Prod.map Prod.snd id : (ℕ × ℕ × Ending) × G → (ℕ × Ending) × G) (ρ.prod P) ((mergeLaw W (Measure.pi fun _ : Fin d => ν) π).prod P) := by
    have : MeasurePreserving (Prod.snd : ℕ × ℕ × Ending → ℕ × Ending) ρ (mergeLaw W (Measure.pi fun _ : Fin d => ν) π) := ⟨measurable_snd, hlaw⟩
    exact this.prod (.id P)
  refine ⟨fun g => Prod.map Prod.snd id (F (mergeStart (f g).1, (f g).2)), h2.comp (hF.comp h1), ?_⟩
  filter_upwards [hae, h1.quasiMeasurePreserving.ae hFae] with g ⟨N0, hN0⟩ ⟨N, hN1, hN2, hN3⟩
  refine ⟨max N0 (max (n * n + 1) (N + 2)), fun loops hl => ?_⟩
  have hl0 : N0 ≤ loops := (le_max_left _ _).trans hl
  have hl1 : n * n + 1 ≤ loops := (le_max_left _ _).trans ((le_max_right _ _).trans hl)
  have hl2 : N + 2 ≤ loops := (le_max_right _ _).trans ((le_max_right _ _).trans hl)
  have key := loop_run (rng := rng) w c t ht D alpha radius (fun _ => some dt) (rad := fun _ => radius) (.inl ⟨radius, rfl⟩) (fun _ _ => rfl)
    (fuel := loops) (by omega) (countingTick dt) (fun k => Fl.zero + ((k + 1 : ℕ) : ℝ) * dt) loops 0 Fl.zero _ _ _
    (fun j _ => by rw [countingTick_output]; simp) rfl (start_turn hn D alpha radius (f g).1 (f g).2 [])
  rw [← hW] at key
  have hst : (((⟨0, [], List.ofFn fun i : Fin n => (i, 1), none⟩, (f g).1), (f g).2) : MergeState n d × G) = (mergeStart (f g).1, (f g).2) := rfl
  simp only [hst] at key
  rw [hN3]
  rcases key with ⟨N', e, r, T, a1, a2, a3, a4, a5⟩ | ⟨-, M, b1, b2⟩
  · obtain rfl : N' = N := by
      rcases lt_trichotomy N' N with hlt | rfl | hlt
      · have := hN1 N' hlt
        change _ = none at this
        rw [a2] at this
        simp at this
      · rfl
      · exact absurd (a1 N hlt) hN2
    have hne : e ≠ .clock := by
      rintro rfl
      have hcl : ∀ (m : ℕ) (y : MergeState n d × G), y.1.1.over ≠ some .clock → ((drawStep (mergeMove W) (drawsN rng.gaussian d))^[m] y).1.1.over ≠ some Ending.clock := by
        intro m
        induction m with
        | zero => exact fun y hy => hy
        | succ m ih =>
          intro y hy
          rw [Function.iterate_succ_apply]
          exact ih _ (move_clock W (fun _ => rfl) _ _ hy)
      exact hcl _ (mergeStart (f g).1, (f g).2) (by simp [mergeStart]) a2
    simp only [Prod.map_apply, id_eq]
    rw [a3, ← a4]
    unfold mergeRun
    rw [hN0 loops hl0]
    simp only
    unfold mergeFpt
    rw [a5]
    cases e with
    | found => simp [mergeReported]
    | tooFar => simp [mergeReported]
    | clock => exact absurd rfl hne
  · exact absurd (b2 N (by omega)) hN2
end

/-- a search that is on has all searchers in the room. -/
theorem move_on {n d : ℕ} {W : MergeWorld d} {turns : ℕ} {dn rest : Crowd n} {i : Fin n} {m : ℕ} {over : Option Ending} {y : Fin n → Fin d → ℝ}
    {z : Fin d → ℝ} (h : mergeMove W (⟨turns, dn, (i, m) :: rest, over⟩, y) z ∈ searchesOn n d) :
    movedTo W turns y i m z ∈ W.room ∧ (mergeMove W (⟨turns, dn, (i, m) :: rest, over⟩, y) z).2 = Function.update y i (movedTo W turns y i m z) := by
  by_cases h1 : movedTo W turns y i m z ∈ W.room
  · refine ⟨h1, ?_⟩
    by_cases h2 : movedTo W turns y i m z ∈ W.target
    · rw [move_found W h1 h2]
    · by_cases h3 : rest = []
      · subst h3; rw [move_last W h1 h2]
      · rw [move_next W h1 h2 h3]
  · rw [move_tooFar W h1] at h
    simp [searchesOn] at h

private theorem scaled_normal (d : Nat) {v : ℝ} (hv : 0 ≤ v) :
    MeasurePreserving (fun (z : Fin d → ℝ) i => z i * Real.sqrt v) (Measure.pi fun _ => gaussianReal 0 1) (normalLaw d v) := by
  refine measurePreserving_pi (fun _ : Fin d => gaussianReal 0 1) (fun _ : Fin d => gaussianReal 0 v.toNNReal)
    (f := fun _ x => x * Real.sqrt v) fun _ => ⟨by fun_prop, ?_⟩
  rw [gaussianReal_map_mul_const]
  congr 1
  · simp
  · rw [mul_one]
    refine NNReal.eq ?_
    simp [Real.sq_sqrt hv, hv]

theorem slowed_pos {D alpha : ℝ} (hD : 0 < D) {m : ℕ} (hm : 1 ≤ m) : 0 < slowedTo D alpha m := by
  unfold slowedTo
  split_ifs
  · exact hD
  · exact Real.rpow_pos_of_pos (by exact_mod_cast hm) _

/-- A search with normal numbers may fail in its first turn; and it may find the target there, if some small ball belongs both
to the room and to the target. -/
theorem first_outcomes {P : Measure G} {sys : SysOps G ℝ} {d : Nat} {S₀ S : Set (Fin d → ℝ)} (room : Room P sys d S₀)
    (hbd : ∃ M, ∀ x ∈ S₀, ∀ j, |x j| ≤ M) {put : (Fin d → ℝ) → Fin d → ℝ} (w : Walls sys S put)
    (c : Fin d → ℝ) (t : BulkTarget ℝ) (hpos : volume (S₀ \ nearSet c t.targetSize) ≠ 0)
    {D dt : ℝ} (alpha radius : ℝ) (hD : 0 < D) (hdt : 0 < dt) {n : ℕ} (hn : 0 < n) {clk : ℕ → Option ℝ} (hclk : clk 0 = some dt) (ρ : Measure (ℕ × Ending))
    (hρ : ρ = mergeLaw (worldOf put S (nearSet c t.targetSize) D alpha radius clk) (Measure.pi fun _ : Fin d => gaussianReal 0 1)
      (Measure.pi fun _ : Fin n => uniformLaw (S₀ \ nearSet c t.targetSize))) :
    ρ {(1, .tooFar)} ≠ 0 ∧ ((∃ c' ε, 0 < ε ∧ nearSet c' ε ⊆ S ∩ nearSet c t.targetSize) → ρ {(1, .found)} ≠ 0) := by
  set W : MergeWorld d := worldOf put S (nearSet c t.targetSize) D alpha radius clk with hW
  have hT : Measurable fun p : MergeState n d × (Fin d → ℝ) => mergeMove W p.1 p.2 :=
    mergeMove_meas w.measurable w.room_measurable (near_meas c t.targetSize)
  have hfin : volume (S₀ \ nearSet c t.targetSize) ≠ ∞ := ne_top_of_le_ne_top room.volume_finite (measure_mono Set.sdiff_subset)
  have hprob := uniformLaw_prob hpos hfin
  have hv : 0 < 2 * slowedTo D alpha 1 * dt := by have := slowed_pos (alpha := alpha) hD le_rfl; positivity
  obtain ⟨M, hM⟩ := hbd
  obtain ⟨k, rfl⟩ : ∃ k, n = k + 1 := ⟨n - 1, by omega⟩
  have key : ∀ (e : Ending) (c' : Fin d → ℝ) (ε : ℝ), 0 < ε → (∀ x : Fin (k + 1) → Fin d → ℝ, ∀ z : Fin d → ℝ,
      (x 0 + fun j => z j * Real.sqrt (2 * slowedTo D alpha 1 * dt)) ∈ nearSet c' ε →
      (mergeMove W (mergeStart x) z).1.over = some e ∧ mergeOutcome (mergeMove W (mergeStart x) z) = (1, e)) → ρ {(1, e)} ≠ 0 := by
    intro e c' ε hε hmove
    obtain ⟨p, hp, hh⟩ := normal_hits hv M c' hε
    have hm1 : MeasurableSet {y : MergeState (k + 1) d | mergeOutcome y = (1, e)} := mergeOutcome_meas (measurableSet_singleton _)
    have hone : ((drawn (mergeMove W) (Measure.pi fun _ : Fin d => gaussianReal 0 1) ((Measure.pi fun _ : Fin (k + 1) => uniformLaw (S₀ \ nearSet c t.targetSize)).map mergeStart)).restrict
        (searchesOn (k + 1) d)ᶜ).map mergeOutcome {(1, e)} ≤ ρ {(1, e)} := by
      rw [hρ, mergeLaw, Measure.sum_apply _ (measurableSet_singleton _)]
      exact ENNReal.le_tsum (f := fun j => _) 0
    refine (lt_of_lt_of_le hp (le_trans ?_ hone)).ne'
    rw [Measure.map_apply mergeOutcome_meas (measurableSet_singleton _), Measure.restrict_apply (mergeOutcome_meas (measurableSet_singleton _)), drawn,
      Measure.map_apply hT ((mergeOutcome_meas (measurableSet_singleton _)).inter searchesOn_meas.compl),
      Measure.prod_apply (hT ((mergeOutcome_meas (measurableSet_singleton _)).inter searchesOn_meas.compl)),
      lintegral_map (measurable_measure_prodMk_left (hT ((mergeOutcome_meas (measurableSet_singleton _)).inter searchesOn_meas.compl))) mergeStart_meas]
    have hconst : p = ∫⁻ _, p ∂(Measure.pi fun _ : Fin (k + 1) => uniformLaw (S₀ \ nearSet c t.targetSize)) := by
      rw [lintegral_const, measure_univ, mul_one]
    rw [hconst]
    refine lintegral_mono_ae ?_
    have hu : ∀ᵐ x ∂uniformLaw (S₀ \ nearSet c t.targetSize), x ∈ S₀ \ nearSet c t.targetSize :=
      Measure.ae_smul_measure (ae_restrict_mem (room.measurable.diff (near_meas _ _))) _
    filter_upwards [(measurePreserving_eval (fun _ : Fin (k + 1) => uniformLaw (S₀ \ nearSet c t.targetSize)) 0).quasiMeasurePreserving.ae hu] with x hx
    refine (hh (x 0) (hM _ hx.1)).trans ?_
    have hmeas : MeasurableSet {z : Fin d → ℝ | x 0 + z ∈ nearSet c' ε} := (measurable_const.add measurable_id) (near_meas c' ε)
    rw [← (scaled_normal d hv.le).measure_preimage hmeas.nullMeasurableSet]
    refine measure_mono fun z hz => ?_
    obtain ⟨a1, a2⟩ := hmove x z hz
    exact ⟨a2, fun hon => by
      have hon : _ = none := hon
      rw [a1] at hon; simp at hon⟩
  have hst : ∀ x : Fin (k + 1) → Fin d → ℝ, mergeStart x = (⟨0, [], (0, 1) :: List.ofFn fun i : Fin k => (i.succ, 1), none⟩, x) := by
    intro x; simp [mergeStart, List.ofFn_succ]
  have hmv : ∀ (x : Fin (k + 1) → Fin d → ℝ) (z : Fin d → ℝ), movedTo W 0 x 0 1 z = put (x 0 + fun j => z j * Real.sqrt (2 * slowedTo D alpha 1 * dt)) := fun _ _ => by
    simp [movedTo, hW, hclk]
  constructor
  · obtain ⟨c', ε, hε, hfar⟩ := w.tooFar
    refine key .tooFar c' ε hε fun x z hz => ?_
    rw [hst, move_tooFar W (by rw [hmv]; exact hfar _ hz)]
    exact ⟨rfl, rfl⟩
  · rintro ⟨c', ε, hε, hsub⟩
    refine key .found c' ε hε fun x z hz => ?_
    have hz := hsub hz
    have e := w.inside _ hz.1
    rw [hst, move_found W (by rw [hmv, e]; exact hz.1) (by rw [hmv, e]; exact hz.2)]
    exact ⟨rfl, rfl⟩

section
variable (rng : RngOps G ℝ) (P : Measure G) (h : IdealRng rng P) (sys : SysOps G ℝ) (d : Nat) (S₀ S : Set (Fin d → ℝ))
  (room : Room P sys d S₀) (hbd : ∃ M, ∀ x ∈ S₀, ∀ i, |x i| ≤ M) (put : (Fin d → ℝ) → Fin d → ℝ) (w : Walls sys S put)
  (c : Fin d → ℝ) (t : BulkTarget ℝ) (ht : t.targetPos = List.ofFn c) (hpos : volume (S₀ \ nearSet c t.targetSize) ≠ 0)
  (D dt alpha radius : ℝ) (hD : 0 < D) (hdt : 0 < dt) (n : ℕ) (hn : 0 < n) (ρ : Measure (ℕ × Ending))
  (hρ : ρ = mergeLaw (worldOf put S (nearSet c t.targetSize) D alpha radius fun _ => some dt) (normalLaw d 1)
    (Measure.pi fun _ : Fin n => uniformLaw (S₀ \ nearSet c t.targetSize)))
include h room hbd w ht hpos hD hdt hn hρ

/-- `n` searchers that start at uniformly distributed places and merge when they meet, with an ideal generator: the run ends
with probability one, with the outcome of the process in which, turn after turn, each searcher makes a normal step with the
walls of the room, the first that comes to the target ends it, and after each turn those that are close merge.  The outcome
does not depend on the state the generator is left in, which again has the distribution `P`.  Long runs are exponentially
rare. -/
theorem C106_law : IsProbabilityMeasure ρ ∧
    Yields P (fun loops g => mergeRun rng sys t.ops loops loops loops loops (.brownian D) radius alpha dt n g) (mergeReported fun k => k * dt) ρ ∧
    ∃ r : ℝ≥0∞, r < 1 ∧ ∀ k, ρ {y | k < y.1} ≤ r ^ k := by
  have := h.prob
  have hq := drawsN_mp h.gaussian d
  have hν : IsProbabilityMeasure (gaussianReal 0 1) := inferInstance
  have hW1 : normalLaw d 1 = Measure.pi fun _ : Fin d => gaussianReal 0 1 := by simp [normalLaw]
  rw [hW1] at hρ
  set W : MergeWorld d := worldOf put S (nearSet c t.targetSize) D alpha radius fun _ => some dt with hW
  have hT : Measurable fun p : MergeState n d × (Fin d → ℝ) => mergeMove W p.1 p.2 :=
    mergeMove_meas w.measurable w.room_measurable (near_meas c t.targetSize)
  have hfin : volume (S₀ \ nearSet c t.targetSize) ≠ ∞ := ne_top_of_le_ne_top room.volume_finite (measure_mono Set.sdiff_subset)
  have hprob := uniformLaw_prob hpos hfin
  have hprob' : IsProbabilityMeasure ((Measure.pi fun _ : Fin n => uniformLaw (S₀ \ nearSet c t.targetSize)).map (mergeStart : (Fin n → Fin d → ℝ) → MergeState n d)) :=
    Measure.isProbabilityMeasure_map mergeStart_meas.aemeasurable
  obtain ⟨M₀, hM₀⟩ := hbd
  obtain ⟨M₁, hM₁⟩ := w.bounded
  obtain ⟨c', ε, hε, hfar⟩ := w.tooFar
  set M := max M₀ M₁ with hM
  have hp : ∀ m : ℕ, ∃ p : ℝ≥0∞, 0 < p ∧ (1 ≤ m → ∀ x : Fin d → ℝ, (∀ i, |x i| ≤ M) → p ≤ normalLaw d (2 * slowedTo D alpha m * dt) {z | x + z ∈ nearSet c' ε}) := by
    intro m
    by_cases hm : 1 ≤ m
    · have : 0 < 2 * slowedTo D alpha m * dt := by have := slowed_pos (alpha := alpha) hD hm; positivity
      obtain ⟨p, hp, hh⟩ := normal_hits this M c' hε
      exact ⟨p, hp, fun _ => hh⟩
    · exact ⟨1, one_pos, fun h => absurd h hm⟩
  choose p hp0 hp1 using hp
  set q := (Finset.Icc 1 n).inf p with hqd
  have hq0 : 0 < q := (Finset.lt_inf_iff (by simp)).2 fun m _ => hp0 m
  set B : Set (MergeState n d) := {x | CtlOk x.1 ∧ x.1.todo ≠ []} ∩ {x | ∀ i j, |x.2 i j| ≤ M} with hB
  have hBm : MeasurableSet B := by
    refine MeasurableSet.inter (measurable_fst (MeasurableSet.of_discrete (s := {c : MergeCtl n | CtlOk c ∧ c.todo ≠ []}))) ?_
    have : {x : MergeState n d | ∀ i j, |x.2 i j| ≤ M} = ⋂ i, ⋂ j, {x | |x.2 i j| ≤ M} := by ext x; simp
    rw [this]
    exact .iInter fun i => .iInter fun j => measurableSet_le (by fun_prop) measurable_const
  have hstay : ∀ x ∈ B, ∀ z, mergeMove W x z ∈ searchesOn n d → mergeMove W x z ∈ B := by
    rintro ⟨⟨turns, dn, _ | ⟨⟨i, m⟩, rest⟩, over⟩, y⟩ ⟨⟨h1, h2⟩, h3⟩ z hz
    · simp at h2
    · obtain ⟨a1, a2⟩ := move_on hz
      refine ⟨move_ok hn W _ z h1 h2, ?_⟩
      show ∀ i' j, |(mergeMove W _ z).2 i' j| ≤ M
      rw [a2]
      intro i' j
      by_cases hi : i' = i
      · subst hi
        rw [Function.update_self]
        exact (hM₁ _ a1 j).trans (le_max_right _ _)
      · rw [Function.update_of_ne hi]
        exact h3 i' j
  have hr : ∀ x ∈ B, (Measure.pi fun _ : Fin d => gaussianReal 0 1) {z | mergeMove W x z ∈ searchesOn n d ∩ B} ≤ 1 - q := by
    rintro ⟨⟨turns, dn, _ | ⟨⟨i, m⟩, rest⟩, over⟩, y⟩ ⟨⟨h1, h2⟩, h3⟩
    · simp at h2
    · have hm1 : 1 ≤ m := h1.size (i, m) (by simp)
      have hmn : m ≤ n := h1.size_le (a := (i, m)) (by simp)
      have hv : 0 ≤ 2 * slowedTo D alpha m * dt := by have := slowed_pos (alpha := alpha) hD hm1; positivity
      have hmeas : MeasurableSet {z : Fin d → ℝ | y i + z ∈ nearSet c' ε} := (measurable_const.add measurable_id) (near_meas c' ε)
      have hsc := scaled_normal d hv
      have hle : q ≤ (Measure.pi fun _ : Fin d => gaussianReal 0 1) {z | (y i + fun j => z j * Real.sqrt (2 * slowedTo D alpha m * dt)) ∈ nearSet c' ε} := by
        refine (Finset.inf_le (Finset.mem_Icc.2 ⟨hm1, hmn⟩)).trans ((hp1 m hm1 (y i) (h3 i)).trans ?_)
        rw [← hsc.measure_preimage hmeas.nullMeasurableSet]
        exact le_rfl
      have hmeas2 : MeasurableSet {z : Fin d → ℝ | (y i + fun j => z j * Real.sqrt (2 * slowedTo D alpha m * dt)) ∈ nearSet c' ε} := hsc.measurable hmeas
      refine (measure_mono (t := {z : Fin d → ℝ | (y i + fun j => z j * Real.sqrt (2 * slowedTo D alpha m * dt)) ∈ nearSet c' ε}ᶜ) ?_).trans ?_
      · intro z hz hz'
        exact hfar _ hz' (move_on hz.1).1
      · rw [measure_compl hmeas2 (measure_ne_top _ _), measure_univ]
        exact tsub_le_tsub_left hle 1
  have hπB : ((Measure.pi fun _ : Fin n => uniformLaw (S₀ \ nearSet c t.targetSize)).map (mergeStart : (Fin n → Fin d → ℝ) → MergeState n d)) Bᶜ = 0 := by
    rw [Measure.map_apply mergeStart_meas hBm.compl]
    have hu : ∀ᵐ x ∂uniformLaw (S₀ \ nearSet c t.targetSize), x ∈ S₀ \ nearSet c t.targetSize :=
      Measure.ae_smul_measure (ae_restrict_mem (room.measurable.diff (near_meas _ _))) _
    have h2 : ∀ᵐ x ∂(Measure.pi fun _ : Fin n => uniformLaw (S₀ \ nearSet c t.targetSize)), ∀ i, x i ∈ S₀ \ nearSet c t.targetSize := by
      rw [ae_all_iff]
      exact fun i => (measurePreserving_eval (fun _ : Fin n => uniformLaw (S₀ \ nearSet c t.targetSize)) i).quasiMeasurePreserving.ae hu
    refine measure_mono_null (fun y hy => ?_) (ae_iff.1 h2)
    intro hall
    refine hy ⟨⟨start_ok y, ?_⟩, fun i j => (hM₀ _ (hall i).1 j).trans (le_max_left _ _)⟩
    intro hnil
    have := congrArg List.length hnil
    simp [mergeStart] at this
    omega
  obtain ⟨F, τ, hτ, hF, htail, hFae⟩ := draw_run_fast hT hq (searchesOn_meas.inter hBm) hBm Set.inter_subset_right
    (ENNReal.sub_lt_self ENNReal.one_ne_top one_ne_zero hq0.ne') hr mergeOutcome_meas _ hπB
  have hBae : ∀ᵐ y ∂(((Measure.pi fun _ : Fin n => uniformLaw (S₀ \ nearSet c t.targetSize)).map (mergeStart : (Fin n → Fin d → ℝ) → MergeState n d)).prod P), y.1 ∈ B :=
    (Measure.quasiMeasurePreserving_fst).ae (by rw [ae_iff]; exact hπB)
  have hexit : ∀ᵐ y ∂(((Measure.pi fun _ : Fin n => uniformLaw (S₀ \ nearSet c t.targetSize)).map (mergeStart : (Fin n → Fin d → ℝ) → MergeState n d)).prod P),
      ((drawStep (mergeMove W) (drawsN rng.gaussian d))^[(F y).1.1 + 1] y).1 ∉ searchesOn n d := by
    filter_upwards [hFae, hBae] with y ⟨N, a1, a2, a3⟩ hy
    have hN : ((drawStep (mergeMove W) (drawsN rng.gaussian d))^[N] y).1 ∈ B := by
      cases N with
      | zero => exact hy
      | succ N => exact (a1 N (by omega)).2
    rw [a3]
    simp only
    intro hon
    refine a2 ⟨hon, ?_⟩
    rw [Function.iterate_succ_apply'] at hon ⊢
    exact hstay _ hN _ hon
  obtain ⟨b1, b2, b3⟩ := merge_yields rng P (gaussianReal 0 1) h hν sys d S₀ S room put w c t ht hpos D dt alpha radius n hn
    (by filter_upwards [hexit] with y hy using ⟨_, hy⟩)
  rw [← hρ] at b1 b2 b3
  refine ⟨b1, b2, 1 - q, ENNReal.sub_lt_self ENNReal.one_ne_top one_ne_zero hq0.ne', fun k => (b3 k).trans ?_⟩
  have hmk : MeasurableSet {y : ℕ × ℕ × Ending | k ≤ y.1} := .of_discrete
  refine le_trans ?_ (htail k)
  have e : τ {y | k ≤ y.1} = (((Measure.pi fun _ : Fin n => uniformLaw (S₀ \ nearSet c t.targetSize)).map (mergeStart : (Fin n → Fin d → ℝ) → MergeState n d)).prod P)
      (F ⁻¹' ({y : ℕ × ℕ × Ending | k ≤ y.1} ×ˢ Set.univ)) := by
    rw [hF.measure_preimage (hmk.prod .univ).nullMeasurableSet, Measure.prod_prod, measure_univ, mul_one]
  rw [e]
  refine measure_mono_ae ?_
  filter_upwards [hexit] with y hy hk
  refine ⟨?_, trivial⟩
  by_contra hlt
  exact hy (hk _ (not_le.1 hlt))

/-- A run may fail in its first turn; and it may find the target there, if some small ball belongs both to the room and to
the target. -/
theorem C106_outcomes : ρ {(1, .tooFar)} ≠ 0 ∧ ((∃ c' ε, 0 < ε ∧ nearSet c' ε ⊆ S ∩ nearSet c t.targetSize) → ρ {(1, .found)} ≠ 0) := by
  have hW1 : normalLaw d 1 = Measure.pi fun _ : Fin d => gaussianReal 0 1 := by simp [normalLaw]
  rw [hW1] at hρ
  exact first_outcomes room hbd w c t hpos alpha radius hD hdt hn rfl ρ hρ
end

/-- the outcome, as reported in another way. -/
theorem yields_map {α X Y : Type} [MeasurableSpace X] [MeasurableSpace Y] {P : Measure G} [IsProbabilityMeasure P] {prog : Nat → G → Option (Res α × G)}
    {out : X → Res α} {out' : Y → Res α} {μ : Measure X} [SFinite μ] {φ : X → Y} (hφ : Measurable φ) (h : Yields P prog out μ) (ho : ∀ᵐ x ∂μ, out x = out' (φ x)) :
    Yields P prog out' (μ.map φ) := by
  obtain ⟨f, hf, hae⟩ := h
  have h1 : MeasurePreserving φ μ (μ.map φ) := ⟨hφ, rfl⟩
  refine ⟨fun g => (φ (f g).1, (f g).2), (h1.prod (.id P)).comp hf, ?_⟩
  filter_upwards [hae, hf.quasiMeasurePreserving.ae ((Measure.quasiMeasurePreserving_fst).ae ho)] with g ⟨n, hn⟩ hg
  exact ⟨n, fun loops hl => by rw [hn loops hl, hg]⟩

/-- the number of the turn, and whether the target was found in it. -/
def foundIn (y : ℕ × Ending) : ℕ × Bool := (y.1, decide (y.2 = .found))

section
variable (rng : RngOps G ℝ) (P : Measure G) (ν : Measure ℝ) (b : ℝ) (h : IndepRng rng P ν) (hν : BoundedSpread ν b)
  {sys : SysOps G ℝ} {d : Nat} {Q S : Set (Fin d → ℝ)} {put : (Fin d → ℝ) → Fin d → ℝ} (c : Fin d → ℝ) (t : BulkTarget ℝ) (ht : t.targetPos = List.ofFn c)
  (D dt Dmax alpha : ℝ) (hD : 0 < D) (hdt : 0 < dt) (n : Nat)
  (hn : 0 < n) (hD1 : D ≤ Dmax) (hD2 : ∀ m : ℕ, 1 ≤ m → m ≤ n → (m : ℝ) ^ (-alpha) ≤ Dmax)
  (hroom : MergeRoom rng sys Q S put (nearSet c t.targetSize) (b * Real.sqrt (2 * Dmax * dt)))
  (room : Room P sys d Q) (hpos : volume (Q \ nearSet c t.targetSize) ≠ 0) (radius : ℝ)
  (ρ : Measure (ℕ × Ending))
  (hρ : ρ = mergeLaw (worldOf put S (nearSet c t.targetSize) D alpha radius fun _ => some dt) (Measure.pi fun _ : Fin d => ν)
    (Measure.pi fun _ : Fin n => uniformLaw (Q \ nearSet c t.targetSize)))
include h hν ht hD hdt hn hD1 hD2 hroom room hpos hρ

theorem merge_bounded : IsProbabilityMeasure ρ ∧ ρ {y | y.2 ≠ .found} = 0 ∧ (∃ (L : ℕ) (r : ℝ≥0∞), r < 1 ∧ ∀ K, ρ {y | K * L < y.1} ≤ r ^ K) ∧
    FindsTarget P (fun loops g => mergeRun rng sys t.ops loops loops loops loops (.brownian D) radius alpha dt n g) dt (ρ.map foundIn) := by
  have := h.prob
  have hνp := hν.prob
  have w := hroom.walls
  obtain ⟨L, r, hr1, hevery⟩ := merge_every_start rng P ν b h hν c t ht D dt Dmax alpha hD hdt n hn hD1 hD2 hroom
  have hend : ∀ᵐ y ∂(((Measure.pi fun _ : Fin n => uniformLaw (Q \ nearSet c t.targetSize)).map mergeStart).prod P),
      ∃ N, ((drawStep (mergeMove (worldOf put (S) (nearSet c t.targetSize) D alpha radius fun _ => some dt)) (drawsN rng.gaussian d))^[N + 1] y).1 ∉
        searchesOn n d := by
    have hg : ∀ᵐ g ∂P, ∀ v, MergeStart Q D alpha n v → ∀ radius : ℝ, ∃ k : ℕ, ∃ fuel, n * n < fuel ∧
        (mergeFpt rng sys t.ops radius dt fuel k v g).2 ≠ none := by
      rw [ae_iff]
      refine le_antisymm (ge_of_tendsto' (ENNReal.tendsto_pow_atTop_nhds_zero_of_lt_one hr1) fun K => le_trans (measure_mono fun g hg => ?_) (hevery K)) bot_le
      refine fun hall => hg fun v hv radius => ?_
      obtain ⟨k, -, -, g', hk⟩ := hall v hv radius
      obtain ⟨x, hx, -⟩ := hk (n * n + 1) k (by omega) le_rfl
      exact ⟨k, n * n + 1, by omega, by rw [hx]; simp⟩
    have hfin : volume (Q \ nearSet c t.targetSize) ≠ ∞ := ne_top_of_le_ne_top room.volume_finite (measure_mono Set.sdiff_subset)
    have hprob := uniformLaw_prob hpos hfin
    have hu : ∀ᵐ x ∂uniformLaw (Q \ nearSet c t.targetSize), x ∈ Q \ nearSet c t.targetSize :=
      Measure.ae_smul_measure (ae_restrict_mem (room.measurable.diff (near_meas _ _))) _
    have h2 : ∀ᵐ x ∂(Measure.pi fun _ : Fin n => uniformLaw (Q \ nearSet c t.targetSize)), ∀ i, x i ∈ Q \ nearSet c t.targetSize := by
      rw [ae_all_iff]
      exact fun i => (measurePreserving_eval (fun _ : Fin n => uniformLaw (Q \ nearSet c t.targetSize)) i).quasiMeasurePreserving.ae hu
    have hstart : ∀ᵐ x ∂((Measure.pi fun _ : Fin n => uniformLaw (Q \ nearSet c t.targetSize)).map (mergeStart : (Fin n → Fin d → ℝ) → MergeState n d)),
        x.1 = ⟨0, [], List.ofFn fun i => (i, 1), none⟩ ∧ ∀ i, x.2 i ∈ Q := by
      rw [ae_map_iff mergeStart_meas.aemeasurable ?_]
      · filter_upwards [h2] with x hx using ⟨rfl, fun i => (hx i).1⟩
      · refine MeasurableSet.inter (measurable_fst (MeasurableSet.of_discrete (s := {c : MergeCtl n | c = ⟨0, [], List.ofFn fun i => (i, 1), none⟩}))) ?_
        have : {x : MergeState n d | ∀ i, x.2 i ∈ Q} = ⋂ i, (fun x : MergeState n d => x.2 i) ⁻¹' Q := by ext x; simp
        show MeasurableSet {x : MergeState n d | ∀ i, x.2 i ∈ Q}
        rw [this]
        exact .iInter fun i => ((measurable_pi_apply i).comp measurable_snd) room.measurable
    filter_upwards [(Measure.quasiMeasurePreserving_fst).ae hstart, (Measure.quasiMeasurePreserving_snd).ae hg] with y ⟨hy1, hy2⟩ hy3
    obtain ⟨⟨ctl, y⟩, g⟩ := y
    simp only at hy1 hy2 hy3
    subst hy1
    obtain ⟨k, fuel, hfuel, hk⟩ := hy3 (List.ofFn fun i => crew D alpha radius 1 (y i))
      ⟨by simp, fun a ha => by
        obtain ⟨i, rfl⟩ := List.mem_ofFn.1 ha
        exact ⟨_, hy2 i, rfl⟩, fun a ha => by
        obtain ⟨i, rfl⟩ := List.mem_ofFn.1 ha
        simp [crew], fun a ha => by
        obtain ⟨i, rfl⟩ := List.mem_ofFn.1 ha
        simp [crew, slowedTo], fun a ha => by
        obtain ⟨i, rfl⟩ := List.mem_ofFn.1 ha
        rfl, fun a ha => by
        obtain ⟨i, rfl⟩ := List.mem_ofFn.1 ha
        rfl⟩ radius
    have key := loop_run (rng := rng) w c t ht D alpha radius (fun _ => some dt) (rad := fun _ => radius) (.inl ⟨radius, rfl⟩) (fun _ _ => rfl)
      (fuel := fuel) hfuel (countingTick dt) (fun k => Fl.zero + ((k + 1 : ℕ) : ℝ) * dt) k 0 Fl.zero _ _ _
      (fun j _ => by rw [countingTick_output]; simp) rfl (start_turn hn D alpha radius y g [])
    rcases key with ⟨N', e, r, T, a1, a2, a3, a4, a5⟩ | ⟨b0, -⟩
    · refine ⟨N', fun hon => ?_⟩
      have hon : _ = none := hon
      rw [hon] at a2
      simp at a2
    · exact absurd b0 hk
  obtain ⟨b1, b2, -⟩ := merge_yields rng P ν h hνp sys d _ _ room _ w c t ht hpos D dt alpha radius n hn hend
  rw [← hρ] at b1 b2
  have hmap : Measurable foundIn := .of_discrete
  have hfound := merge_found rng P ν b h hν c t ht D dt Dmax alpha hD hdt n hn hD1 hD2 hroom room hpos radius
  have hfail : ρ {y | y.2 ≠ .found} = 0 := by
    obtain ⟨f, hf, hae⟩ := b2
    have hm : MeasurableSet {y : ℕ × Ending | y.2 ≠ .found} := .of_discrete
    rw [← (measurePreserving_fst.comp hf).measure_preimage hm.nullMeasurableSet]
    refine (ae_iff (p := fun g => (f g).1.2 = .found)).1 ?_
    filter_upwards [hae, hfound] with g ⟨N, hN⟩ ⟨k, hk0, g', N', hN'⟩
    have e := (hN (max N N') (le_max_left _ _)).symm.trans (hN' _ (le_max_right _ _))
    have e := congrArg Prod.fst (Option.some.inj e)
    simp only [mergeReported] at e
    rcases hh : (f g).1.2 with _ | _ | _
    · rfl
    all_goals rw [hh] at e; simp at e
  obtain ⟨L', r', hr', htail⟩ := merge_tail rng P ν b h hν c t ht D dt Dmax alpha hD hdt n hn hD1 hD2 hroom room hpos radius
  have htail' : ∀ K, ρ {y | K * L' < y.1} ≤ r' ^ K := by
    intro K
    refine le_trans ?_ (htail K)
    obtain ⟨f, hf, hae⟩ := b2
    have hm : MeasurableSet {y : ℕ × Ending | K * L' < y.1} := .of_discrete
    rw [← (measurePreserving_fst.comp hf).measure_preimage hm.nullMeasurableSet]
    refine measure_mono_ae ?_
    filter_upwards [hae] with g ⟨N, hN⟩ hlt
    have hlt : K * L' < (f g).1.1 := hlt
    rintro ⟨k, hk0, hk, g', N', hN'⟩
    have e := (hN (max N N') (le_max_left _ _)).symm.trans (hN' _ (le_max_right _ _))
    have e := congrArg Prod.fst (Option.some.inj e)
    simp only [mergeReported] at e
    rcases hh : (f g).1.2 with _ | _ | _
    · rw [hh] at e
      have e := Res.ok.inj e
      have := mul_right_cancel₀ hdt.ne' e
      have : (f g).1.1 = k := by exact_mod_cast this
      omega
    all_goals rw [hh] at e; simp at e
  have hy : Yields P (fun loops g => mergeRun rng sys t.ops loops loops loops loops (.brownian D) radius alpha dt n g) (reported dt) (ρ.map foundIn) := by
    refine yields_map hmap b2 ?_
    have h1 : ∀ᵐ y ∂ρ, y.2 = .found := by rw [ae_iff]; exact hfail
    filter_upwards [h1] with y hy
    simp [mergeReported, reported, foundIn, hy]
  have hf' : (ρ.map foundIn) {y | y.2 = false} = 0 := by
    rw [Measure.map_apply hmap .of_discrete]
    refine measure_mono_null (fun y hy => ?_) hfail
    simpa [foundIn] using hy
  have hp' : IsProbabilityMeasure (ρ.map foundIn) := Measure.isProbabilityMeasure_map hmap.aemeasurable
  refine ⟨b1, hfail, ⟨L', r', hr', htail'⟩, hy, hf', means_of_runs hy hf' ?_⟩
  refine ((moments_of_steps _ dt (second_moment_blocks _ (L' + 1) (by omega) r' hr' fun K => ?_)).1).integrable (by norm_num)
  rw [Measure.map_apply hmap .of_discrete]
  refine (measure_mono fun y hy => ?_).trans (htail' K)
  have hy : (L' + 1) * K + 1 < y.1 := hy
  show K * L' < y.1
  nlinarith
end

section
variable (rng : RngOps G ℝ) (P : Measure G) (ν : Measure ℝ) (b : ℝ) (h : IndepRng rng P ν) (hν : BoundedSpread ν b)
  (d : Nat) (R : ℝ) (s : Circ ℝ) (hs : Circ.new R d = .ok s) (c : Fin d → ℝ) (t : BulkTarget ℝ) (ht : t.targetPos = List.ofFn c)
  (hin : ∃ c' ε, 0 < ε ∧ nearSet c' ε ⊆ ballSet d R ∩ nearSet c t.targetSize) (D dt Dmax alpha : ℝ) (hD : 0 < D) (hdt : 0 < dt) (n : Nat)
  (hn : 0 < n) (hD1 : D ≤ Dmax) (hD2 : ∀ m : ℕ, 1 ≤ m → m ≤ n → (m : ℝ) ^ (-alpha) ≤ Dmax)
  (hstep : b * Real.sqrt (2 * Dmax * dt) ≤ 2 * R / Real.sqrt d) (hpos : volume (ballSet d R \ nearSet c t.targetSize) ≠ 0) (radius : ℝ)
  (ρ : Measure (ℕ × Ending))
  (hρ : ρ = mergeLaw (worldOf (ballPut R) (ballSet d R) (nearSet c t.targetSize) D alpha radius fun _ => some dt) (Measure.pi fun _ : Fin d => ν)
    (Measure.pi fun _ : Fin n => uniformLaw (ballSet d R \ nearSet c t.targetSize)))
include h hν hs ht hin hD hdt hn hD1 hD2 hstep hpos hρ

/-- With bounded normal numbers, in a ball (the setting of C105): the process always finds the target, and the time the
program reports is the time of the process.  The means of growing ensembles approach its mean, with probability one. -/
theorem C106_bounded : IsProbabilityMeasure ρ ∧ ρ {y | y.2 ≠ .found} = 0 ∧ (∃ (L : ℕ) (r : ℝ≥0∞), r < 1 ∧ ∀ K, ρ {y | K * L < y.1} ≤ r ^ K) ∧
    FindsTarget P (fun loops g => mergeRun rng (s.ops rng) t.ops loops loops loops loops (.brownian D) radius alpha dt n g) dt (ρ.map foundIn) :=
  merge_bounded rng P ν b h hν c t ht D dt Dmax alpha hD hdt n hn hD1 hD2 (ball_merges rng hs hin hstep) (ball_room h hs) hpos radius ρ hρ
end

section
variable (rng : RngOps G ℝ) (P : Measure G) (ν : Measure ℝ) (b : ℝ) (h : IndepRng rng P ν) (hν : BoundedSpread ν b)
  (d : Nat) (bc : BoundaryCond) (L : ℝ) (s : Cubic ℝ) (hs : Cubic.new bc L d = .ok s) (c : Fin d → ℝ) (t : BulkTarget ℝ) (ht : t.targetPos = List.ofFn c)
  (hin : ∃ c' ε, 0 < ε ∧ nearSet c' ε ⊆ cubeSet d L ∩ nearSet c t.targetSize) (D dt Dmax alpha : ℝ) (hD : 0 < D) (hdt : 0 < dt) (n : Nat)
  (hn : 0 < n) (hD1 : D ≤ Dmax) (hD2 : ∀ m : ℕ, 1 ≤ m → m ≤ n → (m : ℝ) ^ (-alpha) ≤ Dmax)
  (hstep : b * Real.sqrt (2 * Dmax * dt) ≤ 2 * L) (hpos : volume (cubeSet d L \ nearSet c t.targetSize) ≠ 0) (radius : ℝ)
  (ρ : Measure (ℕ × Ending))
  (hρ : ρ = mergeLaw (worldOf (cubePut bc L) (cubeSet d L) (nearSet c t.targetSize) D alpha radius fun _ => some dt) (Measure.pi fun _ : Fin d => ν)
    (Measure.pi fun _ : Fin n => uniformLaw (cubeSet d L \ nearSet c t.targetSize)))
include h hν hs ht hin hD hdt hn hD1 hD2 hstep hpos hρ

/-- With bounded normal numbers, in a cube (the setting of C105): the process always finds the target, and the time the
program reports is the time of the process.  The means of growing ensembles approach its mean, with probability one. -/
theorem C106_cube_bounded : IsProbabilityMeasure ρ ∧ ρ {y | y.2 ≠ .found} = 0 ∧ (∃ (L : ℕ) (r : ℝ≥0∞), r < 1 ∧ ∀ K, ρ {y | K * L < y.1} ≤ r ^ K) ∧
    FindsTarget P (fun loops g => mergeRun rng (s.ops rng) t.ops loops loops loops loops (.brownian D) radius alpha dt n g) dt (ρ.map foundIn) :=
  merge_bounded rng P ν b h hν c t ht D dt Dmax alpha hD hdt n hn hD1 hD2 (cube_merges rng hs hin hstep) (cube_room h hs) hpos radius ρ hρ
end

section
variable (rng : RngOps G ℝ) (P : Measure G) (ν : Measure ℝ) (b : ℝ) (h : IndepRng rng P ν) (hν : BoundedSpread ν b)
  (d : Nat) (k : Nat) (R L : ℝ) (s : Cyl ℝ) (hs : Cyl.new k R L d = .ok s) (c : Fin d → ℝ) (t : BulkTarget ℝ) (ht : t.targetPos = List.ofFn c)
  (hin : ∃ c' ε, 0 < ε ∧ nearSet c' ε ⊆ cylSet d k R L ∩ nearSet c t.targetSize) (D dt Dmax alpha : ℝ) (hD : 0 < D) (hdt : 0 < dt) (n : Nat)
  (hn : 0 < n) (hD1 : D ≤ Dmax) (hD2 : ∀ m : ℕ, 1 ≤ m → m ≤ n → (m : ℝ) ^ (-alpha) ≤ Dmax)
  (hstep : b * Real.sqrt (2 * Dmax * dt) ≤ L)
  (hstep' : b * Real.sqrt (2 * Dmax * dt) * Real.sqrt k ≤ 2 * R) (hpos : volume (cylSet d k R (2 * L) \ nearSet c t.targetSize) ≠ 0) (radius : ℝ)
  (ρ : Measure (ℕ × Ending))
  (hρ : ρ = mergeLaw (worldOf (cylPut k R L) (cylSet d k R L) (nearSet c t.targetSize) D alpha radius fun _ => some dt) (Measure.pi fun _ : Fin d => ν)
    (Measure.pi fun _ : Fin n => uniformLaw (cylSet d k R (2 * L) \ nearSet c t.targetSize)))
include h hν hs ht hin hD hdt hn hD1 hD2 hstep hstep' hpos hρ

/-- With bounded normal numbers, in a cylinder (the setting of C105): the process always finds the target, and the time the
program reports is the time of the process.  The means of growing ensembles approach its mean, with probability one. -/
theorem C106_cyl_bounded : IsProbabilityMeasure ρ ∧ ρ {y | y.2 ≠ .found} = 0 ∧ (∃ (M : ℕ) (r : ℝ≥0∞), r < 1 ∧ ∀ K, ρ {y | K * M < y.1} ≤ r ^ K) ∧
    FindsTarget P (fun loops g => mergeRun rng (s.ops rng) t.ops loops loops loops loops (.brownian D) radius alpha dt n g) dt (ρ.map foundIn) :=
  merge_bounded rng P ν b h hν c t ht D dt Dmax alpha hD hdt n hn hD1 hD2 (cyl_merges rng hs hin hν hstep hstep') (cyl_room h hs) hpos radius ρ hρ
end

/-! ### examples -/

/-- With an ideal generator: seven searchers in a square of side 2 with mirrors. -/
example : let s : Cubic ℝ := ⟨.continuousRectangular, .reflection, 1, 2⟩
    ∃ ρ : Measure (ℕ × Ending), IsProbabilityMeasure ρ ∧
    Yields tapeLaw (fun loops g => mergeRun tapeRng (s.ops tapeRng) (BulkTarget.new [0, 0] (1 / 4)).ops loops loops loops loops (.brownian 1) (1 / 20) (1 / 2) (1 / 100) 7 g)
      (mergeReported fun k => k * (1 / 100)) ρ ∧ ∃ r : ℝ≥0∞, r < 1 ∧ ∀ k, ρ {y | k < y.1} ≤ r ^ k := by
  intro s
  have w := (C77_walls tapeRng).1 .reflection 1 2 s (by unfold Cubic.new; rw [if_neg (by simp)])
  have room := (C73_systems tapeRng tapeLaw tape_ideal).1 s (by simp [s])
  exact ⟨_, C106_law tapeRng tapeLaw tape_ideal _ 2 _ _ room w.bounded _ w (fun _ => 0) (BulkTarget.new [0, 0] (1 / 4))
    (by simp [BulkTarget.new]) square_example 1 (1 / 100) (1 / 2) (1 / 20) (by norm_num) (by norm_num) 7 (by norm_num) _ rfl⟩

/-- With bounded normal numbers: the numbers of tests/merge_fpt.rs. -/
example : let s : Circ ℝ := ⟨.continuousCircular, .reflection, 10, 2⟩
    ∀ (alpha : ℝ) (n : ℕ), 0 < n → (alpha = 1 ∨ alpha = 0) →
    ∃ ρ : Measure (ℕ × Ending), FindsTarget tapeLaw (fun loops g => mergeRun (cutRng tapeRng 50) (s.ops (cutRng tapeRng 50)) (BulkTarget.new [0, 0] 1).ops
      loops loops loops loops (.brownian 1) (1 / 20) alpha (1 / 100) n g) (1 / 100) (ρ.map foundIn) := by
  intro s alpha n hn ha
  refine ⟨_, (C106_bounded (cutRng tapeRng 50) tapeLaw _ 50 (cut_indep tape_ideal 50) (C100_cut_normal (by norm_num)) 2 10 s
    (by unfold Circ.new; rw [if_neg (by simp)]) (fun _ => 0) (BulkTarget.new [0, 0] 1) (by simp [BulkTarget.new])
    ⟨fun _ => 0, 1, by norm_num, disc_target⟩ 1 (1 / 100) 1 alpha (by norm_num) (by norm_num) n hn le_rfl ?_ disc_step
    disc_example (1 / 20) _ rfl).2.2.2⟩
  intro m hm _
  exact Real.rpow_le_one_of_one_le_of_nonpos (by exact_mod_cast hm) (by rcases ha with rfl | rfl <;> norm_num)

/-- In a square of side 2 with any boundary condition. -/
example : ∀ (bc : BoundaryCond) (s : Cubic ℝ), Cubic.new bc 1 2 = .ok s → ∀ n : ℕ, 0 < n →
    ∃ ρ : Measure (ℕ × Ending), FindsTarget tapeLaw (fun loops g => mergeRun (cutRng tapeRng 25) (s.ops (cutRng tapeRng 25))
      (BulkTarget.new [0, 0] (1 / 4)).ops loops loops loops loops (.brownian 1) (1 / 20) 1 (1 / 5000) n g) (1 / 5000) (ρ.map foundIn) := by
  intro bc s hs n hn
  refine ⟨_, (C106_cube_bounded (cutRng tapeRng 25) tapeLaw _ 25 (cut_indep tape_ideal 25) (C100_cut_normal (by norm_num)) 2 bc 1 s
    hs (fun _ => 0) (BulkTarget.new [0, 0] (1 / 4)) (by simp [BulkTarget.new])
    ⟨fun _ => 0, 1 / 4, by norm_num, square_target⟩ 1 (1 / 5000) 1 1 (by norm_num) (by norm_num) n hn le_rfl ?_ square_step
    square_example (1 / 20) _ rfl).2.2.2⟩
  intro m hm _
  exact Real.rpow_le_one_of_one_le_of_nonpos (by exact_mod_cast hm) (by norm_num)

/-- In a tube that is closed to a ring. -/
example : ∀ s : Cyl ℝ, Cyl.new 2 2 5 3 = .ok s → ∀ n : ℕ, 0 < n →
    ∃ ρ : Measure (ℕ × Ending), FindsTarget tapeLaw (fun loops g => mergeRun (cutRng tapeRng 50) (s.ops (cutRng tapeRng 50))
      (BulkTarget.new [0, 0, 0] 1).ops loops loops loops loops (.brownian 1) (1 / 20) 1 (1 / 5000) n g) (1 / 5000) (ρ.map foundIn) := by
  intro s hs n hn
  refine ⟨_, (C106_cyl_bounded (cutRng tapeRng 50) tapeLaw _ 50 (cut_indep tape_ideal 50) (C100_cut_normal (by norm_num)) 3 2 2 5 s
    hs (fun _ => 0) (BulkTarget.new [0, 0, 0] 1) (by simp [BulkTarget.new])
    ⟨fun _ => 0, 1, by norm_num, tube_target⟩ 1 (1 / 5000) 1 1 (by norm_num) (by norm_num) n hn le_rfl ?_ tube_step.1 tube_step.2
    tube_example (1 / 20) _ rfl).2.2.2⟩
  intro m hm _
  exact Real.rpow_le_one_of_one_le_of_nonpos (by exact_mod_cast hm) (by norm_num)

/-- Three merge: the second is close to the first, the third to neither. -/
example : absorb (fun i j : Fin 3 => i + j == 1) [(0, 1), (1, 2), (2, 1)] = [(0, 3), (2, 1)] := by
  simp [absorb_cons, absorb_nil]

end Moledyn.Props
