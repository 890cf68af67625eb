import Verif.Lemmas.MergeFinds
import Verif.Props.BoundedSearch
/-
C105: with a generator whose normal numbers are bounded, merging searchers in a ball, a cube or a cylinder find the target with probability one.
-/
namespace Moledyn.Props
open Moledyn MeasureTheory ProbabilityTheory Filter
open scoped ENNReal NNReal Topology
set_option linter.unusedSectionVars false
variable {G : Type} [MeasurableSpace G]

/-- `n` merging searchers at the start of a run, wherever they are in the room `S`. -/
structure MergeStart {d : Nat} (S : Set (Fin d → ℝ)) (D alpha : ℝ) (n : Nat) (v : List (MergeAgent ℝ)) : Prop where
  count : v.length = n
  within : ∀ a ∈ v, ∃ x ∈ S, a.pos = List.ofFn x
  dim : ∀ a ∈ v, a.dim = d
  moves : ∀ a ∈ v, a.mtype = .brownian D
  single : ∀ a ∈ v, a.size = 1
  slowing : ∀ a ∈ v, a.alpha = alpha

theorem nearWord_pi {d : Nat} (m : ℕ → Fin d → ℝ) (ρ : ℝ) (k : ℕ) : nearWord m ρ k = Set.univ.pi fun i => {z | |z - m k i| < ρ} := by
  ext z; simp [nearWord]

theorem nearWord_meas {d : Nat} (m : ℕ → Fin d → ℝ) (ρ : ℝ) (k : ℕ) : MeasurableSet (nearWord m ρ k) := by
  rw [nearWord_pi]
  exact MeasurableSet.univ_pi fun i => measurableSet_lt (by fun_prop) measurable_const

theorem new_circ {R : ℝ} {d : Nat} {s : Circ ℝ} (hs : Circ.new R d = .ok s) : 0 < R ∧ 0 < d ∧ s.sysSize = R ∧ s.dim = d := by
  unfold Circ.new at hs
  split at hs
  · simp at hs
  · rename_i hc
    simp only [fl_le, fl_zero, Bool.or_eq_true, decide_eq_true_eq, not_or, not_le, beq_iff_eq] at hc
    simp only [Res.ok.injEq] at hs
    exact ⟨hc.1, by omega, by rw [← hs], by rw [← hs]⟩

theorem spread_nonneg {ν : Measure ℝ} {b : ℝ} (hν : BoundedSpread ν b) : 0 ≤ b := by
  have := hν.prob
  by_contra hb
  have h1 := hν.bounded
  have e : {z : ℝ | b < |z|} = Set.univ := by
    ext z; simp only [Set.mem_ofPred_eq, Set.mem_univ, iff_true]
    linarith [abs_nonneg z, not_le.1 hb]
  rw [e, measure_univ] at h1
  exact one_ne_zero h1

theorem draws_bounded {rng : RngOps G ℝ} {P : Measure G} {ν : Measure ℝ} {b : ℝ} (h : IndepRng rng P ν) (hν : BoundedSpread ν b) (d : Nat) :
    ∀ᵐ g ∂P, ∀ k i, |(drawsN rng.gaussian d (later (drawsN rng.gaussian d) k g)).1 i| ≤ b := by
  have := h.prob
  have := hν.prob
  have hq := drawsN_mp h.gaussian d
  rw [ae_all_iff]
  intro k
  have h0 : ∀ᵐ z ∂ν, |z| ≤ b := by rw [ae_iff]; simpa using hν.bounded
  have h1 : ∀ᵐ z ∂(Measure.pi fun _ : Fin d => ν), ∀ i, |z i| ≤ b := by
    rw [ae_all_iff]
    exact fun i => (measurePreserving_eval (fun _ : Fin d => ν) i).quasiMeasurePreserving.ae h0
  exact ((measurePreserving_fst.comp hq).comp (later_mp hq k)).quasiMeasurePreserving.ae h1

section
variable (rng : RngOps G ℝ) (P : Measure G) (ν : Measure ℝ) (b : ℝ) (h : IndepRng rng P ν) (hν : BoundedSpread ν b)
  {sys : SysOps G ℝ} {d : Nat} {Q S : Set (Fin d → ℝ)} {put : (Fin d → ℝ) → Fin d → ℝ} (c : Fin d → ℝ) (t : BulkTarget ℝ) (ht : t.targetPos = List.ofFn c)
  (D dt Dmax alpha : ℝ) (hD : 0 < D) (hdt : 0 < dt) (n : Nat)
  (hn : 0 < n) (hD1 : D ≤ Dmax) (hD2 : ∀ m : ℕ, 1 ≤ m → m ≤ n → (m : ℝ) ^ (-alpha) ≤ Dmax)
  (hroom : MergeRoom rng sys Q S put (nearSet c t.targetSize) (b * Real.sqrt (2 * Dmax * dt)))
include h hν ht hD hdt hn hD1 hD2 hroom

/-- the word of C105. -/
theorem merge_word : ∃ (L : ℕ) (W : ℕ → Set (Fin d → ℝ)), 0 < L ∧ (∀ k, MeasurableSet (W k)) ∧ (∀ k, (Measure.pi fun _ : Fin d => ν) (W k) ≠ 0) ∧
    ∀ g, (∀ k i, |(drawsN rng.gaussian d (later (drawsN rng.gaussian d) k g)).1 i| ≤ b) →
      ∀ B, FollowsWord (drawsN rng.gaussian d) W L (later (drawsN rng.gaussian d) (B * L) g) →
      ∀ v, MergeStart Q D alpha n v → ∀ radius : ℝ,
        ∃ k j : ℕ, 0 < k ∧ k ≤ (B + 1) * L ∧ ∀ fuel steps, n * n < fuel → k ≤ steps →
          ∃ x, mergeFpt rng sys t.ops radius dt fuel steps v g = (x, some (.ok (some (k * dt)))) ∧
            x.2.rng = later (drawsN rng.gaussian d) j g := by
  have := h.prob
  have := hν.prob
  obtain ⟨A, hA, hsp⟩ := hν.spread
  have hb0 := spread_nonneg hν
  obtain ⟨L, m, ρ, hL, hρ, hm, hfind⟩ := merge_finds c t ht hn hD hdt le_rfl hD1 hD2 hroom hb0 hA
  refine ⟨L, nearWord m ρ, hL, nearWord_meas m ρ, fun k => ?_, ?_⟩
  · rw [nearWord_pi, Measure.pi_pi]
    exact Finset.prod_ne_zero_iff.2 fun i _ => hsp _ (hm k i) ρ hρ
  · intro g hZ B hfol v hv radius
    have hmg : Merging Q D alpha n ⟨LList.from' v, g, []⟩ :=
      merging_start hv.count (fun a ha => ⟨⟨hv.within a ha, hv.dim a ha, hv.slowing a ha, (hv.single a ha).ge, D, hv.moves a ha, .inl rfl⟩,
        hv.single a ha⟩) g []
    set step := mergeStep rng sys t.ops (fun _ => radius) (n * n + 1) dt with hstp
    obtain ⟨k, hk, h1, h2, j, hj⟩ := hfind (rad := fun _ => radius) (.inl ⟨radius, rfl⟩) (fuel := n * n + 1) (by omega) (dt := fun _ => dt)
      (fun _ => ⟨le_rfl, le_rfl⟩) (st := fun m => (fun st => (step st).1)^[m] ⟨LList.from' v, g, []⟩)
      (fun m => Function.iterate_succ_apply' _ _ _) hmg hZ B hfol
    refine ⟨k + 1, j, by omega, hk, fun fuel steps hf hst => ?_⟩
    have hsame : ∀ {i : ℕ} {r}, (step ((fun st => (step st).1)^[i] ⟨LList.from' v, g, []⟩)).2 = some r →
        mergeStep rng sys t.ops (fun _ => radius) fuel dt ((fun st => (step st).1)^[i] ⟨LList.from' v, g, []⟩) =
        step ((fun st => (step st).1)^[i] ⟨LList.from' v, g, []⟩) := fun hr => mergeStep_le _ _ _ _ _ _ hr (by omega)
    have := searchLoop_turns (countingTick dt) (mergeStep rng sys t.ops (fun _ => radius) fuel) k Fl.zero
      (fun j => Fl.zero + ((j + 1 : ℕ) : ℝ) * dt) (fun _ => dt) (fun m => (fun st => (step st).1)^[m] ⟨LList.from' v, g, []⟩) steps (by omega)
      (fun j _ => countingTick_output dt j _) (fun i hi => by
        rw [hsame (h1 i hi)]
        exact Prod.ext (Function.iterate_succ_apply' (fun st => (step st).1) i _).symm (h1 i hi)) (by rw [hsame h2]; exact h2)
    have e0 : (Fl.zero : ℝ) + ((k + 1 : ℕ) : ℝ) * dt = ((k + 1 : ℕ) : ℝ) * dt := by simp
    rw [e0] at this
    refine ⟨_, this, ?_⟩
    show (mergeStep rng sys t.ops (fun _ => radius) fuel dt _).1.rng = _
    rw [hsame h2]
    exact hj

/-- Wherever `n` merging searchers start in the room, the search ends with success; that it takes more than `K L` turns from
ANY start has at most the probability `r ^ K`, with `r < 1`. -/
theorem merge_every_start : ∃ (L : ℕ) (r : ℝ≥0∞), r < 1 ∧ ∀ K : ℕ,
    P {g | ¬ ∀ v, MergeStart Q D alpha n v → ∀ radius : ℝ, ∃ k : ℕ, 0 < k ∧ k ≤ K * L ∧ ∃ g', ∀ fuel steps, n * n < fuel → k ≤ steps →
      ∃ x, mergeFpt rng sys t.ops radius dt fuel steps v g = (x, some (.ok (some (k * dt)))) ∧ x.2.rng = g'} ≤ r ^ K := by
  have := h.prob
  have := hν.prob
  have hq := drawsN_mp h.gaussian d
  obtain ⟨L, W, hL, hWm, hW0, hfind⟩ := merge_word rng P ν b h hν c t ht D dt Dmax alpha hD hdt n hn hD1 hD2 hroom
  refine ⟨L, 1 - ∏ k ∈ Finset.range L, (Measure.pi fun _ : Fin d => ν) (W k), ?_, fun K => ?_⟩
  · refine ENNReal.sub_lt_self (by simp) one_ne_zero ?_
    exact Finset.prod_ne_zero_iff.2 fun k _ => hW0 k
  · rw [← (misses_prob hq hWm L K).2]
    have hae := draws_bounded h hν d
    refine measure_mono_ae ?_
    filter_upwards [hae] with g hg hbad B hB hfol
    refine hbad fun v hv radius => ?_
    obtain ⟨k, j, hk0, hk, hk'⟩ := hfind g hg B hfol v hv radius
    exact ⟨k, hk0, hk.trans (Nat.mul_le_mul_right L (by omega)), _, hk'⟩

variable (room : Room P sys d Q) (hpos : volume (Q \ nearSet c t.targetSize) ≠ 0) (radius : ℝ)
include room hpos

/-- the runs of the program. -/
theorem merge_runs : ∃ (π : Measure (Fin n → Fin d → ℝ)) (f : G → (Fin n → Fin d → ℝ) × G) (L : ℕ) (W : ℕ → Set (Fin d → ℝ)), IsProbabilityMeasure π ∧
    MeasurePreserving f P (π.prod P) ∧ (∀ k, MeasurableSet (W k)) ∧ (∀ k, (Measure.pi fun _ : Fin d => ν) (W k) ≠ 0) ∧
    ∀ᵐ g ∂P, ∀ B, FollowsWord (drawsN rng.gaussian d) W L (later (drawsN rng.gaussian d) (B * L) (f g).2) →
      ∃ k j : ℕ, 0 < k ∧ k ≤ (B + 1) * L ∧ ∃ N, ∀ loops ≥ N, mergeRun rng sys t.ops loops loops loops loops (.brownian D) radius alpha dt n g =
        some (.ok (k * dt), later (drawsN rng.gaussian d) j (f g).2) := by
  have := h.prob
  have := hν.prob
  have hq := drawsN_mp h.gaussian d
  obtain ⟨L, W, hL, hWm, hW0, hfind⟩ := merge_word rng P ν b h hν c t ht D dt Dmax alpha hD hdt n hn hD1 hD2 hroom
  have hfin : volume (Q \ nearSet c t.targetSize) ≠ ∞ := ne_top_of_le_ne_top room.volume_finite (measure_mono Set.sdiff_subset)
  have hprob := uniformLaw_prob hpos hfin
  obtain ⟨f0, hf0, hae0⟩ := off_target room c t ht hpos
  have hnew : Samples P (fun loops g => MergeAgent.newUniform sys t.ops loops loops g (.brownian D) radius alpha)
      (fun x : Fin d → ℝ => ⟨.continuousPassiveInteracting, .brownian D, .uniform, (List.ofFn x).length, List.ofFn x, radius, 1, alpha⟩)
      (uniformLaw (Q \ nearSet c t.targetSize)) := by
    refine ⟨f0, hf0, ?_⟩
    filter_upwards [hae0] with g ⟨n, hn⟩
    exact ⟨n, fun m hm => by simp [MergeAgent.newUniform, hn m hm m hm _ room.outDim, Res.map, Pos.dim]⟩
  obtain ⟨f, hf, hae⟩ := many_samples hnew n
  refine ⟨_, f, L, W, inferInstance, hf, hWm, hW0, ?_⟩
  have hb := (measurePreserving_snd.comp hf).quasiMeasurePreserving.ae (draws_bounded h hν d)
  have hin : ∀ᵐ g ∂P, ∀ i, (f g).1 i ∈ Q := by
    have hu : ∀ᵐ x ∂uniformLaw (Q \ nearSet c t.targetSize), x ∈ Q := by
      have h1 : ∀ᵐ x ∂(volume.restrict (Q \ nearSet c t.targetSize)), x ∈ Q := by
        filter_upwards [ae_restrict_mem (room.measurable.diff (near_meas _ _))] with x hx using hx.1
      exact Measure.ae_smul_measure h1 _
    have h2 : ∀ᵐ x ∂(Measure.pi fun _ : Fin n => uniformLaw (Q \ nearSet c t.targetSize)), ∀ i, x i ∈ Q := by
      rw [ae_all_iff]
      exact fun i => (measurePreserving_eval (fun _ : Fin n => uniformLaw (Q \ nearSet c t.targetSize)) i).quasiMeasurePreserving.ae hu
    exact (measurePreserving_fst.comp hf).quasiMeasurePreserving.ae h2
  filter_upwards [hae, hb, hin] with g ⟨N, hN⟩ hb hin B hfol
  obtain ⟨k, j, hk0, hk, hk'⟩ := hfind (f g).2 hb B hfol
    (List.ofFn fun i => ⟨.continuousPassiveInteracting, .brownian D, .uniform, (List.ofFn ((f g).1 i)).length, List.ofFn ((f g).1 i), radius, 1, alpha⟩)
    ⟨by simp, fun a ha => by
        obtain ⟨i, rfl⟩ := List.mem_ofFn.1 ha
        exact ⟨_, hin i, rfl⟩, fun a ha => by
        obtain ⟨i, rfl⟩ := List.mem_ofFn.1 ha
        simp, fun a ha => by
        obtain ⟨i, rfl⟩ := List.mem_ofFn.1 ha
        rfl, fun a ha => by
        obtain ⟨i, rfl⟩ := List.mem_ofFn.1 ha
        rfl, fun a ha => by
        obtain ⟨i, rfl⟩ := List.mem_ofFn.1 ha
        rfl⟩ radius
  refine ⟨k, j, hk0, hk, max N (max (n * n + 1) k), fun loops hl => ?_⟩
  obtain ⟨x, hx, hxr⟩ := hk' loops loops (by have := le_max_left (n * n + 1) k; have := le_max_right N (max (n * n + 1) k); omega)
    (by have := le_max_right (n * n + 1) k; have := le_max_right N (max (n * n + 1) k); omega)
  unfold mergeRun
  rw [hN loops ((le_max_left _ _).trans hl)]
  simp only
  rw [hx]
  simp only [hxr]

/-- The program: `n` searchers are placed at random and merge when they meet.  That it does not report, in its first `K L`
turns, the time at which one of them finds the target has at most the probability `r ^ K`, with `r < 1`. -/
theorem merge_tail : ∃ (L : ℕ) (r : ℝ≥0∞), r < 1 ∧ ∀ K : ℕ,
    P {g | ¬ ∃ k : ℕ, 0 < k ∧ k ≤ K * L ∧ ∃ g' N, ∀ loops ≥ N,
      mergeRun rng sys t.ops loops loops loops loops (.brownian D) radius alpha dt n g = some (.ok (k * dt), g')} ≤ r ^ K := by
  have := h.prob
  have := hν.prob
  have hq := drawsN_mp h.gaussian d
  obtain ⟨π, f, L, W, hπ, hf, hWm, hW0, hae⟩ := merge_runs rng P ν b h hν c t ht D dt Dmax alpha hD hdt n hn hD1 hD2 hroom room hpos radius
  refine ⟨L, 1 - ∏ k ∈ Finset.range L, (Measure.pi fun _ : Fin d => ν) (W k), ?_, fun K => ?_⟩
  · refine ENNReal.sub_lt_self (by simp) one_ne_zero ?_
    exact Finset.prod_ne_zero_iff.2 fun k _ => hW0 k
  · obtain ⟨hmm, hmp⟩ := misses_prob hq hWm L K
    rw [← hmp, ← (measurePreserving_snd.comp hf).measure_preimage hmm.nullMeasurableSet]
    refine measure_mono_ae ?_
    filter_upwards [hae] with g hg hbad B hB hfol
    obtain ⟨k, j, hk0, hk, hk'⟩ := hg B hfol
    exact hbad ⟨k, hk0, hk.trans (Nat.mul_le_mul_right L (by omega)), _, hk'⟩

theorem merge_again : ∃ (f : G → (Fin n → Fin d → ℝ) × G), Measurable f ∧ (∀ Q : G → Prop, (∀ᵐ g ∂P, Q g) → ∀ᵐ g ∂P, ∀ j, Q (later (drawsN rng.gaussian d) j (f g).2)) ∧
    ∀ᵐ g ∂P, ∃ k j : ℕ, 0 < k ∧ ∃ N, ∀ loops ≥ N, mergeRun rng sys t.ops loops loops loops loops (.brownian D) radius alpha dt n g =
        some (.ok (k * dt), later (drawsN rng.gaussian d) j (f g).2) := by
  have := h.prob
  have := hν.prob
  have hq := drawsN_mp h.gaussian d
  obtain ⟨π, f, L, W, hπ, hf, hWm, hW0, hae⟩ := merge_runs rng P ν b h hν c t ht D dt Dmax alpha hD hdt n hn hD1 hD2 hroom room hpos radius
  refine ⟨f, hf.measurable, fun Q hQ => ?_, ?_⟩
  · rw [ae_all_iff]
    exact fun j => ((later_mp hq j).comp (measurePreserving_snd.comp hf)).quasiMeasurePreserving.ae hQ
  · have hw := (measurePreserving_snd.comp hf).quasiMeasurePreserving.ae (word_comes hq hWm (L := L) fun k _ => hW0 k)
    filter_upwards [hae, hw] with g hg ⟨B, hB⟩
    obtain ⟨k, j, hk0, -, hk'⟩ := hg B hB
    exact ⟨k, j, hk0, hk'⟩

/-- With probability one the program reports the time at which the target was found. -/
theorem merge_found : ∀ᵐ g ∂P, ∃ k : ℕ, 0 < k ∧ ∃ g' N, ∀ loops ≥ N,
    mergeRun rng sys t.ops loops loops loops loops (.brownian D) radius alpha dt n g = some (.ok (k * dt), g') := by
  obtain ⟨f, -, -, hae⟩ := merge_again rng P ν b h hν c t ht D dt Dmax alpha hD hdt n hn hD1 hD2 hroom room hpos radius
  filter_upwards [hae] with g ⟨k, j, hk0, hk⟩
  exact ⟨k, hk0, _, hk⟩

/-- With probability one every ensemble, however large, is completed: all its runs succeed, and their mean is reported; it is
the mean of `num` times, each at least `dt`. -/
theorem merge_ensembles : ∀ᵐ g ∂P, ∀ num : ℕ, ∃ times : Fin num → ℕ, (∀ i, 0 < times i) ∧ ∃ g' N, ∀ loops ≥ N,
    ensembleMean (mergeRun rng sys t.ops loops loops loops loops (.brownian D) radius alpha dt n) num g =
      some (.ok ((∑ i, (times i : ℝ) * dt) / num), g') := by
  obtain ⟨f, -, hf, hae⟩ := merge_again rng P ν b h hν c t ht D dt Dmax alpha hD hdt n hn hD1 hD2 hroom room hpos radius
  set run := fun loops => mergeRun rng sys t.ops loops loops loops loops (.brownian D) radius alpha dt n with hrun
  have key : ∀ num : ℕ, ∀ᵐ g ∂P, ∃ times : Fin num → ℕ, (∀ i, 0 < times i) ∧ ∃ g' N, ∀ loops ≥ N, ∀ data : ℝ,
      ensembleSum (run loops) num g data = some (.ok (data + ∑ i, (times i : ℝ) * dt), g') := by
    intro num
    induction num with
    | zero => exact .of_forall fun g => ⟨Fin.elim0, fun i => i.elim0, g, 0, fun _ _ data => by simp [ensembleSum]⟩
    | succ num ih =>
      filter_upwards [hae, hf _ ih] with g ⟨k, j, hk0, N, hN⟩ hnext
      obtain ⟨times, ht0, g', N', hN'⟩ := hnext j
      refine ⟨Fin.cons k times, ?_, g', max N N', fun loops hl data => ?_⟩
      · intro i
        refine Fin.cases ?_ (fun i => ?_) i
        · exact hk0
        · exact ht0 i
      · have e1 : run loops g = _ := hN loops ((le_max_left _ _).trans hl)
        rw [ensembleSum, e1]
        simp only
        rw [hN' loops ((le_max_right _ _).trans hl), Fin.sum_univ_succ]
        simp only [Fin.cons_zero, Fin.cons_succ, add_assoc]
  rw [ae_all_iff]
  intro num
  filter_upwards [key num] with g ⟨times, ht0, g', N, hN⟩
  refine ⟨times, ht0, g', N, fun loops hl => ?_⟩
  show ensembleMean (run loops) num g = _
  unfold ensembleMean
  rw [hN loops hl]
  simp [Res.map]

end

theorem ball_room {rng : RngOps G ℝ} {P : Measure G} {ν : Measure ℝ} (h : IndepRng rng P ν) {R : ℝ} {d : Nat} {s : Circ ℝ} (hs : Circ.new R d = .ok s) :
    Room P (s.ops rng) d (ballSet d R) := by
  obtain ⟨hR, -, hsz, hdim⟩ := new_circ hs
  have room := (C73_systems rng P h).2.1 s (by rw [hsz]; exact hR)
  rwa [hsz, hdim] at room

theorem cube_room {rng : RngOps G ℝ} {P : Measure G} {ν : Measure ℝ} (h : IndepRng rng P ν) {bc : BoundaryCond} {L : ℝ} {d : Nat} {s : Cubic ℝ}
    (hs : Cubic.new bc L d = .ok s) : Room P (s.ops rng) d (cubeSet d L) := by
  obtain ⟨hL, -, rfl, -⟩ := new_cubic hs
  exact (C73_systems rng P h).1 _ hL

theorem ball_merges (rng : RngOps G ℝ) {R : ℝ} {d : Nat} {s : Circ ℝ} (hs : Circ.new R d = .ok s) {T : Set (Fin d → ℝ)}
    (hin : ∃ c ε, 0 < ε ∧ nearSet c ε ⊆ ballSet d R ∩ T) {step : ℝ} (hstep : step ≤ 2 * R / Real.sqrt d) :
    MergeRoom rng (s.ops rng) (ballSet d R) (ballSet d R) (ballPut R) T step :=
  ball_mergeRoom (new_circ hs).1 (new_circ hs).2.1 ((C77_walls rng).2.1 R d s hs) hin hstep

theorem cube_merges (rng : RngOps G ℝ) {bc : BoundaryCond} {L : ℝ} {d : Nat} {s : Cubic ℝ} (hs : Cubic.new bc L d = .ok s) {T : Set (Fin d → ℝ)}
    (hin : ∃ c ε, 0 < ε ∧ nearSet c ε ⊆ cubeSet d L ∩ T) {step : ℝ} (hstep : step ≤ 2 * L) :
    MergeRoom rng (s.ops rng) (cubeSet d L) (cubeSet d L) (cubePut bc L) T step :=
  cube_mergeRoom (new_cubic hs).1 ((C77_walls rng).1 bc L d s hs) hin hstep

theorem cyl_room {rng : RngOps G ℝ} {P : Measure G} {ν : Measure ℝ} (h : IndepRng rng P ν) {k : Nat} {R L : ℝ} {d : Nat} {s : Cyl ℝ}
    (hs : Cyl.new k R L d = .ok s) : Room P (s.ops rng) d (cylSet d k R (2 * L)) := by
  obtain ⟨hR, hL, hk, -, rfl⟩ := new_cyl hs
  exact (C73_systems rng P h).2.2 _ k rfl hk hR hL

theorem cyl_merges (rng : RngOps G ℝ) {k : Nat} {R L : ℝ} {d : Nat} {s : Cyl ℝ} (hs : Cyl.new k R L d = .ok s) {T : Set (Fin d → ℝ)}
    (hin : ∃ c ε, 0 < ε ∧ nearSet c ε ⊆ cylSet d k R L ∩ T) {ν : Measure ℝ} {b a : ℝ} (hν : BoundedSpread ν b) (hstep : b * Real.sqrt a ≤ L)
    (hstep' : b * Real.sqrt a * Real.sqrt k ≤ 2 * R) :
    MergeRoom rng (s.ops rng) (cylSet d k R (2 * L)) (cylSet d k R L) (cylPut k R L) T (b * Real.sqrt a) :=
  cyl_mergeRoom (new_cyl hs).1 (new_cyl hs).2.1 (new_cyl hs).2.2.1 ((C77_walls rng).2.2 k R L d s hs) hin
    (mul_nonneg (spread_nonneg hν) (Real.sqrt_nonneg _)) hstep hstep'

/-! ### balls (the disc of tests/merge_fpt.rs) -/

section
variable (rng : RngOps G ℝ) (P : Measure G) (ν : Measure ℝ) (b : ℝ) (h : IndepRng rng P ν) (hν : BoundedSpread ν b)
  (d : Nat) (R : ℝ) (s : Circ ℝ) (hs : Circ.new R d = .ok s) (c : Fin d → ℝ) (t : BulkTarget ℝ) (ht : t.targetPos = List.ofFn c)
  (hin : ∃ c' ε, 0 < ε ∧ nearSet c' ε ⊆ ballSet d R ∩ nearSet c t.targetSize) (D dt Dmax alpha : ℝ) (hD : 0 < D) (hdt : 0 < dt) (n : Nat)
  (hn : 0 < n) (hD1 : D ≤ Dmax) (hD2 : ∀ m : ℕ, 1 ≤ m → m ≤ n → (m : ℝ) ^ (-alpha) ≤ Dmax)
  (hstep : b * Real.sqrt (2 * Dmax * dt) ≤ 2 * R / Real.sqrt d)
include h hν hs ht hin hD hdt hn hD1 hD2 hstep

/-- Wherever `n` merging searchers start in the ball, the search ends with success; that it takes more than `K L` turns from
ANY start has at most the probability `r ^ K`, with `r < 1`. -/
theorem C105_every_start : ∃ (L : ℕ) (r : ℝ≥0∞), r < 1 ∧ ∀ K : ℕ,
    P {g | ¬ ∀ v, MergeStart (ballSet d R) D alpha n v → ∀ radius : ℝ, ∃ k : ℕ, 0 < k ∧ k ≤ K * L ∧ ∃ g', ∀ fuel steps, n * n < fuel → k ≤ steps →
      ∃ x, mergeFpt rng (s.ops rng) t.ops radius dt fuel steps v g = (x, some (.ok (some (k * dt)))) ∧ x.2.rng = g'} ≤ r ^ K :=
  merge_every_start rng P ν b h hν c t ht D dt Dmax alpha hD hdt n hn hD1 hD2 (ball_merges rng hs hin hstep)

variable (hpos : volume (ballSet d R \ nearSet c t.targetSize) ≠ 0) (radius : ℝ)
include hpos

/-- The program: `n` searchers are placed at random in the ball and merge when they meet.  That it does not report, in its first
`K L` turns, the time at which one of them finds the target has at most the probability `r ^ K`, with `r < 1`. -/
theorem C105_tail : ∃ (L : ℕ) (r : ℝ≥0∞), r < 1 ∧ ∀ K : ℕ,
    P {g | ¬ ∃ k : ℕ, 0 < k ∧ k ≤ K * L ∧ ∃ g' N, ∀ loops ≥ N,
      mergeRun rng (s.ops rng) t.ops loops loops loops loops (.brownian D) radius alpha dt n g = some (.ok (k * dt), g')} ≤ r ^ K :=
  merge_tail rng P ν b h hν c t ht D dt Dmax alpha hD hdt n hn hD1 hD2 (ball_merges rng hs hin hstep) (ball_room h hs) hpos radius

/-- With probability one the program reports the time at which the target was found. -/
theorem C105_found : ∀ᵐ g ∂P, ∃ k : ℕ, 0 < k ∧ ∃ g' N, ∀ loops ≥ N,
    mergeRun rng (s.ops rng) t.ops loops loops loops loops (.brownian D) radius alpha dt n g = some (.ok (k * dt), g') :=
  merge_found rng P ν b h hν c t ht D dt Dmax alpha hD hdt n hn hD1 hD2 (ball_merges rng hs hin hstep) (ball_room h hs) hpos radius

/-- With probability one every ensemble, however large, is completed: all its runs succeed, and their mean is reported; it is
the mean of `num` times, each at least `dt`. -/
theorem C105_ensembles : ∀ᵐ g ∂P, ∀ num : ℕ, ∃ times : Fin num → ℕ, (∀ i, 0 < times i) ∧ ∃ g' N, ∀ loops ≥ N,
    ensembleMean (mergeRun rng (s.ops rng) t.ops loops loops loops loops (.brownian D) radius alpha dt n) num g =
      some (.ok ((∑ i, (times i : ℝ) * dt) / num), g') :=
  merge_ensembles rng P ν b h hν c t ht D dt Dmax alpha hD hdt n hn hD1 hD2 (ball_merges rng hs hin hstep) (ball_room h hs) hpos radius
end

/-! ### cubes, with mirrors, periodic or mixed -/

section
variable (rng : RngOps G ℝ) (P : Measure G) (ν : Measure ℝ) (b : ℝ) (h : IndepRng rng P ν) (hν : BoundedSpread ν b)
  (d : Nat) (bc : BoundaryCond) (L : ℝ) (s : Cubic ℝ) (hs : Cubic.new bc L d = .ok s) (c : Fin d → ℝ) (t : BulkTarget ℝ) (ht : t.targetPos = List.ofFn c)
  (hin : ∃ c' ε, 0 < ε ∧ nearSet c' ε ⊆ cubeSet d L ∩ nearSet c t.targetSize) (D dt Dmax alpha : ℝ) (hD : 0 < D) (hdt : 0 < dt) (n : Nat)
  (hn : 0 < n) (hD1 : D ≤ Dmax) (hD2 : ∀ m : ℕ, 1 ≤ m → m ≤ n → (m : ℝ) ^ (-alpha) ≤ Dmax)
  (hstep : b * Real.sqrt (2 * Dmax * dt) ≤ 2 * L)
include h hν hs ht hin hD hdt hn hD1 hD2 hstep

/-- Wherever `n` merging searchers start in the cube, the search ends with success; that it takes more than `K M` turns from
ANY start has at most the probability `r ^ K`, with `r < 1`.  Every boundary condition. -/
theorem C105_cube_every_start : ∃ (M : ℕ) (r : ℝ≥0∞), r < 1 ∧ ∀ K : ℕ,
    P {g | ¬ ∀ v, MergeStart (cubeSet d L) D alpha n v → ∀ radius : ℝ, ∃ k : ℕ, 0 < k ∧ k ≤ K * M ∧ ∃ g', ∀ fuel steps, n * n < fuel → k ≤ steps →
      ∃ x, mergeFpt rng (s.ops rng) t.ops radius dt fuel steps v g = (x, some (.ok (some (k * dt)))) ∧ x.2.rng = g'} ≤ r ^ K :=
  merge_every_start rng P ν b h hν c t ht D dt Dmax alpha hD hdt n hn hD1 hD2 (cube_merges rng hs hin hstep)

variable (hpos : volume (cubeSet d L \ nearSet c t.targetSize) ≠ 0) (radius : ℝ)
include hpos

/-- The program: `n` searchers are placed at random in the cube and merge when they meet.  That it does not report, in its first
`K M` turns, the time at which one of them finds the target has at most the probability `r ^ K`, with `r < 1`. -/
theorem C105_cube_tail : ∃ (M : ℕ) (r : ℝ≥0∞), r < 1 ∧ ∀ K : ℕ,
    P {g | ¬ ∃ k : ℕ, 0 < k ∧ k ≤ K * M ∧ ∃ g' N, ∀ loops ≥ N,
      mergeRun rng (s.ops rng) t.ops loops loops loops loops (.brownian D) radius alpha dt n g = some (.ok (k * dt), g')} ≤ r ^ K :=
  merge_tail rng P ν b h hν c t ht D dt Dmax alpha hD hdt n hn hD1 hD2 (cube_merges rng hs hin hstep) (cube_room h hs) hpos radius

/-- With probability one the program reports the time at which the target was found. -/
theorem C105_cube_found : ∀ᵐ g ∂P, ∃ k : ℕ, 0 < k ∧ ∃ g' N, ∀ loops ≥ N,
    mergeRun rng (s.ops rng) t.ops loops loops loops loops (.brownian D) radius alpha dt n g = some (.ok (k * dt), g') :=
  merge_found rng P ν b h hν c t ht D dt Dmax alpha hD hdt n hn hD1 hD2 (cube_merges rng hs hin hstep) (cube_room h hs) hpos radius

/-- With probability one every ensemble, however large, is completed: all its runs succeed, and their mean is reported; it is
the mean of `num` times, each at least `dt`. -/
theorem C105_cube_ensembles : ∀ᵐ g ∂P, ∀ num : ℕ, ∃ times : Fin num → ℕ, (∀ i, 0 < times i) ∧ ∃ g' N, ∀ loops ≥ N,
    ensembleMean (mergeRun rng (s.ops rng) t.ops loops loops loops loops (.brownian D) radius alpha dt n) num g =
      some (.ok ((∑ i, (times i : ℝ) * dt) / num), g') :=
  merge_ensembles rng P ν b h hν c t ht D dt Dmax alpha hD hdt n hn hD1 hD2 (cube_merges rng hs hin hstep) (cube_room h hs) hpos radius
end

/-! ### cylinders, periodic along their axis

The library places searchers in a cylinder of twice the length, and the first step brings them home. -/

section
variable (rng : RngOps G ℝ) (P : Measure G) (ν : Measure ℝ) (b : ℝ) (h : IndepRng rng P ν) (hν : BoundedSpread ν b)
  (d : Nat) (k : Nat) (R L : ℝ) (s : Cyl ℝ) (hs : Cyl.new k R L d = .ok s) (c : Fin d → ℝ) (t : BulkTarget ℝ) (ht : t.targetPos = List.ofFn c)
  (hin : ∃ c' ε, 0 < ε ∧ nearSet c' ε ⊆ cylSet d k R L ∩ nearSet c t.targetSize) (D dt Dmax alpha : ℝ) (hD : 0 < D) (hdt : 0 < dt) (n : Nat)
  (hn : 0 < n) (hD1 : D ≤ Dmax) (hD2 : ∀ m : ℕ, 1 ≤ m → m ≤ n → (m : ℝ) ^ (-alpha) ≤ Dmax)
  (hstep : b * Real.sqrt (2 * Dmax * dt) ≤ L)
  (hstep' : b * Real.sqrt (2 * Dmax * dt) * Real.sqrt k ≤ 2 * R)
include h hν hs ht hin hD hdt hn hD1 hD2 hstep hstep'

/-- Wherever `n` merging searchers start in the cylinder, the search ends with success; that it takes more than `K M` turns from
ANY start has at most the probability `r ^ K`, with `r < 1`. -/
theorem C105_cyl_every_start : ∃ (M : ℕ) (r : ℝ≥0∞), r < 1 ∧ ∀ K : ℕ,
    P {g | ¬ ∀ v, MergeStart (cylSet d k R (2 * L)) D alpha n v → ∀ radius : ℝ, ∃ m : ℕ, 0 < m ∧ m ≤ K * M ∧ ∃ g', ∀ fuel steps, n * n < fuel → m ≤ steps →
      ∃ x, mergeFpt rng (s.ops rng) t.ops radius dt fuel steps v g = (x, some (.ok (some (m * dt)))) ∧ x.2.rng = g'} ≤ r ^ K :=
  merge_every_start rng P ν b h hν c t ht D dt Dmax alpha hD hdt n hn hD1 hD2 (cyl_merges rng hs hin hν hstep hstep')

variable (hpos : volume (cylSet d k R (2 * L) \ nearSet c t.targetSize) ≠ 0) (radius : ℝ)
include hpos

/-- The program: `n` searchers are placed at random in the cylinder and merge when they meet.  That it does not report, in its first
`K M` turns, the time at which one of them finds the target has at most the probability `r ^ K`, with `r < 1`. -/
theorem C105_cyl_tail : ∃ (M : ℕ) (r : ℝ≥0∞), r < 1 ∧ ∀ K : ℕ,
    P {g | ¬ ∃ m : ℕ, 0 < m ∧ m ≤ K * M ∧ ∃ g' N, ∀ loops ≥ N,
      mergeRun rng (s.ops rng) t.ops loops loops loops loops (.brownian D) radius alpha dt n g = some (.ok (m * dt), g')} ≤ r ^ K :=
  merge_tail rng P ν b h hν c t ht D dt Dmax alpha hD hdt n hn hD1 hD2 (cyl_merges rng hs hin hν hstep hstep') (cyl_room h hs) hpos radius

/-- With probability one the program reports the time at which the target was found. -/
theorem C105_cyl_found : ∀ᵐ g ∂P, ∃ m : ℕ, 0 < m ∧ ∃ g' N, ∀ loops ≥ N,
    mergeRun rng (s.ops rng) t.ops loops loops loops loops (.brownian D) radius alpha dt n g = some (.ok (m * dt), g') :=
  merge_found rng P ν b h hν c t ht D dt Dmax alpha hD hdt n hn hD1 hD2 (cyl_merges rng hs hin hν hstep hstep') (cyl_room h hs) hpos radius

/-- With probability one every ensemble, however large, is completed: all its runs succeed, and their mean is reported; it is
the mean of `num` times, each at least `dt`. -/
theorem C105_cyl_ensembles : ∀ᵐ g ∂P, ∀ num : ℕ, ∃ times : Fin num → ℕ, (∀ i, 0 < times i) ∧ ∃ g' N, ∀ loops ≥ N,
    ensembleMean (mergeRun rng (s.ops rng) t.ops loops loops loops loops (.brownian D) radius alpha dt n) num g =
      some (.ok ((∑ i, (times i : ℝ) * dt) / num), g') :=
  merge_ensembles rng P ν b h hν c t ht D dt Dmax alpha hD hdt n hn hD1 hD2 (cyl_merges rng hs hin hν hstep hstep') (cyl_room h hs) hpos radius
end

/-! ### examples -/

theorem disc_example : volume (ballSet 2 10 \ nearSet (fun _ : Fin 2 => 0) 1) ≠ 0 := by
  have hopen : IsOpen (openBox (fun _ : Fin 2 => (3 : ℝ)) ∩ {x | 1 < x 0}) :=
    (openBox_open _).inter (isOpen_lt continuous_const (continuous_apply 0))
  refine ne_of_gt (lt_of_lt_of_le (hopen.measure_pos volume ⟨fun _ => 2, fun i => by norm_num [abs_lt], by norm_num⟩) (measure_mono ?_))
  rintro x ⟨h1, h2⟩
  have h2 : 1 < x 0 := h2
  have a0 := abs_lt.1 (h1 0)
  have a1 := abs_lt.1 (h1 1)
  constructor
  · show ∑ i, x i ^ 2 ≤ 10 ^ 2
    rw [Fin.sum_univ_two]
    nlinarith
  · show ¬ Real.sqrt (∑ i, (x i - 0) ^ 2) < 1
    rw [Fin.sum_univ_two, not_lt]
    refine Real.le_sqrt_of_sq_le ?_
    nlinarith [sq_nonneg (x 1)]

theorem disc_target : nearSet (fun _ : Fin 2 => 0) 1 ⊆ ballSet 2 10 ∩ nearSet (fun _ : Fin 2 => 0) 1 := by
  intro x hx
  refine ⟨?_, hx⟩
  have h1 : Real.sqrt (∑ i, (x i - 0) ^ 2) < 1 := hx
  rw [Real.sqrt_lt' (by norm_num)] at h1
  show ∑ i, x i ^ 2 ≤ 10 ^ 2
  simp only [sub_zero] at h1
  linarith

theorem disc_step : (50 : ℝ) * Real.sqrt (2 * 1 * (1 / 100)) ≤ 2 * 10 / Real.sqrt (2 : ℕ) := by
  have h1 : Real.sqrt (2 * 1 * (1 / 100)) ≤ 1 / 5 := by
    rw [Real.sqrt_le_left (by norm_num)]; norm_num
  have h2 : Real.sqrt ((2 : ℕ) : ℝ) ≤ 2 := by
    rw [Real.sqrt_le_left (by norm_num)]; norm_num
  rw [le_div_iff₀ (Real.sqrt_pos.2 (by norm_num))]
  refine (mul_le_mul (mul_le_mul_of_nonneg_left h1 (by norm_num)) h2 (Real.sqrt_nonneg _) (by norm_num)).trans (by norm_num)

/-- The hypotheses are met by the numbers of tests/merge_fpt.rs, with normal numbers cut at 50: a disc of radius 10 with a mirror, a
target of radius 1 in its middle, searchers with `D = 1` and radius 1/20, slowed by the power `alpha = 1` or `0` of their size, and
`dt = 1/100`. -/
example : let s : Circ ℝ := ⟨.continuousCircular, .reflection, 10, 2⟩
    ∀ (alpha : ℝ) (n : ℕ), 0 < n → (alpha = 1 ∨ alpha = 0) →
    ∀ᵐ g ∂tapeLaw, ∀ num : ℕ, ∃ times : Fin num → ℕ, (∀ i, 0 < times i) ∧ ∃ g' N, ∀ loops ≥ N,
      ensembleMean (mergeRun (cutRng tapeRng 50) (s.ops (cutRng tapeRng 50)) (BulkTarget.new [0, 0] 1).ops loops loops loops loops (.brownian 1)
        (1 / 20) alpha (1 / 100) n) num g = some (.ok ((∑ i, (times i : ℝ) * (1 / 100)) / num), g') := by
  intro s alpha n hn ha
  refine C105_ensembles (cutRng tapeRng 50) tapeLaw _ 50 (cut_indep tape_ideal 50) (C100_cut_normal (by norm_num)) 2 10 s
    (by unfold Circ.new; rw [if_neg (by simp)]) (fun _ => 0) (BulkTarget.new [0, 0] 1) (by simp [BulkTarget.new])
    ⟨fun _ => 0, 1, by norm_num, disc_target⟩ 1 (1 / 100) 1 alpha (by norm_num) (by norm_num) n hn le_rfl ?_ disc_step
    disc_example (1 / 20)
  intro m hm _
  exact Real.rpow_le_one_of_one_le_of_nonpos (by exact_mod_cast hm) (by rcases ha with rfl | rfl <;> norm_num)

theorem square_step : (25 : ℝ) * Real.sqrt (2 * 1 * (1 / 5000)) ≤ 2 * 1 := by
  have h1 : Real.sqrt (2 * 1 * (1 / 5000)) ≤ 1 / 25 := by
    rw [Real.sqrt_le_left (by norm_num)]; norm_num
  linarith

/-- In a square of side 2, mirrored, periodic or mixed, with a target of radius 1/4 in its middle, and normal numbers cut at 25. -/
example : ∀ (bc : BoundaryCond) (s : Cubic ℝ), Cubic.new bc 1 2 = .ok s → ∀ n : ℕ, 0 < n →
    ∀ᵐ g ∂tapeLaw, ∀ num : ℕ, ∃ times : Fin num → ℕ, (∀ i, 0 < times i) ∧ ∃ g' N, ∀ loops ≥ N,
      ensembleMean (mergeRun (cutRng tapeRng 25) (s.ops (cutRng tapeRng 25)) (BulkTarget.new [0, 0] (1 / 4)).ops loops loops loops loops (.brownian 1)
        (1 / 20) 1 (1 / 5000) n) num g = some (.ok ((∑ i, (times i : ℝ) * (1 / 5000)) / num), g') := by
  intro bc s hs n hn
  refine C105_cube_ensembles (cutRng tapeRng 25) tapeLaw _ 25 (cut_indep tape_ideal 25) (C100_cut_normal (by norm_num)) 2 bc 1 s
    hs (fun _ => 0) (BulkTarget.new [0, 0] (1 / 4)) (by simp [BulkTarget.new])
    ⟨fun _ => 0, 1 / 4, by norm_num, square_target⟩ 1 (1 / 5000) 1 1 (by norm_num) (by norm_num) n hn le_rfl ?_ square_step
    square_example (1 / 20)
  intro m hm _
  exact Real.rpow_le_one_of_one_le_of_nonpos (by exact_mod_cast hm) (by norm_num)

theorem tube_step : (50 : ℝ) * Real.sqrt (2 * 1 * (1 / 5000)) ≤ 5 ∧ (50 : ℝ) * Real.sqrt (2 * 1 * (1 / 5000)) * Real.sqrt (2 : ℕ) ≤ 2 * 2 := by
  have h1 : Real.sqrt (2 * 1 * (1 / 5000)) ≤ 1 / 50 := by
    rw [Real.sqrt_le_left (by norm_num)]; norm_num
  have h2 : Real.sqrt ((2 : ℕ) : ℝ) ≤ 2 := by
    rw [Real.sqrt_le_left (by norm_num)]; norm_num
  refine ⟨by linarith, (mul_le_mul (mul_le_mul_of_nonneg_left h1 (by norm_num)) h2 (Real.sqrt_nonneg _) (by norm_num)).trans (by norm_num)⟩

theorem tube_target : nearSet (fun _ : Fin 3 => 0) 1 ⊆ cylSet 3 2 2 5 ∩ nearSet (fun _ : Fin 3 => 0) 1 := by
  intro x hx
  refine ⟨?_, hx⟩
  have h1 : Real.sqrt (∑ i, (x i - 0) ^ 2) < 1 := hx
  rw [Real.sqrt_lt' (by norm_num)] at h1
  simp only [sub_zero, Fin.sum_univ_three] at h1
  refine ⟨?_, fun i hi => ?_⟩
  · rw [Fin.sum_univ_three]
    norm_num
    nlinarith [sq_nonneg (x 2)]
  · have : i = 2 := by omega
    subst this
    refine abs_le_of_sq_le_sq (by nlinarith [sq_nonneg (x 0), sq_nonneg (x 1)]) (by norm_num)

theorem tube_example : volume (cylSet 3 2 2 (2 * 5) \ nearSet (fun _ : Fin 3 => 0) 1) ≠ 0 := by
  have hopen : IsOpen (openBox (fun i : Fin 3 => if i = 2 then (5 : ℝ) else 1) ∩ {x | 1 < x 2}) :=
    (openBox_open _).inter (isOpen_lt continuous_const (continuous_apply 2))
  refine ne_of_gt (lt_of_lt_of_le (hopen.measure_pos volume ⟨fun i => if i = 2 then 2 else 0, fun i => by
    by_cases h : i = 2 <;> simp [h]; norm_num, by simp⟩) (measure_mono ?_))
  rintro x ⟨h1, h2⟩
  have h2 : 1 < x 2 := h2
  have a0 : -1 < x 0 ∧ x 0 < 1 := by simpa using abs_lt.1 (h1 0)
  have a1 : -1 < x 1 ∧ x 1 < 1 := by simpa using abs_lt.1 (h1 1)
  have a2 : |x 2| < 5 := by simpa using h1 2
  refine ⟨⟨?_, fun i hi => ?_⟩, ?_⟩
  · rw [Fin.sum_univ_three]
    norm_num
    nlinarith
  · have : i = 2 := by omega
    subst this
    linarith
  · show ¬ Real.sqrt (∑ i, (x i - 0) ^ 2) < 1
    rw [Fin.sum_univ_three, not_lt]
    refine Real.le_sqrt_of_sq_le ?_
    nlinarith [sq_nonneg (x 0), sq_nonneg (x 1)]

/-- In a tube of radius 2 and length 10 that is closed to a ring, with a target of radius 1 in its middle, and normal numbers cut at 50. -/
example : ∀ s : Cyl ℝ, Cyl.new 2 2 5 3 = .ok s → ∀ n : ℕ, 0 < n →
    ∀ᵐ g ∂tapeLaw, ∀ num : ℕ, ∃ times : Fin num → ℕ, (∀ i, 0 < times i) ∧ ∃ g' N, ∀ loops ≥ N,
      ensembleMean (mergeRun (cutRng tapeRng 50) (s.ops (cutRng tapeRng 50)) (BulkTarget.new [0, 0, 0] 1).ops loops loops loops loops (.brownian 1)
        (1 / 20) 1 (1 / 5000) n) num g = some (.ok ((∑ i, (times i : ℝ) * (1 / 5000)) / num), g') := by
  intro s hs n hn
  refine C105_cyl_ensembles (cutRng tapeRng 50) tapeLaw _ 50 (cut_indep tape_ideal 50) (C100_cut_normal (by norm_num)) 3 2 2 5 s
    hs (fun _ => 0) (BulkTarget.new [0, 0, 0] 1) (by simp [BulkTarget.new])
    ⟨fun _ => 0, 1, by norm_num, tube_target⟩ 1 (1 / 5000) 1 1 (by norm_num) (by norm_num) n hn le_rfl ?_ tube_step.1 tube_step.2
    tube_example (1 / 20)
  intro m hm _
  exact Real.rpow_le_one_of_one_le_of_nonpos (by exact_mod_cast hm) (by norm_num)

/-- and there are such squares and tubes. -/
example : (∃ s, Cubic.new (F := ℝ) (.mixed 1) 1 2 = .ok s) ∧ ∃ s, Cyl.new (F := ℝ) 2 2 5 3 = .ok s := by
  constructor
  · unfold Cubic.new; rw [if_neg (by simp)]; simp
  · unfold Cyl.new; rw [if_neg (by simp)]; simp

/-- there are starts: three searchers at the same place. -/
example : MergeStart (ballSet 2 10) 1 (1 / 2) 3 (List.replicate 3 ⟨.continuousPassiveInteracting, .brownian 1, .uniform, 2, [2, 0], 1 / 100, 1, 1 / 2⟩) := by
  refine ⟨by simp, fun a ha => ⟨fun i => if i = 0 then 2 else 0, ?_, ?_⟩, fun a ha => ?_, fun a ha => ?_, fun a ha => ?_, fun a ha => ?_⟩
  · show ∑ i : Fin 2, (if i = 0 then (2 : ℝ) else 0) ^ 2 ≤ 10 ^ 2
    rw [Fin.sum_univ_two]
    norm_num
  all_goals
    rw [List.eq_of_mem_replicate ha]
    try simp
end Moledyn.Props
