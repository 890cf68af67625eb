import Verif.Props.Laws
import Verif.Lemmas.IdealRng
import Verif.Model.SingleSearch
import Verif.Model.Simulation
/-
C72 (continued), C73: probabilities; the distribution of the agents' positions.
-/
namespace Moledyn.Props
open Moledyn MeasureTheory ProbabilityTheory
open scoped ENNReal
set_option linter.unusedSimpArgs false
variable {G : Type} [MeasurableSpace G]

/-- What `Samples` means for probabilities: the result falls in `A`, and the generator is left in `B`, with probability
`μ A * P B`. -/
theorem C72_probability {α X : Type} [MeasurableSpace X] (P : Measure G) [IsProbabilityMeasure P]
    (prog : Nat → G → Option (Res α × G)) (out : X → α) (ho : Function.Injective out) (μ : Measure X)
    (h : Samples P prog out μ) (A : Set X) (hA : MeasurableSet A) (B : Set G) (hB : MeasurableSet B) :
    P {g | ∃ n, ∀ loops ≥ n, ∃ x ∈ A, ∃ g' ∈ B, prog loops g = some (.ok (out x), g')} = μ A * P B := by
  obtain ⟨f, hf, hae⟩ := h
  rw [← Measure.prod_prod, ← hf.measure_preimage (hA.prod hB).nullMeasurableSet]
  refine measure_congr ?_
  filter_upwards [hae] with g ⟨n, hn⟩
  refine propext ⟨?_, fun hg => ⟨n, fun loops hl => ⟨_, hg.1, _, hg.2, hn loops hl⟩⟩⟩
  rintro ⟨m, hm⟩
  obtain ⟨x, hx, g', hg', e⟩ := hm (max n m) (le_max_right _ _)
  rw [hn _ (le_max_left _ _)] at e
  simp only [Option.some.injEq, Prod.mk.injEq, Res.ok.injEq] at e
  refine ⟨?_, ?_⟩
  · rwa [ho e.1]
  · rwa [e.2]

/-- Ideal generators exist, so the theorems apply: the probability that a position drawn in a cube of half width 1
falls in `A`. -/
example (s : Cubic ℝ) (hL : s.sysSize = 1) (A : Set (Fin s.dim → ℝ)) (hA : MeasurableSet A) :
    tapeLaw {g | ∃ n, ∀ loops ≥ n, ∃ x ∈ A, ∃ g' ∈ Set.univ,
      (fun (_ : Nat) g => some (s.randomPos tapeRng g)) loops g = some (.ok (List.ofFn x), g')} =
        uniformLaw (cubeSet s.dim 1) A := by
  have := tape_ideal.prob
  have h := (C72_cube tapeRng tapeLaw tape_ideal s (by rw [hL]; norm_num) (List.replicate s.dim 0) (by simp)).1
  rw [hL] at h
  rw [C72_probability tapeLaw _ _ List.ofFn_injective _ h A hA _ .univ, measure_univ, mul_one]

private theorem clear_eq {v w : Pos ℝ} (h : v.length = w.length) (c : ℝ) : v.clear c = w.clear c := by
  unfold Pos.clear; rw [List.map_const', List.map_const', h]

private theorem samples_wrote {P : Measure G} {d : Nat} {μ : Measure (Fin d → ℝ)} {draw : Nat → G → Pos ℝ → Option (Res (Pos ℝ) × G)}
    (h : Samples P (fun loops g => draw loops g (List.replicate d 0)) List.ofFn μ)
    (hv : ∀ loops g (v : Pos ℝ), v.length = d → draw loops g v = draw loops g (List.replicate d 0)) :
    DrawsInto P (fun loops g v => wroteVec v (draw loops g v)) d μ := by
  obtain ⟨f, hf, hae⟩ := h
  refine ⟨f, hf, ?_⟩
  filter_upwards [hae] with g ⟨n, hn⟩
  refine ⟨n, fun loops hl v hlen => ?_⟩
  rw [hv loops g v hlen, hn loops hl]
  rfl

private theorem systems_draw (rng : RngOps G ℝ) (P : Measure G) {ν : Measure ℝ} (h : IndepRng rng P ν) :
    (∀ s : Cubic ℝ, 0 < s.sysSize → DrawsInto P (s.ops rng).randomPosToVec s.dim (uniformLaw (cubeSet s.dim s.sysSize))) ∧
    (∀ s : Circ ℝ, 0 < s.sysSize → DrawsInto P (s.ops rng).randomPosToVec s.dim (uniformLaw (ballSet s.dim s.sysSize))) ∧
    (∀ (s : Cyl ℝ) (k : Nat), s.sysType = .continuousCylindrical k → k ≤ s.dim → 0 < s.sysRadius → 0 < s.sysLength →
      DrawsInto P (s.ops rng).randomPosToVec s.dim (uniformLaw (cylSet s.dim k s.sysRadius (2 * s.sysLength)))) := by
  refine ⟨fun s hL => ?_, fun s hR => ?_, fun s k ht hk hR hL => ?_⟩
  · obtain ⟨f, hf, hae⟩ := (C72_cube rng P h s hL (List.replicate s.dim 0) (by simp)).2
    refine ⟨f, hf, ?_⟩
    filter_upwards [hae] with g ⟨n, hn⟩
    refine ⟨n, fun loops hl v hlen => ?_⟩
    have := hn loops hl
    simp only [Cubic.randomPosToVec, Pos.dim, List.length_replicate, ne_eq, not_true_eq_false, if_false, Res.map] at this
    simp only [Cubic.ops, Cubic.randomPosToVec, Pos.dim, hlen, ne_eq, not_true_eq_false, if_false]
    rw [clear_eq (w := List.replicate s.dim 0) (by simp [hlen])]
    simp only [Option.some.injEq, Prod.mk.injEq, Res.ok.injEq] at this ⊢
    exact ⟨⟨this.1, trivial⟩, this.2⟩
  · refine samples_wrote (C72_ball rng P h s hR (List.replicate s.dim 0) (by simp)).2 fun loops g v hlen => ?_
    simp only [Circ.randomPosToVec, Pos.dim, hlen, List.length_replicate, ne_eq, not_true_eq_false, if_false]
    congr 1
    funext g
    simp only [Circ.proposeToVec]
    rw [clear_eq (w := List.replicate s.dim 0) (by simp [hlen])]
  · refine samples_wrote (C72_cylinder rng P h s k ht hk hR hL (List.replicate s.dim 0) (by simp)).2 fun loops g v hlen => ?_
    simp only [Cyl.randomPosToVec, ht, Pos.dim, hlen, List.length_replicate, ne_eq, not_true_eq_false, if_false]
    congr 1
    funext g
    rw [clear_eq (w := List.replicate s.dim 0) (by simp [hlen])]

/-- The three systems, as the agents see them: a cube and a ball give every point the same chance; a cylinder gives every
point of a cylinder of twice its length the same chance. -/
theorem C73_systems (rng : RngOps G ℝ) (P : Measure G) {ν : Measure ℝ} (h : IndepRng rng P ν) :
    (∀ s : Cubic ℝ, 0 < s.sysSize → Room P (s.ops rng) s.dim (cubeSet s.dim s.sysSize)) ∧
    (∀ s : Circ ℝ, 0 < s.sysSize → Room P (s.ops rng) s.dim (ballSet s.dim s.sysSize)) ∧
    (∀ (s : Cyl ℝ) (k : Nat), s.sysType = .continuousCylindrical k → k ≤ s.dim → 0 < s.sysRadius → 0 < s.sysLength →
      Room P (s.ops rng) s.dim (cylSet s.dim k s.sysRadius (2 * s.sysLength))) := by
  obtain ⟨h1, h2, h3⟩ := systems_draw rng P h
  refine ⟨fun s hL => ⟨h1 s hL, by simp [Cubic.ops, Cubic.positionOutOfSystem], fun v hv => ?_, ?_, ?_⟩,
    fun s hR => ⟨h2 s hR, by simp [Circ.ops, Circ.positionOutOfSystem], fun v hv => ?_, ?_, ?_⟩,
    fun s k ht hk hR hL => ⟨h3 s k ht hk hR hL, by simp [Cyl.ops, Cyl.positionOutOfSystem], fun v hv => ?_, ?_, ?_⟩⟩
  · simp only [Cubic.ops, Cubic.positionOutOfSystemToVec, Pos.dim] at hv ⊢
    by_cases hne : s.dim = List.length v
    · simp [← hne]
    · simp [hne] at hv
  · exact cube_measurable _ _
  · exact (cube_vol _ hL).2
  · simp only [Circ.ops, Circ.positionOutOfSystemToVec, Pos.dim] at hv ⊢
    by_cases hne : s.dim = List.length v
    · simp [← hne]
    · simp [hne] at hv
  · exact ball_measurable _ _
  · exact (ball_vol _ hR).2
  · simp only [Cyl.ops, Cyl.positionOutOfSystemToVec, Pos.dim] at hv ⊢
    by_cases hne : s.dim = List.length v
    · simp [← hne]
    · simp [hne] at hv
  · exact cyl_measurable _ _ _ _
  · exact (cyl_vol _ _ hR (by linarith)).2

theorem near_measurable {d : Nat} (c : Fin d → ℝ) (r : ℝ) : MeasurableSet (nearSet c r) := by
  refine (isOpen_lt ?_ continuous_const).measurableSet
  exact Real.continuous_sqrt.comp (continuous_finsetSum _ fun i _ => ((continuous_apply i).sub continuous_const).pow 2)

private theorem sumSq_ofFn {d : Nat} (c x : Fin d → ℝ) :
    Pos.sumSq (Pos.diff (List.ofFn c) (List.ofFn x)) = ∑ i, (x i - c i) ^ 2 := by
  unfold Pos.sumSq Pos.diff
  rw [show List.zipWith (· - ·) (List.ofFn c) (List.ofFn x) = List.ofFn fun i => c i - x i from
    List.ext_getElem (by simp) fun i h1 h2 => by simp]
  rw [List.map_ofFn, List.sum_ofFn]
  exact Finset.sum_congr rfl fun i _ => by simp only [Function.comp]; ring

theorem checkFind_eq {d : Nat} (c x : Fin d → ℝ) (t : BulkTarget ℝ) (ht : t.targetPos = List.ofFn c) :
    (x ∈ nearSet c t.targetSize → t.ops.checkFind (List.ofFn x) = .ok true) ∧
    (x ∉ nearSet c t.targetSize → t.ops.checkFind (List.ofFn x) = .ok false) := by
  have e : t.distance (List.ofFn x) = .ok (Real.sqrt (∑ i, (x i - c i) ^ 2)) := by
    rw [BulkTarget.distance, ht, Pos.distance_eq _ _ (by simp), sumSq_ofFn]
  simp only [BulkTarget.ops, BulkTarget.checkFind, e, Res.bind, fl_lt, decide_eq_true_eq, nearSet, Set.mem_ofPred_eq]
  constructor
  · intro h; rw [if_pos h]
  · intro h; rw [if_neg h]

/-- the loop of every `new_uniform` and `renew_uniform`. -/
theorem off_target {P : Measure G} [IsProbabilityMeasure P] {sys : SysOps G ℝ} {d : Nat} {S : Set (Fin d → ℝ)}
    (room : Room P sys d S) (c : Fin d → ℝ) (t : BulkTarget ℝ) (ht : t.targetPos = List.ofFn c)
    (hpos : volume (S \ nearSet c t.targetSize) ≠ 0) :
    ∃ f : G → (Fin d → ℝ) × G, MeasurePreserving f P ((uniformLaw (S \ nearSet c t.targetSize)).prod P) ∧
      ∀ᵐ g ∂P, ∃ n, ∀ inner ≥ n, ∀ fuel ≥ n, ∀ vec : Pos ℝ, vec.length = d →
        AgentCore.drawOffTarget sys t.ops inner fuel g vec = some ((List.ofFn (f g).1, .ok ()), (f g).2) := by
  obtain ⟨q, hq, hae⟩ := room.draws
  have hS0 : volume S ≠ 0 := fun h => hpos (measure_mono_null Set.sdiff_subset h)
  have := uniformLaw_prob hS0 room.volume_finite
  have hT := near_measurable c t.targetSize
  have h0 : uniformLaw S (nearSet c t.targetSize)ᶜ ≠ 0 := by
    simp only [uniformLaw, Measure.smul_apply, Measure.restrict_apply hT.compl, smul_eq_mul]
    refine mul_ne_zero (ENNReal.inv_ne_zero.2 room.volume_finite) ?_
    rwa [Set.inter_comm, ← Set.sdiff_eq]
  obtain ⟨f, hf, hfae⟩ := reject_mp hq hT.compl h0
  rw [condLaw_uniform hS0 room.volume_finite hT.compl, Set.inter_comm, ← Set.sdiff_eq] at hf
  refine ⟨f, hf, ?_⟩
  have hall : ∀ᵐ g ∂P, ∀ m, ∃ n, ∀ loops ≥ n, ∀ vec : Pos ℝ, vec.length = d →
      sys.randomPosToVec loops (after q m g) vec = some ((List.ofFn (q (after q m g)).1, .ok ()), (q (after q m g)).2) := by
    rw [ae_all_iff]
    exact fun m => (after_mp hq m).quasiMeasurePreserving.ae hae
  filter_upwards [hall, hfae] with g hg ⟨n, a1, a2, a3⟩
  rw [a3]
  clear a3
  have key : ∀ n g, (∀ m, ∃ n, ∀ loops ≥ n, ∀ vec : Pos ℝ, vec.length = d →
      sys.randomPosToVec loops (after q m g) vec = some ((List.ofFn (q (after q m g)).1, .ok ()), (q (after q m g)).2)) →
      (∀ m < n, (q (after q m g)).1 ∉ (nearSet c t.targetSize)ᶜ) → (q (after q n g)).1 ∈ (nearSet c t.targetSize)ᶜ →
      ∃ N, ∀ inner ≥ N, ∀ fuel ≥ n + 1, ∀ vec : Pos ℝ, vec.length = d →
        AgentCore.drawOffTarget sys t.ops inner fuel g vec =
          some ((List.ofFn (q (after q n g)).1, .ok ()), (q (after q n g)).2) := by
    intro n
    induction n with
    | zero =>
      intro g hg _ b
      obtain ⟨N, hN⟩ := hg 0
      refine ⟨N, fun inner hi fuel hf vec hv => ?_⟩
      obtain ⟨k, rfl⟩ : ∃ k, fuel = k + 1 := ⟨fuel - 1, by omega⟩
      have e1 := hN inner hi vec hv
      have e2 := (checkFind_eq c _ t ht).2 b
      simp only [after, Function.iterate_zero, id] at e1 e2 ⊢
      rw [AgentCore.drawOffTarget, e1]
      simp only [e2]
    | succ n ih =>
      intro g hg a b
      obtain ⟨N0, hN0⟩ := hg 0
      obtain ⟨N, hN⟩ := ih (q g).2 (fun m => hg (m + 1)) (fun m hm => a (m + 1) (by omega)) b
      refine ⟨max N0 N, fun inner hi fuel hf vec hv => ?_⟩
      obtain ⟨k, rfl⟩ : ∃ k, fuel = k + 1 := ⟨fuel - 1, by omega⟩
      have e1 := hN0 inner (le_trans (le_max_left _ _) hi) vec hv
      have a0 := a 0 (by omega)
      have e2 := (checkFind_eq c _ t ht).1 (not_not.1 a0)
      simp only [after, Function.iterate_zero, id] at e1 e2
      rw [AgentCore.drawOffTarget, e1]
      simp only [e2]
      exact hN inner (le_trans (le_max_right _ _) hi) k (by omega) _ (by simp)
  obtain ⟨N, hN⟩ := key n g hg a1 a2
  exact ⟨max N (n + 1), fun inner hi fuel hf vec hv => hN inner (le_trans (le_max_left _ _) hi) fuel (le_trans (le_max_right _ _) hf) vec hv⟩

/-- A new agent of any of the four kinds lies at a point of the system that is not in the target, every such point with the
same chance (provided the target does not cover the system).  The position does not depend on what was drawn before, nor
on what will be drawn after. -/
theorem C73_new (P : Measure G) [IsProbabilityMeasure P] (sys : SysOps G ℝ) (d : Nat) (S : Set (Fin d → ℝ))
    (room : Room P sys d S) (c : Fin d → ℝ) (t : BulkTarget ℝ) (ht : t.targetPos = List.ofFn c)
    (hpos : volume (S \ nearSet c t.targetSize) ≠ 0) (mtype : MoveType ℝ) (radius alpha gamma size strength : ℝ) :
    Samples P (fun n g => (IndepAgent.newUniform sys t.ops n n g mtype).map fun r => (r.1.map (·.pos), r.2)) List.ofFn
      (uniformLaw (S \ nearSet c t.targetSize)) ∧
    Samples P (fun n g => (MergeAgent.newUniform sys t.ops n n g mtype radius alpha).map fun r => (r.1.map (·.pos), r.2))
      List.ofFn (uniformLaw (S \ nearSet c t.targetSize)) ∧
    Samples P (fun n g => (ExpAgent.newUniform sys t.ops n n g (.exponential d gamma) mtype strength).map
      fun r => (r.1.map (·.pos), r.2)) List.ofFn (uniformLaw (S \ nearSet c t.targetSize)) ∧
    Samples P (fun n g => (LJAgent.newUniform sys t.ops n n g (.lennardJones size) mtype strength).map
      fun r => (r.1.map (·.pos), r.2)) List.ofFn (uniformLaw (S \ nearSet c t.targetSize)) := by
  obtain ⟨f, hf, hae⟩ := off_target room c t ht hpos
  refine ⟨⟨f, hf, ?_⟩, ⟨f, hf, ?_⟩, ⟨f, hf, ?_⟩, ⟨f, hf, ?_⟩⟩ <;> filter_upwards [hae] with g ⟨n, hn⟩ <;>
    refine ⟨n, fun m hm => ?_⟩
  · simp [IndepAgent.newUniform, hn m hm m hm _ room.outDim, Res.map]
  · simp [MergeAgent.newUniform, hn m hm m hm _ room.outDim, Res.map]
  · simp [ExpAgent.newUniform, hn m hm m hm _ room.outDim, Res.map, Pos.dim, room.outDim]
  · simp [LJAgent.newUniform, hn m hm m hm _ room.outDim, Res.map]

private theorem start_dim {P : Measure G} {sys : SysOps G ℝ} {d : Nat} {S : Set (Fin d → ℝ)} (room : Room P sys d S)
    (v : Pos ℝ) : (AgentCore.startPos sys v).1.length = d := by
  have h := room.outToVec v
  unfold AgentCore.startPos
  split
  · rename_i p e; rw [e] at h; exact h rfl
  · exact room.outDim

/-- The same for renewing an agent, wherever it was and whatever its dimension. -/
theorem C73_renew (P : Measure G) [IsProbabilityMeasure P] (sys : SysOps G ℝ) (d : Nat) (S : Set (Fin d → ℝ))
    (room : Room P sys d S) (c : Fin d → ℝ) (t : BulkTarget ℝ) (ht : t.targetPos = List.ofFn c)
    (hpos : volume (S \ nearSet c t.targetSize) ≠ 0) (a : IndepAgent ℝ) (m : MergeAgent ℝ) (hm : m.mtype ≠ .levy)
    (e : ExpAgent ℝ) (l : LJAgent ℝ) :
    Samples P (fun n g => (a.renewUniform sys t.ops n n g).map fun r => (r.1.2.map fun _ => r.1.1.pos, r.2)) List.ofFn
      (uniformLaw (S \ nearSet c t.targetSize)) ∧
    Samples P (fun n g => (m.renewUniform sys t.ops n n g).map fun r => (r.1.2.map fun _ => r.1.1.pos, r.2)) List.ofFn
      (uniformLaw (S \ nearSet c t.targetSize)) ∧
    Samples P (fun n g => (e.renewUniform sys t.ops n n g).map fun r => (r.1.2.map fun _ => r.1.1.pos, r.2)) List.ofFn
      (uniformLaw (S \ nearSet c t.targetSize)) ∧
    Samples P (fun n g => (l.renewUniform sys t.ops n n g).map fun r => (r.1.2.map fun _ => r.1.1.pos, r.2)) List.ofFn
      (uniformLaw (S \ nearSet c t.targetSize)) := by
  obtain ⟨f, hf, hae⟩ := off_target room c t ht hpos
  refine ⟨⟨f, hf, ?_⟩, ⟨f, hf, ?_⟩, ⟨f, hf, ?_⟩, ⟨f, hf, ?_⟩⟩ <;> filter_upwards [hae] with g ⟨n, hn⟩ <;>
    refine ⟨n, fun k hk => ?_⟩
  · simp [IndepAgent.renewUniform, hn k hk k hk _ (start_dim room _), Res.map]
  · simp only [MergeAgent.renewUniform, hn k hk k hk _ (start_dim room _), Option.map_some, MergeAgent.rescale]
    cases hmt : m.mtype with
    | brownian D => rfl
    | levy => exact absurd hmt hm
  · simp only [ExpAgent.renewUniform]
    split <;> simp [hn k hk k hk _ (start_dim room _), Res.map]
  · simp only [LJAgent.renewUniform]
    split <;> simp [hn k hk k hk _ (start_dim room _), Res.map]

theorem many_samples {P : Measure G} [IsProbabilityMeasure P] {X α : Type} [MeasurableSpace X] {μ : Measure X}
    [IsProbabilityMeasure μ] {prog : Nat → G → Option (Res α × G)} {out : X → α} (h : Samples P prog out μ) (n : Nat) :
    Samples P (fun loops g => makeAgents (prog loops) n g) (fun xs : Fin n → X => List.ofFn fun i => out (xs i))
      (Measure.pi fun _ => μ) := by
  obtain ⟨f, hf, hae⟩ := h
  refine ⟨drawsN f n, drawsN_mp hf n, ?_⟩
  induction n with
  | zero => exact .of_forall fun g => ⟨0, fun _ _ => rfl⟩
  | succ n ih =>
    have h2 : ∀ᵐ g ∂P, ∃ N, ∀ loops ≥ N, makeAgents (prog loops) n (f g).2 =
        some (.ok (List.ofFn fun i => out ((drawsN f n (f g).2).1 i)), (drawsN f n (f g).2).2) :=
      (measurePreserving_snd.comp hf).quasiMeasurePreserving.ae ih
    filter_upwards [hae, h2] with g ⟨N, hN⟩ ⟨M, hM⟩
    refine ⟨max N M, fun loops hl => ?_⟩
    rw [makeAgents, hN loops (le_trans (le_max_left _ _) hl)]
    simp only [hM loops (le_trans (le_max_right _ _) hl), Option.map_some, Res.map, drawsN, List.ofFn_succ,
      Fin.cons_zero, Fin.cons_succ]

/-- `n` new agents: their positions are independent, and each has the distribution of `C73_new`. -/
theorem C73_many (P : Measure G) [IsProbabilityMeasure P] (sys : SysOps G ℝ) (d : Nat) (S : Set (Fin d → ℝ))
    (room : Room P sys d S) (c : Fin d → ℝ) (t : BulkTarget ℝ) (ht : t.targetPos = List.ofFn c)
    (hpos : volume (S \ nearSet c t.targetSize) ≠ 0) (mtype : MoveType ℝ) (radius alpha : ℝ) (n : Nat) :
    Samples P (fun loops g => (makeAgents (fun g => IndepAgent.newUniform sys t.ops loops loops g mtype) n g).map
        fun r => (r.1.map fun as => as.map (·.pos), r.2))
      (fun xs : Fin n → Fin d → ℝ => List.ofFn fun i => List.ofFn (xs i))
      (Measure.pi fun _ => uniformLaw (S \ nearSet c t.targetSize)) ∧
    Samples P (fun loops g => (makeAgents (fun g => MergeAgent.newUniform sys t.ops loops loops g mtype radius alpha) n g).map
        fun r => (r.1.map fun as => as.map (·.pos), r.2))
      (fun xs : Fin n → Fin d → ℝ => List.ofFn fun i => List.ofFn (xs i))
      (Measure.pi fun _ => uniformLaw (S \ nearSet c t.targetSize)) := by
  have hfin : volume (S \ nearSet c t.targetSize) ≠ ∞ := ne_top_of_le_ne_top room.volume_finite (measure_mono Set.sdiff_subset)
  have := uniformLaw_prob hpos hfin
  obtain ⟨f, hf, hae⟩ := off_target room c t ht hpos
  have h1 : Samples P (fun loops g => IndepAgent.newUniform sys t.ops loops loops g mtype)
      (fun x : Fin d → ℝ => ⟨.continuousPassiveIndependent, mtype, .uniform, (List.ofFn x).length, List.ofFn x⟩)
      (uniformLaw (S \ nearSet c t.targetSize)) := by
    refine ⟨f, hf, ?_⟩
    filter_upwards [hae] with g ⟨n, hn⟩
    exact ⟨n, fun m hm => by simp [IndepAgent.newUniform, hn m hm m hm _ room.outDim, Res.map, Pos.dim]⟩
  have h2 : Samples P (fun loops g => MergeAgent.newUniform sys t.ops loops loops g mtype radius alpha)
      (fun x : Fin d → ℝ => ⟨.continuousPassiveInteracting, mtype, .uniform, (List.ofFn x).length, List.ofFn x, radius, 1, alpha⟩)
      (uniformLaw (S \ nearSet c t.targetSize)) := by
    refine ⟨f, hf, ?_⟩
    filter_upwards [hae] with g ⟨n, hn⟩
    exact ⟨n, fun m hm => by simp [MergeAgent.newUniform, hn m hm m hm _ room.outDim, Res.map, Pos.dim]⟩
  constructor
  · obtain ⟨F, hF, hA⟩ := many_samples h1 n
    refine ⟨F, hF, ?_⟩
    filter_upwards [hA] with g ⟨N, hN⟩
    exact ⟨N, fun m hm => by simp [hN m hm, Res.map, List.map_ofFn, Function.comp_def]⟩
  · obtain ⟨F, hF, hA⟩ := many_samples h2 n
    refine ⟨F, hF, ?_⟩
    filter_upwards [hA] with g ⟨N, hN⟩
    exact ⟨N, fun m hm => by simp [hN m hm, Res.map, List.map_ofFn, Function.comp_def]⟩

/-- The hypotheses are met by an ideal generator, a square of half width 1 and a target of radius 1/4 in its middle. -/
example (mtype : MoveType ℝ) : let s : Cubic ℝ := ⟨.continuousRectangular, .reflection, 1, 2⟩
    Samples tapeLaw (fun n g => (IndepAgent.newUniform (s.ops tapeRng) (BulkTarget.new [0, 0] (1 / 4)).ops n n g mtype).map
      fun r => (r.1.map (·.pos), r.2)) List.ofFn (uniformLaw (cubeSet 2 1 \ nearSet (fun _ : Fin 2 => 0) (1 / 4))) := by
  have := tape_ideal.prob
  intro s
  have room := (C73_systems tapeRng tapeLaw tape_ideal).1 s (by simp [s])
  refine (C73_new tapeLaw _ 2 _ room (fun _ => 0) _ (by simp [BulkTarget.new]) ?_ mtype 0 0 0 0 0).1
  have hopen : IsOpen (openBox (fun _ : Fin 2 => (1 : ℝ)) ∩ {x | 1 / 2 < x 0}) :=
    (openBox_open _).inter (isOpen_lt continuous_const (continuous_apply 0))
  refine ne_of_gt (lt_of_lt_of_le (hopen.measure_pos volume ⟨fun _ => 3 / 4, fun i => by norm_num, by norm_num⟩) (measure_mono ?_))
  rintro x ⟨h1, h2⟩
  refine ⟨fun i => (h1 i).le, ?_⟩
  show ¬ Real.sqrt _ < _
  simp only [Fin.sum_univ_two, sub_zero, BulkTarget.new, not_lt]
  simp only [Set.mem_ofPred_eq] at h2
  exact Real.le_sqrt_of_sq_le (by nlinarith [sq_nonneg (x 1)])

/-- The start of every ensemble of the `mfpt_exp` program, whatever the previous ensemble left behind: all agents are put
at independent positions, each with the distribution of `C73_new`. -/
theorem C73_ensemble (P : Measure G) [IsProbabilityMeasure P] (sys : SysOps G ℝ) (d : Nat) (S : Set (Fin d → ℝ))
    (room : Room P sys d S) (c : Fin d → ℝ) (t : BulkTarget ℝ) (ht : t.targetPos = List.ofFn c)
    (hpos : volume (S \ nearSet c t.targetSize) ≠ 0) (as : List (ExpAgent ℝ)) :
    Samples P (fun loops g => (renewContents sys t.ops loops loops as g).map
        fun r => (r.1.2.map fun _ => r.1.1.map (·.pos), r.2))
      (fun xs : Fin as.length → Fin d → ℝ => List.ofFn fun i => List.ofFn (xs i))
      (Measure.pi fun _ => uniformLaw (S \ nearSet c t.targetSize)) := by
  have hfin : volume (S \ nearSet c t.targetSize) ≠ ∞ := ne_top_of_le_ne_top room.volume_finite (measure_mono Set.sdiff_subset)
  have := uniformLaw_prob hpos hfin
  obtain ⟨f, hf, hae⟩ := off_target room c t ht hpos
  refine ⟨drawsN f as.length, drawsN_mp hf _, ?_⟩
  induction as with
  | nil => exact .of_forall fun g => ⟨0, fun _ _ => rfl⟩
  | cons a as ih =>
    have h2 := (measurePreserving_snd.comp hf).quasiMeasurePreserving.ae ih
    filter_upwards [hae, h2] with g ⟨N, hN⟩ ⟨M, hM⟩
    refine ⟨max N M, fun loops hl => ?_⟩
    have e1 : ∃ b : ExpAgent ℝ, b.pos = List.ofFn (f g).1 ∧
        a.renewUniform sys t.ops loops loops g = some ((b, .ok ()), (f g).2) := by
      have hl1 := le_trans (le_max_left _ _) hl
      simp only [ExpAgent.renewUniform]
      split <;> simp only [hN loops hl1 loops hl1 _ (start_dim room _)] <;> exact ⟨_, rfl, rfl⟩
    obtain ⟨b, hb, e1⟩ := e1
    have e2 := hM loops (le_trans (le_max_right _ _) hl)
    simp only [Function.comp] at e2
    rw [renewContents, e1]
    simp only
    cases hr : renewContents sys t.ops loops loops as (f g).2 with
    | none => rw [hr] at e2; simp at e2
    | some r =>
      obtain ⟨⟨bs, r⟩, g1⟩ := r
      rw [hr] at e2
      simp only [Option.map_some, Option.some.injEq, Prod.mk.injEq] at e2
      cases r with
      | err e => simp [Res.map] at e2
      | panic => simp [Res.map] at e2
      | ok u =>
        simp only [Res.map, Res.ok.injEq] at e2
        simp only [Option.map_some, Res.map, List.map_cons, hb, e2, drawsN, List.length_cons, List.ofFn_succ, Fin.cons_zero,
          Fin.cons_succ]

end Moledyn.Props
