import Verif.Lemmas.QueueLaw
import Verif.Lemmas.DrawChain
import Verif.Lemmas.MergeChain
import Verif.Props.Accuracy
import Verif.Props.BoundedSearch
import Verif.Model.SingleSearch
/-
C104: searchers followed side by side (tests/n_ptl_rts_iterator.rs).
-/
namespace Moledyn.Props
open Moledyn MeasureTheory ProbabilityTheory Filter Topology
open scoped ENNReal NNReal
set_option linter.unusedSimpArgs false
set_option linter.unusedSectionVars false
variable {G : Type} [MeasurableSpace G]

/-! ### the loop over the list -/

/-- a list in the middle of a sweep. -/
private def midway {α : Type} (done todo : List α) : LList α :=
  { LList.from' (done ++ todo) with c0 := if todo = [] then none else some done.length }

private theorem midway_next {S α : Type} (act : Nat → S → α → (α × Res Bool) × S) (f : Nat) (done : List α) (a : α) (todo : List α) (s : S) :
    agentSweep act (f + 1) (midway done (a :: todo)) s =
      match (act done.length s a).1.2 with
      | .ok false => agentSweep act f (midway (done ++ [(act done.length s a).1.1]) todo) (act done.length s a).2
      | .ok true => ((midway (done ++ [(act done.length s a).1.1]) todo, (act done.length s a).2), some (.ok true))
      | .err e => ((midway (done ++ [(act done.length s a).1.1]) todo, (act done.length s a).2), some (.err e))
      | .panic => ((midway (done ++ [(act done.length s a).1.1]) todo, (act done.length s a).2), some .panic) := by
  have he : (midway done (a :: todo)).enumerateMut (fun b => (act ((midway done (a :: todo)).c0.getD 0) s b).1.1) =
      (midway (done ++ [(act done.length s a).1.1]) todo, .ok (some (done.length, a))) := by
    have h1 : (LList.from' (done ++ a :: todo)).links[done.length]? =
        some ⟨if done.length + 1 < (done ++ a :: todo).length then some (done.length + 1) else none, if 0 < done.length then some (done.length - 1) else none, true⟩ := by
      simp [LList.from', Node.listWithLength, List.getElem?_range]
    have h2 : (done ++ a :: todo)[done.length]? = some a := by simp
    unfold LList.enumerateMut
    simp only [midway, reduceCtorEq, if_false, h1]
    simp only [LList.from', h2, Option.getD_some]
    refine Prod.ext ?_ rfl
    simp only [LList.mk.injEq, and_true, true_and]
    refine ⟨by simp, by simp, by simp, by simp, ?_⟩
    cases todo <;> simp
  rw [agentSweep]
  have hc : (midway done (a :: todo)).c0 = some done.length := by simp [midway]
  rw [hc] at he ⊢
  simp only [Option.getD_some] at he ⊢
  rw [he]
  rfl

private theorem midway_end {S α : Type} (act : Nat → S → α → (α × Res Bool) × S) (f : Nat) (done : List α) (s : S) :
    agentSweep act (f + 1) (midway done []) s = ((LList.from' done, s), some (.ok false)) := by
  simp [agentSweep, midway, LList.enumerateMut]
  rfl

section
variable {rng : RngOps G ℝ} {sys : SysOps G ℝ} {d n : Nat} {S : Set (Fin d → ℝ)} {put : (Fin d → ℝ) → Fin d → ℝ}
  (w : Walls sys S put) (D dt : ℝ) (c : Fin d → ℝ) (t : BulkTarget ℝ) (ht : t.targetPos = List.ofFn c)
include w ht

private theorem act_eq [DecidablePred (· ∈ S)] [DecidablePred (· ∈ nearSet c t.targetSize)] (i : Nat) (x : Fin d → ℝ) (g : G) :
    walkAct (IndepAgent.walker rng) sys t.ops dt i g (walkerAt D x) =
      ((walkerAt D (walkStepAt put (stepDraw rng d (2 * D * dt)) (x, g)).1,
        if (walkStepAt put (stepDraw rng d (2 * D * dt)) (x, g)).1 ∈ S then
          .ok (decide ((walkStepAt put (stepDraw rng d (2 * D * dt)) (x, g)).1 ∈ nearSet c t.targetSize))
        else .err .tooLargeTimeStep), (walkStepAt put (stepDraw rng d (2 * D * dt)) (x, g)).2) := by
  have hm : (IndepAgent.walker rng).randomMove (walkerAt D x) g dt = (.ok (List.ofFn (stepDraw rng d (2 * D * dt) g).1), (stepDraw rng d (2 * D * dt) g).2) := by
    simp only [IndepAgent.walker, IndepAgent.randomMove, walkerAt]
    rw [move_eq]
    rfl
  have hp : (IndepAgent.walker rng).pos (walkerAt D x) = List.ofFn x := rfl
  by_cases h : (walkStepAt put (stepDraw rng d (2 * D * dt)) (x, g)).1 ∈ S
  · rw [if_pos h]
    unfold walkAct
    rw [hm]
    simp only [hp]
    rw [w.step_ok _ _ h]
    simp only
    have : t.ops.checkFind (List.ofFn (put (x + (stepDraw rng d (2 * D * dt) g).1))) =
        .ok (decide (put (x + (stepDraw rng d (2 * D * dt) g).1) ∈ nearSet c t.targetSize)) := by
      by_cases hT : put (x + (stepDraw rng d (2 * D * dt) g).1) ∈ nearSet c t.targetSize
      · rw [(checkFind_eq c _ t ht).1 hT]; simp [hT]
      · rw [(checkFind_eq c _ t ht).2 hT]; simp [hT]
    rw [this]
    rfl
  · rw [if_neg h]
    unfold walkAct
    rw [hm]
    simp only [hp]
    rw [w.step_err _ _ h]
    rfl

omit w ht in
private theorem ofFn_rotated {A : Type} (x : Fin (n + 1) → A) (y a : A) (todo done : List A) (h : List.ofFn x = y :: todo ++ done) :
    x 0 = y ∧ List.ofFn (rotated x a) = todo ++ (done ++ [a]) := by
  rw [List.ofFn_succ] at h
  obtain ⟨h1, h2⟩ := List.cons.inj (h.trans (List.cons_append))
  refine ⟨h1, ?_⟩
  rw [← List.append_assoc, ← h2, List.ofFn_succ', List.concat_eq_append]
  simp

/-- a sweep in which a walker comes to its end. -/
private theorem sweep_stop [DecidablePred (· ∈ S)] (todo : List (Fin d → ℝ)) :
    ∀ (done : List (Fin d → ℝ)) (x : Fin (n + 1) → Fin d → ℝ) (g : G) (r fuel : ℕ), List.ofFn x = todo ++ done → r < todo.length →
    todo.length < fuel →
    (∀ m < r, (queueStep put (stepDraw rng d (2 * D * dt)))^[m + 1] (x, g) ∈ lastIn n (S \ nearSet c t.targetSize) ×ˢ Set.univ) →
    (queueStep put (stepDraw rng d (2 * D * dt)))^[r + 1] (x, g) ∉ lastIn n (S \ nearSet c t.targetSize) ×ˢ Set.univ →
    ∃ l, agentSweep (walkAct (IndepAgent.walker rng) sys t.ops dt) fuel (midway (done.map (walkerAt D)) (todo.map (walkerAt D))) g =
      ((l, ((queueStep put (stepDraw rng d (2 * D * dt)))^[r + 1] (x, g)).2),
        some (if ((queueStep put (stepDraw rng d (2 * D * dt)))^[r + 1] (x, g)).1 (Fin.last n) ∈ S then .ok true else .err .tooLargeTimeStep)) := by
  classical
  induction todo with
  | nil => intro done x g r fuel _ hr; simp at hr
  | cons y todo ih =>
    intro done x g r fuel hx hr hf ha hn
    obtain ⟨f, rfl⟩ : ∃ f, fuel = f + 1 := ⟨fuel - 1, by omega⟩
    obtain ⟨h0, hrot⟩ := ofFn_rotated x y (put (x 0 + (stepDraw rng d (2 * D * dt) g).1)) todo done hx
    have hq : queueStep put (stepDraw rng d (2 * D * dt)) (x, g) =
        (rotated x (walkStepAt put (stepDraw rng d (2 * D * dt)) (y, g)).1, (walkStepAt put (stepDraw rng d (2 * D * dt)) (y, g)).2) := by
      rw [← h0]; rfl
    rw [List.map_cons, midway_next, act_eq w D dt c t ht]
    cases r with
    | zero =>
      simp only [Nat.zero_add, Function.iterate_one, hq] at hn ⊢
      simp only [lastIn, Set.mem_prod, Set.mem_ofPred_eq, rotated_last, Set.mem_univ, and_true] at hn ⊢
      by_cases hS : (walkStepAt put (stepDraw rng d (2 * D * dt)) (y, g)).1 ∈ S
      · have hT : (walkStepAt put (stepDraw rng d (2 * D * dt)) (y, g)).1 ∈ nearSet c t.targetSize := by
          by_contra hT; exact hn ⟨hS, hT⟩
        simp only [if_pos hS, hT, decide_true]
        exact ⟨_, rfl⟩
      · simp only [if_neg hS]
        exact ⟨_, rfl⟩
    | succ r =>
      have h1 := ha 0 (by omega)
      simp only [Nat.zero_add, Function.iterate_one, hq] at h1
      simp only [lastIn, Set.mem_prod, Set.mem_ofPred_eq, rotated_last, Set.mem_univ, and_true] at h1
      obtain ⟨l, hl⟩ := ih (done ++ [(walkStepAt put (stepDraw rng d (2 * D * dt)) (y, g)).1]) (rotated x (walkStepAt put (stepDraw rng d (2 * D * dt)) (y, g)).1)
        (walkStepAt put (stepDraw rng d (2 * D * dt)) (y, g)).2 r f (by rw [h0] at hrot; exact hrot) (by simpa using hr) (by simp at hf; omega)
        (fun m hm => by have := ha (m + 1) (by omega); rwa [Function.iterate_succ_apply, hq] at this)
        (by rwa [Function.iterate_succ_apply, hq] at hn)
      refine ⟨l, ?_⟩
      rw [Function.iterate_succ_apply, hq, ← hl]
      simp only [if_pos h1.1, h1.2, decide_false, List.map_append, List.map_cons, List.map_nil]

/-- a sweep in which none does. -/
private theorem sweep_pass [DecidablePred (· ∈ S)] (todo : List (Fin d → ℝ)) :
    ∀ (done : List (Fin d → ℝ)) (x : Fin (n + 1) → Fin d → ℝ) (g : G) (fuel : ℕ), List.ofFn x = todo ++ done →
    todo.length < fuel →
    (∀ m < todo.length, (queueStep put (stepDraw rng d (2 * D * dt)))^[m + 1] (x, g) ∈ lastIn n (S \ nearSet c t.targetSize) ×ˢ Set.univ) →
    agentSweep (walkAct (IndepAgent.walker rng) sys t.ops dt) fuel (midway (done.map (walkerAt D)) (todo.map (walkerAt D))) g =
      ((LList.from' ((List.ofFn ((queueStep put (stepDraw rng d (2 * D * dt)))^[todo.length] (x, g)).1).map (walkerAt D)),
        ((queueStep put (stepDraw rng d (2 * D * dt)))^[todo.length] (x, g)).2), some (.ok false)) := by
  classical
  induction todo with
  | nil =>
    intro done x g fuel hx hf _
    obtain ⟨f, rfl⟩ : ∃ f, fuel = f + 1 := ⟨fuel - 1, by simp at hf; omega⟩
    rw [List.map_nil, midway_end]
    have hx' : List.ofFn x = done := hx
    subst hx'
    rfl
  | cons y todo ih =>
    intro done x g fuel hx hf ha
    obtain ⟨f, rfl⟩ : ∃ f, fuel = f + 1 := ⟨fuel - 1, by simp at hf; omega⟩
    obtain ⟨h0, hrot⟩ := ofFn_rotated x y (put (x 0 + (stepDraw rng d (2 * D * dt) g).1)) todo done hx
    have hq : queueStep put (stepDraw rng d (2 * D * dt)) (x, g) =
        (rotated x (walkStepAt put (stepDraw rng d (2 * D * dt)) (y, g)).1, (walkStepAt put (stepDraw rng d (2 * D * dt)) (y, g)).2) := by
      rw [← h0]; rfl
    rw [List.map_cons, midway_next, act_eq w D dt c t ht]
    have h1 := ha 0 (by simp)
    simp only [Nat.zero_add, Function.iterate_one, hq] at h1
    simp only [lastIn, Set.mem_prod, Set.mem_ofPred_eq, rotated_last, Set.mem_univ, and_true] at h1
    have hl := ih (done ++ [(walkStepAt put (stepDraw rng d (2 * D * dt)) (y, g)).1]) (rotated x (walkStepAt put (stepDraw rng d (2 * D * dt)) (y, g)).1)
      (walkStepAt put (stepDraw rng d (2 * D * dt)) (y, g)).2 f (by rw [h0] at hrot; exact hrot) (by simp at hf; omega)
      (fun m hm => by have := ha (m + 1) (by simpa using hm); rwa [Function.iterate_succ_apply, hq] at this)
    rw [List.length_cons, Function.iterate_succ_apply, hq, ← hl]
    simp only [if_pos h1.1, h1.2, decide_false, List.map_append, List.map_cons, List.map_nil]

/-- the whole search. -/
private theorem loop_eq [DecidablePred (· ∈ S)] (k r : ℕ) (hr : r < n + 1) :
    ∀ (x : Fin (n + 1) → Fin d → ℝ) (g : G) (time : ℝ) (fuel steps : ℕ), n + 1 < fuel → k < steps →
    (∀ m < k * (n + 1) + r, (queueStep put (stepDraw rng d (2 * D * dt)))^[m + 1] (x, g) ∈ lastIn n (S \ nearSet c t.targetSize) ×ˢ Set.univ) →
    (queueStep put (stepDraw rng d (2 * D * dt)))^[k * (n + 1) + r + 1] (x, g) ∉ lastIn n (S \ nearSet c t.targetSize) ×ˢ Set.univ →
    ∃ z l, searchLoop (countingTick dt) (walkStep (IndepAgent.walker rng) sys t.ops fuel) steps time
        (LList.from' ((List.ofFn x).map (walkerAt D)), g) =
      ((z, (l, ((queueStep put (stepDraw rng d (2 * D * dt)))^[k * (n + 1) + r + 1] (x, g)).2)),
        some (if ((queueStep put (stepDraw rng d (2 * D * dt)))^[k * (n + 1) + r + 1] (x, g)).1 (Fin.last n) ∈ S then .ok (some (time + (k + 1) * dt))
          else .err .tooLargeTimeStep)) := by
  have hmid : ∀ x : Fin (n + 1) → Fin d → ℝ, (LList.from' ((List.ofFn x).map (walkerAt D))).intoIter =
      midway (([] : List (Fin d → ℝ)).map (walkerAt D)) ((List.ofFn x).map (walkerAt D)) := by
    intro x
    simp [LList.intoIter, LList.from', midway]
  induction k with
  | zero =>
    intro x g time fuel steps hf hs ha hn
    obtain ⟨s, rfl⟩ : ∃ s, steps = s + 1 := ⟨steps - 1, by omega⟩
    simp only [Nat.zero_mul, Nat.zero_add] at ha hn ⊢
    obtain ⟨l, hl⟩ := sweep_stop w D dt c t ht (List.ofFn x) [] x g r fuel (by simp) (by simpa using hr) (by simpa using hf) ha hn
    unfold searchLoop
    simp only [countingTick, walkStep, hmid]
    rw [hl]
    by_cases hS : ((queueStep put (stepDraw rng d (2 * D * dt)))^[r + 1] (x, g)).1 (Fin.last n) ∈ S
    · simp only [if_pos hS]
      exact ⟨_, l, by norm_num; rfl⟩
    · simp only [if_neg hS]
      exact ⟨_, l, rfl⟩
  | succ k ih =>
    intro x g time fuel steps hf hs ha hn
    obtain ⟨s, rfl⟩ : ∃ s, steps = s + 1 := ⟨steps - 1, by omega⟩
    have hpass := sweep_pass w D dt c t ht (List.ofFn x) [] x g fuel (by simp) (by simpa using hf)
      (fun m hm => ha m (by simp only [List.length_ofFn] at hm; rw [Nat.succ_mul]; omega))
    simp only [List.length_ofFn] at hpass
    have hsplit : ∀ m, (queueStep put (stepDraw rng d (2 * D * dt)))^[n + 1 + m] (x, g) =
        (queueStep put (stepDraw rng d (2 * D * dt)))^[m] ((queueStep put (stepDraw rng d (2 * D * dt)))^[n + 1] (x, g)) := by
      intro m
      exact (congrArg (fun a => (queueStep put (stepDraw rng d (2 * D * dt)))^[a] (x, g)) (Nat.add_comm _ _)).trans (Function.iterate_add_apply _ _ _ _)
    have hidx : (k + 1) * (n + 1) + r + 1 = n + 1 + (k * (n + 1) + r + 1) := by ring
    have hi2 := (congrArg (fun a => (queueStep put (stepDraw rng d (2 * D * dt)))^[a] (x, g)) hidx).trans (hsplit _)
    rw [hi2] at hn ⊢
    obtain ⟨z, l, hl⟩ := ih ((queueStep put (stepDraw rng d (2 * D * dt)))^[n + 1] (x, g)).1 ((queueStep put (stepDraw rng d (2 * D * dt)))^[n + 1] (x, g)).2
      (time + dt) fuel s hf (by omega)
      (fun m hm => by
        have := ha (n + 1 + m) (by rw [Nat.succ_mul]; omega)
        have hi3 := (congrArg (fun a => (queueStep put (stepDraw rng d (2 * D * dt)))^[a] (x, g)) (show n + 1 + m + 1 = n + 1 + (m + 1) by omega)).trans (hsplit _)
        rwa [hi3] at this) hn
    refine ⟨z, l, ?_⟩
    unfold searchLoop
    simp only [countingTick, walkStep, hmid]
    rw [hpass]
    simp only
    have e : time + dt + ((k : ℝ) + 1) * dt = time + (((k + 1 : ℕ) : ℝ) + 1) * dt := by push_cast; ring
    rw [e] at hl
    exact hl
end

/-- the searchers are made. -/
private theorem makeAgents_eq (P : Measure G) [IsProbabilityMeasure P] (sys : SysOps G ℝ) (d : Nat) (S₀ : Set (Fin d → ℝ))
    (room : Room P sys d S₀) (t : BulkTarget ℝ) (D : ℝ) (μ : Measure (Fin d → ℝ)) [IsProbabilityMeasure μ]
    (f : G → (Fin d → ℝ) × G) (hf : MeasurePreserving f P (μ.prod P))
    (hfae : ∀ᵐ g ∂P, ∃ n, ∀ inner ≥ n, ∀ fuel ≥ n, ∀ vec : Pos ℝ, vec.length = d →
        AgentCore.drawOffTarget sys t.ops inner fuel g vec = some ((List.ofFn (f g).1, .ok ()), (f g).2)) (n : ℕ) :
    ∀ᵐ g ∂P, ∃ N, ∀ loops ≥ N, makeAgents (fun g => IndepAgent.newUniform sys t.ops loops loops g (.brownian D)) n g =
      some (.ok ((List.ofFn (drawsN f n g).1).map (walkerAt D)), (drawsN f n g).2) := by
  induction n with
  | zero => exact .of_forall fun g => ⟨0, fun loops _ => by simp [makeAgents, drawsN]⟩
  | succ n ih =>
    have hsnd : Measure.QuasiMeasurePreserving (fun g => (f g).2) P P := (measurePreserving_snd.comp hf).quasiMeasurePreserving
    filter_upwards [hfae, hsnd.ae ih] with g ⟨N, hN⟩ ⟨M, hM⟩
    refine ⟨max N M, fun loops hl => ?_⟩
    have hl1 : N ≤ loops := le_trans (le_max_left _ _) hl
    have hnew : IndepAgent.newUniform sys t.ops loops loops g (.brownian D) = some (.ok (walkerAt D (f g).1), (f g).2) := by
      simp [IndepAgent.newUniform, hN loops hl1 loops hl1 _ room.outDim, Pos.dim, walkerAt]
    rw [makeAgents, hnew]
    simp only [hM loops (le_trans (le_max_right _ _) hl), Option.map_some, Res.map, drawsN]
    rw [List.ofFn_succ]
    rfl

/-- The first end in the queue: its distribution is that of the first of independent searches. -/
private theorem side_queue (rng : RngOps G ℝ) (P : Measure G) [IsProbabilityMeasure P] (sys : SysOps G ℝ) (d : Nat) (S₀ S : Set (Fin d → ℝ))
    (room : Room P sys d S₀) (put : (Fin d → ℝ) → Fin d → ℝ) (w : Walls sys S put)
    (c : Fin d → ℝ) (t : BulkTarget ℝ) (ht : t.targetPos = List.ofFn c) (hpos : volume (S₀ \ nearSet c t.targetSize) ≠ 0)
    (D dt : ℝ) (μ : Measure (Fin d → ℝ)) [IsProbabilityMeasure μ]
    (hq : MeasurePreserving (stepDraw rng d (2 * D * dt)) P (μ.prod P))
    (hdec : Tendsto (fun n => searching put S (nearSet c t.targetSize) μ (uniformLaw (S₀ \ nearSet c t.targetSize)) n Set.univ)
      atTop (nhds 0)) (ρ : Measure (ℕ × Bool))
    (hρ : ρ = searchLaw put S (nearSet c t.targetSize) μ (uniformLaw (S₀ \ nearSet c t.targetSize))) (n : ℕ) [DecidablePred (· ∈ S)] :
    IsProbabilityMeasure ρ ∧ ∃ F : (Fin (n + 1) → Fin d → ℝ) × G → (ℕ × Bool) × G,
      MeasurePreserving F ((Measure.pi fun _ => uniformLaw (S₀ \ nearSet c t.targetSize)).prod P)
        (((Measure.pi fun _ : Fin (n + 1) => ρ).map (firstOf n)).prod P) ∧
      ∀ᵐ y ∂((Measure.pi fun _ : Fin (n + 1) => uniformLaw (S₀ \ nearSet c t.targetSize)).prod P), ∃ m : ℕ,
        (∀ j < m, (queueStep put (stepDraw rng d (2 * D * dt)))^[j + 1] y ∈ lastIn n (S \ nearSet c t.targetSize) ×ˢ Set.univ) ∧
        (queueStep put (stepDraw rng d (2 * D * dt)))^[m + 1] y ∉ lastIn n (S \ nearSet c t.targetSize) ×ˢ Set.univ ∧
        F y = ((m / (n + 1) + 1, decide (((queueStep put (stepDraw rng d (2 * D * dt)))^[m + 1] y).1 (Fin.last n) ∈ S)),
          ((queueStep put (stepDraw rng d (2 * D * dt)))^[m + 1] y).2) := by
  obtain ⟨-, hprobρ, htail⟩ := search_yields rng P sys d S₀ S room put w c t ht hpos D dt μ hq hdec
  rw [← hρ] at hprobρ htail
  set T := nearSet c t.targetSize with hT
  have hTm : MeasurableSet T := near_meas _ _
  have hfin : volume (S₀ \ T) ≠ ∞ := ne_top_of_le_ne_top room.volume_finite (measure_mono Set.sdiff_subset)
  have hprob := uniformLaw_prob hpos hfin
  have R := queue_rounds (n := n) w.measurable hq w.room_measurable hTm
  have hsf := searching_finite put S T μ (uniformLaw (S₀ \ T))
  have hle1 : ∀ k, searching put S T μ (uniformLaw (S₀ \ T)) k Set.univ ≤ 1 := fun k => by rw [← htail]; exact prob_le_one
  have hdec' : Tendsto (fun m => ((fun κ : Measure (Fin (n + 1) → Fin d → ℝ) => (queueWalked put μ κ).restrict (lastIn n (S \ T)))^[m]
      (Measure.pi fun _ => uniformLaw (S₀ \ T))) Set.univ) atTop (nhds 0) := by
    have hdiv : Tendsto (fun m : ℕ => m / (n + 1)) atTop atTop := Filter.tendsto_atTop_atTop.2 fun b =>
      ⟨b * (n + 1), fun a ha => (Nat.le_div_iff_mul_le (by omega)).2 ha⟩
    refine tendsto_of_tendsto_of_tendsto_of_le_of_le tendsto_const_nhds (hdec.comp hdiv) (fun _ => bot_le) fun m => ?_
    simp only [Function.comp_apply]
    rw [queue_iterate w.measurable, ← Set.pi_univ Set.univ, Measure.pi_pi, Fin.prod_univ_succ]
    simp only [Fin.val_zero, Nat.add_zero]
    exact mul_le_of_le_one_right' (Finset.prod_le_one' fun i _ => hle1 _)
  obtain ⟨F, ρ', hρ', hρe, hF, -, hae⟩ := R.run (Measure.pi fun _ => uniformLaw (S₀ \ T)) (by simp) hdec'
  have hlaw := queue_law (n := n) w.measurable w.room_measurable μ (uniformLaw (S₀ \ T)) ρ hρ htail
  rw [← hρe] at hlaw
  refine ⟨hprobρ, fun y => (((F y).1.1 / (n + 1) + 1, (F y).1.2), (F y).2), ?_, ?_⟩
  · rw [← hlaw]
    have hm : Measurable fun y : ℕ × Bool => (y.1 / (n + 1) + 1, y.2) := .of_discrete
    have h3 : MeasurePreserving (fun y : ℕ × Bool => (y.1 / (n + 1) + 1, y.2)) ρ' (ρ'.map fun y => (y.1 / (n + 1) + 1, y.2)) := ⟨hm, rfl⟩
    have : IsProbabilityMeasure (ρ'.map fun y => (y.1 / (n + 1) + 1, y.2)) := Measure.isProbabilityMeasure_map hm.aemeasurable
    exact (h3.prod (MeasurePreserving.id P)).comp hF
  · filter_upwards [hae] with y ⟨m, a1, a2, a3⟩
    refine ⟨m, fun j hj => ?_, ?_, ?_⟩
    · have := a1 j hj
      rw [Function.iterate_succ_apply']
      simp only [Set.mem_preimage, Set.mem_prod, Set.mem_compl_iff, Set.mem_univ, and_true, not_not] at this ⊢
      exact this
    · rw [Function.iterate_succ_apply']
      simp only [Set.mem_preimage, Set.mem_prod, Set.mem_compl_iff, Set.mem_univ, and_true] at a2 ⊢
      exact a2
    · rw [Function.iterate_succ_apply']
      simp only [a3]

/-- The outcome is that of the first of independent searches, whatever the distribution of the steps. -/
private theorem side_yields (rng : RngOps G ℝ) (P : Measure G) [IsProbabilityMeasure P] (sys : SysOps G ℝ) (d : Nat) (S₀ S : Set (Fin d → ℝ))
    (room : Room P sys d S₀) (put : (Fin d → ℝ) → Fin d → ℝ) (w : Walls sys S put)
    (c : Fin d → ℝ) (t : BulkTarget ℝ) (ht : t.targetPos = List.ofFn c) (hpos : volume (S₀ \ nearSet c t.targetSize) ≠ 0)
    (D dt : ℝ) (μ : Measure (Fin d → ℝ)) [IsProbabilityMeasure μ]
    (hq : MeasurePreserving (stepDraw rng d (2 * D * dt)) P (μ.prod P))
    (hdec : Tendsto (fun n => searching put S (nearSet c t.targetSize) μ (uniformLaw (S₀ \ nearSet c t.targetSize)) n Set.univ)
      atTop (nhds 0)) (ρ : Measure (ℕ × Bool))
    (hρ : ρ = searchLaw put S (nearSet c t.targetSize) μ (uniformLaw (S₀ \ nearSet c t.targetSize))) (n : ℕ) :
    Yields P (fun loops g => indepRun rng sys t.ops loops loops loops loops (.brownian D) dt (n + 1) g) (reported dt)
      ((Measure.pi fun _ : Fin (n + 1) => ρ).map (firstOf n)) := by
  classical
  obtain ⟨-, F, hF, hae⟩ := side_queue rng P sys d S₀ S room put w c t ht hpos D dt μ hq hdec ρ hρ n
  have hfin : volume (S₀ \ nearSet c t.targetSize) ≠ ∞ := ne_top_of_le_ne_top room.volume_finite (measure_mono Set.sdiff_subset)
  have hprob := uniformLaw_prob hpos hfin
  obtain ⟨f, hf, hfae⟩ := off_target room c t ht hpos
  have hmake := makeAgents_eq P sys d S₀ room t D _ f hf hfae (n + 1)
  have hfN := drawsN_mp hf (n + 1)
  refine ⟨fun g => F (drawsN f (n + 1) g), hF.comp hfN, ?_⟩
  filter_upwards [hmake, hfN.quasiMeasurePreserving.ae hae] with g ⟨N, hN⟩ ⟨m, a1, a2, a3⟩
  generalize drawsN f (n + 1) g = y at hN a1 a2 a3
  have e0 : m / (n + 1) * (n + 1) + m % (n + 1) = m := Nat.div_add_mod' _ _
  refine ⟨max N (m + n + 2), fun loops hl => ?_⟩
  have hl1 : N ≤ loops := le_trans (le_max_left _ _) hl
  have hl2 : m + n + 2 ≤ loops := le_trans (le_max_right _ _) hl
  obtain ⟨z, l, hw⟩ := loop_eq (rng := rng) w D dt c t ht (m / (n + 1)) (m % (n + 1)) (Nat.mod_lt _ (by omega)) y.1 y.2 0 loops loops (by omega)
    (lt_of_le_of_lt (Nat.div_le_self _ _) (by omega)) (by rw [e0]; exact a1) (by rw [e0]; exact a2)
  rw [e0] at hw
  simp only [indepRun, hN loops hl1]
  rw [show (Fl.zero : ℝ) = 0 by simp [Fl.zero], hw, a3]
  simp only [reported, Prod.mk.eta, decide_eq_true_eq, zero_add, Nat.cast_add, Nat.cast_one]
  by_cases hS : ((queueStep put (stepDraw rng d (2 * D * dt)))^[m + 1] y).1 (Fin.last n) ∈ S
  · simp only [if_pos hS]
  · simp only [if_neg hS]

/-- turns without an end. -/
private theorem loop_goes {rng : RngOps G ℝ} {sys : SysOps G ℝ} {d n : Nat} {S : Set (Fin d → ℝ)} {put : (Fin d → ℝ) → Fin d → ℝ}
    (w : Walls sys S put) (D dt : ℝ) (c : Fin d → ℝ) (t : BulkTarget ℝ) (ht : t.targetPos = List.ofFn c) (M : ℕ) :
    ∀ (x : Fin (n + 1) → Fin d → ℝ) (g : G) (time : ℝ) (fuel : ℕ), n + 1 < fuel →
    (∀ m < M * (n + 1), (queueStep put (stepDraw rng d (2 * D * dt)))^[m + 1] (x, g) ∈ lastIn n (S \ nearSet c t.targetSize) ×ˢ Set.univ) →
    ∃ z l, searchLoop (countingTick dt) (walkStep (IndepAgent.walker rng) sys t.ops fuel) M time (LList.from' ((List.ofFn x).map (walkerAt D)), g) =
      ((z, (l, ((queueStep put (stepDraw rng d (2 * D * dt)))^[M * (n + 1)] (x, g)).2)), none) := by
  classical
  induction M with
  | zero => intro x g time fuel _ _; exact ⟨time, LList.from' ((List.ofFn x).map (walkerAt D)), by simp [searchLoop]⟩
  | succ M ih =>
    intro x g time fuel hf ha
    have hpass := sweep_pass w D dt c t ht (List.ofFn x) [] x g fuel (by simp) (by simpa using hf)
      (fun m hm => ha m (by simp only [List.length_ofFn] at hm; rw [Nat.succ_mul]; omega))
    simp only [List.length_ofFn] at hpass
    have hsplit : ∀ m, (queueStep put (stepDraw rng d (2 * D * dt)))^[n + 1 + m] (x, g) =
        (queueStep put (stepDraw rng d (2 * D * dt)))^[m] ((queueStep put (stepDraw rng d (2 * D * dt)))^[n + 1] (x, g)) := by
      intro m
      exact (congrArg (fun a => (queueStep put (stepDraw rng d (2 * D * dt)))^[a] (x, g)) (Nat.add_comm _ _)).trans (Function.iterate_add_apply _ _ _ _)
    obtain ⟨z, l, hl⟩ := ih ((queueStep put (stepDraw rng d (2 * D * dt)))^[n + 1] (x, g)).1 ((queueStep put (stepDraw rng d (2 * D * dt)))^[n + 1] (x, g)).2
      (time + dt) fuel hf (fun m hm => by
        have := ha (n + 1 + m) (by rw [Nat.succ_mul]; omega)
        have hi3 := (congrArg (fun a => (queueStep put (stepDraw rng d (2 * D * dt)))^[a] (x, g)) (show n + 1 + m + 1 = n + 1 + (m + 1) by omega)).trans (hsplit _)
        rwa [hi3] at this)
    refine ⟨z, l, ?_⟩
    have hmid : (LList.from' ((List.ofFn x).map (walkerAt D))).intoIter =
        midway (([] : List (Fin d → ℝ)).map (walkerAt D)) ((List.ofFn x).map (walkerAt D)) := by
      simp [LList.intoIter, LList.from', midway]
    unfold searchLoop
    simp only [countingTick, walkStep, hmid]
    rw [hpass]
    simp only
    refine hl.trans ?_
    rw [show (M + 1) * (n + 1) = n + 1 + M * (n + 1) by ring, hsplit]

/-- the queue, with the number of its steps. -/
private def countedStep {d n : ℕ} (put : (Fin d → ℝ) → Fin d → ℝ) (x : ℕ × (Fin (n + 1) → Fin d → ℝ)) (z : Fin d → ℝ) : ℕ × (Fin (n + 1) → Fin d → ℝ) :=
  (x.1 + 1, rotated x.2 (put (x.2 0 + z)))

private theorem counted_iterate {d n : ℕ} (put : (Fin d → ℝ) → Fin d → ℝ) (q : G → (Fin d → ℝ) × G) (y : (Fin (n + 1) → Fin d → ℝ) × G) (m : ℕ) :
    (drawStep (countedStep put) q)^[m] ((0, y.1), y.2) = ((m, ((queueStep put q)^[m] y).1), ((queueStep put q)^[m] y).2) := by
  induction m with
  | zero => rfl
  | succ m ih =>
    rw [Function.iterate_succ_apply', ih, Function.iterate_succ_apply']
    rfl

/-- Searchers that take at most `M + 1` turns: the outcome is that of the first of independent searches, limited to `M + 1`
turns, and does not depend on the state the generator is left in. -/
theorem side_limited (rng : RngOps G ℝ) (P : Measure G) [IsProbabilityMeasure P] (sys : SysOps G ℝ) (d : Nat) (S₀ S : Set (Fin d → ℝ))
    (room : Room P sys d S₀) (put : (Fin d → ℝ) → Fin d → ℝ) (w : Walls sys S put)
    (c : Fin d → ℝ) (t : BulkTarget ℝ) (ht : t.targetPos = List.ofFn c) (hpos : volume (S₀ \ nearSet c t.targetSize) ≠ 0)
    (D dt : ℝ) (μ : Measure (Fin d → ℝ)) [IsProbabilityMeasure μ]
    (hq : MeasurePreserving (stepDraw rng d (2 * D * dt)) P (μ.prod P))
    (hdec : Tendsto (fun n => searching put S (nearSet c t.targetSize) μ (uniformLaw (S₀ \ nearSet c t.targetSize)) n Set.univ)
      atTop (nhds 0)) (ρ : Measure (ℕ × Bool))
    (hρ : ρ = searchLaw put S (nearSet c t.targetSize) μ (uniformLaw (S₀ \ nearSet c t.targetSize))) (n M : ℕ) :
    IsProbabilityMeasure ρ ∧ ∃ f : G → (ℕ × Ending) × G,
      MeasurePreserving f P ((((Measure.pi fun _ : Fin (n + 1) => ρ).map (firstOf n)).map (limited (M + 1))).prod P) ∧
      ∀ᵐ g ∂P, ∃ N, ∀ loops ≥ N, ∃ v g1, makeAgents (fun g => IndepAgent.newUniform sys t.ops loops loops g (.brownian D)) (n + 1) g = some (.ok v, g1) ∧
        (searchLoop (countingTick dt) (walkStep (IndepAgent.walker rng) sys t.ops loops) (M + 1) 0 (LList.from' v, g1)).1.2.2 = (f g).2 ∧
        (searchLoop (countingTick dt) (walkStep (IndepAgent.walker rng) sys t.ops loops) (M + 1) 0 (LList.from' v, g1)).2 =
          match (f g).1.2 with
          | .found => some (.ok (some ((f g).1.1 * dt)))
          | .tooFar => some (.err .tooLargeTimeStep)
          | .clock => none := by
  classical
  obtain ⟨hprobρ, F, hF, hae⟩ := side_queue rng P sys d S₀ S room put w c t ht hpos D dt μ hq hdec ρ hρ n
  have hfin : volume (S₀ \ nearSet c t.targetSize) ≠ ∞ := ne_top_of_le_ne_top room.volume_finite (measure_mono Set.sdiff_subset)
  have hprob := uniformLaw_prob hpos hfin
  set T := nearSet c t.targetSize with hT
  have hTm : MeasurableSet T := near_meas _ _
  obtain ⟨f, hf, hfae⟩ := off_target room c t ht hpos
  have hmake := makeAgents_eq P sys d S₀ room t D _ f hf hfae (n + 1)
  have hfN := drawsN_mp hf (n + 1)
  set π := Measure.pi fun _ : Fin (n + 1) => uniformLaw (S₀ \ T) with hπ
  set q := stepDraw rng d (2 * D * dt) with hqd
  -- the limited chain
  have hrot : Measurable fun p : (Fin (n + 1) → Fin d → ℝ) × (Fin d → ℝ) => rotated p.1 (put (p.1 0 + p.2)) := by
    have := w.measurable
    exact rotated_meas measurable_fst (this.comp (((measurable_pi_apply 0).comp measurable_fst).add measurable_snd))
  have hTT : Measurable fun p : (ℕ × (Fin (n + 1) → Fin d → ℝ)) × (Fin d → ℝ) => countedStep put p.1 p.2 := by
    refine Measurable.prodMk ?_ (hrot.comp ((measurable_snd.comp measurable_fst).prodMk measurable_snd))
    exact (measurable_fst.comp measurable_fst).add_const 1
  set go : Set (ℕ × (Fin (n + 1) → Fin d → ℝ)) := {x | x.1 < (M + 1) * (n + 1)} ∩ {x | x.2 ∈ lastIn n (S \ T)} with hgo
  have hgom : MeasurableSet go :=
    (measurable_fst (MeasurableSet.of_discrete (s := {k : ℕ | k < (M + 1) * (n + 1)}))).inter (measurable_snd (lastIn_meas (w.room_measurable.diff hTm)))
  set res : ℕ × (Fin (n + 1) → Fin d → ℝ) → ℕ × Ending := fun x =>
    if x.2 ∈ lastIn n (S \ T) then (M + 1, .clock) else ((x.1 - 1) / (n + 1) + 1, if x.2 ∈ lastIn n S then .found else .tooFar) with hres
  have hresm : Measurable res := by
    refine Measurable.ite (measurable_snd (lastIn_meas (w.room_measurable.diff hTm))) measurable_const ?_
    refine Measurable.prodMk ?_ (Measurable.ite (measurable_snd (lastIn_meas w.room_measurable)) measurable_const measurable_const)
    exact (Measurable.of_discrete (f := fun k : ℕ => (k - 1) / (n + 1) + 1)).comp measurable_fst
  have hst : MeasurePreserving (fun x : Fin (n + 1) → Fin d → ℝ => ((0 : ℕ), x)) π (π.map fun x => (0, x)) := ⟨by fun_prop, rfl⟩
  have hprob' : IsProbabilityMeasure (π.map fun x : Fin (n + 1) → Fin d → ℝ => ((0 : ℕ), x)) := Measure.isProbabilityMeasure_map hst.measurable.aemeasurable
  have h0 : ∀ᵐ y ∂((π.map fun x : Fin (n + 1) → Fin d → ℝ => ((0 : ℕ), x)).prod P), y.1.1 = 0 := by
    have : ∀ᵐ x ∂(π.map fun x : Fin (n + 1) → Fin d → ℝ => ((0 : ℕ), x)), x.1 = 0 := by
      exact (ae_map_iff (p := fun x : ℕ × (Fin (n + 1) → Fin d → ℝ) => x.1 = 0) hst.measurable.aemeasurable
        (measurable_fst (MeasurableSet.of_discrete (s := {k : ℕ | k = 0})))).2 (.of_forall fun x => rfl)
    exact (Measure.quasiMeasurePreserving_fst).ae this
  obtain ⟨F', ρ', hρ', -, hF', hae'⟩ := draw_run hTT hq hgom hresm (π.map fun x => (0, x)) (by
    filter_upwards [h0] with y hy
    obtain ⟨⟨k, x⟩, g⟩ := y
    simp only at hy
    subst hy
    refine ⟨(M + 1) * (n + 1), fun hin => ?_⟩
    rw [counted_iterate put q (x, g)] at hin
    have := hin.1
    simp only [Set.mem_ofPred_eq] at this
    omega)
  have h1 : MeasurePreserving (fun y : (Fin (n + 1) → Fin d → ℝ) × G => ((0, y.1), y.2)) (π.prod P) ((π.map fun x => ((0 : ℕ), x)).prod P) :=
    hst.prod (.id P)
  have h2 : MeasurePreserving (fun y => (F' ((0, (drawsN f (n + 1) y).1), (drawsN f (n + 1) y).2)).2) P P :=
    measurePreserving_snd.comp (hF'.comp (h1.comp hfN))
  refine ⟨hprobρ, fun g => ((F' ((0, (drawsN f (n + 1) g).1), (drawsN f (n + 1) g).2)).1.2, (F' ((0, (drawsN f (n + 1) g).1), (drawsN f (n + 1) g).2)).2), ?_, ?_⟩
  · have hs : MeasurePreserving (Prod.snd : ℕ × ℕ × Ending → ℕ × Ending) ρ' (ρ'.map Prod.snd) := ⟨measurable_snd, rfl⟩
    have hsp : IsProbabilityMeasure (ρ'.map Prod.snd) := Measure.isProbabilityMeasure_map measurable_snd.aemeasurable
    have hlaw : ρ'.map Prod.snd = (((Measure.pi fun _ : Fin (n + 1) => ρ).map (firstOf n)).map (limited (M + 1))) := by
      have hfm : Measurable (firstOf n) := .of_discrete
      have hlm : Measurable (limited (M + 1)) := .of_discrete
      have : IsProbabilityMeasure ((Measure.pi fun _ : Fin (n + 1) => ρ).map (firstOf n)) := Measure.isProbabilityMeasure_map hfm.aemeasurable
      have k1 : MeasurePreserving (fun y => (F' ((0, y.1), y.2)).1.2) (π.prod P) (ρ'.map Prod.snd) := hs.comp (measurePreserving_fst.comp (hF'.comp h1))
      have k2 : MeasurePreserving (fun y => limited (M + 1) (F y).1) (π.prod P) (((Measure.pi fun _ : Fin (n + 1) => ρ).map (firstOf n)).map (limited (M + 1))) :=
        (⟨hlm, rfl⟩ : MeasurePreserving (limited (M + 1)) _ (((Measure.pi fun _ : Fin (n + 1) => ρ).map (firstOf n)).map (limited (M + 1)))).comp (measurePreserving_fst.comp hF)
      rw [← k1.map_eq, ← k2.map_eq]
      refine Measure.map_congr ?_
      filter_upwards [hae, h1.quasiMeasurePreserving.ae hae'] with y ⟨m, a1, a2, a3⟩ ⟨m', b1, b2, b3⟩
      rw [counted_iterate put q y] at b2 b3
      have b1'' : ∀ j < m', j + 1 < (M + 1) * (n + 1) ∧ ((queueStep put q)^[j + 1] y).1 ∈ lastIn n (S \ T) := by
        intro j hj
        have := b1 j hj
        rw [counted_iterate put q y] at this
        exact this
      rw [b3]
      have b2' : m' + 1 < (M + 1) * (n + 1) → ((queueStep put q)^[m' + 1] y).1 ∉ lastIn n (S \ T) := fun h h' => b2 ⟨h, h'⟩
      have hK : m' < (M + 1) * (n + 1) := by
        rcases Nat.eq_zero_or_pos m' with h | h
        · rw [h]; positivity
        · have := (b1'' (m' - 1) (by omega)).1; omega
      by_cases hon : ((queueStep put q)^[m' + 1] y).1 ∈ lastIn n (S \ T)
      · have hm' : m' + 1 = (M + 1) * (n + 1) := by
          by_contra hne
          exact b2' (by omega) hon
        have hm : (M + 1) * (n + 1) ≤ m := by
          by_contra hlt
          rcases Nat.lt_or_ge m m' with h | h
          · exact a2 ⟨(b1'' m h).2, trivial⟩
          · obtain rfl : m = m' := by omega
            exact a2 ⟨hon, trivial⟩
        have : M + 1 ≤ m / (n + 1) := (Nat.le_div_iff_mul_le (by omega)).2 hm
        rw [a3]
        simp only [hres, if_pos hon, limited]
        rw [if_neg (by omega)]
      · have hm : m = m' := by
          rcases lt_trichotomy m m' with h | h | h
          · exact absurd ⟨(b1'' m h).2, trivial⟩ a2
          · exact h
          · exact absurd (a1 m' h).1 hon
        subst hm
        have : m / (n + 1) < M + 1 := (Nat.div_lt_iff_lt_mul (by omega)).2 hK
        rw [a3]
        simp only [hres, if_neg hon, limited, Nat.add_sub_cancel]
        rw [if_pos (show m / (n + 1) + 1 ≤ M + 1 from this)]
        have e : (((queueStep put q)^[m + 1] y).1 ∈ lastIn n S) ↔ ((queueStep put q)^[m + 1] y).1 (Fin.last n) ∈ S := Iff.rfl
        simp only [e, decide_eq_true_eq]
    rw [← hlaw]
    exact (hs.prod (.id P)).comp (hF'.comp (h1.comp hfN))
  · filter_upwards [hmake, (h1.comp hfN).quasiMeasurePreserving.ae hae'] with g ⟨N, hN⟩ ⟨m, b1, b2, b3⟩
    refine ⟨max N (n + 2), fun loops hl => ⟨_, _, hN loops ((le_max_left _ _).trans hl), ?_⟩⟩
    have hl2 : n + 1 < loops := by have := (le_max_right N (n + 2)).trans hl; omega
    simp only [Function.comp_apply] at b1 b2 b3
    generalize drawsN f (n + 1) g = y at b1 b2 b3
    have b1'' : ∀ j < m, j + 1 < (M + 1) * (n + 1) ∧ ((queueStep put q)^[j + 1] y).1 ∈ lastIn n (S \ T) := by
      intro j hj
      have := b1 j hj
      rw [counted_iterate put q y] at this
      exact this
    rw [counted_iterate put q y] at b2 b3
    have b2' : m + 1 < (M + 1) * (n + 1) → ((queueStep put q)^[m + 1] y).1 ∉ lastIn n (S \ T) := fun h h' => b2 ⟨h, h'⟩
    have hK : m < (M + 1) * (n + 1) := by
      rcases Nat.eq_zero_or_pos m with h | h
      · rw [h]; positivity
      · have := (b1'' (m - 1) (by omega)).1; omega
    simp only [b3]
    by_cases hon : ((queueStep put q)^[m + 1] y).1 ∈ lastIn n (S \ T)
    · have hm' : m + 1 = (M + 1) * (n + 1) := by
        by_contra hne
        exact b2' (by omega) hon
      obtain ⟨z, l, hw⟩ := loop_goes (rng := rng) w D dt c t ht (M + 1) y.1 y.2 0 loops hl2 (fun j hj => by
        rcases Nat.lt_or_ge j m with h | h
        · exact ⟨(b1'' j h).2, trivial⟩
        · obtain rfl : j = m := by omega
          exact ⟨hon, trivial⟩)
      rw [hw, ← hm']
      refine ⟨rfl, ?_⟩
      simp only [hres, if_pos hon]
    · have e0 : m / (n + 1) * (n + 1) + m % (n + 1) = m := Nat.div_add_mod' _ _
      obtain ⟨z, l, hw⟩ := loop_eq (rng := rng) w D dt c t ht (m / (n + 1)) (m % (n + 1)) (Nat.mod_lt _ (by omega)) y.1 y.2 0 loops (M + 1) hl2
        ((Nat.div_lt_iff_lt_mul (by omega)).2 hK) (by rw [e0]; exact fun j hj => ⟨(b1'' j hj).2, trivial⟩) (by rw [e0]; exact fun h => hon h.1)
      rw [e0] at hw
      rw [hw]
      refine ⟨rfl, ?_⟩
      simp only [hres, if_neg hon, Nat.add_sub_cancel, ← hqd]
      have e : (((queueStep put q)^[m + 1] y).1 ∈ lastIn n S) ↔ ((queueStep put q)^[m + 1] y).1 (Fin.last n) ∈ S := Iff.rfl
      by_cases hS : ((queueStep put q)^[m + 1] y).1 (Fin.last n) ∈ S
      · rw [if_pos hS, if_pos (e.2 hS)]
        simp
      · rw [if_neg hS, if_neg (fun h => hS (e.1 h))]

private theorem firstOf_lt (k : ℕ) : ∀ (n : ℕ) (ys : Fin (n + 1) → ℕ × Bool), k < (firstOf n ys).1 ↔ ∀ i, k < (ys i).1 := by
  intro n
  induction n with
  | zero => intro ys; simp [firstOf]
  | succ n ih =>
    intro ys
    rw [Fin.forall_fin_succ, ← ih (fun i => ys i.succ), firstOf]
    split_ifs with h <;> omega

private theorem firstOf_mem : ∀ (n : ℕ) (ys : Fin (n + 1) → ℕ × Bool), ∃ i, firstOf n ys = ys i := by
  intro n
  induction n with
  | zero => intro ys; exact ⟨0, rfl⟩
  | succ n ih =>
    intro ys
    obtain ⟨i, hi⟩ := ih fun i => ys i.succ
    rw [firstOf]
    split_ifs with h
    · exact ⟨0, rfl⟩
    · exact ⟨i.succ, hi⟩

/-- What `firstOf` says: the outcome of a searcher than which none ends before, and those before it end after. -/
theorem C104_first (n : ℕ) (ys : Fin (n + 1) → ℕ × Bool) :
    ∃ i, firstOf n ys = ys i ∧ (∀ j, (ys i).1 ≤ (ys j).1) ∧ ∀ j < i, (ys i).1 < (ys j).1 := by
  induction n with
  | zero => exact ⟨0, rfl, fun j => by rw [show j = 0 from Fin.ext (by omega)], fun j hj => absurd hj (by simp)⟩
  | succ n ih =>
    obtain ⟨i, h1, h2, h3⟩ := ih fun i => ys i.succ
    rw [firstOf]
    simp only [h1]
    split_ifs with h
    · refine ⟨0, rfl, fun j => ?_, fun j hj => absurd hj (by simp)⟩
      refine Fin.cases le_rfl (fun j => h.trans (h2 j)) j
    · refine ⟨i.succ, rfl, fun j => ?_, fun j hj => ?_⟩
      · refine Fin.cases (by omega) (fun j => h2 j) j
      · revert hj
        refine Fin.cases (fun _ => by omega) (fun j hj => h3 j (by simpa using hj)) j

/-- A program with the outcome of the first of independent searches. -/
private theorem first_reliable {P : Measure G} [IsProbabilityMeasure P] {ρ : Measure (ℕ × Bool)} [IsProbabilityMeasure ρ] {n : ℕ}
    {prog : Nat → G → Option (Res ℝ × G)} {dt : ℝ} (hdt : 0 < dt)
    (hy : Yields P prog (reported dt) ((Measure.pi fun _ : Fin (n + 1) => ρ).map (firstOf n))) (k : ℕ) :
    P {g | ∃ N, ∀ loops ≥ N, ∃ m g', prog loops g = some (.ok m, g') ∧ k * dt < m} =
      (Measure.pi fun _ : Fin (n + 1) => ρ) {ys | (firstOf n ys).2 = true ∧ k < (firstOf n ys).1} := by
  obtain ⟨f, hf, hae⟩ := hy
  have hfm : Measurable (firstOf n) := .of_discrete
  have : IsProbabilityMeasure ((Measure.pi fun _ : Fin (n + 1) => ρ).map (firstOf n)) := Measure.isProbabilityMeasure_map hfm.aemeasurable
  have hf1 : MeasurePreserving (fun g => (f g).1) P ((Measure.pi fun _ : Fin (n + 1) => ρ).map (firstOf n)) := measurePreserving_fst.comp hf
  have e : (Measure.pi fun _ : Fin (n + 1) => ρ) {ys | (firstOf n ys).2 = true ∧ k < (firstOf n ys).1} =
      P ((fun g => (f g).1) ⁻¹' {y | y.2 = true ∧ k < y.1}) := by
    rw [hf1.measure_preimage (MeasurableSet.of_discrete).nullMeasurableSet, Measure.map_apply hfm .of_discrete]
    rfl
  rw [e]
  refine measure_congr ?_
  filter_upwards [hae] with g ⟨N, hN⟩
  refine propext ⟨fun ⟨M, hM⟩ => ?_, fun hg => ⟨N, fun loops hl => ?_⟩⟩
  · obtain ⟨m, s', hm, hkm⟩ := hM (max N M) (le_max_right _ _)
    have e := hN (max N M) (le_max_left _ _)
    rw [hm] at e
    simp only [Option.some.injEq, Prod.mk.injEq] at e
    have e := e.1
    unfold reported at e
    split_ifs at e with hb
    have e := Res.ok.inj e
    rw [e] at hkm
    refine ⟨hb, ?_⟩
    have := lt_of_mul_lt_mul_right hkm hdt.le
    exact_mod_cast this
  · have e := hN loops hl
    have hg : (f g).1.2 = true ∧ k < (f g).1.1 := hg
    rw [reported, if_pos hg.1] at e
    have : (k : ℝ) < (f g).1.1 := by exact_mod_cast hg.2
    exact ⟨_, _, e, mul_lt_mul_of_pos_right this hdt⟩

section
variable (rng : RngOps G ℝ) (P : Measure G) (h : IdealRng rng P) (sys : SysOps G ℝ) (d : Nat) (S₀ S : Set (Fin d → ℝ))
  (room : Room P sys d S₀) (hbd : ∃ M, ∀ x ∈ S₀, ∀ i, |x i| ≤ M) (put : (Fin d → ℝ) → Fin d → ℝ) (w : Walls sys S put)
  (c : Fin d → ℝ) (t : BulkTarget ℝ) (ht : t.targetPos = List.ofFn c) (hpos : volume (S₀ \ nearSet c t.targetSize) ≠ 0)
  (D dt : ℝ) (hD : 0 < D) (hdt : 0 < dt) (ρ : Measure (ℕ × Bool))
  (hρ : ρ = searchLaw put S (nearSet c t.targetSize) (normalLaw _ (2 * D * dt)) (uniformLaw (S₀ \ nearSet c t.targetSize)))
include h room hbd w ht hpos hD hdt hρ

/-- `n + 1` searchers that take turns, with an ideal generator: the run ends with probability one, with the outcome of the
first to end of `n + 1` independent searches, each distributed as in a random walk (C77).  The outcome does not depend on the
state the generator is left in, which again has the distribution `P`, so runs after each other are independent.  That the run
is not over after `k` turns has the probability that none of `n + 1` independent searches is. -/
theorem C104_law (n : ℕ) : Yields P (fun loops g => indepRun rng sys t.ops loops loops loops loops (.brownian D) dt (n + 1) g) (reported dt)
      ((Measure.pi fun _ : Fin (n + 1) => ρ).map (firstOf n)) ∧
    ∀ k, ((Measure.pi fun _ : Fin (n + 1) => ρ).map (firstOf n)) {y | k < y.1} = ρ {y | k < y.1} ^ (n + 1) := by
  have := h.prob
  obtain ⟨-, hprob, hmass, r, hr, htail⟩ := C77_search rng P h sys d S₀ S room hbd put w c t ht hpos D dt hD hdt
  rw [← hρ] at hprob hmass htail
  refine ⟨side_yields rng P sys d S₀ S room put w c t ht hpos D dt _ (normal_mp h d (by positivity)) ?_ ρ hρ n, fun k => ?_⟩
  · simp only [← hmass]
    exact tendsto_of_tendsto_of_tendsto_of_le_of_le tendsto_const_nhds (ENNReal.tendsto_pow_atTop_nhds_zero_of_lt_one hr)
      (fun _ => bot_le) htail
  · have hfm : Measurable (firstOf n) := .of_discrete
    rw [Measure.map_apply hfm .of_discrete]
    have : firstOf n ⁻¹' {y | k < y.1} = Set.univ.pi fun _ => {y | k < y.1} := by
      ext ys
      simp [firstOf_lt]
    rw [this, Measure.pi_pi]
    simp

/-- It succeeds with a time above `k dt` with at least the probability with which the program that follows the searchers one
after the other does (`C99_fastest`): it is not disturbed by a searcher whose step would be too large, if another finds the
target before.  (`k = 0`: it succeeds with at least the probability that all searches do, for a search takes a step.) -/
theorem C104_reliable (n k : ℕ) : ρ {y | y.2 = true ∧ k < y.1} ^ (n + 1) ≤
    P {g | ∃ N, ∀ loops ≥ N, ∃ m g', indepRun rng sys t.ops loops loops loops loops (.brownian D) dt (n + 1) g = some (.ok m, g') ∧ k * dt < m} := by
  have := h.prob
  have hprob := (C77_search rng P h sys d S₀ S room hbd put w c t ht hpos D dt hD hdt).2.1
  rw [← hρ] at hprob
  rw [first_reliable hdt (C104_law rng P h sys d S₀ S room hbd put w c t ht hpos D dt hD hdt ρ hρ n).1 k]
  have : ρ {y | y.2 = true ∧ k < y.1} ^ (n + 1) = (Measure.pi fun _ : Fin (n + 1) => ρ) (Set.univ.pi fun _ => {y | y.2 = true ∧ k < y.1}) := by
    rw [Measure.pi_pi]; simp
  rw [this]
  refine measure_mono fun ys hys => ?_
  obtain ⟨i, hi⟩ := firstOf_mem n ys
  rw [Set.mem_ofPred_eq, hi]
  exact hys i trivial
end

section
variable (rng : RngOps G ℝ) (P : Measure G) (ν : Measure ℝ) (b : ℝ) (h : IndepRng rng P ν) (hν : BoundedSpread ν b)
  (sys : SysOps G ℝ) (d : Nat) (S₀ S : Set (Fin d → ℝ)) (room : Room P sys d S₀) (hconv : Convex ℝ S)
  (put : (Fin d → ℝ) → Fin d → ℝ) (w : Walls sys S put)
  (c : Fin d → ℝ) (t : BulkTarget ℝ) (ht : t.targetPos = List.ofFn c) (hpos : volume (S₀ \ nearSet c t.targetSize) ≠ 0)
  (hin : ∃ c' ε, 0 < ε ∧ nearSet c' ε ⊆ S ∩ nearSet c t.targetSize)
  (D dt : ℝ) (hD : 0 < D) (hdt : 0 < dt)
  (hsafe : ∀ x ∈ S₀ ∪ S, ∀ z : Fin d → ℝ, (∀ i, |z i| ≤ b * Real.sqrt (2 * D * dt)) → put (x + z) ∈ S)
  (ρ : Measure (ℕ × Bool))
  (hρ : ρ = searchLaw put S (nearSet c t.targetSize) (stepLaw d ν (Real.sqrt (2 * D * dt))) (uniformLaw (S₀ \ nearSet c t.targetSize)))
include h hν room hconv w ht hpos hin hD hdt hsafe hρ

/-- With bounded normal numbers (the setting of C100): the run succeeds with probability one, with the time of the first of
`n + 1` independent searches. -/
theorem C104_bounded (n : ℕ) : Yields P (fun loops g => indepRun rng sys t.ops loops loops loops loops (.brownian D) dt (n + 1) g) (reported dt)
      ((Measure.pi fun _ : Fin (n + 1) => ρ).map (firstOf n)) ∧
    ((Measure.pi fun _ : Fin (n + 1) => ρ).map (firstOf n)) {y | y.2 = false} = 0 ∧
    ∀ k, ((Measure.pi fun _ : Fin (n + 1) => ρ).map (firstOf n)) {y | k < y.1} = ρ {y | k < y.1} ^ (n + 1) := by
  have := h.prob
  have := hν.prob
  have hμ := stepLaw_prob d (ν := ν) (Real.sqrt (2 * D * dt))
  obtain ⟨-, hprob, hfail, -⟩ := C100_search rng P ν b h hν sys d S₀ S room hconv put w c t ht hpos hin D dt hD hdt hsafe ρ hρ
  obtain ⟨-, -, -, -, -, hdec⟩ := bounded_short P ν b hν sys d S₀ S room hconv put w c t ht hpos hin D dt hD hdt
  have hfm : Measurable (firstOf n) := .of_discrete
  have h1 : ∀ᵐ y ∂ρ, y.2 = true := by rw [ae_iff]; simpa using hfail
  have hall : ∀ᵐ x ∂(Measure.pi fun _ : Fin (n + 1) => ρ), ∀ i, (x i).2 = true := by
    rw [ae_all_iff]
    exact fun i => (measurePreserving_eval (fun _ : Fin (n + 1) => ρ) i).quasiMeasurePreserving.ae h1
  refine ⟨side_yields rng P sys d S₀ S room put w c t ht hpos D dt _ (step_mp h d (2 * D * dt)) hdec ρ hρ n, ?_, fun k => ?_⟩
  · rw [Measure.map_apply hfm .of_discrete]
    refine measure_mono_null (fun ys hys => ?_) (ae_iff.1 hall)
    obtain ⟨i, hi⟩ := firstOf_mem n ys
    have hys : (firstOf n ys).2 = false := hys
    rw [hi] at hys
    exact fun hc => by simp [hc i] at hys
  · rw [Measure.map_apply hfm .of_discrete]
    have : firstOf n ⁻¹' {y | k < y.1} = Set.univ.pi fun _ => {y | k < y.1} := by
      ext ys
      simp [firstOf_lt]
    rw [this, Measure.pi_pi]
    simp

/-- With bounded normal numbers (the setting of C100) the program reports a time above `k dt` with just the probability with
which the program that follows the searchers one after the other does (`C100_fastest`): taking turns changes nothing in the
distribution of the times. -/
theorem C104_same_law (n k : ℕ) :
    P {g | ∃ N, ∀ loops ≥ N, ∃ m g', indepRun rng sys t.ops loops loops loops loops (.brownian D) dt (n + 1) g = some (.ok m, g') ∧ k * dt < m} =
      ρ {y | k < y.1} ^ (n + 1) := by
  have := h.prob
  have hprob := (C100_search rng P ν b h hν sys d S₀ S room hconv put w c t ht hpos hin D dt hD hdt hsafe ρ hρ).2.1
  obtain ⟨b1, b2, b3⟩ := C104_bounded rng P ν b h hν sys d S₀ S room hconv put w c t ht hpos hin D dt hD hdt hsafe ρ hρ n
  have hfm : Measurable (firstOf n) := .of_discrete
  rw [first_reliable hdt b1 k, ← b3 k]
  have e : (Measure.pi fun _ : Fin (n + 1) => ρ) {ys | (firstOf n ys).2 = true ∧ k < (firstOf n ys).1} =
      ((Measure.pi fun _ : Fin (n + 1) => ρ).map (firstOf n)) {y | y.2 = true ∧ k < y.1} := by
    rw [Measure.map_apply hfm .of_discrete]
    rfl
  rw [e]
  have h2 : ∀ᵐ y ∂((Measure.pi fun _ : Fin (n + 1) => ρ).map (firstOf n)), y.2 = true := by rw [ae_iff]; simpa using b2
  refine measure_congr ?_
  filter_upwards [h2] with y hy
  exact propext ⟨fun hg => hg.2, fun hg => ⟨hy, hg⟩⟩
end

/-! ### examples -/

-- three searches: the second ends first; two end in the same turn
example : firstOf 2 ![(5, true), (3, false), (4, true)] = (3, false) ∧ firstOf 2 ![(5, true), (3, true), (3, false)] = (3, true) := by decide

/-- The hypotheses are met by an ideal generator, a square of half width 1 with mirrors, a target of radius 1/4 in its
middle, `D = 1` and `dt = 1/100`: three searchers. -/
example : let s : Cubic ℝ := ⟨.continuousRectangular, .reflection, 1, 2⟩
    ∃ ρ : Measure (ℕ × Bool), ρ {(1, true)} ≠ 0 ∧ ρ {y | y.2 = true ∧ 0 < y.1} ^ 3 ≤ tapeLaw {g | ∃ N, ∀ loops ≥ N, ∃ m g',
      indepRun tapeRng (s.ops tapeRng) (BulkTarget.new [0, 0] (1 / 4)).ops loops loops loops loops (.brownian 1) (1 / 100) 3 g =
        some (.ok m, g') ∧ ((0 : ℕ) : ℝ) * (1 / 100) < m} := by
  intro s
  have hs : Cubic.new .reflection (1 : ℝ) 2 = .ok s := by
    unfold Cubic.new; rw [if_neg (by simp)]
  have w := (C77_walls tapeRng).1 .reflection 1 2 s hs
  have room := (C73_systems tapeRng tapeLaw tape_ideal).1 s (by simp [s])
  exact ⟨_, (C77_outcomes tapeRng tapeLaw tape_ideal _ 2 _ _ room w.bounded _ w (fun _ => 0) (BulkTarget.new [0, 0] (1 / 4))
    (by simp [BulkTarget.new]) square_example 1 (1 / 100) (by norm_num) (by norm_num) _ rfl).2 ⟨fun _ => 0, 1 / 4, by norm_num, square_target⟩,
    C104_reliable tapeRng tapeLaw tape_ideal _ 2 _ _ room w.bounded _ w (fun _ => 0) (BulkTarget.new [0, 0] (1 / 4))
    (by simp [BulkTarget.new]) square_example 1 (1 / 100) (by norm_num) (by norm_num) _ rfl 2 0⟩

/-- With normal numbers cut at 10: the first of three searchers. -/
example : let s : Cubic ℝ := ⟨.continuousRectangular, .reflection, 1, 2⟩
    ∃ ρ : Measure (ℕ × Bool), ρ {y | y.2 = false} = 0 ∧
    tapeLaw {g | ∃ N, ∀ loops ≥ N, ∃ m g',
      indepRun (cutRng tapeRng 10) (s.ops (cutRng tapeRng 10)) (BulkTarget.new [0, 0] (1 / 4)).ops loops loops loops loops (.brownian 1) (1 / 100) 3 g =
        some (.ok m, g') ∧ ((1 : ℕ) : ℝ) * (1 / 100) < m} = ρ {y | 1 < y.1} ^ 3 := by
  intro s
  have hs : Cubic.new .reflection (1 : ℝ) 2 = .ok s := by
    unfold Cubic.new; rw [if_neg (by simp)]
  have w := (C77_walls (cutRng tapeRng 10)).1 .reflection 1 2 s hs
  have room := (C73_systems (cutRng tapeRng 10) tapeLaw (cut_indep tape_ideal 10)).1 s (by simp [s])
  have h1 : Real.sqrt (2 * 1 * (1 / 100)) ≤ 1 / 5 := by
    rw [Real.sqrt_le_left (by norm_num)]; norm_num
  have hsafe : ∀ x ∈ cubeSet 2 1 ∪ cubeSet 2 1, ∀ z : Fin 2 → ℝ, (∀ i, |z i| ≤ 10 * Real.sqrt (2 * 1 * (1 / 100))) →
      cubePut .reflection 1 (x + z) ∈ cubeSet 2 1 := fun x hx z hz =>
    (C77_safe_steps 2 x z).1 .reflection 1 one_pos hx fun i => (hz i).trans (by linarith)
  exact ⟨_, (C100_search _ tapeLaw _ 10 (cut_indep tape_ideal 10) (C100_cut_normal (by norm_num)) _ 2 _ _ room (cube_convex 2 1) _ w (fun _ => 0)
    (BulkTarget.new [0, 0] (1 / 4)) (by simp [BulkTarget.new]) square_example ⟨fun _ => 0, 1 / 4, by norm_num, square_target⟩ 1 (1 / 100) (by norm_num)
    (by norm_num) hsafe _ rfl).2.2.1,
    C104_same_law _ tapeLaw _ 10 (cut_indep tape_ideal 10) (C100_cut_normal (by norm_num)) _ 2 _ _ room (cube_convex 2 1) _ w (fun _ => 0)
    (BulkTarget.new [0, 0] (1 / 4)) (by simp [BulkTarget.new]) square_example ⟨fun _ => 0, 1 / 4, by norm_num, square_target⟩ 1 (1 / 100) (by norm_num)
    (by norm_num) hsafe _ rfl 2 1⟩

end Moledyn.Props
