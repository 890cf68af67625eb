import Verif.Props.ListProgram
import Verif.Props.MoreSearchers
import Verif.Props.PushLaw
/-
C112: the distribution of the lines of tests/arguments.rs.
-/
namespace Moledyn.Props
open Moledyn MeasureTheory ProbabilityTheory Filter Topology
open scoped ENNReal NNReal
set_option linter.unusedSectionVars false
variable {G : Type} [MeasurableSpace G]

/-- An ensemble whose limited search has the outcome `y`: the line, and what is left. -/
theorem list_outcome (rng : RngOps G ℝ) {sys : SysOps G ℝ} {d : Nat} (hd : sys.DrawsInside d) (ho : sys.OutsideDim d) (target : TargetOps ℝ) {loops N M : Nat}
    (hf : N < loops) (mtype : MoveType ℝ) (clock : ConstStep ℝ) {dt : ℝ} (hc1 : clock.dt = dt) (hcur : clock.current = 0)
    (hM : ∀ j : Nat, j < M → j * clock.dt ≤ clock.tmax) (hend : ¬ M * clock.dt ≤ clock.tmax) (hs : M < loops) {st : ListSim G ℝ} (h : LeftList N d mtype st)
    {v : List (IndepAgent ℝ)} {g1 g' : G} {y : ℕ × Ending}
    (hm : makeAgents (fun g => IndepAgent.newUniform sys target loops loops g mtype) N st.2.2 = some (.ok v, g1))
    (hg : (searchLoop (countingTick dt) (walkStep (IndepAgent.walker rng) sys target loops) M 0 (LList.from' v, g1)).1.2.2 = g')
    (hy : (searchLoop (countingTick dt) (walkStep (IndepAgent.walker rng) sys target loops) M 0 (LList.from' v, g1)).2 =
      match y.2 with
      | .found => some (.ok (some (y.1 * dt)))
      | .tooFar => some (.err .tooLargeTimeStep)
      | .clock => none) :
    ∃ st', listRun rng sys target loops loops loops loops clock st = some (pushReported (fun k => ((k : ℝ) - 1) * dt) y, st') ∧
      (y.2 ≠ .tooFar → LeftList N d mtype st') ∧ st'.2.2 = g' := by
  subst hc1
  obtain ⟨-, a2, a3, a4⟩ := listRun_says rng hd ho target loops loops hf mtype clock M loops hcur hM hend hs h
  have hplain : indepRun rng sys target loops loops loops M mtype clock.dt N st.2.2 =
      match y.2 with
      | .found => some (.ok (y.1 * clock.dt), g')
      | .tooFar => some (.err .tooLargeTimeStep, g')
      | .clock => none := by
    unfold indepRun
    rw [hm]
    simp only
    rw [show (Fl.zero : ℝ) = 0 by simp [Fl.zero]]
    generalize searchLoop (countingTick clock.dt) (walkStep (IndepAgent.walker rng) sys target loops) M 0 (LList.from' v, g1) = r at hg hy
    obtain ⟨r1, r2⟩ := r
    simp only at hg hy
    subst hy hg
    rcases y with ⟨k, _ | _ | _⟩ <;> rfl
  rcases y with ⟨k, _ | _ | _⟩
  · obtain ⟨st', k1, k2, k3⟩ := a3 _ _ hplain
    refine ⟨st', ?_, fun _ => k2, k3⟩
    rw [k1]
    simp only [pushReported]
    congr 3
    ring
  · obtain ⟨st', k1, k2⟩ := a4 _ _ (by simp) hplain
    exact ⟨st', k1, fun h => absurd rfl h, k2⟩
  · obtain ⟨st', k1, k2, k3⟩ := a2 (by rw [hm]; simp) hplain
    exact ⟨st', k1, fun _ => k2, (k3 _ _ hm).trans hg⟩

/-- the lines of the whole program. -/
theorem list_lines (rng : RngOps G ℝ) {sys : SysOps G ℝ} {d : Nat} (hd : sys.DrawsInside d) (ho : sys.OutsideDim d) (target : TargetOps ℝ) {loops N M : Nat}
    (hf : N < loops) (mtype : MoveType ℝ) (clock : ConstStep ℝ) {dt : ℝ} (hc1 : clock.dt = dt) (hcur : clock.current = 0)
    (hM : ∀ j : Nat, j < M → j * clock.dt ≤ clock.tmax) (hend : ¬ M * clock.dt ≤ clock.tmax) (hs : M < loops) {f : G → (ℕ × Ending) × G} {g : G} {k0 : ℕ}
    (hall : ∀ m < k0, ∃ v g1, makeAgents (fun g => IndepAgent.newUniform sys target loops loops g mtype) N (after f m g) = some (.ok v, g1) ∧
      (searchLoop (countingTick dt) (walkStep (IndepAgent.walker rng) sys target loops) M 0 (LList.from' v, g1)).1.2.2 = (f (after f m g)).2 ∧
      (searchLoop (countingTick dt) (walkStep (IndepAgent.walker rng) sys target loops) M 0 (LList.from' v, g1)).2 =
        match (f (after f m g)).1.2 with
        | .found => some (.ok (some ((f (after f m g)).1.1 * dt)))
        | .tooFar => some (.err .tooLargeTimeStep)
        | .clock => none) :
    ∀ (k m : ℕ), m + k = k0 → ∀ st : ListSim G ℝ, LeftList N d mtype st → st.2.2 = after f m g →
      (expLoop (listRun rng sys target loops loops loops loops clock) k st).map Prod.fst =
        some (linesReported (fun k => ((k : ℝ) - 1) * dt) ((List.range k).map fun j => (f (after f (m + j) g)).1)) := by
  intro k
  induction k with
  | zero => intro m _ st _ _; rfl
  | succ k ih =>
    intro m hm st hl hst
    obtain ⟨v, g1, c1, c2, c3⟩ := hall m (by omega)
    rw [← hst] at c1
    obtain ⟨st', e, hl', hg'⟩ := list_outcome rng hd ho target hf mtype clock hc1 hcur hM hend hs hl c1 c2 c3
    have e2 : (List.range (k + 1)).map (fun j => (f (after f (m + j) g)).1) = (f (after f m g)).1 :: (List.range k).map fun j => (f (after f (m + 1 + j) g)).1 := by
      rw [List.range_succ_eq_map]
      simp only [List.map_cons, List.map_map, Nat.add_zero]
      congr 1
      refine List.map_congr_left fun j _ => ?_
      simp only [Function.comp]
      congr 3
      omega
    have e3 : (f (after f m g)).2 = after f (m + 1) g := by simp [after, Function.iterate_succ_apply']
    have e4 := ih (m + 1) (by omega) st'
    rw [e2, expLoop, e]
    generalize (f (after f m g)).1 = y at *
    rcases y with ⟨T, _ | _ | _⟩
    · obtain ⟨r, hr, hr2⟩ := Option.map_eq_some_iff.1 (e4 (hl' (by simp)) (hg'.trans e3))
      unfold linesReported
      simp only [pushReported]
      rw [hr]
      simp only [Option.map_some, hr2]
    · rfl
    · obtain ⟨r, hr, hr2⟩ := Option.map_eq_some_iff.1 (e4 (hl' (by simp)) (hg'.trans e3))
      unfold linesReported
      simp only [pushReported]
      rw [hr]
      simp only [Option.map_some, hr2]

/-- the probability that a line is 0. -/
theorem zero_lines {ρ : Measure (ℕ × Bool)} [IsProbabilityMeasure ρ] {n : ℕ} {dt : ℝ} (hdt : 0 < dt) (M : ℕ)
    (htail : ∀ k, ((Measure.pi fun _ : Fin (n + 1) => ρ).map (firstOf n)) {y | k < y.1} = ρ {y | k < y.1} ^ (n + 1)) :
    (((Measure.pi fun _ : Fin (n + 1) => ρ).map (firstOf n)).map (limited (M + 1))) {y | pushReported (fun k => ((k : ℝ) - 1) * dt) y = .ok 0} =
      ((Measure.pi fun _ : Fin (n + 1) => ρ).map (firstOf n)) {(1, true)} + ρ {y | M + 1 < y.1} ^ (n + 1) := by
  have hlm : Measurable (limited (M + 1)) := .of_discrete
  rw [Measure.map_apply hlm .of_discrete, ← htail, ← measure_union ?_ .of_discrete]
  · congr 1
    ext ⟨k, b⟩
    simp only [Set.mem_preimage, Set.mem_ofPred_eq, limited, Set.mem_union, Set.mem_singleton_iff, Prod.mk.injEq]
    by_cases hk : k ≤ M + 1
    · rw [if_pos hk]
      cases b
      · simp [pushReported]; omega
      · simp only [if_true, pushReported, Res.ok.injEq, mul_eq_zero, hdt.ne', or_false, and_true]
        constructor
        · intro h
          left
          have : (k : ℝ) = 1 := by linarith
          exact_mod_cast this
        · rintro (h | h)
          · rw [h]; simp
          · omega
    · rw [if_neg hk]
      simp [pushReported]
      omega
  · rw [Set.disjoint_singleton_left]
    simp

section
variable (rng : RngOps G ℝ) (P : Measure G) (sys : SysOps G ℝ) (d : Nat) (hd : sys.DrawsInside d) (ho : sys.OutsideDim d) (D dt tmax : ℝ) (hdt : 0 < dt)
  (clock : ConstStep ℝ) (hc : ConstStep.convertFrom dt tmax = .ok clock) (agentType : AgentType) (itype : InitType ℝ) (n : ℕ)
include hd ho hdt hc

/-- whatever the distribution of the steps. -/
theorem list_program [IsProbabilityMeasure P] {t : BulkTarget ℝ} {μ : Measure (ℕ × Ending)} [IsProbabilityMeasure μ] {f : G → (ℕ × Ending) × G}
    (hf : MeasurePreserving f P (μ.prod P))
    (hae : ∀ᵐ g ∂P, ∃ N, ∀ loops ≥ N, ∃ v g1, makeAgents (fun g => IndepAgent.newUniform sys t.ops loops loops g (.brownian D)) (n + 1) g = some (.ok v, g1) ∧
      (searchLoop (countingTick dt) (walkStep (IndepAgent.walker rng) sys t.ops loops) (⌊clock.tmax / dt⌋₊ + 1) 0 (LList.from' v, g1)).1.2.2 = (f g).2 ∧
      (searchLoop (countingTick dt) (walkStep (IndepAgent.walker rng) sys t.ops loops) (⌊clock.tmax / dt⌋₊ + 1) 0 (LList.from' v, g1)).2 =
        match (f g).1.2 with
        | .found => some (.ok (some ((f g).1.1 * dt)))
        | .tooFar => some (.err .tooLargeTimeStep)
        | .clock => none) :
    ∀ᵐ g ∂P, ∀ k : ℕ, ∃ N, ∀ loops ≥ N,
      (expLoop (listRun rng sys t.ops loops loops loops loops clock) k (listStart (IndepAgent.convertFrom agentType (.brownian D) itype (n + 1)) d g)).map Prod.fst =
        some (linesReported (fun k => ((k : ℝ) - 1) * dt) ((List.range k).map fun j => (f (after f j g)).1)) := by
  obtain ⟨e1, e2, e3, e4⟩ := clock_says hc hdt
  have hall : ∀ᵐ g ∂P, ∀ m, ∃ N, ∀ loops ≥ N, ∃ v g1, makeAgents (fun g => IndepAgent.newUniform sys t.ops loops loops g (.brownian D)) (n + 1) (after f m g) = some (.ok v, g1) ∧
      (searchLoop (countingTick dt) (walkStep (IndepAgent.walker rng) sys t.ops loops) (⌊clock.tmax / dt⌋₊ + 1) 0 (LList.from' v, g1)).1.2.2 = (f (after f m g)).2 ∧
      (searchLoop (countingTick dt) (walkStep (IndepAgent.walker rng) sys t.ops loops) (⌊clock.tmax / dt⌋₊ + 1) 0 (LList.from' v, g1)).2 =
        match (f (after f m g)).1.2 with
        | .found => some (.ok (some ((f (after f m g)).1.1 * dt)))
        | .tooFar => some (.err .tooLargeTimeStep)
        | .clock => none := by
    rw [ae_all_iff]
    exact fun m => (after_mp hf m).quasiMeasurePreserving.ae hae
  filter_upwards [hall] with g hg k
  choose N hN using hg
  refine ⟨max (⌊clock.tmax / dt⌋₊ + n + 3) ((Finset.range k).sup N), fun loops hl => ?_⟩
  have hl' := (le_max_left _ _).trans hl
  have key := list_lines rng hd ho t.ops (loops := loops) (N := n + 1) (M := ⌊clock.tmax / dt⌋₊ + 1) (by omega) (.brownian D) clock e1 e2 e3 e4 (by omega)
    (f := f) (g := g) (k0 := k) (fun m hm => hN m loops ((Finset.le_sup (Finset.mem_range.2 hm)).trans ((le_max_right _ _).trans hl))) k 0 (by simp)
    (listStart (IndepAgent.convertFrom agentType (.brownian D) itype (n + 1)) d g) (leftList_start agentType (.brownian D) itype (n + 1) d g) rfl
  simpa using key
end

section
variable (rng : RngOps G ℝ) (P : Measure G) (h : IdealRng rng P) (sys : SysOps G ℝ) (d : Nat) (S₀ S : Set (Fin d → ℝ))
  (room : Room P sys d S₀) (hbd : ∃ M, ∀ x ∈ S₀, ∀ i, |x i| ≤ M) (put : (Fin d → ℝ) → Fin d → ℝ) (w : Walls sys S put)
  (c : Fin d → ℝ) (t : BulkTarget ℝ) (ht : t.targetPos = List.ofFn c) (hpos : volume (S₀ \ nearSet c t.targetSize) ≠ 0)
  (hd : sys.DrawsInside d) (ho : sys.OutsideDim d)
  (D dt tmax : ℝ) (hD : 0 < D) (hdt : 0 < dt) (clock : ConstStep ℝ) (hc : ConstStep.convertFrom dt tmax = .ok clock)
  (agentType : AgentType) (itype : InitType ℝ) (n : ℕ) (ρ : Measure (ℕ × Bool))
  (hρ : ρ = searchLaw put S (nearSet c t.targetSize) (normalLaw _ (2 * D * dt)) (uniformLaw (S₀ \ nearSet c t.targetSize)))
include h room hbd w ht hpos hD hdt hρ hc hd ho

/-- tests/arguments.rs with `n + 1` searchers and an ideal generator: the outcomes of its `k` ensembles are independent, each that
of the first of `n + 1` independent searches (C104), limited to `⌊tmax/dt⌋ + 1` turns.  What is written for a search that ends in turn
`j` is `(j - 1) dt`, and 0 for one that is given up; there is one line for every ensemble before the first that fails. -/
theorem C112_program (k : ℕ) : ∃ x : G → Fin k → ℕ × Ending,
    MeasurePreserving x P (Measure.pi fun _ => ((Measure.pi fun _ : Fin (n + 1) => ρ).map (firstOf n)).map (limited (⌊clock.tmax / dt⌋₊ + 1))) ∧
    ∀ᵐ g ∂P, ∃ N, ∀ loops ≥ N,
      (expLoop (listRun rng sys t.ops loops loops loops loops clock) k (listStart (IndepAgent.convertFrom agentType (.brownian D) itype (n + 1)) d g)).map Prod.fst =
        some (linesReported (fun k => ((k : ℝ) - 1) * dt) (List.ofFn (x g))) := by
  have := h.prob
  obtain ⟨-, hprob, hmass, r, hr, htail⟩ := C77_search rng P h sys d S₀ S room hbd put w c t ht hpos D dt hD hdt
  rw [← hρ] at hprob hmass htail
  obtain ⟨-, f, hf, hae⟩ := side_limited rng P sys d S₀ S room put w c t ht hpos D dt _ (normal_mp h d (by positivity)) (by
    simp only [← hmass]
    exact tendsto_of_tendsto_of_tendsto_of_le_of_le tendsto_const_nhds (ENNReal.tendsto_pow_atTop_nhds_zero_of_lt_one hr)
      (fun _ => bot_le) htail) ρ hρ n ⌊clock.tmax / dt⌋₊
  have hfm : Measurable (firstOf n) := .of_discrete
  have hlm : Measurable (limited (⌊clock.tmax / dt⌋₊ + 1)) := .of_discrete
  have : IsProbabilityMeasure ((Measure.pi fun _ : Fin (n + 1) => ρ).map (firstOf n)) := Measure.isProbabilityMeasure_map hfm.aemeasurable
  have : IsProbabilityMeasure (((Measure.pi fun _ : Fin (n + 1) => ρ).map (firstOf n)).map (limited (⌊clock.tmax / dt⌋₊ + 1))) :=
    Measure.isProbabilityMeasure_map hlm.aemeasurable
  refine ⟨fun g => (drawsN f k g).1, measurePreserving_fst.comp (drawsN_mp hf k), ?_⟩
  filter_upwards [list_program rng P sys d hd ho D dt tmax hdt clock hc agentType itype n hf hae] with g hg
  have e := range_draws f k g
  simp only [Nat.zero_add] at e
  rw [← e]
  exact hg k

/-- The probability that a line reads 0: that of an immediate success and that of no success at all, added up. -/
theorem C112_zero : (((Measure.pi fun _ : Fin (n + 1) => ρ).map (firstOf n)).map (limited (⌊clock.tmax / dt⌋₊ + 1)))
      {y | pushReported (fun k => ((k : ℝ) - 1) * dt) y = .ok 0} =
    ((Measure.pi fun _ : Fin (n + 1) => ρ).map (firstOf n)) {(1, true)} + ρ {y | ⌊clock.tmax / dt⌋₊ + 1 < y.1} ^ (n + 1) := by
  obtain ⟨-, hprob, -⟩ := C77_search rng P h sys d S₀ S room hbd put w c t ht hpos D dt hD hdt
  rw [← hρ] at hprob
  exact zero_lines hdt _ (C104_law rng P h sys d S₀ S room hbd put w c t ht hpos D dt hD hdt ρ hρ n).2
end

section
variable (rng : RngOps G ℝ) (P : Measure G) (ν : Measure ℝ) (b : ℝ) (h : IndepRng rng P ν) (hν : BoundedSpread ν b)
  (sys : SysOps G ℝ) (d : Nat) (S₀ S : Set (Fin d → ℝ)) (room : Room P sys d S₀) (hconv : Convex ℝ S)
  (put : (Fin d → ℝ) → Fin d → ℝ) (w : Walls sys S put)
  (c : Fin d → ℝ) (t : BulkTarget ℝ) (ht : t.targetPos = List.ofFn c) (hpos : volume (S₀ \ nearSet c t.targetSize) ≠ 0)
  (hin : ∃ c' ε, 0 < ε ∧ nearSet c' ε ⊆ S ∩ nearSet c t.targetSize) (hd : sys.DrawsInside d) (ho : sys.OutsideDim d)
  (D dt tmax : ℝ) (hD : 0 < D) (hdt : 0 < dt)
  (hsafe : ∀ x ∈ S₀ ∪ S, ∀ z : Fin d → ℝ, (∀ i, |z i| ≤ b * Real.sqrt (2 * D * dt)) → put (x + z) ∈ S)
  (clock : ConstStep ℝ) (hc : ConstStep.convertFrom dt tmax = .ok clock) (agentType : AgentType) (itype : InitType ℝ) (n : ℕ)
  (ρ : Measure (ℕ × Bool))
  (hρ : ρ = searchLaw put S (nearSet c t.targetSize) (stepLaw d ν (Real.sqrt (2 * D * dt))) (uniformLaw (S₀ \ nearSet c t.targetSize)))
include h hν room hconv w ht hpos hin hD hdt hsafe hρ hc hd ho

/-- With bounded normal numbers (the setting of C100): with probability one the program writes a line for every ensemble, however
many, and the mean of the first `k` lines approaches a number which is too small: it is less than the mean time of the first of
`n + 1` searches, which the means of tests/n_ptl_rts_iterator.rs approach (`C111_mean`), by at least `dt`, and by a further
`(⌊tmax/dt⌋ + 1) dt` times the probability that the search is given up. -/
theorem C112_means : ∃ m : ℝ,
    m + dt + ((⌊clock.tmax / dt⌋₊ + 1 : ℕ) : ℝ) * dt * (ρ {y | ⌊clock.tmax / dt⌋₊ + 1 < y.1}).toReal ^ (n + 1) ≤ meanOfFirst ρ dt (n + 1) ∧
    ∀ᵐ g ∂P, ∃ line : ℕ → ℝ, (∀ k, ∃ N, ∀ loops ≥ N,
      (expLoop (listRun rng sys t.ops loops loops loops loops clock) k (listStart (IndepAgent.convertFrom agentType (.brownian D) itype (n + 1)) d g)).map Prod.fst =
        some ((List.range k).map line, .ok ())) ∧
      Tendsto (fun k : ℕ => (∑ j ∈ Finset.range k, line j) / k) atTop (𝓝 m) := by
  have := h.prob
  have := hν.prob
  have hμ := stepLaw_prob d (ν := ν) (Real.sqrt (2 * D * dt))
  obtain ⟨-, -, -, -, -, hdec⟩ := bounded_short P ν b hν sys d S₀ S room hconv put w c t ht hpos hin D dt hD hdt
  obtain ⟨hprob, f, hf, hae⟩ := side_limited rng P sys d S₀ S room put w c t ht hpos D dt _ (step_mp h d (2 * D * dt)) hdec ρ hρ n ⌊clock.tmax / dt⌋₊
  obtain ⟨-, b2, b3⟩ := C104_bounded rng P ν b h hν sys d S₀ S room hconv put w c t ht hpos hin D dt hD hdt hsafe ρ hρ n
  obtain ⟨-, hs, hzero⟩ := first_tails rng P ν b h hν sys d S₀ S room hconv put w c t ht hpos hin D dt hD hdt hsafe ρ hρ
  set M := ⌊clock.tmax / dt⌋₊ + 1 with hM
  set F := (Measure.pi fun _ : Fin (n + 1) => ρ).map (firstOf n) with hFdef
  have hfm : Measurable (firstOf n) := .of_discrete
  have hlm : Measurable (limited M) := .of_discrete
  have hFp : IsProbabilityMeasure F := Measure.isProbabilityMeasure_map hfm.aemeasurable
  have hLp : IsProbabilityMeasure (F.map (limited M)) := Measure.isProbabilityMeasure_map hlm.aemeasurable
  obtain ⟨hi, he⟩ := steps_mean_sum F dt (by
    simp only [b3, ENNReal.toReal_pow]
    refine hs.of_nonneg_of_le (fun k => by positivity) fun k => ?_
    have : (ρ {y | k < y.1}).toReal ≤ 1 := by simpa using ENNReal.toReal_mono ENNReal.one_ne_top (prob_le_one (μ := ρ) (s := {y | k < y.1}))
    calc (ρ {y | k < y.1}).toReal ^ (n + 1) ≤ (ρ {y | k < y.1}).toReal ^ 1 := pow_le_pow_of_le_one ENNReal.toReal_nonneg this (by omega)
      _ = _ := pow_one _)
  have hmean : meanOfFirst ρ dt (n + 1) = ∫ y, (y.1 : ℝ) * dt ∂F := by
    rw [he]
    simp only [b3, ENNReal.toReal_pow]
    rfl
  set num : ℕ × Ending → ℝ := fun y => if y.2 = .found then ((y.1 : ℝ) - 1) * dt else 0 with hnum
  have hpos1 : ∀ᵐ y ∂F, 1 ≤ y.1 := by
    have h0 : F {y | 0 < y.1} = 1 := by
      rw [b3]
      have : ρ {y | 0 < y.1} = 1 := by
        rw [← prob_compl_eq_zero_iff .of_discrete]
        refine measure_mono_null (fun y hy => ?_) hzero
        have hy : ¬ 0 < y.1 := hy
        show y.1 < 1
        omega
      rw [this, one_pow]
    have := (prob_compl_eq_zero_iff (μ := F) (s := {y | 0 < y.1}) .of_discrete).2 h0
    rw [ae_iff]
    refine measure_mono_null (fun y hy => ?_) this
    have hy : ¬ 1 ≤ y.1 := hy
    show ¬ 0 < y.1
    omega
  have hok : ∀ᵐ y ∂F, y.2 = true := by rw [ae_iff]; simpa using b2
  have hint : Integrable (fun y => num (limited M y)) F := by
    refine hi.mono' (Measurable.of_discrete).aestronglyMeasurable ?_
    filter_upwards [hpos1] with y hy
    have h1 : (1 : ℝ) ≤ y.1 := by exact_mod_cast hy
    simp only [hnum, limited]
    rcases y with ⟨k, _ | _⟩ <;> by_cases hk : k ≤ M <;> simp only [hk, if_true, if_false, reduceCtorEq, norm_zero, Bool.false_eq_true]
    · positivity
    · positivity
    · rw [Real.norm_eq_abs, abs_of_nonneg (mul_nonneg (by linarith) hdt.le)]
      exact mul_le_mul_of_nonneg_right (by linarith) hdt.le
    · positivity
  have hint' : Integrable num (F.map (limited M)) := (integrable_map_measure (Measurable.of_discrete).aestronglyMeasurable hlm.aemeasurable).2 hint
  have hmap : ∫ y, num y ∂(F.map (limited M)) = ∫ y, num (limited M y) ∂F :=
    integral_map hlm.aemeasurable (Measurable.of_discrete).aestronglyMeasurable
  refine ⟨∫ y, num y ∂(F.map (limited M)), ?_, ?_⟩
  · have e1 : (ρ {y | M < y.1}).toReal ^ (n + 1) = F.real {y | M < y.1} := by
      rw [measureReal_def, b3, ENNReal.toReal_pow]
    have e2 : ∫ y, (num (limited M y) + (dt + (M : ℝ) * dt * Set.indicator {y : ℕ × Bool | M < y.1} 1 y)) ∂F =
        ∫ y, num (limited M y) ∂F + (dt + (M : ℝ) * dt * F.real {y | M < y.1}) := by
      have hind : Integrable (fun y : ℕ × Bool => (M : ℝ) * dt * Set.indicator {y : ℕ × Bool | M < y.1} 1 y) F :=
        ((integrable_const (1 : ℝ)).indicator .of_discrete).const_mul _
      have hadd : Integrable (fun y : ℕ × Bool => dt + (M : ℝ) * dt * Set.indicator {y : ℕ × Bool | M < y.1} 1 y) F := (integrable_const dt).add hind
      rw [integral_add hint hadd, integral_add (integrable_const dt) hind, integral_const_mul, integral_indicator_one .of_discrete]
      simp
    rw [hmean, hmap, e1, add_assoc, ← e2]
    refine integral_mono_ae (hint.add ((integrable_const dt).add (((integrable_const (1 : ℝ)).indicator .of_discrete).const_mul _))) hi ?_
    filter_upwards [hpos1, hok] with y hy hy2
    have h1 : (1 : ℝ) ≤ y.1 := by exact_mod_cast hy
    obtain ⟨k, v⟩ := y
    simp only at hy hy2 h1
    subst hy2
    by_cases hk : k ≤ M
    · have : ¬ M < k := by omega
      simp only [hnum, limited, hk, if_true, Set.indicator, Set.mem_ofPred_eq, this, if_false]
      linarith
    · have h2 : M < k := by omega
      simp only [hnum, limited, hk, if_false, reduceCtorEq, Set.indicator, Set.mem_ofPred_eq, h2, if_true, Pi.one_apply]
      have h3 : (M : ℝ) + 1 ≤ k := by exact_mod_cast h2
      nlinarith
  · have hlim := runs_law hf (φ := num) .of_discrete hint'
    have hne : ∀ᵐ g ∂P, ∀ m, (f (after f m g)).1.2 ≠ .tooFar := by
      rw [ae_all_iff]
      intro m
      have h1 : ∀ᵐ y ∂(F.map (limited M)), y.2 ≠ .tooFar := by
        rw [ae_iff, Measure.map_apply hlm .of_discrete]
        refine measure_mono_null (fun y hy => ?_) b2
        have hy : ¬ (limited M y).2 ≠ .tooFar := hy
        show y.2 = false
        by_contra hc
        refine hy ?_
        unfold limited
        split_ifs <;> simp_all
      exact ((measurePreserving_fst.comp hf).comp (after_mp hf m)).quasiMeasurePreserving.ae h1
    filter_upwards [list_program rng P sys d hd ho D dt tmax hdt clock hc agentType itype n hf hae, hlim, hne] with g hg hl hne
    refine ⟨fun j => num (f (after f j g)).1, fun k => ?_, hl⟩
    obtain ⟨N, hN⟩ := hg k
    refine ⟨N, fun loops hloops => (hN loops hloops).trans ?_⟩
    rw [lines_all]
    · simp only [List.map_map]
      rfl
    · intro y hy
      obtain ⟨j, -, rfl⟩ := List.mem_map.1 hy
      exact hne j
end

/-- Four outcomes with a clock of three turns: found in time, failed in time, found in the last turn and too late. -/
example : [limited 3 (1, true), limited 3 (2, false), limited 3 (3, true), limited 3 (4, true)] =
    [(1, .found), (2, .tooFar), (3, .found), (3, .clock)] := by simp [limited]

private theorem disc_list (rng : RngOps G ℝ) : let s : Circ ℝ := ⟨.continuousCircular, .reflection, 10, 2⟩
    Circ.new (10 : ℝ) 2 = .ok s ∧ (s.ops rng).DrawsInside 2 ∧ (s.ops rng).OutsideDim 2 ∧
    ConstStep.convertFrom (1 / 100 : ℝ) 1 = .ok ⟨.constant (1 / 100), 0, 1 / 100, 1⟩ := by
  intro s
  refine ⟨by unfold Circ.new; rw [if_neg (by simp)], C37_systems_draw_inside.1 rng s, (C37_systems_outside_dim rng).2.1 s, ?_⟩
  unfold ConstStep.convertFrom
  rw [if_neg (by simp), if_neg (by simp [fl_lit]; norm_num)]
  simp

/-- The hypotheses are met by an ideal generator, a disc of radius 10 with a target of radius 1 in its middle, `D = 1`, `dt = 1/100`,
`tmax = 1` and three searchers. -/
example : let s : Circ ℝ := ⟨.continuousCircular, .reflection, 10, 2⟩
    ∃ (clock : ConstStep ℝ) (μ : Measure (ℕ × Ending)), ConstStep.convertFrom (1 / 100) 1 = .ok clock ∧ ∀ k, ∃ x : (ℕ → ℝ × ℝ) → Fin k → ℕ × Ending,
      MeasurePreserving x tapeLaw (Measure.pi fun _ => μ) ∧ ∀ᵐ g ∂tapeLaw, ∃ N, ∀ loops ≥ N,
        (expLoop (listRun tapeRng (s.ops tapeRng) (BulkTarget.new [0, 0] 1).ops loops loops loops loops clock) k
          (listStart (IndepAgent.convertFrom .continuousPassiveIndependent (.brownian 1) .uniform 3) 2 g)).map Prod.fst =
          some (linesReported (fun k => ((k : ℝ) - 1) * (1 / 100)) (List.ofFn (x g))) := by
  intro s
  obtain ⟨hs, hd, ho, hc⟩ := disc_list tapeRng
  have w := (C77_walls tapeRng).2.1 10 2 s hs
  have room := (C73_systems tapeRng tapeLaw tape_ideal).2.1 s (by simp [s])
  exact ⟨_, _, hc, fun k => C112_program tapeRng tapeLaw tape_ideal _ 2 _ _ room w.bounded _ w (fun _ => 0) (BulkTarget.new [0, 0] 1)
    (by simp [BulkTarget.new]) disc_example hd ho 1 (1 / 100) 1 (by norm_num) (by norm_num) _ hc _ _ 2 _ rfl k⟩

/-- With normal numbers cut at 50: the means of the lines and what they fall short of. -/
example : let s : Circ ℝ := ⟨.continuousCircular, .reflection, 10, 2⟩
    ∃ (clock : ConstStep ℝ) (ρ : Measure (ℕ × Bool)) (m : ℝ), ConstStep.convertFrom (1 / 100) 1 = .ok clock ∧ m + 1 / 100 ≤ meanOfFirst ρ (1 / 100) 3 ∧
      ∀ᵐ g ∂tapeLaw, ∃ line : ℕ → ℝ, (∀ k, ∃ N, ∀ loops ≥ N,
        (expLoop (listRun (cutRng tapeRng 50) (s.ops (cutRng tapeRng 50)) (BulkTarget.new [0, 0] 1).ops loops loops loops loops clock) k
          (listStart (IndepAgent.convertFrom .continuousPassiveIndependent (.brownian 1) .uniform 3) 2 g)).map Prod.fst = some ((List.range k).map line, .ok ())) ∧
        Tendsto (fun k : ℕ => (∑ j ∈ Finset.range k, line j) / k) atTop (𝓝 m) := by
  intro s
  obtain ⟨hs, hd, ho, hc⟩ := disc_list (cutRng tapeRng 50)
  have w := (C77_walls (cutRng tapeRng 50)).2.1 10 2 s hs
  have room := (C73_systems (cutRng tapeRng 50) tapeLaw (cut_indep tape_ideal 50)).2.1 s (by simp [s])
  have hsafe : ∀ x ∈ ballSet 2 10 ∪ ballSet 2 10, ∀ z : Fin 2 → ℝ, (∀ i, |z i| ≤ 50 * Real.sqrt (2 * 1 * (1 / 100))) →
      ballPut 10 (x + z) ∈ ballSet 2 10 := fun x hx z hz =>
    (C77_safe_steps 2 x z).2.1 10 (by norm_num) (by norm_num) hx fun i => (hz i).trans disc_step
  obtain ⟨m, h1, h2⟩ := C112_means _ tapeLaw _ 50 (cut_indep tape_ideal 50) (C100_cut_normal (by norm_num)) _ 2 _ _ room (ball_convex 2 10) _ w (fun _ => 0)
    (BulkTarget.new [0, 0] 1) (by simp [BulkTarget.new]) disc_example ⟨fun _ => 0, 1, by norm_num, disc_target⟩ hd ho 1 (1 / 100) 1 (by norm_num)
    (by norm_num) hsafe _ hc .continuousPassiveIndependent .uniform 2 _ rfl
  refine ⟨_, _, m, hc, le_trans ?_ h1, h2⟩
  have : 0 ≤ ((⌊(1 : ℝ) / (1 / 100)⌋₊ + 1 : ℕ) : ℝ) * (1 / 100) * (searchLaw (ballPut 10) (ballSet 2 10) (nearSet (fun _ : Fin 2 => 0) (BulkTarget.new [0, 0] 1 : BulkTarget ℝ).targetSize)
      (stepLaw 2 ((gaussianReal 0 1).map fun z => max (-50) (min 50 z)) (Real.sqrt (2 * 1 * (1 / 100))))
      (uniformLaw (ballSet 2 10 \ nearSet (fun _ : Fin 2 => 0) (BulkTarget.new [0, 0] 1 : BulkTarget ℝ).targetSize)) {y | ⌊(1 : ℝ) / (1 / 100)⌋₊ + 1 < y.1}).toReal ^ (2 + 1) := by
    positivity
  exact le_add_of_nonneg_right this

end Moledyn.Props
