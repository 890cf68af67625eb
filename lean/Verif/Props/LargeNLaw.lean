import Verif.Lemmas.LargeNLaw
import Verif.Model.LargeN
/-
C107: the distribution of the searches of tests/large_n_simulation.rs, and of ensembles of them.
-/
namespace Moledyn.Props
open Moledyn LList MeasureTheory ProbabilityTheory Filter
open scoped ENNReal NNReal Topology
set_option linter.unusedSectionVars false
variable {G : Type} [MeasurableSpace G]

theorem renew_fresh {clock : ExpStep ℝ} (hc : clock.Fresh) : clock.renew = (clock, .ok ()) := by
  obtain ⟨a, b, l, h1, -, -, -, h2, h3, h4⟩ := exp_fresh_real hc
  rcases clock with ⟨_, _, _, _, _, _⟩
  simp only at h1 h2 h3 h4
  subst h1 h2 h3 h4
  simp [ExpStep.renew]

/-- a run of the program on fresh searchers and a fresh clock: the search, from the renewed searchers. -/
theorem largeN_fresh (rng : RngOps G ℝ) (sys : SysOps G ℝ) (target : TargetOps ℝ) {loops : ℕ} {v cs : List (MergeAgent ℝ)} {clock : ExpStep ℝ} (hc : clock.Fresh)
    (hl : v.length < loops) {g g1 : G} (h : renewEach (fun a g => a.renewUniform sys target loops loops g) v g = some ((cs, .ok ()), g1)) :
    (largeNRun rng sys target loops loops loops loops (from' v, clock, g)).map (fun r => (r.1, r.2.2.2)) =
      ((searchLoop (TimeDiff.next ExpStep.next (fun c => c.dt)) (mergeStep rng sys target (fun a => a.ptlRadius) loops) loops (intoDiff clock)
        (⟨from' cs, g1, []⟩ : MergeSim G ℝ)).2.map fun x => x.bind fun o => match o with | some t => .ok t | none => .err .unexpectedEnd).map fun r =>
        (r, (searchLoop (TimeDiff.next ExpStep.next (fun c => c.dt)) (mergeStep rng sys target (fun a => a.ptlRadius) loops) loops (intoDiff clock)
        (⟨from' cs, g1, []⟩ : MergeSim G ℝ)).1.2.rng) := by
  obtain ⟨-, p2, -⟩ := largeNPrepare_says sys target loops loops loops (l := from' v) (rep_from v).len (rep_from v).c2 hl g
  have hcs : (from' cs).withCursors none (from' v).c1 = from' cs := rfl
  unfold largeNRun
  simp only
  rw [renew_fresh hc]
  simp only
  rw [p2 cs g1 h, hcs]
  simp only
  unfold largeNFpt
  simp only
  generalize searchLoop (TimeDiff.next ExpStep.next (fun c => c.dt)) (mergeStep rng sys target (fun a => a.ptlRadius) loops) loops (intoDiff clock)
        (⟨from' cs, g1, []⟩ : MergeSim G ℝ) = r
  rcases r with ⟨⟨c1, sim⟩, _ | (_ | t) | e | _⟩ <;> rfl

section
variable (rng : RngOps G ℝ) (P : Measure G) (ν : Measure ℝ) (h : IndepRng rng P ν) (hν : IsProbabilityMeasure ν)
  (sys : SysOps G ℝ) (d : Nat) (S₀ S : Set (Fin d → ℝ)) (room : Room P sys d S₀)
  (put : (Fin d → ℝ) → Fin d → ℝ) (w : Walls sys S put)
  (c : Fin d → ℝ) (t : BulkTarget ℝ) (ht : t.targetPos = List.ofFn c) (hpos : volume (S₀ \ nearSet c t.targetSize) ≠ 0)
  (clock : ExpStep ℝ) (hc : clock.Fresh) (a b : ℝ) (l : ℕ) (hty : clock.titype = .exponential a b l) (ha : 0 < a) (hinc : 1 ≤ clock.inc) (htm : 0 ≤ clock.tmax)
  (radius alpha : ℝ) (n : ℕ) (hn : 0 < n) (ρ : Measure (ℕ × Ending))
  (hρ : ρ = mergeLaw (worldOf put S (nearSet c t.targetSize) 1 alpha radius (expTurns a b clock.inc l clock.tmax)) (Measure.pi fun _ : Fin d => ν)
    (Measure.pi fun _ : Fin n => uniformLaw (S₀ \ nearSet c t.targetSize)))
include h hν room w ht hpos hc hty ha hinc htm hn hρ

/-- one run, with the same dependence on the generator for all teams of `n`. -/
theorem largeN_runs : IsProbabilityMeasure ρ ∧
    (∃ f : G → (ℕ × Ending) × G, MeasurePreserving f P (ρ.prod P) ∧ ∀ᵐ g ∂P, ∃ N, ∀ loops ≥ N, ∀ v, MergeTeam d radius alpha v → v.length = n →
      (largeNRun rng sys t.ops loops loops loops loops (from' v, clock, g)).map (fun r => (r.1, r.2.2.2)) =
        some (mergeReported (fun k => expTime a b clock.inc l (k - 1)) (f g).1, (f g).2)) ∧
    ∀ᵐ y ∂ρ, 1 ≤ y.1 ∧ expTime a b clock.inc l (y.1 - 1) ≤ clock.tmax ∧ (y.2 = .clock → clock.tmax < expTime a b clock.inc l y.1) := by
  have := h.prob
  have hq := drawsN_mp h.gaussian d
  set clk := expTurns a b clock.inc l clock.tmax with hclk
  set W : MergeWorld d := worldOf put S (nearSet c t.targetSize) 1 alpha radius clk with hW
  have hT : Measurable fun p : MergeState n d × (Fin d → ℝ) => mergeMove W p.1 p.2 :=
    mergeMove_meas w.measurable w.room_measurable (near_meas c t.targetSize)
  have hfin : volume (S₀ \ nearSet c t.targetSize) ≠ ∞ := ne_top_of_le_ne_top room.volume_finite (measure_mono Set.sdiff_subset)
  have hprob := uniformLaw_prob hpos hfin
  have hab : a ≤ b := by
    obtain ⟨a', b', l', h1, -, h2, -⟩ := exp_fresh_real hc
    rw [hty] at h1
    obtain ⟨rfl, rfl, rfl⟩ := by simpa using h1
    exact h2
  have hsome : ∀ k, (clk k).isSome ↔ expTime a b clock.inc l k ≤ clock.tmax := by
    intro k
    rw [hclk]
    unfold expTurns
    split_ifs with hh <;> simp [hh]
  have h0 : (clk 0).isSome := (hsome 0).2 htm
  obtain ⟨K, hK⟩ : ∃ K, clk K = none := by
    obtain ⟨K, hK⟩ := exists_nat_gt (clock.tmax / a)
    refine ⟨K, Option.not_isSome_iff_eq_none.1 fun hh => ?_⟩
    have h1 := (hsome K).1 hh
    have h2 := expTime_ge a b clock.inc l ha.le hinc hab K
    rw [div_lt_iff₀ ha] at hK
    linarith
  have hK0 : 0 < K := by
    rcases Nat.eq_zero_or_pos K with rfl | hp
    · rw [hK] at h0; simp at h0
    · exact hp
  set π := Measure.pi fun _ : Fin n => uniformLaw (S₀ \ nearSet c t.targetSize) with hπ
  obtain ⟨b1, F, hF, hFae⟩ := merge_process hT hq π (.of_forall fun y =>
    clock_ends hn W hK _ (mergeStart y.1) y.2 (start_on hn h0 y.1) hK0 le_rfl)
  rw [← hρ] at b1 hF
  obtain ⟨f0, hf0, hae0⟩ := off_target room c t ht hpos
  have hd := drawsN_mp hf0 n
  have hren := renew_team room t hf0 hae0 radius alpha n
  refine ⟨b1, ⟨fun g => F (drawsN f0 n g), hF.comp hd, ?_⟩, ?_⟩
  · filter_upwards [hren, hd.quasiMeasurePreserving.ae hFae] with g ⟨N0, hN0⟩ ⟨N, hN1, hN2, hN3⟩
    generalize hx : drawsN f0 n g = x at hN0 hN1 hN2 hN3
    obtain ⟨xs, g1⟩ := x
    refine ⟨max (max N0 (n + 1)) (max (n * n + 1) (N + 2)), fun loops hl v hv hvn => ?_⟩
    have hl0 : N0 ≤ loops := (le_max_left _ _).trans ((le_max_left _ _).trans hl)
    have hl0' : n + 1 ≤ loops := (le_max_right _ _).trans ((le_max_left _ _).trans hl)
    have hl1 : n * n + 1 ≤ loops := (le_max_left _ _).trans ((le_max_right _ _).trans hl)
    have hl2 : N + 2 ≤ loops := (le_max_right _ _).trans ((le_max_right _ _).trans hl)
    rw [largeN_fresh rng sys t.ops hc (by omega) (hN0 loops hl0 v hv hvn)]
    simp only at hN1 hN2 hN3 ⊢
    have key := loop_run (rng := rng) w c t ht 1 alpha radius clk (rad := fun a => a.ptlRadius) (.inr rfl) (fun _ _ => rfl)
      (fuel := loops) (by omega) (TimeDiff.next ExpStep.next (fun c => c.dt)) (fun k => expTime a b clock.inc l k) loops 0 (intoDiff clock) _ _ _
      (fun j _ => by
        rw [C13_schedule clock hc hinc a b l hty j, Nat.zero_add, hclk]
        unfold expTurns
        split_ifs <;> rfl) h0 (start_turn hn 1 alpha radius xs g1 [])
    rw [← hW] at key
    have hst : (((⟨0, [], List.ofFn fun i : Fin n => (i, 1), none⟩, xs), g1) : MergeState n d × G) = (mergeStart xs, g1) := rfl
    simp only [hst] at key
    rw [hN3]
    rcases key with ⟨N', e, r, T, a1, a2, a3, a4, a5⟩ | ⟨-, M, m1, m2⟩
    · obtain rfl : N' = N := by
        rcases lt_trichotomy N' N with hlt | rfl | hlt
        · have := hN1 N' hlt
          change _ = none at this
          rw [a2] at this
          simp at this
        · rfl
        · exact absurd (a1 N hlt) hN2
      rw [a5, a3, ← a4]
      cases e <;> simp [mergeReported, Res.bind]
    · exact absurd (m2 N (by omega)) hN2
  · have hm : MeasurableSet {y : ℕ × Ending | 1 ≤ y.1 ∧ expTime a b clock.inc l (y.1 - 1) ≤ clock.tmax ∧ (y.2 = .clock → clock.tmax < expTime a b clock.inc l y.1)} := .of_discrete
    have hmp := measurePreserving_fst.comp hF
    rw [← hmp.map_eq, ae_map_iff hmp.measurable.aemeasurable hm]
    filter_upwards [hFae] with y ⟨N, hN1, hN2, hN3⟩
    obtain ⟨T, c1, c2, c3⟩ := end_clock hn W (mergeStart y.1, y.2) (start_on hn h0 y.1) N hN1 hN2
    simp only [Function.comp]
    rw [hN3]
    simp only [c1, Nat.add_sub_cancel]
    refine ⟨by omega, (hsome T).1 c2, fun e => ?_⟩
    have e3 : clk (T + 1) = none := c3 e
    by_contra hh
    have := (hsome (T + 1)).2 (not_lt.1 hh)
    rw [e3] at this
    simp at this

/-- A run of the program on searchers of any sizes at any places (`v`), with a clock that has not run: it ends with probability
one, with the outcome of the process in which the searchers, of size 1 and with diffusion constant 1, are put at uniformly
distributed places and make their steps (with numbers of the distribution `ν`) turn after turn, in turn `k` with the `k`-th
step of the clock.  It reports the time the clock shows *before* the step in which the target is found.  There are no turns
after the limit of the clock. -/
theorem C107_law : IsProbabilityMeasure ρ ∧
    (∀ v, MergeTeam d radius alpha v → v.length = n →
      Yields P (fun loops g => (largeNRun rng sys t.ops loops loops loops loops (from' v, clock, g)).map fun r => (r.1, r.2.2.2))
        (mergeReported fun k => expTime a b clock.inc l (k - 1)) ρ) ∧
    ∀ᵐ y ∂ρ, 1 ≤ y.1 ∧ expTime a b clock.inc l (y.1 - 1) ≤ clock.tmax ∧ (y.2 = .clock → clock.tmax < expTime a b clock.inc l y.1) := by
  obtain ⟨b1, ⟨f, hf, hae⟩, b2⟩ := largeN_runs rng P ν h hν sys d S₀ S room put w c t ht hpos clock hc a b l hty ha hinc htm radius alpha n hn ρ hρ
  refine ⟨b1, fun v hv hvn => ⟨f, hf, ?_⟩, b2⟩
  filter_upwards [hae] with g ⟨N, hN⟩
  exact ⟨N, fun loops hl => hN loops hl v hv hvn⟩

/-- the ensembles, with the same dependence on the generator for all teams of `n`. -/
theorem largeN_means (hsys : LibrarySystem rng sys) (hdr : sys.DrawsInside d) (hod : sys.OutsideDim d) (num : ℕ) :
    ∃ x : G → Fin num → ℕ × Ending, MeasurePreserving x P (Measure.pi fun _ => ρ) ∧
      ∀ᵐ g ∂P, ∃ N, ∀ loops ≥ N, ∀ v, MergeTeam d radius alpha v → v.length = n →
        (ensembleMean (largeNRun rng sys t.ops loops loops loops loops) num (from' v, clock, g)).map Prod.fst =
          some (meanReported (fun k => expTime a b clock.inc l (k - 1)) num (x g)) := by
  have := h.prob
  obtain ⟨b1, ⟨f, hf, hae⟩, -⟩ := largeN_runs rng P ν h hν sys d S₀ S room put w c t ht hpos clock hc a b l hty ha hinc htm radius alpha n hn ρ hρ
  refine ⟨fun g => (drawsN f num g).1, measurePreserving_fst.comp (drawsN_mp hf num), ?_⟩
  have hall : ∀ᵐ g ∂P, ∀ m, ∃ N, ∀ loops ≥ N, ∀ v, MergeTeam d radius alpha v → v.length = n →
      (largeNRun rng sys t.ops loops loops loops loops (from' v, clock, after f m g)).map (fun r => (r.1, r.2.2.2)) =
        some (mergeReported (fun k => expTime a b clock.inc l (k - 1)) (f (after f m g)).1, (f (after f m g)).2) := by
    rw [ae_all_iff]
    exact fun m => (after_mp hf m).quasiMeasurePreserving.ae hae
  filter_upwards [hall] with g hg
  choose N hN using hg
  refine ⟨max (n * n + n + 1) ((Finset.range num).sup N), fun loops hl v hv hvn => ?_⟩
  have hl1 : n * n + n + 1 ≤ loops := (le_max_left _ _).trans hl
  have key := sum_reports (gen := fun s : LList (MergeAgent ℝ) × ExpStep ℝ × G => s.2.2) (run := largeNRun rng sys t.ops loops loops loops loops)
    (time := fun k => expTime a b clock.inc l (k - 1)) (f := f) (n := num) (s0 := (from' v, clock, g)) (g := g) (by
      rintro m hm ⟨l1, c1, g1⟩ ts hs hg1
      simp only at hg1
      subst hg1
      rw [C68_no_memory rng sys hsys d hdr hod t.ops loops loops loops loops v (fun a ha => by
        obtain ⟨D, x, m, rfl⟩ := hv a ha
        simp) (by rw [hvn]; omega) (by rw [hvn]; omega) clock g ts l1 c1 _ hs]
      exact hN m loops ((Finset.le_sup (Finset.mem_range.2 hm)).trans ((le_max_right _ _).trans hl)) v hv hvn) num 0 (by simp) (from' v, clock, g) [] 0 (.nil _) rfl
  rw [range_draws] at key
  exact mean_reports key

/-- Ensembles of runs that share the searchers and the clock, from searchers of any sizes at any places and a clock that has
not run: the outcomes of the runs are independent, each with the distribution of `C107_law`; the mean of the times is
reported if all find the target, and otherwise the error of the first run that does not. -/
theorem C107_ensembles (hsys : LibrarySystem rng sys) (hdr : sys.DrawsInside d) (hod : sys.OutsideDim d) (num : ℕ) (v : List (MergeAgent ℝ))
    (hv : MergeTeam d radius alpha v) (hvn : v.length = n) :
    Reports P (fun loops g => (ensembleMean (largeNRun rng sys t.ops loops loops loops loops) num (from' v, clock, g)).map fun r => (r.1, r.2.2.2))
      (meanReported (fun k => expTime a b clock.inc l (k - 1)) num) (Measure.pi fun _ : Fin num => ρ) := by
  obtain ⟨x, hx, hae⟩ := largeN_means rng P ν h hν sys d S₀ S room put w c t ht hpos clock hc a b l hty ha hinc htm radius alpha n hn ρ hρ hsys hdr hod num
  refine ⟨x, hx, ?_⟩
  filter_upwards [hae] with g ⟨N, hN⟩
  refine ⟨N, fun loops hl => ?_⟩
  rw [← hN loops hl v hv hvn, Option.map_map]
  rfl

/-- The whole program: it makes `n` searchers with any diffusion constant `D`, which has no effect, and reports what
independent searches by `n` searchers with diffusion constant 1 give together. -/
theorem C107_program (hsys : LibrarySystem rng sys) (hdr : sys.DrawsInside d) (hod : sys.OutsideDim d) (num : ℕ) (D : ℝ) :
    Reports P (fun loops g => largeNProgram rng sys t.ops loops loops loops loops (.brownian D) radius alpha clock n num g)
      (meanReported (fun k => expTime a b clock.inc l (k - 1)) num) (Measure.pi fun _ : Fin num => ρ) := by
  have := h.prob
  obtain ⟨x, hx, hae⟩ := largeN_means rng P ν h hν sys d S₀ S room put w c t ht hpos clock hc a b l hty ha hinc htm radius alpha n hn ρ hρ hsys hdr hod num
  have hfin : volume (S₀ \ nearSet c t.targetSize) ≠ ∞ := ne_top_of_le_ne_top room.volume_finite (measure_mono Set.sdiff_subset)
  have hprob := uniformLaw_prob hpos hfin
  obtain ⟨f0, hf0, hae0⟩ := off_target room c t ht hpos
  have hnew : Samples P (fun loops g => MergeAgent.newUniform sys t.ops loops loops g (.brownian D) radius alpha)
      (fun x : Fin d → ℝ => crew D alpha radius 1 x) (uniformLaw (S₀ \ nearSet c t.targetSize)) := by
    refine ⟨f0, hf0, ?_⟩
    filter_upwards [hae0] with g ⟨n, hn⟩
    exact ⟨n, fun m hm => by simp [MergeAgent.newUniform, hn m hm m hm _ room.outDim, Res.map, Pos.dim, crew, slowedTo]⟩
  obtain ⟨f, hf, hmk⟩ := many_samples hnew n
  have hs := measurePreserving_snd.comp hf
  refine ⟨fun g => x (f g).2, hx.comp hs, ?_⟩
  filter_upwards [hmk, hs.quasiMeasurePreserving.ae hae] with g ⟨N, hN⟩ ⟨M, hM⟩
  refine ⟨max N M, fun loops hl => ?_⟩
  unfold largeNProgram
  rw [hN loops ((le_max_left _ _).trans hl)]
  simp only
  rw [Option.map_map]
  refine Eq.trans ?_ (hM loops ((le_max_right _ _).trans hl) (List.ofFn fun i => crew D alpha radius 1 ((f g).1 i)) (fun a ha => ?_) (by simp))
  · rfl
  · obtain ⟨i, rfl⟩ := List.mem_ofFn.1 ha
    exact ⟨_, _, _, rfl⟩
end

/-- Ensembles of independent searches report a mean with the probability that one search finds the target, to the power of
their number. -/
theorem reports_success {P : Measure G} [IsProbabilityMeasure P] {prog : Nat → G → Option (Res ℝ × G)} {time : ℕ → ℝ} {num : ℕ} {ρ : Measure (ℕ × Ending)}
    [IsProbabilityMeasure ρ] (h : Reports P prog (meanReported time num) (Measure.pi fun _ : Fin num => ρ)) :
    P {g | ∃ m N, ∀ loops ≥ N, (prog loops g).map Prod.fst = some (.ok m)} = ρ {y | y.2 = .found} ^ num := by
  obtain ⟨f, hf, hae⟩ := h
  have e : Measure.pi (fun _ : Fin num => ρ) (Set.univ.pi fun _ => {y | y.2 = .found}) = ρ {y | y.2 = .found} ^ num := by
    rw [Measure.pi_pi, Finset.prod_const, Finset.card_univ, Fintype.card_fin]
  rw [← e, ← hf.measure_preimage (MeasurableSet.univ_pi fun _ => .of_discrete).nullMeasurableSet]
  refine measure_congr ?_
  filter_upwards [hae] with g ⟨N, hN⟩
  refine propext ⟨?_, fun hall => ?_⟩
  · rintro ⟨m, M, hM⟩ i -
    have e1 := (hN (max N M) (le_max_left _ _)).symm.trans (hM _ (le_max_right _ _))
    have e1 := Option.some.inj e1
    by_contra hne
    unfold meanReported at e1
    cases hfd : (List.ofFn (f g)).find? fun y => decide (y.2 ≠ Ending.found) with
    | none =>
      rw [List.find?_eq_none] at hfd
      exact hfd (f g i) (List.mem_ofFn.2 ⟨i, rfl⟩) (by simpa using hne)
    | some y =>
      rw [hfd] at e1
      have := List.find?_some hfd
      rcases y with ⟨T, _ | _ | _⟩
      · simp at this
      · simp [mergeReported] at e1
      · simp [mergeReported] at e1
  · have hfd : (List.ofFn (f g)).find? (fun y => decide (y.2 ≠ Ending.found)) = none := by
      rw [List.find?_eq_none]
      intro y hy
      obtain ⟨i, rfl⟩ := List.mem_ofFn.1 hy
      have : (f g i).2 = .found := hall i trivial
      simp [this]
    refine ⟨(∑ i, time (f g i).1) / num, N, fun loops hl => (hN loops hl).trans ?_⟩
    unfold meanReported
    rw [hfd]

/-- Ensembles of runs of tests/merge_fpt.rs, or of any other with outcomes of this kind. -/
theorem ensemble_reports {P : Measure G} [IsProbabilityMeasure P] {run : Nat → G → Option (Res ℝ × G)} {time : ℕ → ℝ} {ρ : Measure (ℕ × Ending)}
    [IsProbabilityMeasure ρ] (hy : Yields P run (mergeReported time) ρ) (num : ℕ) :
    Reports P (fun loops g => ensembleMean (run loops) num g) (meanReported time num) (Measure.pi fun _ : Fin num => ρ) := by
  obtain ⟨f, hf, hae⟩ := hy
  refine ⟨fun g => (drawsN f num g).1, measurePreserving_fst.comp (drawsN_mp hf num), ?_⟩
  have hall : ∀ᵐ g ∂P, ∀ m, ∃ N, ∀ loops ≥ N, run loops (after f m g) = some (mergeReported time (f (after f m g)).1, (f (after f m g)).2) := by
    rw [ae_all_iff]
    exact fun m => (after_mp hf m).quasiMeasurePreserving.ae hae
  filter_upwards [hall] with g hg
  choose N hN using hg
  refine ⟨(Finset.range num).sup N, fun loops hl => ?_⟩
  have key := sum_reports (gen := fun s : G => s) (run := run loops) (time := time) (f := f) (n := num) (s0 := g) (g := g) (by
      rintro m hm s ts hs rfl
      rw [hN m loops ((Finset.le_sup (Finset.mem_range.2 hm)).trans hl)]
      rfl) num 0 (by simp) g [] 0 (.nil _) rfl
  rw [range_draws] at key
  exact mean_reports key

section
variable (rng : RngOps G ℝ) (P : Measure G) (h : IdealRng rng P) (d : Nat) (R : ℝ) (s : Circ ℝ) (hs : Circ.new R d = .ok s)
  (c : Fin d → ℝ) (t : BulkTarget ℝ) (ht : t.targetPos = List.ofFn c) (hpos : volume (ballSet d R \ nearSet c t.targetSize) ≠ 0)
  (a b : ℝ) (l : ℕ) (clock : ExpStep ℝ) (hc : ExpStep.new a b l = .ok clock)
  (radius alpha : ℝ) (n : ℕ) (hn : 0 < n) (D : ℝ)
include h hs ht hpos hc hn

/-- tests/large_n_simulation.rs, in any ball, with a clock as it makes it: with an ideal generator, one search finds the target
with a probability `p` below one, and the program reports a mean over `num` ensembles with the probability `p ^ num`; so with
enough ensembles it almost surely fails.  If a part of the target is in the ball, `p` is positive. -/
theorem C107_fails : ∃ p : ℝ≥0∞, p < 1 ∧ ((∃ c' ε, 0 < ε ∧ nearSet c' ε ⊆ ballSet d R ∩ nearSet c t.targetSize) → p ≠ 0) ∧
    (∀ num, P {g | ∃ m N, ∀ loops ≥ N, (largeNProgram rng (s.ops rng) t.ops loops loops loops loops (.brownian D) radius alpha clock n num g).map Prod.fst =
      some (.ok m)} = p ^ num) ∧ Tendsto (fun num => p ^ num) atTop (𝓝 0) := by
  have := h.prob
  obtain ⟨hR, hd, hsz, hdim⟩ := new_circ hs
  have w := (C77_walls rng).2.1 R d s hs
  have room := (C73_systems rng P h).2.1 s (by rw [hsz]; exact hR)
  rw [hsz] at room
  subst hdim
  have hfr : clock.Fresh := .new hc
  obtain ⟨h15, hab, hl, e⟩ : (1 / 10 ^ 15 : ℝ) ≤ a ∧ a ≤ b ∧ 0 < l ∧ clock = { titype := .exponential a b l, current := Fl.zero, dt := a, inc := clock.inc, tmax := Fl.maxVal, count := 0 } := by
    have hc' := hc
    unfold ExpStep.new at hc'
    split at hc' <;> simp only [reduceCtorEq, Res.ok.injEq] at hc'
    rename_i hlt
    simp only [fl_lt, fl_lit, Bool.or_eq_true, decide_eq_true_eq, not_or, not_lt, beq_iff_eq] at hlt
    refine ⟨?_, hlt.1.2, by omega, by rw [← hc']⟩
    have := hlt.1.1
    push_cast at this
    exact this
  have hinc : 1 ≤ clock.inc := by
    unfold ExpStep.new at hc
    split at hc <;> simp only [reduceCtorEq, Res.ok.injEq] at hc
    rw [← hc]
    simp only
    split_ifs with h1 h2
    · simp only [fl_lit]; norm_num
    · simp only [fl_ofNat, fl_two]
      have : (2 : ℝ) ≤ l := by exact_mod_cast (by omega : 2 ≤ l)
      linarith
    · simp only [fl_lit]; norm_num
  have htm : 0 ≤ clock.tmax := by
    rw [e]
    have h1 : ∀ m k : ℕ, m ≤ k → (0 : ℝ) ≤ (2 : ℝ) ^ k - 2 ^ m := fun m k hmk => sub_nonneg.2 (pow_le_pow_right₀ (by norm_num) hmk)
    exact h1 971 1024 (by omega)
  have ha : 0 < a := lt_of_lt_of_le (by positivity) h15
  have hty : clock.titype = .exponential a b l := by rw [e]
  set ρ := mergeLaw (worldOf (ballPut R) (ballSet s.dim R) (nearSet c t.targetSize) 1 alpha radius (expTurns a b clock.inc l clock.tmax))
    (Measure.pi fun _ : Fin s.dim => gaussianReal 0 1) (Measure.pi fun _ : Fin n => uniformLaw (ballSet s.dim R \ nearSet c t.targetSize)) with hρ
  have hν : IsProbabilityMeasure (gaussianReal 0 1) := inferInstance
  obtain ⟨b1, -, -⟩ := C107_law rng P (gaussianReal 0 1) h hν _ s.dim _ _ room _ w c t ht hpos clock hfr a b l hty ha hinc htm radius alpha n hn ρ hρ
  have hclk : expTurns a b clock.inc l clock.tmax 0 = some a := by
    unfold expTurns
    rw [if_pos (by exact htm)]
    simp [expStepSize, hab]
  obtain ⟨f1, f2⟩ := first_outcomes room w.bounded w c t hpos alpha radius one_pos ha hn hclk ρ hρ
  have hp : ρ {y | y.2 = .found} < 1 := by
    have hm : MeasurableSet {y : ℕ × Ending | y.2 = .found} := .of_discrete
    refine lt_of_le_of_ne prob_le_one fun h1 => ?_
    have h0 := (prob_compl_eq_zero_iff hm).2 h1
    refine f1 (measure_mono_null ?_ h0)
    rintro y rfl
    simp
  refine ⟨ρ {y | y.2 = .found}, hp, fun hin h0 => f2 hin (measure_mono_null ?_ h0), fun num => ?_, ENNReal.tendsto_pow_atTop_nhds_zero_of_lt_one hp⟩
  · rintro y rfl
    rfl
  · exact reports_success (C107_program rng P (gaussianReal 0 1) h hν _ s.dim _ _ room _ w c t ht hpos clock hfr a b l hty ha hinc htm radius alpha n hn ρ hρ
      (.inr (.inl ⟨s, rfl⟩)) ((C37_systems_draw_inside).1 rng s) ((C37_systems_outside_dim rng).2.1 s) num D)
end

section
variable (rng : RngOps G ℝ) (P : Measure G) (h : IdealRng rng P) (sys : SysOps G ℝ) (d : Nat) (S₀ S : Set (Fin d → ℝ))
  (room : Room P sys d S₀) (hbd : ∃ M, ∀ x ∈ S₀, ∀ i, |x i| ≤ M) (put : (Fin d → ℝ) → Fin d → ℝ) (w : Walls sys S put)
  (c : Fin d → ℝ) (t : BulkTarget ℝ) (ht : t.targetPos = List.ofFn c) (hpos : volume (S₀ \ nearSet c t.targetSize) ≠ 0)
  (D dt alpha radius : ℝ) (hD : 0 < D) (hdt : 0 < dt) (n : ℕ) (hn : 0 < n) (ρ : Measure (ℕ × Ending))
  (hρ : ρ = mergeLaw (worldOf put S (nearSet c t.targetSize) D alpha radius fun _ => some dt) (normalLaw d 1)
    (Measure.pi fun _ : Fin n => uniformLaw (S₀ \ nearSet c t.targetSize)))
include h room hbd w ht hpos hD hdt hn hρ

/-- `ensemble_n_ptl_fpt` of tests/merge_fpt.rs: the runs are independent, each with the distribution of `C106_law`; it reports a
mean with the probability `p ^ num`, where `p < 1` is the probability that one run finds the target. -/
theorem C106_ensembles (num : ℕ) :
    Reports P (fun loops g => ensembleMean (mergeRun rng sys t.ops loops loops loops loops (.brownian D) radius alpha dt n) num g)
      (meanReported (fun k => k * dt) num) (Measure.pi fun _ : Fin num => ρ) ∧
    P {g | ∃ m N, ∀ loops ≥ N, (ensembleMean (mergeRun rng sys t.ops loops loops loops loops (.brownian D) radius alpha dt n) num g).map Prod.fst =
      some (.ok m)} = ρ {y | y.2 = .found} ^ num ∧ ρ {y | y.2 = .found} < 1 := by
  have := h.prob
  obtain ⟨b1, b2, -⟩ := C106_law rng P h sys d S₀ S room hbd put w c t ht hpos D dt alpha radius hD hdt n hn ρ hρ
  obtain ⟨f1, -⟩ := C106_outcomes rng P h sys d S₀ S room hbd put w c t ht hpos D dt alpha radius hD hdt n hn ρ hρ
  have hr := ensemble_reports b2 num
  refine ⟨hr, reports_success hr, lt_of_le_of_ne prob_le_one fun h1 => ?_⟩
  have hm : MeasurableSet {y : ℕ × Ending | y.2 = .found} := .of_discrete
  have h0 := (prob_compl_eq_zero_iff hm).2 h1
  refine f1 (measure_mono_null ?_ h0)
  rintro y rfl
  simp
end

/-- Whatever the arithmetic: what making the searchers ends with, if it does not give `n` searchers, is what the program ends
with, and no number of the generator is used after that; otherwise the program is the ensembles on the searchers it made. -/
theorem C107_errors {G F : Type} [Fl F] (rng : RngOps G F) (sys : SysOps G F) (target : TargetOps F) (inner loops fuel steps : ℕ)
    (mtype : MoveType F) (radius alpha : F) (clock : ExpStep F) (n num : ℕ) (g g1 : G) :
    (∀ r : Res (List (MergeAgent F)), (∀ v, r ≠ .ok v) →
      makeAgents (fun g => MergeAgent.newUniform sys target inner loops g mtype radius alpha) n g = some (r, g1) →
      largeNProgram rng sys target inner loops fuel steps mtype radius alpha clock n num g = some (r.bind fun _ => .panic, g1)) ∧
    (∀ v, makeAgents (fun g => MergeAgent.newUniform sys target inner loops g mtype radius alpha) n g = some (.ok v, g1) →
      (largeNProgram rng sys target inner loops fuel steps mtype radius alpha clock n num g).map Prod.fst =
        (ensembleMean (largeNRun rng sys target inner loops fuel steps) num (from' v, clock, g1)).map Prod.fst) ∧
    (makeAgents (fun g => MergeAgent.newUniform sys target inner loops g mtype radius alpha) n g = none →
      largeNProgram rng sys target inner loops fuel steps mtype radius alpha clock n num g = none) := by
  refine ⟨fun r hr h => ?_, fun v h => ?_, fun h => ?_⟩
  · unfold largeNProgram
    rw [h]
    rcases r with v | e | _
    · exact absurd rfl (hr v)
    · rfl
    · rfl
  · unfold largeNProgram
    rw [h]
    simp only
    rw [Option.map_map]
    rfl
  · unfold largeNProgram
    rw [h]

/-! ### examples -/

/-- With an ideal generator: the numbers of tests/large_n_simulation.rs. -/
example : let s : Circ ℝ := ⟨.continuousCircular, .reflection, 10, 2⟩
    ∃ clock, ExpStep.new (1 / 10 ^ 10 : ℝ) (1 / 10 ^ 5) 10 = .ok clock ∧ ∃ p : ℝ≥0∞, p < 1 ∧ p ≠ 0 ∧
      ∀ num, tapeLaw {g | ∃ m N, ∀ loops ≥ N, (largeNProgram tapeRng (s.ops tapeRng) (BulkTarget.new [0, 0] 1).ops loops loops loops loops
        (.brownian 1) (1 / 20) 1 clock 7 num g).map Prod.fst = some (.ok m)} = p ^ num := by
  intro s
  have hc : ∃ clock, ExpStep.new (1 / 10 ^ 10 : ℝ) (1 / 10 ^ 5) 10 = .ok clock := by
    unfold ExpStep.new
    rw [if_neg]
    · exact ⟨_, rfl⟩
    · simp only [fl_lt, fl_lit, Bool.or_eq_true, decide_eq_true_eq, not_or, not_lt, beq_iff_eq]
      push_cast
      norm_num
  obtain ⟨clock, hc⟩ := hc
  obtain ⟨p, h1, h2, h3, -⟩ := C107_fails tapeRng tapeLaw tape_ideal 2 10 s (by unfold Circ.new; rw [if_neg (by simp)]) (fun _ => 0) (BulkTarget.new [0, 0] 1)
    (by simp [BulkTarget.new]) disc_example _ _ _ clock hc (1 / 20) 1 7 (by norm_num) 1
  exact ⟨clock, hc, p, h1, h2 ⟨fun _ => 0, 1, by norm_num, disc_target⟩, h3⟩

end Moledyn.Props
