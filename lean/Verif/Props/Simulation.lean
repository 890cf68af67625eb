import Verif.Lemmas.SimulationRuns
import Verif.Props.Agents
import Verif.Spec.WholeNumbers
/-
Property theorems C52 and C57: the merging and the independent simulations.
-/
namespace Moledyn.Props
open Moledyn LList
set_option linter.unusedSimpArgs false
variable {G F C : Type} [Fl F]

/-- what the simulation keeps while it runs. -/
private structure Kept (sys : SysOps G F) (total count slots : Nat) (st : MergeSim G F) : Prop where
  ex : ∃ s : Slots (MergeAgent F), Rep st.list s ∧ s.contents.length = slots ∧
    totalSize MergeAgent.mergeOps st.list s.live = total ∧ s.live.length + st.merges.length = count ∧
    ∀ i ∈ s.live, ∀ a, s.contents[i]? = some a → sys.checkInclusion a.pos = .ok true

/-- what holds in addition after a complete step. -/
private structure Spread (target : TargetOps F) (rad : MergeAgent F → F) (st : MergeSim G F) : Prop where
  ex : ∃ s : Slots (MergeAgent F), Rep st.list s ∧
    (∀ i ∈ s.live, ∀ a, s.contents[i]? = some a → target.checkFind a.pos = .ok false) ∧
    ∀ p ∈ pairsOf s.live, ∃ a b d, s.contents[p.1]? = some a ∧
      s.contents[p.2]? = some b ∧ a.pos.distance b.pos = .ok d ∧ Fl.lt d (Fl.two * rad a) = false

private theorem kept_step {rng : RngOps G F} {sys : SysOps G F} (hsys : LibrarySystem rng sys)
    (target : TargetOps F) {rad : MergeAgent F → F} (hrad : LibraryRadius rad) (fuel : Nat) (dt : F)
    {total count slots : Nat} (hf : slots * slots < fuel) (st : MergeSim G F)
    (hk : Kept sys total count slots st) :
    ((mergeStep rng sys target rad fuel dt st).2 = some (.ok false) →
      Kept sys total count slots (mergeStep rng sys target rad fuel dt st).1 ∧
      Spread target rad (mergeStep rng sys target rad fuel dt st).1) ∧
    ((mergeStep rng sys target rad fuel dt st).2 = some (.ok true) →
      Kept sys total count slots (mergeStep rng sys target rad fuel dt st).1 ∧
      ∃ a ∈ liveAgents (mergeStep rng sys target rad fuel dt st).1.list, target.checkFind a.pos = .ok true) ∧
    (mergeStep rng sys target rad fuel dt st).2 ≠ none := by
  obtain ⟨s, h, h0, h1, h2, h3⟩ := hk.ex
  obtain ⟨s', k1, k2, k3, k4, k5⟩ := mergeStep_rep hsys target hrad fuel dt st h
  refine ⟨fun ho => ?_, fun ho => ?_, k2 (by rw [h0]; exact hf)⟩
  · obtain ⟨e0, e1, e2⟩ := k3 _ ho
    obtain ⟨f1, f2⟩ := k4 ho
    refine ⟨⟨s', k1, by rw [e0, h0], by rw [e1, h1], by rw [e2, h2], fun i hi a ha => (f1 i hi a ha).1⟩,
      ⟨s', k1, fun i hi a ha => (f1 i hi a ha).2, f2⟩⟩
  · obtain ⟨e0, e1, e2⟩ := k3 _ ho
    obtain ⟨⟨k, hk, a, ha, hin, hfd⟩, f2⟩ := k5 ho
    refine ⟨⟨s', k1, by rw [e0, h0], by rw [e1, h1], by rw [e2, h2], ?_⟩, a, ?_, hfd⟩
    · intro i hi x hx
      rcases f2 i hi x hx with h' | ⟨hl, hc⟩
      · exact h'
      · exact h3 i hl x hc
    · rw [mem_liveAgents k1]; exact ⟨k, hk, ha⟩

private theorem spread_noOverlap {target : TargetOps F} {rad : MergeAgent F → F} {st : MergeSim G F}
    (h : Spread target rad st) :
    NoOverlap rad st.list ∧ ∀ a ∈ liveAgents st.list, target.checkFind a.pos = .ok false := by
  obtain ⟨s, hr, h1, h2⟩ := h.ex
  constructor
  · unfold NoOverlap liveAgents
    rw [liveSlots_rep hr, hr.contents_eq, List.pairwise_filterMap]
    have hp : s.live.Pairwise (fun i j => (i, j) ∈ pairsOf s.live) := by
      refine hr.sorted.imp_of_mem ?_
      intro i j hi hj hij
      exact (mem_pairsOf hr.sorted i j).2 ⟨hi, hj, hij⟩
    refine hp.imp ?_
    intro i j hij a ha b hb
    obtain ⟨x, y, d, hx, hy, hd, hl⟩ := h2 _ hij
    simp only at hx hy
    rw [ha] at hx
    rw [hb] at hy
    simp only [Option.some.injEq] at hx hy
    subst hx hy
    exact ⟨d, hd, hl⟩
  · intro a ha
    rw [mem_liveAgents hr] at ha
    obtain ⟨i, hi, hia⟩ := ha
    exact h1 i hi a hia

private theorem kept_start (sys : SysOps G F) (l : LList (MergeAgent F)) (s : Slots (MergeAgent F))
    (h : Rep l s) (g : G) (hin : ∀ i ∈ s.live, ∀ a, s.contents[i]? = some a → sys.checkInclusion a.pos = .ok true) :
    Kept sys (totalSize MergeAgent.mergeOps l s.live) s.live.length s.contents.length ⟨l, g, []⟩ :=
  ⟨s, h, rfl, rfl, by simp, hin⟩

private theorem kept_run {rng : RngOps G F} {sys : SysOps G F} (hsys : LibrarySystem rng sys)
    (target : TargetOps F) {rad : MergeAgent F → F} (hrad : LibraryRadius rad) (fuel : Nat)
    {total count slots : Nat} (hf : slots * slots < fuel) (tick : C → C × Res (Option (F × F))) (steps : Nat)
    (c : C) (st : MergeSim G F) (hk : Kept sys total count slots st) :
    let r := searchLoop tick (mergeStep rng sys target rad fuel) steps c st
    (NoFailure r.2 → Kept sys total count slots r.1.2) ∧
    (r.2 = none → 0 < steps → Spread target rad r.1.2) ∧
    (∀ t, r.2 = some (.ok (some t)) → ∃ a ∈ liveAgents r.1.2.list, target.checkFind a.pos = .ok true) := by
  intro r
  obtain ⟨h1, h2, h3⟩ := searchLoop_inv tick (mergeStep rng sys target rad fuel)
    (Kept sys total count slots) (Spread target rad)
    (fun st => Kept sys total count slots st ∧ ∃ a ∈ liveAgents st.list, target.checkFind a.pos = .ok true)
    (fun dt st hI => (kept_step hsys target hrad fuel dt hf st hI).1)
    (fun dt st hI => (kept_step hsys target hrad fuel dt hf st hI).2.1)
    (fun dt st hI => (kept_step hsys target hrad fuel dt hf st hI).2.2) steps c st hk
  refine ⟨?_, fun hn hs => (h1 hn).2 hs, fun t ht => (h3 t ht).2⟩
  rintro (hn | ⟨b, hb⟩)
  · exact (h1 hn).1
  · cases b with
    | none => exact h2 hb
    | some t => exact (h3 t hb).1

private theorem kept_says {sys : SysOps G F} {total count slots : Nat} {st : MergeSim G F}
    (h : Kept sys total count slots st) :
    (∀ a ∈ liveAgents st.list, sys.checkInclusion a.pos = .ok true) ∧
    ((liveAgents st.list).map (·.size)).sum = total ∧
    (liveAgents st.list).length + st.merges.length = count := by
  obtain ⟨s, hr, _, h1, h2, h3⟩ := h.ex
  refine ⟨?_, ?_, ?_⟩
  · intro a ha
    rw [mem_liveAgents hr] at ha
    obtain ⟨i, hi, hia⟩ := ha
    exact h3 i hi a hia
  · rw [← h1, totalSize_rep hr]; rfl
  · rw [length_liveAgents hr]; exact h2

omit [Fl F] in
private theorem range_filterMap {β : Type} (v : List β) : (List.range v.length).filterMap (fun i => v[i]?) = v := by
  induction v using List.reverseRecOn with
  | nil => rfl
  | append_singleton w x ih =>
    rw [List.length_append, List.length_singleton, List.range_succ, List.filterMap_append]
    have : (List.range w.length).filterMap (fun i => (w ++ [x])[i]?) =
        (List.range w.length).filterMap (fun i => w[i]?) := by
      apply List.filterMap_congr
      intro i hi
      rw [List.getElem?_append_left (by simpa using hi)]
    rw [this, ih]
    simp

omit [Fl F] in
theorem from_live {β : Type} (v : List β) : liveAgents (from' v) = v := by
  unfold liveAgents
  rw [liveSlots_rep (rep_from v)]
  exact range_filterMap v

private theorem kept_from (sys : SysOps G F) (v : List (MergeAgent F)) (g : G)
    (hin : ∀ a ∈ v, sys.checkInclusion a.pos = .ok true) :
    Kept sys ((v.map (·.size)).sum) v.length v.length ⟨from' v, g, []⟩ := by
  have h := kept_start sys (from' v) _ (rep_from v) g (by
    intro i _ a ha
    exact hin a (List.mem_of_getElem? ha))
  have e := totalSize_rep (rep_from v) MergeAgent.mergeOps
  rw [from_live] at e
  rw [e] at h
  have e2 : (MergeAgent.mergeOps (F := F)).size = fun a => a.size := rfl
  rw [e2] at h
  simpa [Slots.ofContents] using h

/-- (helper) the list stays well formed while the simulation runs. -/
theorem merging_rep {rng : RngOps G F} {sys : SysOps G F} (hsys : LibrarySystem rng sys)
    (target : TargetOps F) {rad : MergeAgent F → F} (hrad : LibraryRadius rad) (v : List (MergeAgent F))
    (hin : ∀ a ∈ v, sys.checkInclusion a.pos = .ok true) (tick : C → C × Res (Option (F × F))) (c : C) (g : G)
    (fuel : Nat) (hf : v.length * v.length < fuel) (steps : Nat)
    (hok : NoFailure (searchLoop tick (mergeStep rng sys target rad fuel) steps c ⟨from' v, g, []⟩).2) :
    ∃ s, Rep (searchLoop tick (mergeStep rng sys target rad fuel) steps c ⟨from' v, g, []⟩).1.2.list s := by
  obtain ⟨s, h, -⟩ := ((kept_run hsys target hrad fuel hf tick steps c _ (kept_from sys v g hin)).1 hok).ex
  exact ⟨s, h⟩

/-! ## C52: every step of the merging simulation -/

/-- Any arithmetic, any random source, any of the three systems, any target, either merging distance, any
clock: as long as the simulation of tests/merge_fpt.rs / tests/large_n_simulation.rs started on agents inside
the system has not failed, after every number of steps all live agents are inside, their sizes add up to the
initial total, live agents plus merges are the initial number, and, unless the target was just found, no two
live agents are closer than two radii. -/
theorem C52_every_step (rng : RngOps G F) (sys : SysOps G F) (hsys : LibrarySystem rng sys)
    (target : TargetOps F) (rad : MergeAgent F → F) (hrad : LibraryRadius rad) (v : List (MergeAgent F))
    (hin : ∀ a ∈ v, sys.checkInclusion a.pos = .ok true) (tick : C → C × Res (Option (F × F))) (c : C) (g : G)
    (fuel : Nat) (hf : v.length * v.length < fuel) (steps : Nat)
    (hok : NoFailure (searchLoop tick (mergeStep rng sys target rad fuel) steps c ⟨from' v, g, []⟩).2) :
    let r := searchLoop tick (mergeStep rng sys target rad fuel) steps c ⟨from' v, g, []⟩
    (∀ a ∈ liveAgents r.1.2.list, sys.checkInclusion a.pos = .ok true) ∧
    ((liveAgents r.1.2.list).map (·.size)).sum = (v.map (·.size)).sum ∧
    (liveAgents r.1.2.list).length + r.1.2.merges.length = v.length ∧
    (r.2 = none → 0 < steps → NoOverlap rad r.1.2.list) := by
  intro r
  obtain ⟨h1, h2, _⟩ := kept_run hsys target hrad fuel hf tick steps c _ (kept_from sys v g hin)
  obtain ⟨k1, k2, k3⟩ := kept_says (h1 hok)
  exact ⟨k1, k2, k3, fun hn hs => (spread_noOverlap (h2 hn hs)).1⟩

/-- Every step comes to an end: with enough fuel for the pair loop (more than the square of the number of
agents) the loops inside a step never run out, so "still running" only means that the steps were used up. -/
theorem C52_steps_end (rng : RngOps G F) (sys : SysOps G F) (hsys : LibrarySystem rng sys)
    (target : TargetOps F) (rad : MergeAgent F → F) (hrad : LibraryRadius rad) (v : List (MergeAgent F))
    (hin : ∀ a ∈ v, sys.checkInclusion a.pos = .ok true) (tick : C → C × Res (Option (F × F))) (c : C) (g : G)
    (fuel : Nat) (hf : v.length * v.length < fuel) (steps : Nat) (dt : F)
    (hok : (searchLoop tick (mergeStep rng sys target rad fuel) steps c ⟨from' v, g, []⟩).2 = none) :
    (mergeStep rng sys target rad fuel dt
      (searchLoop tick (mergeStep rng sys target rad fuel) steps c ⟨from' v, g, []⟩).1.2).2 ≠ none := by
  obtain ⟨h1, _, _⟩ := kept_run hsys target hrad fuel hf tick steps c _ (kept_from sys v g hin)
  exact (kept_step hsys target hrad fuel dt hf _ (h1 (.inl hok))).2.2

/-- the example run: a cube of half width 10 in one dimension, target of radius 2 at 8, three agents at 0, 1
and -6. -/
private def demoSys : SysOps (List Int) Z :=
  (⟨.continuousRectangular, .reflection, ⟨10⟩, 1⟩ : Cubic Z).ops Z.draws
private def demoTarget : TargetOps Z := (BulkTarget.new [⟨8⟩] (⟨2⟩ : Z)).ops
private def demoAgents : List (MergeAgent Z) :=
  [MergeAgent.new (.brownian ⟨1⟩) [⟨0⟩] ⟨1⟩ ⟨1⟩, MergeAgent.new (.brownian ⟨1⟩) [⟨1⟩] ⟨1⟩ ⟨1⟩,
   MergeAgent.new (.brownian ⟨1⟩) [⟨-6⟩] ⟨1⟩ ⟨1⟩]
private def demoRun (steps : Nat) :=
  searchLoop (countingTick ⟨2⟩) (mergeStep Z.draws demoSys demoTarget (fun _ => ⟨1⟩) 10) steps ⟨0⟩
    ⟨from' demoAgents, [1, 0, 0, 1, -1, 2], []⟩

/-- the hypotheses of C52 are met by runs in which agents move, merge and at last find the target. -/
example : (∀ a ∈ demoAgents, demoSys.checkInclusion a.pos = .ok true) ∧ LibrarySystem Z.draws demoSys ∧
    (demoRun 1).2 = none ∧ ((demoRun 1).1.2.merges = [(0, 1)]) ∧ NoFailure (demoRun 1).2 ∧
    (liveAgents (demoRun 1).1.2.list).map (fun a => (a.pos, a.size)) = [([⟨2⟩], 2), ([⟨-6⟩], 1)] ∧
    (demoRun 5).2 = some (.ok (some ⟨6⟩)) := by
  refine ⟨by decide +kernel, .inl ⟨_, rfl⟩, by decide +kernel, by decide +kernel, .inl (by decide +kernel),
    by decide +kernel, by decide +kernel⟩

/-! ## C57: the reported time is a first passage -/

/-- Any arithmetic, source, library system, target and clock: when the merging simulation reports `t`, then
some step `k + 1` was the last one, `t` is the time the clock gave for that step, a live agent is in the target
now, and after each earlier step the search was still on and no live agent was in the target. -/
theorem C57_merging (rng : RngOps G F) (sys : SysOps G F) (hsys : LibrarySystem rng sys)
    (target : TargetOps F) (rad : MergeAgent F → F) (hrad : LibraryRadius rad) (v : List (MergeAgent F))
    (hin : ∀ a ∈ v, sys.checkInclusion a.pos = .ok true) (tick : C → C × Res (Option (F × F))) (c : C) (g : G)
    (fuel : Nat) (hf : v.length * v.length < fuel) (steps : Nat) (t : F)
    (hfound : (searchLoop tick (mergeStep rng sys target rad fuel) steps c ⟨from' v, g, []⟩).2 =
      some (.ok (some t))) :
    let run := fun m => searchLoop tick (mergeStep rng sys target rad fuel) m c ⟨from' v, g, []⟩
    (∃ a ∈ liveAgents (run steps).1.2.list, target.checkFind a.pos = .ok true) ∧
    ∃ k, k < steps ∧ run (k + 1) = run steps ∧ (∃ dt, (tick (run k).1.1).2 = .ok (some (t, dt))) ∧
      ∀ m, 1 ≤ m → m ≤ k → (run m).2 = none ∧
        ∀ a ∈ liveAgents (run m).1.2.list, target.checkFind a.pos = .ok false := by
  intro run
  refine ⟨(kept_run hsys target hrad fuel hf tick steps c _ (kept_from sys v g hin)).2.2 t hfound, ?_⟩
  obtain ⟨k, dt, h1, h2, h3, _, h5⟩ := searchLoop_found tick _ steps c _ t hfound
  refine ⟨k, h1, h5, ⟨dt, by show (tick _).2 = _; rw [h3]⟩, ?_⟩
  intro m hm hmk
  have hn := h2 m hmk
  exact ⟨hn, (spread_noOverlap ((kept_run hsys target hrad fuel hf tick m c _ (kept_from sys v g hin)).2.1
    hn hm)).2⟩


/-! ### independent walkers -/

private theorem walkStep_says {rng : RngOps G F} {sys : SysOps G F} (hsys : LibrarySystem rng sys)
    (target : TargetOps F) (fuel : Nat) (dt : F) (n : Nat) (hf : n < fuel) (st : LList (IndepAgent F) × G)
    (h : ∃ s, Rep st.1 s ∧ s.live.length = n ∧
      ∀ i ∈ s.live, ∀ a, s.contents[i]? = some a → sys.checkInclusion a.pos = .ok true) :
    let r := walkStep (IndepAgent.walker rng) sys target fuel dt st
    (r.2 = some (.ok false) → (∃ s, Rep r.1.1 s ∧ s.live.length = n ∧
        ∀ i ∈ s.live, ∀ a, s.contents[i]? = some a → sys.checkInclusion a.pos = .ok true) ∧
      ∀ a ∈ liveAgents r.1.1, target.checkFind a.pos = .ok false) ∧
    (r.2 = some (.ok true) → (∃ s, Rep r.1.1 s ∧ s.live.length = n ∧
        ∀ i ∈ s.live, ∀ a, s.contents[i]? = some a → sys.checkInclusion a.pos = .ok true) ∧
      ∃ a ∈ liveAgents r.1.1, target.checkFind a.pos = .ok true) ∧
    r.2 ≠ none := by
  obtain ⟨s, hr, hl, hin⟩ := h
  have hi : Rep st.1.intoIter { s with q0 := s.live } := hr.intoIter
  obtain ⟨s1, a1, a2, a3, a4, a5, a6, a7, a8⟩ :=
    agentSweep_rep (walkAct (IndepAgent.walker rng) sys target dt)
      (fun _ a b a' => Moved (IndepAgent.walker rng) sys target a b a') (fun _ => True) fuel st.2 hi trivial
      (fun i g a b _ _ _ hb => ⟨walkAct_moved _ hsys target dt i g a b hb, trivial⟩)
  simp only at a2 a3 a4 a5 a6 a7 a8
  intro r
  refine ⟨fun ho => ?_, fun ho => ?_, a5 (by omega)⟩
  · obtain ⟨-, hq, -⟩ := a6 ho
    have hall : ∀ i ∈ s1.live, ∀ a, s1.contents[i]? = some a → sys.checkInclusion a.pos = .ok true ∧
        target.checkFind a.pos = .ok false := by
      intro i hi' x hx
      rw [a2] at hi'
      obtain ⟨y, y', hy, hy', ⟨q, rfl, hq1, hq2⟩⟩ := hq i hi'
      rw [hy'] at hx
      simp only [Option.some.injEq] at hx
      subst hx
      exact ⟨hq1, hq2⟩
    refine ⟨⟨s1, a1, by rw [a2, hl], fun i hi' a ha => (hall i hi' a ha).1⟩, ?_⟩
    intro a ha
    rw [mem_liveAgents (show Rep r.1.1 s1 from a1)] at ha
    obtain ⟨i, hi', hia⟩ := ha
    exact (hall i hi' a hia).2
  · obtain ⟨-, k, hk, ⟨a, a', hka, hka', ⟨p, rfl, hp1, hp2⟩⟩, hrest⟩ := a7 ho
    refine ⟨⟨s1, a1, by rw [a2, hl], ?_⟩, (IndepAgent.walker rng).setPos a p, ?_, hp2⟩
    · intro i hi' x hx
      by_cases hik : i = k
      · subst hik
        rw [hka'] at hx
        simp only [Option.some.injEq] at hx
        subst hx
        exact hp1
      · rcases hrest i hik with e | ⟨_, y, y', hy, hy', ⟨q, rfl, hq, _⟩⟩
        · rw [e] at hx
          rw [a2] at hi'
          exact hin i hi' x hx
        · rw [hy'] at hx
          simp only [Option.some.injEq] at hx
          subst hx
          exact hq
    · rw [mem_liveAgents (show Rep r.1.1 s1 from a1)]
      exact ⟨k, by rw [a2]; exact hk, hka'⟩

/-- The same for the independent walkers of tests/n_ptl_rts_iterator.rs: while the search has not failed all
walkers are inside and none is lost; a reported time is the clock's time of the last step, a walker is in the
target then, and after every earlier step none was. -/
theorem C57_independent (rng : RngOps G F) (sys : SysOps G F) (hsys : LibrarySystem rng sys)
    (target : TargetOps F) (v : List (IndepAgent F)) (hin : ∀ a ∈ v, sys.checkInclusion a.pos = .ok true)
    (tick : C → C × Res (Option (F × F))) (c : C) (g : G) (fuel : Nat) (hf : v.length < fuel) (steps : Nat) :
    let run := fun m => searchLoop tick (walkStep (IndepAgent.walker rng) sys target fuel) m c (from' v, g)
    (NoFailure (run steps).2 → (liveAgents (run steps).1.2.1).length = v.length ∧
      ∀ a ∈ liveAgents (run steps).1.2.1, sys.checkInclusion a.pos = .ok true) ∧
    ∀ t, (run steps).2 = some (.ok (some t)) →
      (∃ a ∈ liveAgents (run steps).1.2.1, target.checkFind a.pos = .ok true) ∧
      ∃ k, k < steps ∧ run (k + 1) = run steps ∧ (∃ dt, (tick (run k).1.1).2 = .ok (some (t, dt))) ∧
        ∀ m, 1 ≤ m → m ≤ k → (run m).2 = none ∧
          ∀ a ∈ liveAgents (run m).1.2.1, target.checkFind a.pos = .ok false := by
  intro run
  have hstart : ∃ s, Rep (from' v) s ∧ s.live.length = v.length ∧
      ∀ i ∈ s.live, ∀ a, s.contents[i]? = some a → sys.checkInclusion a.pos = .ok true :=
    ⟨_, rep_from v, by simp [Slots.ofContents], fun i _ a ha => hin a (List.mem_of_getElem? ha)⟩
  have hinv := fun m => searchLoop_inv tick (walkStep (IndepAgent.walker rng) sys target fuel)
    (fun st => ∃ s, Rep st.1 s ∧ s.live.length = v.length ∧
      ∀ i ∈ s.live, ∀ a, s.contents[i]? = some a → sys.checkInclusion a.pos = .ok true)
    (fun st => ∀ a ∈ liveAgents st.1, target.checkFind a.pos = .ok false)
    (fun st => (∃ s, Rep st.1 s ∧ s.live.length = v.length ∧
      ∀ i ∈ s.live, ∀ a, s.contents[i]? = some a → sys.checkInclusion a.pos = .ok true) ∧
      ∃ a ∈ liveAgents st.1, target.checkFind a.pos = .ok true)
    (fun dt st h => (walkStep_says hsys target fuel dt _ hf st h).1)
    (fun dt st h => (walkStep_says hsys target fuel dt _ hf st h).2.1)
    (fun dt st h => (walkStep_says hsys target fuel dt _ hf st h).2.2) m c (from' v, g) hstart
  refine ⟨?_, fun t ht => ⟨((hinv steps).2.2 t ht).2, ?_⟩⟩
  · intro hok
    have hk : ∃ s, Rep (run steps).1.2.1 s ∧ s.live.length = v.length ∧
        ∀ i ∈ s.live, ∀ a, s.contents[i]? = some a → sys.checkInclusion a.pos = .ok true := by
      rcases hok with hn | ⟨b, hb⟩
      · exact ((hinv steps).1 hn).1
      · cases b with
        | none => exact (hinv steps).2.1 hb
        | some t => exact ((hinv steps).2.2 t hb).1
    obtain ⟨s, hr, hl, h1⟩ := hk
    refine ⟨by rw [length_liveAgents hr, hl], ?_⟩
    intro a ha
    rw [mem_liveAgents hr] at ha
    obtain ⟨i, hi, hia⟩ := ha
    exact h1 i hi a hia
  · obtain ⟨k, dt, h1, h2, h3, _, h5⟩ := searchLoop_found tick _ steps c _ t ht
    refine ⟨k, h1, h5, ⟨dt, by show (tick _).2 = _; rw [h3]⟩, ?_⟩
    intro m hm hmk
    have hn := h2 m hmk
    exact ⟨hn, ((hinv m).1 hn).2 hm⟩

/-- the example: two walkers; the second finds the target in the second step. -/
example :
    let run := fun m => searchLoop (countingTick ⟨2⟩) (walkStep (IndepAgent.walker Z.draws) demoSys demoTarget 5) m
      ⟨0⟩ (from' [IndepAgent.new (.brownian ⟨1⟩) [⟨0⟩], IndepAgent.new (.brownian ⟨1⟩) [⟨1⟩]], [1, 1, -3, 2])
    (run 1).2 = none ∧ (liveAgents (run 1).1.2.1).map (·.pos) = [[⟨2⟩], [⟨3⟩]] ∧
    (run 2).2 = some (.ok (some ⟨4⟩)) := by
  decide +kernel

end Moledyn.Props
