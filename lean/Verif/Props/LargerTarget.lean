import Verif.Lemmas.LargerTarget
import Verif.Lemmas.BallMirror
import Verif.Props.Time
import Verif.Props.Target
import Verif.Spec.WholeNumbers
/-
Property theorems C123: a target that covers another one is found no later, on the same random numbers (tests/*.rs,
examples/mfpt_exp.rs, src/target_mod/cont_bulk.rs).
-/
namespace Moledyn.Props
open Moledyn
variable {G F S C α : Type} [Fl F]

/-! ### which target covers which -/

/-- Two balls with the same centre, any arithmetic whose `<` is transitive in the needed direction: the one with the
larger radius covers the other one. -/
theorem C123_same_centre (ty ty' : TargetType) (c : Pos F) (r r' : F)
    (h : ∀ d : F, Fl.lt d r = true → Fl.lt d r' = true) :
    Covers (BulkTarget.convertFrom ty' c r').ops (BulkTarget.convertFrom ty c r).ops := by
  intro p
  simp only [BulkTarget.ops, BulkTarget.checkFind, BulkTarget.distance, BulkTarget.convertFrom]
  cases hd : c.distance p with
  | err e => right; rfl
  | panic => right; rfl
  | ok d =>
    simp only [Res.bind_ok]
    by_cases h1 : Fl.lt d r' = true
    · left; rw [if_pos h1]
    · right
      rw [if_neg h1, if_neg (fun h2 => h1 (h d h2))]

/-- The same with any monotone rounding of the arithmetic: radii in order. -/
theorem C123_same_centre_rounded (R : Rounding) (ty ty' : TargetType) (c : Pos (RF R)) (r r' : RF R) (h : r.val ≤ r'.val) :
    Covers (BulkTarget.convertFrom ty' c r').ops (BulkTarget.convertFrom ty c r).ops := by
  refine C123_same_centre ty ty' c r r' ?_
  intro d hd
  simp only [RF.lt_val, decide_eq_true_eq] at hd ⊢
  exact lt_of_lt_of_le hd h

/-- Two balls in exact arithmetic, centres anywhere: the second one covers the first one as soon as it contains it. -/
theorem C123_ball_in_ball (c c' : Pos ℝ) (r r' : ℝ) (hl : c.length = c'.length) (h : apart c c' + r ≤ r') :
    Covers (BulkTarget.new c' r').ops (BulkTarget.new c r).ops := by
  intro p
  by_cases hp : c.length = p.length
  · obtain ⟨b, hb, hi⟩ := C33_open_ball c p r hp
    obtain ⟨b', hb', hi'⟩ := C33_open_ball c' p r' (hl ▸ hp)
    change (BulkTarget.new c' r').checkFind p = _ ∨ (BulkTarget.new c' r').checkFind p = (BulkTarget.new c r).checkFind p
    rw [hb, hb']
    cases b' with
    | true => left; rfl
    | false =>
      right
      cases b with
      | false => rfl
      | true =>
        exfalso
        have h1 : apart p c < r := hi.1 rfl
        have h2 : ¬ apart p c' < r' := fun hlt => absurd (hi'.2 hlt) (by simp)
        have := apart_triangle p c c' hp.symm hl
        linarith
  · right
    have h1 := ((C33_dimension .continuousInBulk c p r).1 hp).2
    have h2 := ((C33_dimension .continuousInBulk c' p r').1 (hl ▸ hp)).2
    change (BulkTarget.new c' r').checkFind p = (BulkTarget.new c r).checkFind p
    rw [h1, h2]

/-! ### the searches of the programs, turn by turn -/

variable {big small : TargetOps F}

/-- Any arithmetic, any clock, any system and placed searchers, the same random numbers.  Independent walkers (the loop
of tests/n_ptl_rts_iterator.rs), the listed searchers of tests/arguments.rs, merging walkers (tests/merge_fpt.rs,
tests/large_n_simulation.rs) and repelling walkers (examples/mfpt_exp.rs): with the target that covers the other one the
search says the same, or it reports the time of an earlier or the same turn. -/
theorem C123_searches (hc : Covers big small) (tick : C → C × Res (Option (F × F))) (c : C) (rng : RngOps G F)
    (sys : SysOps G F) (fuel steps : Nat) :
    (∀ (w : Walker G F α) (s : LList α × G),
      FoundNoLater tick c (searchLoop tick (walkStep w sys small fuel) steps c s).2
        (searchLoop tick (walkStep w sys big fuel) steps c s).2) ∧
    (∀ (s : ListSim G F),
      FoundNoLater tick c (searchLoop tick (listStep rng sys small fuel) steps c s).2
        (searchLoop tick (listStep rng sys big fuel) steps c s).2) ∧
    (∀ (rad : MergeAgent F → F) (s : MergeSim G F),
      FoundNoLater tick c (searchLoop tick (mergeStep rng sys small rad fuel) steps c s).2
        (searchLoop tick (mergeStep rng sys big rad fuel) steps c s).2) ∧
    (∀ (limit : F) (s : ExpSim G F),
      FoundNoLater tick c (searchLoop tick (expStep rng sys small limit fuel) steps c s).2
        (searchLoop tick (expStep rng sys big limit fuel) steps c s).2) :=
  ⟨fun w s => Larger.loop tick _ _ (fun dt s => Larger.walk hc w sys fuel dt s) steps c s,
    fun s => Larger.loop tick _ _ (fun dt s => Larger.listTurn hc rng sys fuel dt s) steps c s,
    fun rad s => Larger.loop tick _ _ (fun dt s => Larger.merge hc rng sys rad fuel dt s) steps c s,
    fun limit s => Larger.loop tick _ _ (fun dt s => Larger.exp hc rng sys limit fuel dt s) steps c s⟩

/-- The budget of turns: whatever the clock, a search that reports a time within `steps` turns does so within `steps`
turns with the covering target. -/
theorem C123_within (hc : Covers big small) (tick : C → C × Res (Option (F × F))) (c : C) (rng : RngOps G F)
    (sys : SysOps G F) (fuel steps : Nat) (rad : MergeAgent F → F) (s : MergeSim G F) (t : F)
    (h : (searchLoop tick (mergeStep rng sys small rad fuel) steps c s).2 = some (.ok (some t))) :
    ∃ t', (searchLoop tick (mergeStep rng sys big rad fuel) steps c s).2 = some (.ok (some t')) := by
  rcases Larger.loop tick _ _ (fun dt s => Larger.merge hc rng sys rad fuel dt s) steps c s with h1 | ⟨_, t', _, h1, _⟩
  · exact ⟨t, h1.trans h⟩
  · exact ⟨t', h1⟩

/-! ### the times -/

omit [Fl F] in
private theorem times {le : F → F → Prop} {tick : C → C × Res (Option (F × F))} {c : C} (ho : InOrder le tick c)
    {o o' : Option (Res (Option F))} (h : FoundNoLater tick c o o') : TimeNoLater le o o' := by
  rcases h with h | ⟨k', t', d', h1, h2, h3⟩
  · exact Or.inl h
  · refine Or.inr ⟨t', h1, ?_⟩
    intro t ht
    obtain ⟨k, d, hk, hd⟩ := h3 t ht
    exact ho k' k t' t d' d hk h2 hd

private theorem counting_after (R : Rounding) (dt : RF R) (k : Nat) (x : RF R) :
    output (countingTick dt) k x = .ok (some (stateAfter (countingTick dt) k x + dt, dt)) := rfl

private theorem counting_step (R : Rounding) (dt : RF R) (h : 0 ≤ dt.val) (k : Nat) (x : RF R) (hx : x.Rep) :
    (stateAfter (countingTick dt) k x).Rep ∧ (stateAfter (countingTick dt) k x).val ≤ (stateAfter (countingTick dt) (k + 1) x).val := by
  have hr : (stateAfter (countingTick dt) k x).Rep := by
    cases k with
    | zero => exact hx
    | succ k => rw [stateAfter_succ]; exact RF.rep_add _ _
  refine ⟨hr, ?_⟩
  rw [stateAfter_succ]
  change _ ≤ R.rnd (_ + dt.val)
  calc (stateAfter (countingTick dt) k x).val = R.rnd (stateAfter (countingTick dt) k x).val := hr.symm
    _ ≤ _ := R.mono _ _ (by linarith)

/-- the counting loop `time += dt` under any monotone rounding, from 0, with a step that is not negative. -/
theorem C123_counting (R : Rounding) (dt : RF R) (h : 0 ≤ dt.val) :
    InOrder (fun a b : RF R => a.val ≤ b.val) (countingTick dt) Fl.zero := by
  intro j k s t d e hjk hs ht
  rw [counting_after] at hs ht
  simp only [Res.ok.injEq, Option.some.injEq, Prod.mk.injEq] at hs ht
  rw [← hs.1, ← ht.1]
  change R.rnd _ ≤ R.rnd _
  refine R.mono _ _ ?_
  have : (stateAfter (countingTick dt) j (Fl.zero : RF R)).val ≤ (stateAfter (countingTick dt) k (Fl.zero : RF R)).val := by
    clear hs ht
    induction k, hjk using Nat.le_induction with
    | base => exact le_rfl
    | succ m hm ih =>
      exact le_trans (ih) (counting_step R dt h m _ (RF.rep_lit 0)).2
  linarith

omit [Fl F] in
private theorem diff_state {T : Type} (tnext : T → T × Res (Option F)) (tdt : T → F) (k : Nat) (c : T) :
    stateAfter (TimeDiff.next tnext tdt) k ⟨c⟩ = ⟨stateAfter tnext k c⟩ := by
  induction k generalizing c with
  | zero => rfl
  | succ k ih => exact ih _

omit [Fl F] in
private theorem diff_output {T : Type} (tnext : T → T × Res (Option F)) (tdt : T → F) (k : Nat) (c : T) (t d : F)
    (h : output (TimeDiff.next tnext tdt) k (intoDiff c) = .ok (some (t, d))) : output tnext k c = .ok (some t) := by
  unfold output intoDiff at h
  rw [diff_state] at h
  unfold output
  simp only [TimeDiff.next] at h
  rcases hr : (tnext (stateAfter tnext k c)).2 with o | e | _
  · rw [hr] at h
    cases o with
    | none => simp [Res.map] at h
    | some x => simp [Res.map] at h; rw [h.1]
  · rw [hr] at h; simp [Res.map] at h
  · rw [hr] at h; simp [Res.map] at h

/-- `into_diff` of any exponential clock of the library, under any monotone rounding. -/
theorem C123_exp_clock (R : Rounding) (c : ExpStep (RF R)) (h : c.Reachable) :
    InOrder (fun a b : RF R => a.val ≤ b.val) (TimeDiff.next ExpStep.next (fun c => c.dt)) (intoDiff c) := by
  intro j k s t d e hjk hs ht
  exact (C12_exp_clock R c h).2.2.2.1 j k s t hjk (diff_output _ _ _ _ _ _ hs) (diff_output _ _ _ _ _ _ ht)

omit [Fl F] in
private theorem skip_state (tick : C → C × Res (Option (F × F))) (k : Nat) (c : C) :
    stateAfter (skipOne tick) k (true, c) = (true, stateAfter tick k c) := by
  induction k generalizing c with
  | zero => rfl
  | succ k ih => exact ih _

omit [Fl F] in
private theorem skip_output (tick : C → C × Res (Option (F × F))) (c : C) :
    ∃ e, ∀ k x, output (skipOne tick) k (false, c) = .ok (some x) → output tick (k + e) c = .ok (some x) := by
  rcases htk : tick c with ⟨c1, r⟩
  have hgo : (∃ x, r = .ok (some x)) ∨ ∀ x, r ≠ .ok (some x) := by
    by_cases h : ∃ x, r = .ok (some x)
    · exact Or.inl h
    · exact Or.inr fun x hx => h ⟨x, hx⟩
  rcases hgo with ⟨y, rfl⟩ | hn
  · have h1 : skipOne tick (false, c) = ((true, (tick c1).1), (tick c1).2) := by simp [skipOne, htk]
    refine ⟨1, ?_⟩
    intro k x hx
    rw [output_succ, htk]
    cases k with
    | zero =>
      rw [show output (skipOne tick) 0 (false, c) = (skipOne tick (false, c)).2 from rfl, h1] at hx
      exact hx
    | succ k =>
      rw [output_succ, h1] at hx
      rw [output_succ]
      unfold output at hx ⊢
      rw [skip_state] at hx
      exact hx
  · have h1 : skipOne tick (false, c) = ((true, c1), r) := by
      rcases r with o | e | _
      · cases o with
        | none => simp [skipOne, htk]
        | some x => exact absurd rfl (hn x)
      · simp [skipOne, htk]
      · simp [skipOne, htk]
    refine ⟨0, ?_⟩
    intro k x hx
    cases k with
    | zero =>
      rw [show output (skipOne tick) 0 (false, c) = (skipOne tick (false, c)).2 from rfl, h1] at hx
      exact absurd hx (hn x)
    | succ k =>
      rw [output_succ, h1] at hx
      rw [Nat.add_zero, output_succ, htk]
      unfold output at hx ⊢
      rw [skip_state] at hx
      exact hx

omit [Fl F] in
/-- `.skip(1)` keeps the order. -/
theorem C123_skip {le : F → F → Prop} {tick : C → C × Res (Option (F × F))} {c : C} (h : InOrder le tick c) :
    InOrder le (skipOne tick) (false, c) := by
  obtain ⟨e, he⟩ := skip_output tick c
  intro j k s t d f hjk hs ht
  exact h (j + e) (k + e) s t d f (by omega) (he j _ hs) (he k _ ht)

variable {R : Rounding} {bigR smallR : TargetOps (RF R)}

/-- The loops of the programs after the searchers are placed, with their own clocks and under any monotone rounding of
the arithmetic: the time reported with the covering target is not larger.  tests/n_ptl_rts_iterator.rs,
tests/merge_fpt.rs (step not negative), tests/large_n_simulation.rs (the clock's end is an error, which both have or the
covering target is found), examples/mfpt_exp.rs (which reports 0 when the clock ends). -/
theorem C123_times (hc : Covers bigR smallR) (rng : RngOps G (RF R)) (sys : SysOps G (RF R)) (fuel steps : Nat) :
    (∀ (w : Walker G (RF R) α) (dt : RF R) (s : LList α × G), 0 ≤ dt.val →
      TimeNoLater (fun a b : RF R => a.val ≤ b.val)
        (searchLoop (countingTick dt) (walkStep w sys smallR fuel) steps Fl.zero s).2
        (searchLoop (countingTick dt) (walkStep w sys bigR fuel) steps Fl.zero s).2) ∧
    (∀ (radius dt : RF R) (agents : List (MergeAgent (RF R))) (g : G), 0 ≤ dt.val →
      TimeNoLater (fun a b : RF R => a.val ≤ b.val)
        (mergeFpt rng sys smallR radius dt fuel steps agents g).2 (mergeFpt rng sys bigR radius dt fuel steps agents g).2) ∧
    (∀ (clock : ExpStep (RF R)) (l : LList (MergeAgent (RF R))) (g : G), clock.Reachable →
      (largeNFpt rng sys bigR fuel steps clock l g).2 = (largeNFpt rng sys smallR fuel steps clock l g).2 ∨
      ∃ t', (largeNFpt rng sys bigR fuel steps clock l g).2 = some (.ok t') ∧
        ∀ t, (largeNFpt rng sys smallR fuel steps clock l g).2 = some (.ok t) → t'.val ≤ t.val) ∧
    (∀ (limit : RF R) (clock : ExpStep (RF R)) (st : ExpSim G (RF R)), clock.Reachable →
      (expFpt rng sys bigR limit fuel steps clock st).2 = (expFpt rng sys smallR limit fuel steps clock st).2 ∨
      ∃ t', (expFpt rng sys bigR limit fuel steps clock st).2 = some (.ok t') ∧
        ∀ t, (expFpt rng sys smallR limit fuel steps clock st).2 = some (.ok t) → t = Fl.zero ∨ t'.val ≤ t.val) := by
  refine ⟨?_, ?_, ?_, ?_⟩
  · intro w dt s hdt
    exact times (C123_counting R dt hdt) ((C123_searches hc _ _ rng sys fuel steps).1 w s)
  · intro radius dt agents g hdt
    exact times (C123_counting R dt hdt) ((C123_searches (α := Unit) hc _ _ rng sys fuel steps).2.2.1 _ _)
  · intro clock l g hr
    have h := times (C123_exp_clock R clock hr)
      ((C123_searches (α := Unit) hc _ _ rng sys fuel steps).2.2.1 (fun a => a.ptlRadius) ⟨l, g, []⟩)
    rcases h with h | ⟨t', h1, h2⟩
    · left; simp only [largeNFpt, h]
    · right
      refine ⟨t', by simp only [largeNFpt, h1]; rfl, ?_⟩
      intro t ht
      apply h2 t
      simp only [largeNFpt] at ht
      revert ht
      rcases (searchLoop (TimeDiff.next ExpStep.next fun c => c.dt) (mergeStep rng sys smallR (fun a => a.ptlRadius) fuel) steps
        (intoDiff clock) ⟨l, g, []⟩).2 with _ | ((_ | x) | e | _) <;> simp [Res.bind]
  · intro limit clock st hr
    have h := times (C123_skip (C123_exp_clock R clock hr))
      ((C123_searches (α := Unit) hc _ _ rng sys fuel steps).2.2.2 limit st)
    rcases h with h | ⟨t', h1, h2⟩
    · left; simp only [expFpt, h]
    · right
      refine ⟨t', by simp only [expFpt, h1]; rfl, ?_⟩
      intro t ht
      simp only [expFpt] at ht
      revert ht h2
      rcases (searchLoop (skipOne (TimeDiff.next ExpStep.next fun c => c.dt)) (expStep rng sys smallR limit fuel) steps
        (false, intoDiff clock) st).2 with _ | ((_ | x) | e | _)
      · simp
      · intro _ ht
        left
        simpa [Res.map] using ht.symm
      · intro h2 ht
        right
        have : x = t := by simpa [Res.map] using ht
        subst this
        exact h2 x rfl
      · simp [Res.map]
      · simp [Res.map]

/-- One searcher at a time (tests/rts_n_searcher.rs, tests/single_ptl_rts.rs), from where it has been placed and with
either kind of turn: the search says the same with both targets and leaves the same state, or the covering target is
reported with a time that is not larger. -/
theorem C123_single (hc : Covers bigR smallR) (rng : RngOps G (RF R)) (sys : SysOps G (RF R)) (dt : RF R) (hdt : 0 ≤ dt.val)
    (steps : Nat) :
    (∀ s : IndepAgent (RF R) × G,
      let run := fun target : TargetOps (RF R) =>
        whileSearch (fun s => target.checkFind s.1.pos) (freshTurn rng sys dt) dt steps s Fl.zero
      run bigR = run smallR ∨ ∃ t', (run bigR).2 = some (.ok t') ∧ ∀ t, (run smallR).2 = some (.ok t) → t'.val ≤ t.val) ∧
    (∀ s : IndepAgent (RF R) × Pos (RF R) × G,
      let run := fun target : TargetOps (RF R) =>
        whileSearch (fun s => target.checkFind s.1.pos) (bufferTurn rng sys dt) dt steps s Fl.zero
      run bigR = run smallR ∨ ∃ t', (run bigR).2 = some (.ok t') ∧ ∀ t, (run smallR).2 = some (.ok t) → t'.val ≤ t.val) := by
  have key := fun {S : Type} (pos : S → Pos (RF R)) (turn : S → S × Res Unit) (s : S) =>
    Larger.whileTarget (fun s => smallR.checkFind (pos s)) (fun s => bigR.checkFind (pos s)) turn dt (fun s => hc (pos s))
      (fun a b : RF R => a.Rep → a.val ≤ b.val ∧ b.Rep) (fun t h => ⟨le_rfl, h⟩)
      (fun a b c h1 h2 h => ⟨le_trans (h1 h).1 (h2 (h1 h).2).1, (h2 (h1 h).2).2⟩)
      (fun t h => ⟨by
        change _ ≤ R.rnd (_ + dt.val)
        calc t.val = R.rnd t.val := h.symm
          _ ≤ _ := R.mono _ _ (by linarith), RF.rep_add _ _⟩) steps s (Fl.zero : RF R)
  have fin : ∀ {S : Type} (pos : S → Pos (RF R)) (turn : S → S × Res Unit) (s : S),
      let run := fun target : TargetOps (RF R) => whileSearch (fun s => target.checkFind (pos s)) turn dt steps s Fl.zero
      run bigR = run smallR ∨ ∃ t', (run bigR).2 = some (.ok t') ∧ ∀ t, (run smallR).2 = some (.ok t) → t'.val ≤ t.val := by
    intro S pos turn s
    rcases key pos turn s with h | ⟨t', h1, h2⟩
    · exact Or.inl h
    · refine Or.inr ⟨t', h1, fun t ht => ?_⟩
      exact (h2 t ht (Larger.whileReport _ turn dt RF.Rep (fun t _ => RF.rep_add _ _) steps s _ t' (RF.rep_lit 0) h1)).1
  exact ⟨fun s => fin (fun s => s.1.pos) _ s, fun s => fin (fun s => s.1.pos) _ s⟩

/-! ### the hypotheses are met -/

/-- A disc of radius 1/4 at (1/2, 0) inside a disc of radius 1 at the origin, and concentric discs under a rounding. -/
example : Covers (BulkTarget.new [0, 0] 1).ops (BulkTarget.new [(1 : ℝ) / 2, 0] (1 / 4)).ops ∧
    ∀ (r r' : RF Rounding.eighths), r.val = 1 / 4 → r'.val = 3 / 8 →
      Covers (BulkTarget.convertFrom .continuousInBulk [⟨0⟩, ⟨0⟩] r').ops (BulkTarget.convertFrom .continuousInBulk [⟨0⟩, ⟨0⟩] r).ops := by
  refine ⟨C123_ball_in_ball _ _ _ _ rfl ?_, fun r r' h h' => C123_same_centre_rounded _ _ _ _ _ _ (by rw [h, h']; norm_num)⟩
  have : apart [(1 : ℝ) / 2, 0] [0, 0] = 1 / 2 := by
    rw [apart_eq]
    have : Pos.sumSq (Pos.diff [(1 : ℝ) / 2, 0] [0, 0]) = (1 / 2) ^ 2 := by
      simp [Pos.sumSq, Pos.diff]
    rw [this, Real.sqrt_sq (by norm_num)]
  rw [this]
  norm_num

/-- A walker that starts at 3 and goes one to the left in every turn, in whole numbers: the target of radius 2 at 0 is found in
turn 2, the one of radius 1 in turn 3. -/
example : let w : Walker Unit Z (Pos Z) := ⟨fun a => a, fun _ p => p, fun _ g _ => (.ok [⟨-1⟩], g)⟩
    let sys : SysOps Unit Z := ⟨fun _ => .ok true, fun p v => p.mutAdd v, [], fun v => (v, .ok ()), fun _ _ _ => none⟩
    let run := fun r : Z => (searchLoop (countingTick (⟨1⟩ : Z)) (walkStep w sys (BulkTarget.new [⟨0⟩] r).ops 5) 9 ⟨0⟩
        (LList.from' [[⟨3⟩]], ())).2
    run ⟨2⟩ = some (.ok (some ⟨2⟩)) ∧ run ⟨1⟩ = some (.ok (some ⟨3⟩)) := by
  constructor <;> rfl

end Moledyn.Props
