import Verif.Lemmas.UnitsLoops
/-
Helper lemmas for C119: the searches over lists commute with a change of units.
-/
namespace Moledyn
set_option linter.unusedSimpArgs false
variable {G S S' C C' α β : Type}
namespace Units
variable (U : Units)

/-! ### lists -/

theorem from_list (f : α → β) (v : List α) : LList.from' (v.map f) = list f (LList.from' v) := by
  simp [LList.from', Units.list]

theorem into_iter (f : α → β) (l : LList α) : (list f l).intoIter = list f l.intoIter := rfl

theorem into_double (f : α → β) (l : LList α) : (list f l).intoDoubleIter = (list f l.intoDoubleIter.1, l.intoDoubleIter.2) := by
  unfold LList.intoDoubleIter
  rw [show (list f l).head = l.head from rfl, show (list f l).links = l.links from rfl]
  rcases l.head with _ | x
  · rfl
  · simp only
    rcases l.links[x]? with _ | nd <;> rfl

theorem connect_all (f : α → β) (l : LList α) : (list f l).connectAll = (list f l.connectAll.1, l.connectAll.2) := by
  unfold LList.connectAll
  have e : (list f l).contents.length = l.contents.length := List.length_map ..
  simp only [e]
  rw [show (list f l).links = l.links from rfl]
  split_ifs <;> rfl

theorem del_list (f : α → β) (l : LList α) (i : Nat) : (list f l).del i = (list f (l.del i).1, (l.del i).2) := by
  unfold LList.del
  rw [show (list f l).links = l.links from rfl]
  rcases l.links[i]? with _ | nd
  · rfl
  · simp only
    by_cases ha : nd.alive = false
    · rw [if_pos ha, if_pos ha]
    · rw [if_neg ha, if_neg ha]
      obtain ⟨nx, pv, al⟩ := nd
      simp only
      rcases pv with _ | p
      · simp only
        rcases nx with _ | q
        · rfl
        · simp only
          generalize LList.modNode _ q _ = M
          cases M <;> rfl
      · simp only
        generalize LList.modNode _ p _ = M
        rcases M with _ | ls
        · rfl
        · simp only [Option.map_some]
          rcases nx with _ | q
          · rfl
          · simp only
            generalize LList.modNode _ q _ = M
            cases M <;> rfl

theorem map_sweep {h : α → β} {f : α → α} {f' : β → β} (hf : ∀ a, f' (h a) = h (f a)) (n : Nat) (l : LList α) :
    (list h l).mapSweep f' n = (list h (l.mapSweep f n).1, (l.mapSweep f n).2) := by
  induction n generalizing l with
  | zero => rfl
  | succ n ih =>
    unfold LList.mapSweep LList.enumerateMut
    rw [show (list h l).c0 = l.c0 from rfl, show (list h l).links = l.links from rfl, show (list h l).contents = l.contents.map h from rfl]
    rcases l.c0 with _ | i
    · rfl
    · simp only
      rcases l.links[i]? with _ | nd
      · rfl
      · simp only [List.getElem?_map]
        rcases l.contents[i]? with _ | a
        · rfl
        · simp only [Option.map_some, hf]
          rw [← ih]
          simp only [Units.list, List.map_set]

theorem make_agents {make : S → Option (Res α × S)} {make' : S → Option (Res β × S)} {f : α → β}
    (h : ∀ s, make' s = (make s).map fun r => (r.1.map f, r.2)) (n : Nat) (s : S) :
    makeAgents make' n s = (makeAgents make n s).map fun r => (r.1.map (List.map f), r.2) := by
  induction n generalizing s with
  | zero => rfl
  | succ n ih =>
    unfold makeAgents
    rw [h]
    rcases make s with _ | ⟨a | e | _, s1⟩
    · rfl
    · simp only [Option.map_some, Res.map_ok]
      rw [ih]
      rcases makeAgents make n s1 with _ | ⟨v | e | _, s2⟩ <;> rfl
    · rfl
    · rfl

/-! ### independent searchers -/

theorem walk_indep {sys sys' : SysOps G ℝ} (h : Alike U sys sys') (rng : RngOps G ℝ) (t : BulkTarget ℝ) (dt : ℝ) (i : Nat) (g : G) (a : IndepAgent ℝ) :
    walkAct (IndepAgent.walker rng) sys' (U.target t).ops (U.time * dt) i g (U.indep a) =
      ((U.indep (walkAct (IndepAgent.walker rng) sys t.ops dt i g a).1.1, (walkAct (IndepAgent.walker rng) sys t.ops dt i g a).1.2),
        (walkAct (IndepAgent.walker rng) sys t.ops dt i g a).2) := by
  unfold walkAct
  have h1 : (IndepAgent.walker rng).randomMove (U.indep a) g (U.time * dt) = _ := U.random_move rng a.dim a.mtype g dt
  rw [h1]
  rw [show AgentCore.randomMove rng a.dim a.mtype g dt = (IndepAgent.walker rng).randomMove a g dt from rfl]
  rcases (IndepAgent.walker rng).randomMove a g dt with ⟨r | e | _, g1⟩
  · simp only [Res.map_ok]
    rw [show (IndepAgent.walker rng).pos (U.indep a) = U.pos a.pos from rfl, show (IndepAgent.walker rng).pos a = a.pos from rfl, h.bc]
    rcases sys.checkBc a.pos r with ⟨p, r | e | _⟩
    · simp only
      rw [show (U.target t).ops.checkFind (U.pos p) = t.ops.checkFind p from U.find_target t p]
      rfl
    · rfl
    · rfl
  · rfl
  · rfl

theorem walk_merging {sys sys' : SysOps G ℝ} (h : Alike U sys sys') (rng : RngOps G ℝ) (t : BulkTarget ℝ) (dt : ℝ) (i : Nat) (g : G) (a : MergeAgent ℝ) :
    walkAct (MergeAgent.walker rng) sys' (U.target t).ops (U.time * dt) i g (U.merging a) =
      ((U.merging (walkAct (MergeAgent.walker rng) sys t.ops dt i g a).1.1, (walkAct (MergeAgent.walker rng) sys t.ops dt i g a).1.2),
        (walkAct (MergeAgent.walker rng) sys t.ops dt i g a).2) := by
  unfold walkAct
  have h1 : (MergeAgent.walker rng).randomMove (U.merging a) g (U.time * dt) = _ := U.random_move rng a.dim a.mtype g dt
  rw [h1]
  rw [show AgentCore.randomMove rng a.dim a.mtype g dt = (MergeAgent.walker rng).randomMove a g dt from rfl]
  rcases (MergeAgent.walker rng).randomMove a g dt with ⟨r | e | _, g1⟩
  · simp only [Res.map_ok]
    rw [show (MergeAgent.walker rng).pos (U.merging a) = U.pos a.pos from rfl, show (MergeAgent.walker rng).pos a = a.pos from rfl, h.bc]
    rcases sys.checkBc a.pos r with ⟨p, r | e | _⟩
    · simp only
      rw [show (U.target t).ops.checkFind (U.pos p) = t.ops.checkFind p from U.find_target t p]
      rfl
    · rfl
    · rfl
  · rfl
  · rfl

theorem zero_time : (U.time * Fl.zero : ℝ) = Fl.zero := by simp [Fl.zero]

theorem counting_tick (dt x : ℝ) : countingTick (U.time * dt) (U.time * x) =
    (U.time * (countingTick dt x).1, (countingTick dt x).2.map (Option.map fun p => (U.time * p.1, U.time * p.2))) := by
  unfold countingTick
  have : (U.time * x + U.time * dt : ℝ) = U.time * (x + dt) := (mul_add _ _ _).symm
  simp only [Res.map_ok, Option.map_some]
  show (U.time * x + U.time * dt, Res.ok (some (U.time * x + U.time * dt, U.time * dt))) = (U.time * (x + dt), Res.ok (some (U.time * (x + dt), U.time * dt)))
  rw [this]

theorem indep_run {sys sys' : SysOps G ℝ} (h : Alike U sys sys') (rng : RngOps G ℝ) (t : BulkTarget ℝ) (inner loops fuel steps : Nat)
    (m : MoveType ℝ) (dt : ℝ) (n : Nat) (g : G) :
    indepRun rng sys' (U.target t).ops inner loops fuel steps (U.mtype m) (U.time * dt) n g =
      U.answer id (indepRun rng sys t.ops inner loops fuel steps m dt n g) := by
  unfold indepRun
  rw [make_agents (fun g => U.new_indep h t inner loops g m)]
  rcases makeAgents (fun g => IndepAgent.newUniform sys t.ops inner loops g m) n g with _ | ⟨v | e | _, g1⟩
  · rfl
  · simp only [Option.map_some, Res.map_ok]
    have := U.search_loop (κ := fun x => U.time * x) (σ := fun s : LList (IndepAgent ℝ) × G => (list U.indep s.1, s.2))
      (tick := countingTick dt) (tick' := countingTick (U.time * dt)) (step := walkStep (IndepAgent.walker rng) sys t.ops fuel)
      (step' := walkStep (IndepAgent.walker rng) sys' (U.target t).ops fuel) (U.counting_tick dt)
      (fun dt s => by
        unfold walkStep
        simp only [into_iter]
        have hw := agent_sweep (f := U.indep) (σ := id) (act := walkAct (IndepAgent.walker rng) sys t.ops dt)
          (act' := walkAct (IndepAgent.walker rng) sys' (U.target t).ops (U.time * dt))
          (fun i g a => U.walk_indep h rng t dt i g a) fuel s.1.intoIter s.2
        exact hw) steps Fl.zero (LList.from' v, g1)
    rw [U.zero_time] at this
    rw [from_list, this]
    rcases searchLoop (countingTick dt) (walkStep (IndepAgent.walker rng) sys t.ops fuel) steps Fl.zero (LList.from' v, g1) with ⟨⟨c, s⟩, r⟩
    rcases r with _ | ⟨_ | x⟩ | e | _ <;> rfl
  · rfl
  · rfl

/-! ### merging searchers -/

/-- the state of a merging search, in new units. -/
noncomputable def mergeSim (st : MergeSim G ℝ) : MergeSim G ℝ := ⟨list U.merging st.list, st.rng, st.merges⟩

theorem rescale_merging (hU : U.len ^ 2 = U.time) (a : MergeAgent ℝ) :
    (U.merging a).rescale = (U.merging a.rescale.1, a.rescale.2) := by
  unfold MergeAgent.rescale
  rw [show (U.merging a).mtype = U.mtype a.mtype from rfl]
  rcases hm : a.mtype with D | _
  · simp only [Units.mtype]
    have e : U.len ^ 2 / U.time = 1 := by rw [hU]; exact div_self U.time_pos.ne'
    simp [Units.merging, Units.mtype, e]
  · simp only [Units.mtype]

theorem merge_list (hU : U.len ^ 2 = U.time) (l : LList (MergeAgent ℝ)) (i j : Nat) :
    (list U.merging l).merge MergeAgent.mergeOps i j =
      (list U.merging (l.merge MergeAgent.mergeOps i j).1, (l.merge MergeAgent.mergeOps i j).2) := by
  unfold LList.merge
  rw [show (list U.merging l).contents = l.contents.map U.merging from rfl, List.getElem?_map, List.getElem?_map]
  rcases l.contents[j]? with _ | b
  · rfl
  · rcases l.contents[i]? with _ | a
    · rfl
    · simp only [Option.map_some]
      have e : MergeAgent.mergeOps.addSize (U.merging a) (MergeAgent.mergeOps.size (U.merging b)) =
          (U.merging (MergeAgent.mergeOps.addSize a (MergeAgent.mergeOps.size b)).1, (MergeAgent.mergeOps.addSize a (MergeAgent.mergeOps.size b)).2) :=
        U.rescale_merging hU { a with size := a.size + b.size }
      rw [e]
      rcases MergeAgent.mergeOps.addSize a (MergeAgent.mergeOps.size b) with ⟨c, r⟩
      have e2 : ({ list U.merging l with contents := (l.contents.map U.merging).set i (U.merging c) } : LList (MergeAgent ℝ)) =
          list U.merging { l with contents := l.contents.set i c } := by
        simp only [Units.list, List.map_set]
      simp only
      cases r with
      | ok _ =>
        simp only
        refine Eq.trans ?_ (del_list U.merging _ j)
        exact congrArg (fun l => LList.del l j) e2
      | err e => exact congrArg (·, Res.err e) e2
      | panic => exact congrArg (·, Res.panic) e2

theorem merge_act (hU : U.len ^ 2 = U.time) {rad rad' : MergeAgent ℝ → ℝ} (hr : ∀ a, rad' (U.merging a) = U.len * rad a)
    (i : Nat) (a : MergeAgent ℝ) (j : Nat) (b : MergeAgent ℝ) (l : LList (MergeAgent ℝ)) (ms : List (Nat × Nat)) :
    mergeAct rad' i (U.merging a) j (U.merging b) (list U.merging l) ms =
      ((list U.merging (mergeAct rad i a j b l ms).1.1, (mergeAct rad i a j b l ms).1.2), (mergeAct rad i a j b l ms).2) := by
  unfold mergeAct
  rw [show (U.merging a).pos = U.pos a.pos from rfl, show (U.merging b).pos = U.pos b.pos from rfl, U.distance_pos]
  rcases a.pos.distance b.pos with d | e | _
  · simp only [Res.map_ok, hr, U.merge_list hU]
    have h1 : Fl.lt (U.len * d) (Fl.two * (U.len * rad a)) = Fl.lt d (Fl.two * rad a) := by
      rw [show (Fl.two * (U.len * rad a) : ℝ) = U.len * (Fl.two * rad a) from mul_left_comm _ _ _]
      exact lt_scale U.len_pos _ _
    simp only [h1]
    by_cases hb : Fl.lt d (Fl.two * rad a) = true
    · simp only [if_pos hb]
      rcases l.merge MergeAgent.mergeOps i j with ⟨l1, r⟩
      cases r <;> rfl
    · simp only [if_neg hb]
  · rfl
  · rfl

theorem merge_step (hU : U.len ^ 2 = U.time) {sys sys' : SysOps G ℝ} (h : Alike U sys sys') (rng : RngOps G ℝ) (t : BulkTarget ℝ)
    {rad rad' : MergeAgent ℝ → ℝ} (hr : ∀ a, rad' (U.merging a) = U.len * rad a) (fuel : Nat) (dt : ℝ) (st : MergeSim G ℝ) :
    mergeStep rng sys' (U.target t).ops rad' fuel (U.time * dt) (U.mergeSim st) =
      (U.mergeSim (mergeStep rng sys t.ops rad fuel dt st).1, (mergeStep rng sys t.ops rad fuel dt st).2) := by
  unfold mergeStep
  have hw := agent_sweep (f := U.merging) (σ := id) (act := walkAct (MergeAgent.walker rng) sys t.ops dt)
    (act' := walkAct (MergeAgent.walker rng) sys' (U.target t).ops (U.time * dt))
    (fun i g a => U.walk_merging h rng t dt i g a) fuel st.list.intoIter st.rng
  simp only [id] at hw
  rw [show (U.mergeSim st).list.intoIter = list U.merging st.list.intoIter from rfl, show (U.mergeSim st).rng = st.rng from rfl, hw]
  rw [show (U.mergeSim st).merges = st.merges from rfl]
  rcases agentSweep (walkAct (MergeAgent.walker rng) sys t.ops dt) fuel st.list.intoIter st.rng with ⟨⟨l1, g1⟩, _ | b | e | _⟩
  · rfl
  · cases b
    · simp only
      rw [into_double]
      rcases l1.intoDoubleIter with ⟨l2, r⟩
      cases r with
      | ok _ =>
        simp only
        have hp := pair_sweep (f := U.merging) (σ := id) (act := mergeAct rad) (act' := mergeAct rad')
          (fun i a j b l s => U.merge_act hU hr i a j b l s) fuel l2 st.merges
        simp only [id] at hp
        rw [hp]
        rcases pairSweep (mergeAct rad) fuel l2 st.merges with ⟨⟨l3, ms⟩, _ | r | e | _⟩ <;> rfl
      | err e => rfl
      | panic => rfl
    · rfl
  · rfl
  · rfl

theorem new_merging {sys sys' : SysOps G ℝ} (h : Alike U sys sys') (t : BulkTarget ℝ) (inner fuel : Nat) (g : G) (m : MoveType ℝ) (r α : ℝ) :
    MergeAgent.newUniform sys' (U.target t).ops inner fuel g (U.mtype m) (U.len * r) α =
      (MergeAgent.newUniform sys t.ops inner fuel g m r α).map fun r => (r.1.map U.merging, r.2) := by
  unfold MergeAgent.newUniform
  rw [h.out, U.draw_off h]
  rcases AgentCore.drawOffTarget sys t.ops inner fuel g sys.positionOut with _ | ⟨⟨q, r⟩, g1⟩
  · rfl
  · cases r with
    | ok _ =>
      simp only [Option.map_some, Res.map_ok, Option.some.injEq, Prod.mk.injEq, Res.ok.injEq, and_true]
      simp [Units.merging, Units.itype, Pos.dim, U.length_pos]
    | err e => rfl
    | panic => rfl

theorem merge_run (hU : U.len ^ 2 = U.time) {sys sys' : SysOps G ℝ} (h : Alike U sys sys') (rng : RngOps G ℝ) (t : BulkTarget ℝ)
    (inner loops fuel steps : Nat) (m : MoveType ℝ) (radius α dt : ℝ) (n : Nat) (g : G) :
    mergeRun rng sys' (U.target t).ops inner loops fuel steps (U.mtype m) (U.len * radius) α (U.time * dt) n g =
      U.answer id (mergeRun rng sys t.ops inner loops fuel steps m radius α dt n g) := by
  unfold mergeRun
  rw [make_agents (fun g => U.new_merging h t inner loops g m radius α)]
  rcases makeAgents (fun g => MergeAgent.newUniform sys t.ops inner loops g m radius α) n g with _ | ⟨v | e | _, g1⟩
  · rfl
  · simp only [Option.map_some, Res.map_ok]
    unfold mergeFpt
    have := U.search_loop (κ := fun x => U.time * x) (σ := U.mergeSim (G := G))
      (tick := countingTick dt) (tick' := countingTick (U.time * dt)) (step := mergeStep rng sys t.ops (fun _ => radius) fuel)
      (step' := mergeStep rng sys' (U.target t).ops (fun _ => U.len * radius) fuel) (U.counting_tick dt)
      (fun dt s => U.merge_step hU h rng t (fun _ => rfl) fuel dt s) steps Fl.zero ⟨LList.from' v, g1, []⟩
    rw [U.zero_time] at this
    rw [from_list]
    rw [show U.mergeSim ⟨LList.from' v, g1, []⟩ = ⟨list U.merging (LList.from' v), g1, []⟩ from rfl] at this
    rw [this]
    rcases searchLoop (countingTick dt) (mergeStep rng sys t.ops (fun _ => radius) fuel) steps Fl.zero ⟨LList.from' v, g1, []⟩ with ⟨⟨c, s⟩, r⟩
    rcases r with _ | ⟨_ | x⟩ | e | _ <;> rfl
  · rfl
  · rfl

/-! ### clocks -/

theorem next_exp (c : ExpStep ℝ) : (U.expClock c).next = (U.expClock c.next.1, c.next.2.map (Option.map (U.time * ·))) := by
  unfold ExpStep.next
  rw [show (U.expClock c).titype = U.timeType c.titype from rfl]
  rcases hc : c.titype with dt | ⟨dmin, dmax, len⟩
  · rfl
  · simp only [Units.timeType]
    have hb : (U.expClock c).bump (U.time * dmax) len = U.expClock (c.bump dmax len) := by
      unfold ExpStep.bump
      have h1 : Fl.lt (U.time * c.dt) (U.time * dmax) = Fl.lt c.dt dmax := lt_scale U.time_pos _ _
      rw [show (U.expClock c).dt = U.time * c.dt from rfl, show (U.expClock c).count = c.count from rfl,
        show (U.expClock c).inc = c.inc from rfl]
      simp only [h1]
      have e : (U.time * c.dt * c.inc : ℝ) = U.time * (c.dt * c.inc) := mul_assoc _ _ _
      have h2 : Fl.gt (U.time * (c.dt * c.inc)) (U.time * dmax) = Fl.gt (c.dt * c.inc) dmax := lt_scale U.time_pos _ _
      by_cases hx : (Fl.lt c.dt dmax && c.count == len) = true
      · rw [if_pos hx, if_pos hx]
        have : (if Fl.gt (U.time * c.dt * c.inc : ℝ) (U.time * dmax) = true then U.time * dmax else U.time * c.dt * c.inc) =
            U.time * (if Fl.gt (c.dt * c.inc : ℝ) dmax = true then dmax else c.dt * c.inc) := by
          rw [e]; simp only [h2]
          split_ifs <;> rfl
        simp only [this]
        rfl
      · rw [if_neg hx, if_neg hx]
    rw [hb]
    generalize c.bump dmax len = c1
    have h3 : Fl.le (U.time * c1.current) (U.time * c1.tmax) = Fl.le c1.current c1.tmax := le_scale U.time_pos _ _
    rw [show (U.expClock c1).current = U.time * c1.current from rfl, show (U.expClock c1).tmax = U.time * c1.tmax from rfl]
    simp only [h3]
    by_cases hx : Fl.le c1.current c1.tmax = true
    · rw [if_pos hx, if_pos hx]
      have : (U.time * c1.current + (U.expClock c1).dt : ℝ) = U.time * (c1.current + c1.dt) := (mul_add _ _ _).symm
      simp only [this]
      rfl
    · rw [if_neg hx, if_neg hx]; rfl

theorem renew_exp (c : ExpStep ℝ) : (U.expClock c).renew = (U.expClock c.renew.1, c.renew.2) := by
  unfold ExpStep.renew
  rw [show (U.expClock c).titype = U.timeType c.titype from rfl]
  have e := U.zero_time
  rcases hc : c.titype with dt | ⟨dmin, dmax, len⟩
  · simp only [Units.timeType]
    simp only [Units.expClock, e, hc, Units.timeType]
  · simp only [Units.timeType]
    simp only [Units.expClock, e, hc, Units.timeType]

/-- a copy of the clock, in new units. -/
def diffClock (d : TimeDiff (ExpStep ℝ)) : TimeDiff (ExpStep ℝ) := ⟨U.expClock d.timeiter⟩

theorem next_diff (d : TimeDiff (ExpStep ℝ)) :
    TimeDiff.next ExpStep.next (fun c => c.dt) (U.diffClock d) =
      (U.diffClock (TimeDiff.next ExpStep.next (fun c => c.dt) d).1,
        (TimeDiff.next ExpStep.next (fun c => c.dt) d).2.map (Option.map fun p => (U.time * p.1, U.time * p.2))) := by
  unfold TimeDiff.next
  rw [show (U.diffClock d).timeiter = U.expClock d.timeiter from rfl, U.next_exp]
  rcases d.timeiter.next with ⟨c, o | e | _⟩
  · cases o <;> rfl
  · rfl
  · rfl

theorem next_skip (d : Bool × TimeDiff (ExpStep ℝ)) :
    skipOne (TimeDiff.next ExpStep.next (fun c : ExpStep ℝ => c.dt)) (d.1, U.diffClock d.2) =
      (((skipOne (TimeDiff.next ExpStep.next (fun c => c.dt)) d).1.1, U.diffClock (skipOne (TimeDiff.next ExpStep.next (fun c => c.dt)) d).1.2),
        (skipOne (TimeDiff.next ExpStep.next (fun c => c.dt)) d).2.map (Option.map fun p => (U.time * p.1, U.time * p.2))) := by
  obtain ⟨b, d⟩ := d
  unfold skipOne
  cases b
  · simp only [Bool.false_eq_true, if_false]
    rw [U.next_diff]
    rcases TimeDiff.next ExpStep.next (fun c : ExpStep ℝ => c.dt) d with ⟨d1, o | e | _⟩
    · cases o with
      | none => rfl
      | some p =>
        simp only [Res.map_ok, Option.map_some]
        rw [U.next_diff]
    · rfl
    · rfl
  · simp only [if_true]
    rw [U.next_diff]
end Units
end Moledyn
