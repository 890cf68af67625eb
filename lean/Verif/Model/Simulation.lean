import Verif.Model.Agent
import Verif.Model.Time
/-
Model of the simulation programs in the repository: tests/n_ptl_rts_iterator.rs, tests/merge_fpt.rs,
tests/large_n_simulation.rs and examples/mfpt_exp.rs.  They are the way the library's pieces are meant to be
put together.  `while let` loops are fuelled; `none` as outcome means "still looping".
-/
namespace Moledyn
variable {G F S C α : Type} [Fl F]

/-! ### loops over a list of agents -/

/-- `list.into_iter(); while let Some((idx, agent)) = list.enumerate_mut(){ ... }` from the first call on,
examples/mfpt_exp.rs:61-77, tests/merge_fpt.rs:67-74, tests/large_n_simulation.rs:68-75,
tests/n_ptl_rts_iterator.rs:65-73.  `act idx s agent` is the loop body: it changes the agent in place and the
surroundings `s`, `true` leaves the outer loop (target found). -/
def agentSweep (act : Nat → S → α → (α × Res Bool) × S) :
    Nat → LList α → S → (LList α × S) × Option (Res Bool)
  | 0, l, s => ((l, s), none)
  | n + 1, l, s =>
    match l.enumerateMut (fun a => (act (l.c0.getD 0) s a).1.1) with
    | (l1, .ok none) => ((l1, s), some (.ok false))
    | (l1, .ok (some (i, a))) =>
      let r := act i s a
      match r.1.2 with
      | .ok false => agentSweep act n l1 r.2
      | .ok true => ((l1, r.2), some (.ok true))
      | .err e => ((l1, r.2), some (.err e))
      | .panic => ((l1, r.2), some .panic)
    | (l1, .err e) => ((l1, s), some (.err e))
    | (l1, .panic) => ((l1, s), some .panic)

/-- `while let Some((idx1, s1, idx2, s2)) = list.enumerate_double(){ ... }`,
examples/mfpt_exp.rs:50-58, tests/merge_fpt.rs:76-82, tests/large_n_simulation.rs:77-83.  The body may change
the list. -/
def pairSweep (act : Nat → α → Nat → α → LList α → S → (LList α × S) × Res Unit) :
    Nat → LList α → S → (LList α × S) × Option (Res Unit)
  | 0, l, s => ((l, s), none)
  | n + 1, l, s =>
    match l.enumerateDouble with
    | (l1, .ok none) => ((l1, s), some (.ok ()))
    | (l1, .ok (some (i, a, j, b))) =>
      match act i a j b l1 s with
      | (r, .ok ()) => pairSweep act n r.1 r.2
      | (r, .err e) => (r, some (.err e))
      | (r, .panic) => (r, some .panic)
    | (l1, .err e) => ((l1, s), some (.err e))
    | (l1, .panic) => ((l1, s), some .panic)

/-- the outer loop over time: `for (time, dt) in clock { ... }` with the body `step`, which says whether the
target was found; then the current time is the result (tests/large_n_simulation.rs:67-86,
examples/mfpt_exp.rs:48-78; the `loop{ time += dt; ... }` of tests/merge_fpt.rs:64-83 is the same with the
clock `countingTick`).  `.ok none` when the clock ends first. -/
def searchLoop (tick : C → C × Res (Option (F × F))) (step : F → S → S × Option (Res Bool)) :
    Nat → C → S → (C × S) × Option (Res (Option F))
  | 0, c, s => ((c, s), none)
  | n + 1, c, s =>
    match tick c with
    | (c1, .ok none) => ((c1, s), some (.ok none))
    | (c1, .err e) => ((c1, s), some (.err e))
    | (c1, .panic) => ((c1, s), some .panic)
    | (c1, .ok (some (time, dt))) =>
      match step dt s with
      | (s1, none) => ((c1, s1), none)
      | (s1, some (.ok true)) => ((c1, s1), some (.ok (some time)))
      | (s1, some (.ok false)) => searchLoop tick step n c1 s1
      | (s1, some (.err e)) => ((c1, s1), some (.err e))
      | (s1, some .panic) => ((c1, s1), some .panic)

/-- `let mut time = 0f64; loop{ time += dt; ... }`, tests/merge_fpt.rs:62-65, as a clock. -/
def countingTick (dt : F) (time : F) : F × Res (Option (F × F)) :=
  (time + dt, .ok (some (time + dt, dt)))

/-- `.skip(1)` of a time iterator, examples/mfpt_exp.rs:48: the first element is dropped by the first call.
The flag says whether that has happened. -/
def skipOne (tick : C → C × Res (Option (F × F))) (c : Bool × C) : (Bool × C) × Res (Option (F × F)) :=
  if c.1 then ((true, (tick c.2).1), (tick c.2).2)
  else match tick c.2 with
    | (c1, .ok (some _)) => ((true, (tick c1).1), (tick c1).2)
    | (c1, r) => ((true, c1), r)

/-! ### one agent's move -/

/-- what the loops use of an agent: the public field `pos` and `random_move` (tests/n_ptl_rts_iterator.rs:45-77). -/
structure Walker (G F α : Type) where
  pos : α → Pos F
  setPos : α → Pos F → α
  randomMove : α → G → F → Res (Pos F) × G

/-- `ContPassiveIndepAgent` as a walker, src/agent_mod/cont_passive_indep.rs:9-16, 156-172. -/
def IndepAgent.walker (rng : RngOps G F) : Walker G F (IndepAgent F) :=
  ⟨fun a => a.pos, fun a p => { a with pos := p }, fun a => a.randomMove rng⟩

/-- `ContPassiveMergeAgent` as a walker, src/agent_mod/cont_passive_merge.rs:8-18, 187-203. -/
def MergeAgent.walker (rng : RngOps G F) : Walker G F (MergeAgent F) :=
  ⟨fun a => a.pos, fun a p => { a with pos := p }, fun a => a.randomMove rng⟩

/-- the loop body `single_move = agent.random_move(rng, dt)?; sys.check_bc(&mut agent.pos, ...)?;
if target.check_find(&agent.pos)?{ break }`, tests/merge_fpt.rs:69-73, tests/large_n_simulation.rs:70-74,
tests/n_ptl_rts_iterator.rs:68-72. -/
def walkAct (w : Walker G F α) (sys : SysOps G F) (target : TargetOps F) (dt : F) (_idx : Nat) (g : G) (a : α) :
    (α × Res Bool) × G :=
  match w.randomMove a g dt with
  | (.err e, g1) => ((a, .err e), g1)
  | (.panic, g1) => ((a, .panic), g1)
  | (.ok single, g1) =>
    match sys.checkBc (w.pos a) single with
    | (p, .err e) => ((w.setPos a p, .err e), g1)
    | (p, .panic) => ((w.setPos a p, .panic), g1)
    | (p, .ok ()) => ((w.setPos a p, target.checkFind p), g1)

/-! ### independent walkers: tests/n_ptl_rts_iterator.rs -/

/-- one time step, tests/n_ptl_rts_iterator.rs:65-73. -/
def walkStep (w : Walker G F α) (sys : SysOps G F) (target : TargetOps F) (fuel : Nat) (dt : F)
    (s : LList α × G) : (LList α × G) × Option (Res Bool) :=
  agentSweep (walkAct w sys target dt) fuel s.1.intoIter s.2

/-! ### merging walkers: tests/merge_fpt.rs and tests/large_n_simulation.rs -/

/-- the state of a merging simulation; `merges` records the merges so far (it is not in the program)
(tests/merge_fpt.rs:45-86). -/
structure MergeSim (G F : Type) where
  list : LList (MergeAgent F)
  rng : G
  merges : List (Nat × Nat)

/-- the body of the pair loop: `let d = s1.pos().distance(s2.pos())?; if d < 2f64 * radius{
list_agents.merge(idx1, idx2)?; }`, tests/merge_fpt.rs:78-81 (`rad` is the constant `radius`) and
tests/large_n_simulation.rs:79-82 (`rad s1 = s1.ptl_radius`). -/
def mergeAct (rad : MergeAgent F → F) (i : Nat) (a : MergeAgent F) (j : Nat) (b : MergeAgent F)
    (l : LList (MergeAgent F)) (ms : List (Nat × Nat)) : (LList (MergeAgent F) × List (Nat × Nat)) × Res Unit :=
  match a.pos.distance b.pos with
  | .err e => ((l, ms), .err e)
  | .panic => ((l, ms), .panic)
  | .ok d =>
    if Fl.lt d (Fl.two * rad a) then
      match l.merge MergeAgent.mergeOps i j with
      | (l1, .ok ()) => ((l1, ms ++ [(i, j)]), .ok ())
      | (l1, r) => ((l1, ms), r)
    else ((l, ms), .ok ())

/-- one time step: every agent moves, then close pairs merge; tests/merge_fpt.rs:65-82,
tests/large_n_simulation.rs:68-83. -/
def mergeStep (rng : RngOps G F) (sys : SysOps G F) (target : TargetOps F) (rad : MergeAgent F → F)
    (fuel : Nat) (dt : F) (st : MergeSim G F) : MergeSim G F × Option (Res Bool) :=
  match agentSweep (walkAct (MergeAgent.walker rng) sys target dt) fuel st.list.intoIter st.rng with
  | ((l1, g1), some (.ok false)) =>
    match l1.intoDoubleIter with
    | (l2, .ok ()) =>
      match pairSweep (mergeAct rad) fuel l2 st.merges with
      | ((l3, ms), some (.ok ())) => (⟨l3, g1, ms⟩, some (.ok false))
      | ((l3, ms), some (.err e)) => (⟨l3, g1, ms⟩, some (.err e))
      | ((l3, ms), some .panic) => (⟨l3, g1, ms⟩, some .panic)
      | ((l3, ms), none) => (⟨l3, g1, ms⟩, none)
    | (l2, .err e) => (⟨l2, g1, st.merges⟩, some (.err e))
    | (l2, .panic) => (⟨l2, g1, st.merges⟩, some .panic)
  | ((l1, g1), o) => (⟨l1, g1, st.merges⟩, o)

/-- tests/merge_fpt.rs:61-85 after the agents are made: simulate until the target is found. -/
def mergeFpt (rng : RngOps G F) (sys : SysOps G F) (target : TargetOps F) (radius dt : F) (fuel steps : Nat)
    (agents : List (MergeAgent F)) (g : G) : (F × MergeSim G F) × Option (Res (Option F)) :=
  searchLoop (countingTick dt) (mergeStep rng sys target (fun _ => radius) fuel) steps Fl.zero
    ⟨LList.from' agents, g, []⟩

/-- `list.into_iter(); while let Some(agent) = list.get_mut(){ agent.renew_uniform(sys, target, rng)?; }` from
the first call on, tests/large_n_simulation.rs:62-65.  `none`: still drawing, or out of fuel. -/
def renewSweep (sys : SysOps G F) (target : TargetOps F) (inner loops : Nat) :
    Nat → LList (MergeAgent F) → G → (LList (MergeAgent F) × G) × Option (Res Unit)
  | 0, l, g => ((l, g), none)
  | n + 1, l, g =>
    match l.enumerateMut (fun a =>
        match a.renewUniform sys target inner loops g with | none => a | some r => r.1.1) with
    | (l1, .ok none) => ((l1, g), some (.ok ()))
    | (l1, .err e) => ((l1, g), some (.err e))
    | (l1, .panic) => ((l1, g), some .panic)
    | (l1, .ok (some (_, a))) =>
      match a.renewUniform sys target inner loops g with
      | none => ((l1, g), none)
      | some ((_, .ok ()), g1) => renewSweep sys target inner loops n l1 g1
      | some ((_, .err e), g1) => ((l1, g1), some (.err e))
      | some ((_, .panic), g1) => ((l1, g1), some .panic)

/-- the preparation of one ensemble, tests/large_n_simulation.rs:61-65: revive all agents (`connect_all`) and
give each a new uniform position and size 1. -/
def largeNPrepare (sys : SysOps G F) (target : TargetOps F) (inner loops fuel : Nat)
    (l : LList (MergeAgent F)) (g : G) : (LList (MergeAgent F) × G) × Option (Res Unit) :=
  match l.connectAll with
  | (l1, .ok ()) => renewSweep sys target inner loops fuel l1.intoIter g
  | (l1, r) => ((l1, g), some r)

/-- tests/large_n_simulation.rs:56-87 `n_ptl_fpt` after the preparation (the clock is renewed at line 60, so it
starts from 0 in every ensemble); the end of the clock is the error `UnexpectedEnd`. -/
def largeNFpt (rng : RngOps G F) (sys : SysOps G F) (target : TargetOps F) (fuel steps : Nat)
    (clock : ExpStep F) (l : LList (MergeAgent F)) (g : G) :
    (TimeDiff (ExpStep F) × MergeSim G F) × Option (Res F) :=
  let r := searchLoop (TimeDiff.next ExpStep.next (fun c => c.dt))
    (mergeStep rng sys target (fun a => a.ptlRadius) fuel) steps (intoDiff clock) ⟨l, g, []⟩
  (r.1, r.2.map fun x => x.bind fun o => match o with
    | some t => .ok t
    | none => .err .unexpectedEnd)

/-! ### exponentially interacting walkers: examples/mfpt_exp.rs -/

/-- `single_moves.contents[idx].f(...)` with an operation that may panic, examples/mfpt_exp.rs:56-57. -/
def bufMod (buf : LList (Pos F)) (idx : Nat) (f : Pos F → Pos F × Res Unit) : LList (Pos F) × Res Unit :=
  match buf.contents[idx]? with
  | none => (buf, .panic)
  | some p => ({ buf with contents := buf.contents.set idx (f p).1 }, (f p).2)

/-- the body of the pair loop, examples/mfpt_exp.rs:51-58.  The surroundings are the buffers `displacement`
and `single_moves`; the list of agents is not changed. -/
def forceAct (dt : F) (i : Nat) (a : ExpAgent F) (j : Nat) (b : ExpAgent F) (l : LList (ExpAgent F))
    (s : Pos F × LList (Pos F)) : (LList (ExpAgent F) × (Pos F × LList (Pos F))) × Res Unit :=
  match a.mutualDisplacementToVec b s.1 with
  | (d, .err e) => ((l, (d, s.2)), .err e)
  | (d, .panic) => ((l, (d, s.2)), .panic)
  | (d, .ok distance) =>
    let d2 := d.mutScalarMul (a.force distance * dt)
    match bufMod s.2 i (fun p => p.mutSub d2) with
    | (b1, .ok ()) =>
      match bufMod b1 j (fun p => p.mutAdd d2) with
      | (b2, r) => ((l, (d2, b2)), r)
    | (b1, r) => ((l, (d2, b1)), r)

/-- "limit maximum displacement", examples/mfpt_exp.rs:66-70. -/
def limitMove (limit : F) (v : Pos F) : Pos F :=
  let disp := v.norm / limit
  if Fl.gt disp Fl.one then v.mutScalarMul (Fl.one / disp) else v

/-- the body of the agent loop, examples/mfpt_exp.rs:63-76. -/
def expMoveAct (rng : RngOps G F) (sys : SysOps G F) (target : TargetOps F) (limit dt : F) (idx : Nat)
    (s : G × LList (Pos F)) (a : ExpAgent F) : (ExpAgent F × Res Bool) × (G × LList (Pos F)) :=
  match s.2.contents[idx]? with
  | none => ((a, .panic), s)
  | some v0 =>
    match a.randomMoveToVec rng s.1 dt v0 with
    | ((v1, .err e), g1) => ((a, .err e), (g1, { s.2 with contents := s.2.contents.set idx v1 }))
    | ((v1, .panic), g1) => ((a, .panic), (g1, { s.2 with contents := s.2.contents.set idx v1 }))
    | ((v1, .ok ()), g1) =>
      let v2 := limitMove limit v1
      let s1 := (g1, { s.2 with contents := s.2.contents.set idx v2 })
      match sys.checkBc a.pos v2 with
      | (p, .err e) => (({ a with pos := p }, .err e), s1)
      | (p, .panic) => (({ a with pos := p }, .panic), s1)
      | (p, .ok ()) => (({ a with pos := p }, target.checkFind p), s1)

/-- the state of examples/mfpt_exp.rs: the agents, the generator and the two buffers of lines 34-35. -/
structure ExpSim (G F : Type) where
  list : LList (ExpAgent F)
  rng : G
  displacement : Pos F
  moves : LList (Pos F)

/-- one time step, examples/mfpt_exp.rs:49-77. -/
def expStep (rng : RngOps G F) (sys : SysOps G F) (target : TargetOps F) (limit : F) (fuel : Nat) (dt : F)
    (st : ExpSim G F) : ExpSim G F × Option (Res Bool) :=
  match st.moves.clearAll (Pos.clear Fl.zero) fuel with
  | (mv1, false) => ({ st with moves := mv1 }, none)
  | (mv1, true) =>
    match st.list.intoDoubleIter with
    | (l1, .err e) => ({ st with list := l1, moves := mv1 }, some (.err e))
    | (l1, .panic) => ({ st with list := l1, moves := mv1 }, some .panic)
    | (l1, .ok ()) =>
      match pairSweep (forceAct dt) fuel l1 (st.displacement, mv1) with
      | ((l2, d, mv2), none) => (⟨l2, st.rng, d, mv2⟩, none)
      | ((l2, d, mv2), some (.err e)) => (⟨l2, st.rng, d, mv2⟩, some (.err e))
      | ((l2, d, mv2), some .panic) => (⟨l2, st.rng, d, mv2⟩, some .panic)
      | ((l2, d, mv2), some (.ok ())) =>
        match agentSweep (expMoveAct rng sys target limit dt) fuel l2.intoIter (st.rng, mv2) with
        | ((l3, g, mv3), o) => (⟨l3, g, d, mv3⟩, o)

/-- the limit of examples/mfpt_exp.rs:38. -/
def moveLimit (targetSize gamma : F) : F :=
  if Fl.gt (Fl.lit (1 / 10) * targetSize) gamma then gamma else Fl.lit (1 / 10) * targetSize

/-- `for s in &mut list_agents.contents{ s.renew_uniform(..)?; }`, examples/mfpt_exp.rs:43-45: all contents,
whatever is live. -/
def renewContents (sys : SysOps G F) (target : TargetOps F) (inner loops : Nat) :
    List (ExpAgent F) → G → Option ((List (ExpAgent F) × Res Unit) × G)
  | [], g => some (([], .ok ()), g)
  | a :: as, g =>
    match a.renewUniform sys target inner loops g with
    | none => none
    | some ((b, .ok ()), g1) =>
      (renewContents sys target inner loops as g1).map fun r => ((b :: r.1.1, r.1.2), r.2)
    | some ((b, r), g1) => some ((b :: as, r), g1)

/-- the preparation of one ensemble, examples/mfpt_exp.rs:43-46. -/
def expPrepare (sys : SysOps G F) (target : TargetOps F) (inner loops : Nat) (l : LList (ExpAgent F)) (g : G) :
    Option ((LList (ExpAgent F) × Res Unit) × G) :=
  (renewContents sys target inner loops l.contents g).map fun r =>
    let l1 := { l with contents := r.1.1 }
    match r.1.2 with
    | .ok () => (l1.connectAll, r.2)
    | e => ((l1, e), r.2)

/-- `let mut fpt = 0f64; ... 'outer: for (time, dt) in timeiter.into_diff().skip(1){ ... fpt = time; break }`,
examples/mfpt_exp.rs:41-78: the exported number is 0 when the clock ends first. -/
def expFpt (rng : RngOps G F) (sys : SysOps G F) (target : TargetOps F) (limit : F) (fuel steps : Nat)
    (clock : ExpStep F) (st : ExpSim G F) :
    ((Bool × TimeDiff (ExpStep F)) × ExpSim G F) × Option (Res F) :=
  let r := searchLoop (skipOne (TimeDiff.next ExpStep.next (fun c => c.dt)))
    (expStep rng sys target limit fuel) steps (false, intoDiff clock) st
  (r.1, r.2.map fun x => x.map fun o => o.getD Fl.zero)

end Moledyn
