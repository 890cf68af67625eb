import Verif.Model.Simulation
/-
Model of the programs that follow one walker at a time (tests/rts_n_searcher.rs, tests/single_ptl_rts.rs) and of
the averages over ensembles in all simulation programs.  `while` loops are fuelled; `none` means "still looping".
-/
namespace Moledyn
variable {G F S α : Type} [Fl F]

/-! ### one walker until it finds the target -/

/-- `let mut time = 0f64; while !target.check_find(&searcher.pos)?{ turn; time += dt; }` from the test of the
condition on, tests/rts_n_searcher.rs:65-71, tests/single_ptl_rts.rs:75-82.  `found` is the test, `turn` the body
without the clock. -/
def whileSearch (found : S → Res Bool) (turn : S → S × Res Unit) (dt : F) :
    Nat → S → F → (S × F) × Option (Res F)
  | 0, s, time => ((s, time), none)
  | n + 1, s, time =>
    match found s with
    | .err e => ((s, time), some (.err e))
    | .panic => ((s, time), some .panic)
    | .ok true => ((s, time), some (.ok time))
    | .ok false =>
      match turn s with
      | (s1, .ok ()) => whileSearch found turn dt n s1 (time + dt)
      | (s1, .err e) => ((s1, time), some (.err e))
      | (s1, .panic) => ((s1, time), some .panic)

/-- one turn with a fresh vector: `let mut single_move = searcher.random_move(rng, dt)?;
sys.check_bc(&mut searcher.pos, &mut single_move)?;`, tests/rts_n_searcher.rs:68-69. -/
def freshTurn (rng : RngOps G F) (sys : SysOps G F) (dt : F) (s : IndepAgent F × G) :
    (IndepAgent F × G) × Res Unit :=
  match s.1.randomMove rng s.2 dt with
  | (.err e, g1) => ((s.1, g1), .err e)
  | (.panic, g1) => ((s.1, g1), .panic)
  | (.ok single, g1) => (({ s.1 with pos := (sys.checkBc s.1.pos single).1 }, g1), (sys.checkBc s.1.pos single).2)

/-- one turn with a reused buffer: `single_move.clear(); agent.random_move_to_vec(&mut rng, dt, &mut single_move)?;
sys.check_bc(&mut agent.pos, &mut single_move)?;`, tests/single_ptl_rts.rs:78-80. -/
def bufferTurn (rng : RngOps G F) (sys : SysOps G F) (dt : F) (s : IndepAgent F × Pos F × G) :
    (IndepAgent F × Pos F × G) × Res Unit :=
  match s.1.randomMoveToVec rng s.2.2 dt (s.2.1.clear Fl.zero) with
  | ((v, .err e), g1) => ((s.1, v, g1), .err e)
  | ((v, .panic), g1) => ((s.1, v, g1), .panic)
  | ((v, .ok ()), g1) =>
    (({ s.1 with pos := (sys.checkBc s.1.pos v).1 }, v, g1), (sys.checkBc s.1.pos v).2)

/-- one searcher: made at a uniform position, then followed, tests/rts_n_searcher.rs:64-71.  The result is the time
it needs and the state of the generator. -/
def oneSearcher (rng : RngOps G F) (sys : SysOps G F) (target : TargetOps F) (inner loops steps : Nat)
    (mtype : MoveType F) (dt : F) (g : G) : Option (Res F × G) :=
  match IndepAgent.newUniform sys target inner loops g mtype with
  | none => none
  | some (.err e, g1) => some (.err e, g1)
  | some (.panic, g1) => some (.panic, g1)
  | some (.ok a, g1) =>
    match whileSearch (fun s => target.checkFind s.1.pos) (freshTurn rng sys dt) dt steps (a, g1) Fl.zero with
    | (_, none) => none
    | ((s, _), some r) => some (r, s.2)

/-- the loop `for _i in 0..n{ ...; if min_fpt > time{ min_fpt = time; } }`, tests/rts_n_searcher.rs:62-75. -/
def minLoop (run : S → Option (Res F × S)) : Nat → S → F → Option (Res F × S)
  | 0, s, minFpt => some (.ok minFpt, s)
  | n + 1, s, minFpt =>
    match run s with
    | none => none
    | some (.err e, s1) => some (.err e, s1)
    | some (.panic, s1) => some (.panic, s1)
    | some (.ok time, s1) => minLoop run n s1 (if Fl.gt minFpt time then time else minFpt)

/-- `n_ptl_fpt`, tests/rts_n_searcher.rs:50-78 (system, target and `dt` are parameters here). -/
def nSearchersFpt (rng : RngOps G F) (sys : SysOps G F) (target : TargetOps F) (inner loops steps : Nat)
    (mtype : MoveType F) (dt : F) (n : Nat) (g : G) : Option (Res F × G) :=
  minLoop (oneSearcher rng sys target inner loops steps mtype dt) n g Fl.maxVal

/-- the body of the ensemble loop of tests/single_ptl_rts.rs:72-83: as `oneSearcher`, with the buffer
`single_move` of line 65 that is kept between ensembles. -/
def oneBuffered (rng : RngOps G F) (sys : SysOps G F) (target : TargetOps F) (inner loops steps : Nat)
    (mtype : MoveType F) (dt : F) (s : Pos F × G) : Option (Res F × (Pos F × G)) :=
  match IndepAgent.newUniform sys target inner loops s.2 mtype with
  | none => none
  | some (.err e, g1) => some (.err e, (s.1, g1))
  | some (.panic, g1) => some (.panic, (s.1, g1))
  | some (.ok a, g1) =>
    match whileSearch (fun s => target.checkFind s.1.pos) (bufferTurn rng sys dt) dt steps (a, s.1, g1) Fl.zero with
    | (_, none) => none
    | ((s, _), some r) => some (r, s.2)

/-! ### averages over ensembles -/

/-- `let mut data = 0f64; for _i in 0..num_ensemble{ let time = run?; data += time; }` from the loop on,
tests/rts_n_searcher.rs:41-45, tests/single_ptl_rts.rs:72-84, tests/n_ptl_rts_iterator.rs:36-40,
tests/merge_fpt.rs:36-40, tests/large_n_simulation.rs:48-52. -/
def ensembleSum (run : S → Option (Res F × S)) : Nat → S → F → Option (Res F × S)
  | 0, s, data => some (.ok data, s)
  | n + 1, s, data =>
    match run s with
    | none => none
    | some (.err e, s1) => some (.err e, s1)
    | some (.panic, s1) => some (.panic, s1)
    | some (.ok time, s1) => ensembleSum run n s1 (data + time)

/-- `data / num_ensemble as f64`, tests/rts_n_searcher.rs:46, tests/single_ptl_rts.rs:86,
tests/n_ptl_rts_iterator.rs:41, tests/merge_fpt.rs:41, tests/large_n_simulation.rs:53. -/
def ensembleMean (run : S → Option (Res F × S)) (n : Nat) (s : S) : Option (Res F × S) :=
  (ensembleSum run n s Fl.zero).map fun r => (r.1.map (· / Fl.ofNat n), r.2)

/-- `for _i in 0..n{ let agent = make?; vec_agents.push(agent); }`, tests/n_ptl_rts_iterator.rs:58-61,
tests/merge_fpt.rs:57-60, tests/large_n_simulation.rs:41-44. -/
def makeAgents (make : S → Option (Res α × S)) : Nat → S → Option (Res (List α) × S)
  | 0, s => some (.ok [], s)
  | n + 1, s =>
    match make s with
    | none => none
    | some (.err e, s1) => some (.err e, s1)
    | some (.panic, s1) => some (.panic, s1)
    | some (.ok a, s1) => (makeAgents make n s1).map fun r => (r.1.map (a :: ·), r.2)

/-- `n_ptl_fpt`, tests/n_ptl_rts_iterator.rs:46-77: make `n` independent walkers, search, report the time. -/
def indepRun (rng : RngOps G F) (sys : SysOps G F) (target : TargetOps F) (inner loops fuel steps : Nat)
    (mtype : MoveType F) (dt : F) (n : Nat) (g : G) : Option (Res F × G) :=
  match makeAgents (fun g => IndepAgent.newUniform sys target inner loops g mtype) n g with
  | none => none
  | some (.err e, g1) => some (.err e, g1)
  | some (.panic, g1) => some (.panic, g1)
  | some (.ok v, g1) =>
    match searchLoop (countingTick dt) (walkStep (IndepAgent.walker rng) sys target fuel) steps Fl.zero
        (LList.from' v, g1) with
    | (r, some (.ok (some t))) => some (.ok t, r.2.2)
    | (r, some (.err e)) => some (.err e, r.2.2)
    | (r, some .panic) => some (.panic, r.2.2)
    | _ => none

/-- `n_ptl_fpt`, tests/merge_fpt.rs:45-86: make `n` merging walkers, search, report the time. -/
def mergeRun (rng : RngOps G F) (sys : SysOps G F) (target : TargetOps F) (inner loops fuel steps : Nat)
    (mtype : MoveType F) (radius alpha dt : F) (n : Nat) (g : G) : Option (Res F × G) :=
  match makeAgents (fun g => MergeAgent.newUniform sys target inner loops g mtype radius alpha) n g with
  | none => none
  | some (.err e, g1) => some (.err e, g1)
  | some (.panic, g1) => some (.panic, g1)
  | some (.ok v, g1) =>
    match mergeFpt rng sys target radius dt fuel steps v g1 with
    | (r, some (.ok (some t))) => some (.ok t, r.2.rng)
    | (r, some (.err e)) => some (.err e, r.2.rng)
    | (r, some .panic) => some (.panic, r.2.rng)
    | _ => none

/-- `n_ptl_fpt`, tests/large_n_simulation.rs:57-87: renew the clock, revive and place the agents, search.  The
state holds the agents, the clock and the generator, which are kept between ensembles.  `into_diff` works on a
copy of the clock (src/time_mod/mod.rs:24, 145-149, 297-301), so the clock itself only feels the `renew`. -/
def largeNRun (rng : RngOps G F) (sys : SysOps G F) (target : TargetOps F) (inner loops fuel steps : Nat)
    (s : LList (MergeAgent F) × ExpStep F × G) : Option (Res F × (LList (MergeAgent F) × ExpStep F × G)) :=
  match s.2.1.renew with
  | (c1, .err e) => some (.err e, (s.1, c1, s.2.2))
  | (c1, .panic) => some (.panic, (s.1, c1, s.2.2))
  | (c1, .ok ()) =>
    match largeNPrepare sys target inner loops fuel s.1 s.2.2 with
    | (_, none) => none
    | ((l1, g1), some (.err e)) => some (.err e, (l1, c1, g1))
    | ((l1, g1), some .panic) => some (.panic, (l1, c1, g1))
    | ((l1, g1), some (.ok ())) =>
      match largeNFpt rng sys target fuel steps c1 l1 g1 with
      | (_, none) => none
      | (r, some o) => some (o, (r.2.list, c1, r.2.rng))

/-! ### free diffusion: tests/single_ptl_rts.rs:17-50 -/

/-- what `test_ptl_diffusion_in_time` keeps: the agent, the buffer, the generator and the array `data`
(tests/single_ptl_rts.rs:19-25). -/
structure FreeSim (G F : Type) where
  agent : IndepAgent F
  buf : Pos F
  rng : G
  data : List F

/-- the loop over the steps, tests/single_ptl_rts.rs:31-38, `n` steps from step `k` on. -/
def freeLoop (rng : RngOps G F) (dt : F) : Nat → Nat → FreeSim G F → FreeSim G F × Res Unit
  | 0, _, st => (st, .ok ())
  | n + 1, k, st =>
    match st.agent.randomMoveToVec rng st.rng dt (st.buf.clear Fl.zero) with
    | ((v, .err e), g1) => ({ st with buf := v, rng := g1 }, .err e)
    | ((v, .panic), g1) => ({ st with buf := v, rng := g1 }, .panic)
    | ((v, .ok ()), g1) =>
      match st.agent.pos.mutAdd v with
      | (p, .err e) => (⟨{ st.agent with pos := p }, v, g1, st.data⟩, .err e)
      | (p, .panic) => (⟨{ st.agent with pos := p }, v, g1, st.data⟩, .panic)
      | (p, .ok ()) =>
        freeLoop rng dt n (k + 1)
          ⟨{ st.agent with pos := p }, v, g1, st.data.modify (k + 1) (· + Fl.powi p.norm 2)⟩

/-- the loop over the ensembles, tests/single_ptl_rts.rs:27-39: each starts with an agent at the origin. -/
def freeEnsembles (rng : RngOps G F) (mtype : MoveType F) (dim : Nat) (dt : F) (steps : Nat) :
    Nat → FreeSim G F → FreeSim G F × Res Unit
  | 0, st => (st, .ok ())
  | n + 1, st =>
    match freeLoop rng dt steps 0 { st with agent := IndepAgent.new mtype (List.replicate dim Fl.zero) } with
    | (st1, .ok ()) => freeEnsembles rng mtype dim dt steps n st1
    | (st1, r) => (st1, r)

/-- tests/single_ptl_rts.rs:19-43: the mean square displacement after each number of steps.  `buf` is the initial
value of `single_move` (line 25: `Default::default()`, which is the empty vector). -/
def freeDiffusion (rng : RngOps G F) (mtype : MoveType F) (dim : Nat) (dt : F) (steps ensembles : Nat)
    (buf : Pos F) (g : G) : Res (List F) :=
  let r := freeEnsembles rng mtype dim dt steps ensembles
    ⟨IndepAgent.new mtype [], buf, g, List.replicate (steps + 1) Fl.zero⟩
  r.2.map fun _ => r.1.data.map (· / Fl.ofNat ensembles)

end Moledyn
