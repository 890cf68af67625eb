import Verif.Model.ExpProgram
/-
Model of the main functions of tests/arguments.rs (n independent searchers in a list, with the library's clock) and of
tests/test_setup.rs (n independent searchers one after the other, each followed only as long as it can still be the
fastest).  Both write one number per ensemble: that loop is `expLoop`.  `while` loops are fuelled; `none` means "still
looping".
-/
namespace Moledyn
variable {G F S : Type} [Fl F]

/-- the number added to the seed, tests/arguments.rs:49-53, tests/test_setup.rs:46-50: `(..).floor() as u128`. -/
def bundledShift (sysSize : F) (dim : Nat) (targetSize : F) (numAgent idxSet : Nat) : Nat :=
  min (Fl.toNat (Fl.floor
    (Fl.lit 628398227 * sysSize + Fl.lit 431710567 * Fl.ofNat dim + Fl.lit 277627711 * targetSize +
      Fl.lit 719236607 * Fl.ofNat numAgent + Fl.lit 570914867 * Fl.ofNat idxSet))) (2 ^ 128 - 1)

/-- the seed of the generator, tests/arguments.rs:49-54, tests/test_setup.rs:46-51: an overflow of the addition panics
(debug build). -/
def bundledSeed (seed : Nat) (sysSize : F) (dim : Nat) (targetSize : F) (numAgent idxSet : Nat) : Res Nat :=
  let s := seed + bundledShift sysSize dim targetSize numAgent idxSet
  if s < 2 ^ 128 then .ok s else .panic

/-! ### tests/arguments.rs -/

/-- the body of the agent loop, tests/arguments.rs:78-84.  The surroundings are the buffer `single_move` and the
generator.  (What `check_bc` leaves in the buffer is not kept: it is cleared before the next use.) -/
def listAct (rng : RngOps G F) (sys : SysOps G F) (target : TargetOps F) (dt : F) (_idx : Nat) (s : Pos F × G)
    (a : IndepAgent F) : (IndepAgent F × Res Bool) × (Pos F × G) :=
  match a.randomMoveToVec rng s.2 dt (s.1.clear Fl.zero) with
  | ((v, .err e), g1) => ((a, .err e), (v, g1))
  | ((v, .panic), g1) => ((a, .panic), (v, g1))
  | ((v, .ok ()), g1) =>
    match sys.checkBc a.pos v with
    | (p, .err e) => (({ a with pos := p }, .err e), (v, g1))
    | (p, .panic) => (({ a with pos := p }, .panic), (v, g1))
    | (p, .ok ()) => (({ a with pos := p }, target.checkFind p), (v, g1))

/-- what the program keeps between the ensembles, tests/arguments.rs:54, 64-65: the list of searchers, the buffer and the
generator. -/
abbrev ListSim (G F : Type) := LList (IndepAgent F) × (Pos F × G)

/-- one turn of the loop over time, tests/arguments.rs:76-85. -/
def listStep (rng : RngOps G F) (sys : SysOps G F) (target : TargetOps F) (fuel : Nat) (dt : F) (s : ListSim G F) :
    ListSim G F × Option (Res Bool) :=
  agentSweep (listAct rng sys target dt) fuel s.1.intoIter s.2

/-- `for time in timeiter`, tests/arguments.rs:75: the library's clock, all of it; the step size is the `dt` of line 41,
which is the one the clock was made with. -/
def constTick (c : ConstStep F) : ConstStep F × Res (Option (F × F)) :=
  match c.next with
  | (c1, .ok (some time)) => (c1, .ok (some (time, c.dt)))
  | (c1, .ok none) => (c1, .ok none)
  | (c1, .err e) => (c1, .err e)
  | (c1, .panic) => (c1, .panic)

/-- `for s in &mut list_searchers.contents{ s.renew_uniform(&sys, &target, &mut rng)?; }`, tests/arguments.rs:70-72. -/
def renewIndep (sys : SysOps G F) (target : TargetOps F) (inner loops : Nat) :
    List (IndepAgent F) → G → Option ((List (IndepAgent F) × Res Unit) × G)
  | [], g => some (([], .ok ()), g)
  | a :: as, g =>
    match a.renewUniform sys target inner loops g with
    | none => none
    | some ((b, .ok ()), g1) =>
      (renewIndep sys target inner loops as g1).map fun r => ((b :: r.1.1, r.1.2), r.2)
    | some ((b, r), g1) => some ((b :: as, r), g1)

/-- the preparation of one ensemble, tests/arguments.rs:70-73. -/
def listPrepare (sys : SysOps G F) (target : TargetOps F) (inner loops : Nat) (l : LList (IndepAgent F)) (g : G) :
    Option ((LList (IndepAgent F) × Res Unit) × G) :=
  (renewIndep sys target inner loops l.contents g).map fun r =>
    let l1 := { l with contents := r.1.1 }
    match r.1.2 with
    | .ok () => (l1.connectAll, r.2)
    | e => ((l1, e), r.2)

/-- one ensemble, tests/arguments.rs:68-86: `let mut fpt = 0f64; ...; 'outer: for time in timeiter{ ... fpt = time; break
'outer; }`.  `timeiter` is only read: the loop runs on a copy (src/time_mod/mod.rs:24). -/
def listRun (rng : RngOps G F) (sys : SysOps G F) (target : TargetOps F) (inner loops fuel steps : Nat)
    (clock : ConstStep F) (s : ListSim G F) : Option (Res F × ListSim G F) :=
  match listPrepare sys target inner loops s.1 s.2.2 with
  | none => none
  | some ((l1, .err e), g1) => some (.err e, (l1, (s.2.1, g1)))
  | some ((l1, .panic), g1) => some (.panic, (l1, (s.2.1, g1)))
  | some ((l1, .ok ()), g1) =>
    match searchLoop constTick (listStep rng sys target fuel) steps clock (l1, (s.2.1, g1)) with
    | (_, none) => none
    | (r, some o) => some (o.map fun t => t.getD Fl.zero, r.2)

/-- before the first ensemble, tests/arguments.rs:57-65: the searchers as read from the arguments, a buffer of zeros. -/
def listStart (v : List (IndepAgent F)) (dim : Nat) (g : G) : ListSim G F :=
  (LList.from' v, (List.replicate dim Fl.zero, g))

/-! ### tests/test_setup.rs -/

/-- `while !target.check_find(&agent.pos)? && time < fpt{ turn; time += dt; }` from the test of the condition on,
tests/test_setup.rs:68-73. -/
def prunedSearch (found : S → Res Bool) (turn : S → S × Res Unit) (dt fpt : F) :
    Nat → S → F → (S × F) × Option (Res F)
  | 0, s, time => ((s, time), none)
  | n + 1, s, time =>
    match found s with
    | .err e => ((s, time), some (.err e))
    | .panic => ((s, time), some .panic)
    | .ok true => ((s, time), some (.ok time))
    | .ok false =>
      if Fl.lt time fpt then
        match turn s with
        | (s1, .ok ()) => prunedSearch found turn dt fpt n s1 (time + dt)
        | (s1, .err e) => ((s1, time), some (.err e))
        | (s1, .panic) => ((s1, time), some .panic)
      else ((s, time), some (.ok time))

/-- one searcher, tests/test_setup.rs:65-73: made at a uniform position, followed until it finds the target or cannot be
the fastest any more.  The state is the buffer of line 60 and the generator. -/
def prunedSearcher (rng : RngOps G F) (sys : SysOps G F) (target : TargetOps F) (inner loops steps : Nat)
    (mtype : MoveType F) (dt fpt : F) (s : Pos F × G) : Option (Res F × (Pos F × G)) :=
  match IndepAgent.newUniform sys target inner loops s.2 mtype with
  | none => none
  | some (.err e, g1) => some (.err e, (s.1, g1))
  | some (.panic, g1) => some (.panic, (s.1, g1))
  | some (.ok a, g1) =>
    match prunedSearch (fun s => target.checkFind s.1.pos) (bufferTurn rng sys dt) dt fpt steps (a, s.1, g1) Fl.zero with
    | (_, none) => none
    | ((s, _), some r) => some (r, s.2)

/-- `for _j in 0..num_agent{ ...; if time < fpt{ fpt = time; } }`, tests/test_setup.rs:64-78. -/
def prunedLoop (run : F → S → Option (Res F × S)) : Nat → S → F → Option (Res F × S)
  | 0, s, fpt => some (.ok fpt, s)
  | n + 1, s, fpt =>
    match run fpt s with
    | none => none
    | some (.err e, s1) => some (.err e, s1)
    | some (.panic, s1) => some (.panic, s1)
    | some (.ok time, s1) => prunedLoop run n s1 (if Fl.lt time fpt then time else fpt)

/-- one ensemble, tests/test_setup.rs:63-78: the number that is written. -/
def prunedRun (rng : RngOps G F) (sys : SysOps G F) (target : TargetOps F) (inner loops steps : Nat)
    (mtype : MoveType F) (dt : F) (n : Nat) (s : Pos F × G) : Option (Res F × (Pos F × G)) :=
  prunedLoop (prunedSearcher rng sys target inner loops steps mtype dt) n s Fl.maxVal

end Moledyn
