import Verif.Model.SingleSearch
/-
Model of the main function of examples/mfpt_exp.rs around the search loop of Model/Simulation.
-/
namespace Moledyn
variable {G F S : Type} [Fl F]

/-- the number added to the seed, examples/mfpt_exp.rs:23-29: `(..).floor() as u128`.  A cast to `u128` gives 0 for
negative numbers and the largest `u128` for too large ones. -/
def seedShift (sysSize : F) (dim : Nat) (targetSize : F) (numAgent : Nat) (strength gamma : F) (idxSet : Nat) : Nat :=
  min (Fl.toNat (Fl.floor
    (Fl.lit 628398227 * sysSize + Fl.lit 431710567 * Fl.ofNat dim + Fl.lit 277627711 * targetSize +
      Fl.lit 719236607 * Fl.ofNat numAgent + Fl.lit 917299259 * strength + Fl.lit 367276621 * gamma +
      Fl.lit 570914867 * Fl.ofNat idxSet))) (2 ^ 128 - 1)

/-- the seed of the generator, examples/mfpt_exp.rs:23-30: an overflow of the addition panics (debug build). -/
def expSeed (seed : Nat) (sysSize : F) (dim : Nat) (targetSize : F) (numAgent : Nat) (strength gamma : F)
    (idxSet : Nat) : Res Nat :=
  let s := seed + seedShift sysSize dim targetSize numAgent strength gamma idxSet
  if s < 2 ^ 128 then .ok s else .panic

/-- the state before the first ensemble, examples/mfpt_exp.rs:34-36: `displacement` and `single_moves` are filled with
zeros, `list_agents` with the agents read from the arguments. -/
def expStart (v : List (ExpAgent F)) (dim : Nat) (g : G) : ExpSim G F :=
  ⟨LList.from' v, g, List.replicate dim Fl.zero, LList.from' (List.replicate v.length (List.replicate dim Fl.zero))⟩

/-- one ensemble, examples/mfpt_exp.rs:40-78.  `None`: still looping.  `timeiter` is only read: `into_diff` works on a
copy (src/time_mod/mod.rs:24, 297-301). -/
def expRun (rng : RngOps G F) (sys : SysOps G F) (target : TargetOps F) (limit : F) (inner loops fuel steps : Nat)
    (clock : ExpStep F) (st : ExpSim G F) : Option (Res F × ExpSim G F) :=
  match expPrepare sys target inner loops st.list st.rng with
  | none => none
  | some ((l1, .err e), g1) => some (.err e, { st with list := l1, rng := g1 })
  | some ((l1, .panic), g1) => some (.panic, { st with list := l1, rng := g1 })
  | some ((l1, .ok ()), g1) =>
    match expFpt rng sys target limit fuel steps clock { st with list := l1, rng := g1 } with
    | (_, none) => none
    | (r, some o) => some (o, r.2)

/-- the loop over the ensembles with the lines written so far, examples/mfpt_exp.rs:40-83: every number is written and
flushed before the next ensemble begins; the first failure ends the program.  (Failures of writing are left out.) -/
def expLoop (run : S → Option (Res F × S)) : Nat → S → Option ((List F × Res Unit) × S)
  | 0, s => some (([], .ok ()), s)
  | n + 1, s =>
    match run s with
    | none => none
    | some (.err e, s1) => some (([], .err e), s1)
    | some (.panic, s1) => some (([], .panic), s1)
    | some (.ok t, s1) => (expLoop run n s1).map fun r => ((t :: r.1.1, r.1.2), r.2)

end Moledyn
