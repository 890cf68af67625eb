import Verif.Model.Setup
/-
Model of the procedural macro `simulation!` (moledyn_proc/src/lib.rs): how it reads its tokens, and which variables the
program finds after it.
-/
namespace Moledyn

/-- A token as `syn` delivers it: a literal, a comma, an identifier (not a keyword), or anything else
(moledyn_proc/src/lib.rs:20-46). -/
inductive Tok where
  | literal (text : Str)
  | comma
  | ident (name : Str)
  | other (text : Str)
deriving DecidableEq, Repr

/-- The compile errors of the macro; the number is the one in the message
(moledyn_proc/src/lib.rs:22-23, 32-33, 44-45, 53). -/
inductive MacroErr where
  | firstNotLiteral
  | notComma (token : Nat)
  | notIdent (token : Nat)
  | notSix
deriving DecidableEq, Repr

/-- `ParsedArguments`, moledyn_proc/src/lib.rs:7-10. -/
structure ParsedArguments where
  pre : Str
  setups : List Str
deriving DecidableEq, Repr

namespace ParsedArguments

/-- the loop over commas and identifiers, moledyn_proc/src/lib.rs:27-49; `i` and `setups` are the variables of the
loop. -/
def loop (i : Nat) (setups : List Str) : List Tok → Except MacroErr (List Str)
  | [] => .ok setups
  | .comma :: [] => .ok setups
  | .comma :: .ident s :: rest => loop (i + 1 + 1) (setups ++ [s]) rest
  | .comma :: .comma :: _ => .error (.notIdent (i + 1 + 1))
  | .comma :: .literal _ :: _ => .error (.notIdent (i + 1 + 1))
  | .comma :: .other _ :: _ => .error (.notIdent (i + 1 + 1))
  | .ident _ :: _ => .error (.notComma (i + 1))
  | .literal _ :: _ => .error (.notComma (i + 1))
  | .other _ :: _ => .error (.notComma (i + 1))

/-- the number of identifiers is checked at the end, moledyn_proc/src/lib.rs:52-56. -/
def six (pre : Str) (setups : List Str) : Except MacroErr ParsedArguments :=
  if setups.length ≠ 6 then .error .notSix else .ok ⟨pre, setups⟩

/-- `ParsedArguments::parse`, moledyn_proc/src/lib.rs:13-57.  With no token at all the prefix stays
`"RTS_GENERAL_"`, but then the number of identifiers is wrong. -/
def parse : List Tok → Except MacroErr ParsedArguments
  | [] => six (chars! "RTS_GENERAL_") []
  | .literal s :: rest =>
    match loop 1 [] rest with
    | .ok setups => six s setups
    | .error e => .error e
  | _ :: _ => .error .firstNotLiteral

end ParsedArguments

/-- `ident_to_variables`, moledyn_proc/src/lib.rs:204-293. -/
def identToVariables (ident : Str) : List Str :=
  if ident = chars! "ContCircSystem" ∨ ident = chars! "ContCubicSystem" then
    [chars! "sys_size", chars! "dim"]
  else if ident = chars! "ContCylindricalSystem" then
    [chars! "sys_radius", chars! "sys_length", chars! "dim"]
  else if ident = chars! "ContBoundaryTarget" ∨ ident = chars! "ContBulkTarget" then
    [chars! "target_pos", chars! "target_size"]
  else if ident = chars! "ContPassiveIndepAgent" then
    [chars! "mtype", chars! "itype", chars! "num_agent"]
  else if ident = chars! "ContPassiveMergeAgent" then
    [chars! "mtype", chars! "itype", chars! "ptl_radius", chars! "alpha", chars! "num_agent"]
  else if ident = chars! "ContPassiveExpAgent" then
    [chars! "mtype", chars! "itype", chars! "gamma", chars! "exp_dim", chars! "strength", chars! "num_agent"]
  else if ident = chars! "ContPassiveLJAgent" then
    [chars! "mtype", chars! "itype", chars! "ptl_size", chars! "strength", chars! "num_agent"]
  else if ident = chars! "ConstStep" then
    [chars! "dt", chars! "tmax"]
  else if ident = chars! "ExponentialStep" then
    [chars! "dt_min", chars! "dt_max", chars! "length", chars! "tmax"]
  else if ident = chars! "VariableSimulation" then
    [chars! "num_ensemble", chars! "idx_set", chars! "seed", chars! "output_dir"]
  else if ident = chars! "ParVariableSimulation" then
    [chars! "num_ensemble", chars! "seed", chars! "n_thrd", chars! "output_dir"]
  else if ident = chars! "ProcessSimulation" then
    [chars! "num_ensemble", chars! "period", chars! "idx_set", chars! "seed", chars! "output_dir"]
  else []

/-- What a name of the program stands for after the macro: an argument structure (src/setup.rs:41), the value of a
field (moledyn_proc/src/lib.rs:311-315), or something else the macro makes (the command line, the data set, the system,
the target, the agents, the clock, the simulation, the writer: src/setup.rs:53, 59, 78, 91). -/
inductive Bound where
  | args (fs : List Field) (v : Vals fs)
  | value (f : Field) (x : f.V)
  | made

/-- The names in scope, the latest first (a later `let` hides an earlier one of the same name) (Rust language; used at
moledyn_proc/src/lib.rs:310-316). -/
abbrev Scope := List (Str × Bound)

/-- the name as the program sees it (Rust language; used at moledyn_proc/src/lib.rs:310-316). -/
def Scope.find (env : Scope) (n : Str) : Option Bound := List.lookup n env

/-- the field `n` of an argument structure, `$arg.$var`, moledyn_proc/src/lib.rs:311-315. -/
def fieldNamed (n : Str) : (fs : List Field) → Vals fs → Option Bound
  | [], _ => none
  | f :: fs, v => if n = f.name then some (.value f v.1) else fieldNamed n fs v.2

/-- `let var = arg.var.clone();` for the names in turn, moledyn_proc/src/lib.rs:311-315; none when the program does not
compile (`arg` is not an argument structure, or has no such field). -/
def declare (arg : Str) (env : Scope) : List Str → Option Scope
  | [] => some env
  | n :: ns =>
    match env.find arg with
    | some (.args fs v) =>
      match fieldNamed n fs v with
      | some b => declare arg ((n, b) :: env) ns
      | none => none
    | _ => none

/-- the names given to the five argument structures, moledyn_proc/src/lib.rs:194-197. -/
def argNames : List Str :=
  [chars! "sys_arg", chars! "target_arg", chars! "agent_arg", chars! "time_arg", chars! "sim_arg"]

/-- the five blocks of declarations one after the other, moledyn_proc/src/lib.rs:295-316. -/
def declareAll (env : Scope) : List (Str × Str) → Option Scope
  | [] => some env
  | (arg, ident) :: rest =>
    match declare arg env (identToVariables ident) with
    | some env => declareAll env rest
    | none => none

/-- the argument structures read by `read_arguments!`, in scope under their names (src/setup.rs:39-43). -/
def bindArgs (env : Scope) : (Ss : List Schema) → List Str → AllVals Ss → Scope
  | [], _, _ => env
  | _ :: _, [], _ => env
  | S :: Ss, n :: ns, v => bindArgs ((n, .args S.fields v.1) :: env) Ss ns v.2

/-- the names `setup_simulation!` makes besides the argument structures: `args` before them (src/setup.rs:78) -/
def namesBefore : List Str := [chars! "args"]

/-- and the names made at the end: the system, target, agents, clock, simulation (src/setup.rs:52-54) and the writer
(src/setup.rs:59), as given at moledyn_proc/src/lib.rs:330-336. -/
def namesAfter : List Str :=
  [chars! "sys", chars! "target", chars! "vec_agents", chars! "timeiter", chars! "simulation", chars! "writer"]

/-- names bound to something the macro makes (src/setup.rs:53, 59, 78, 91). -/
def bindMade (env : Scope) : List Str → Scope
  | [] => env
  | n :: ns => bindMade ((n, .made) :: env) ns

/-- The names in scope after `simulation!`, moledyn_proc/src/lib.rs:344-359: `args`, the argument structures and
`dataset` (`proc_setup_simulation`), the declarations (`proc_variable_declare`), and what
`export_simulation_info!` makes.  `setups` are the six identifiers, `Ss` the argument structures that the last five stand
for, `v` what was read from the command line. -/
def scopeAfter (p : ParsedArguments) (Ss : List Schema) (v : AllVals Ss) : Option Scope :=
  (declareAll (bindMade (bindArgs (bindMade [] namesBefore) Ss argNames v) [chars! "dataset"])
    (argNames.zip (p.setups.drop 1))).map fun env => bindMade env namesAfter

end Moledyn
