import Verif.Model.TypesText
/-
Model of src/argument.rs and of the argument structures declared with `impl_argument_trait!`.

A structure is described by the list of its fields; `Vals` is the type of its values.  One generic
definition models the code that the macros generate for every structure.
-/
namespace Moledyn

namespace Str

/-- `parse::<u128>()`: like `parseNat` with 128 bits (Rust std)
(used by `word.parse()`, src/argument.rs:114, 154, for `seed`, src/setup.rs:113-210). -/
def parseU128 (s : Str) : Option Nat :=
  if stripPlus s = [] then none
  else
    match parseDigits 0 (stripPlus s) with
    | none => none
    | some n => if n < 2 ^ 128 then some n else none

/-- `{0:1$}` of a string: padded with blanks on the right up to `width` characters (Rust std)
(used at src/argument.rs:129 and src/macros.rs:157-250). -/
def padRight (width : Nat) (s : Str) : Str := s ++ List.replicate (width - s.length) ' '

/-- drops a final carriage return (used by `lines()`, src/analysis.rs:58-61). -/
def stripCR (s : Str) : Str :=
  match s.getLast? with
  | some '\r' => s.dropLast
  | _ => s

/-- the pieces of `split('\n')`, turned into lines: a carriage return before each line feed is dropped,
and an empty last piece is not a line (used by `lines()`, src/analysis.rs:58-61). -/
def toLines : List Str → List Str
  | [] => []
  | [w] => if w = [] then [] else [w]
  | w :: ws => stripCR w :: toLines ws

/-- `BufRead::lines` over the text of a file (Rust std) (used at src/analysis.rs:58-61). -/
def lines (s : Str) : List Str := toLines (splitBy (· == '\n') s)

end Str

/-- One field of an argument structure: its name, the type of its values, `Display` (which may panic:
empty positions) and `FromStr` (the `$var` of src/argument.rs:98-159). -/
structure Field where
  name : Str
  V : Type
  print : V → Res Str
  parse : Str → Res V

/-- Values of a list of fields (the Rust structure with these fields) (src/argument.rs:165-235). -/
@[reducible] def Vals : List Field → Type
  | [] => Unit
  | f :: fs => f.V × Vals fs

namespace Vals

/-- values of two field lists put together (src/argument.rs:165-235: type names, then variables). -/
def append : {fs gs : List Field} → Vals fs → Vals gs → Vals (fs ++ gs)
  | [], _, _, w => w
  | _ :: _, _, v, w => (v.1, append v.2 w)

end Vals

/-- the value of a field read from text; a text that is not understood panics (`expect`),
src/argument.rs:113-114 and 153-154. -/
def Field.read (f : Field) (s : Str) : Res f.V := Res.expectOk (f.parse (Str.trim s))

/-- `print_configuration`, src/argument.rs:122-134: for every field the padded name, `": "`, the value
and a line feed. -/
def printConfiguration (width : Nat) : (fs : List Field) → Vals fs → Res Str
  | [], _ => .ok []
  | f :: fs, v =>
    (f.print v.1).bind fun s =>
      (printConfiguration width fs v.2).map fun r =>
        Str.padRight width f.name ++ [':', ' '] ++ s ++ ['\n'] ++ r

/-- what `Lines<BufReader<File>>` still has to deliver: a line, or an operating-system error (a tag)
(src/argument.rs:140, src/analysis.rs:58-61). -/
abbrev Reader := List (Except Nat Str)

/-- a reader over lines that can all be read (src/analysis.rs:58-61). -/
def Reader.ofLines (ls : List Str) : Reader := ls.map Except.ok

/-- `read_args_from_lines`, src/argument.rs:136-159.  Returns the reader after the call, also when it
fails; the call stops at the first line that is missing, unreadable, not of the form `a:b`, or whose
value is not understood. -/
def readArgsFromLines : (fs : List Field) → Reader → Res (Vals fs) × Reader
  | [], rd => (.ok (), rd)
  | f :: fs, rd =>
    match rd with
    | [] => (.err .invalidFile, [])
    | .error t :: rd => (.err (.io t), rd)
    | .ok list :: rd =>
      match Str.splitBy (· == ':') list with
      | [_, w] =>
        match f.read w with
        | .ok x =>
          match readArgsFromLines fs rd with
          | (.ok v, rd) => (.ok (x, v), rd)
          | (.err e, rd) => (.err e, rd)
          | (.panic, rd) => (.panic, rd)
        | .err e => (.err e, rd)
        | .panic => (.panic, rd)
      | _ => (.err .invalidFormat, rd)

/-- the words read by `read_args_from_vec` one after the other, src/argument.rs:108-117;
`iter.next().unwrap()` panics when there is no word left. -/
def readWords : (fs : List Field) → List Str → Res (Vals fs)
  | [], _ => .ok ()
  | _ :: _, [] => .panic
  | f :: fs, w :: ws => (f.read w).bind fun x => (readWords fs ws).map fun v => (x, v)

/-- What `impl_argument_trait!` is given, src/argument.rs:163-192: description, number of arguments,
fields with a fixed value (`$type_name`, `$type_default`) and fields given by the user (`$var` with its
explanation). -/
structure Schema where
  desc : Str
  numArgs : Nat
  types : List Field
  defaults : Vals types
  vars : List (Field × Str)

namespace Schema

/-- the fields given by the user (src/argument.rs:165-235). -/
abbrev varFields (S : Schema) : List Field := S.vars.map Prod.fst

/-- all fields of the argument structure, src/macros.rs:64-74. -/
abbrev fields (S : Schema) : List Field := S.types ++ S.varFields

/-- `read_args_from_vec`, src/argument.rs:98-120. -/
def readArgsFromVec (S : Schema) (args : List Str) : Res (Vals S.fields) :=
  if args.length ≠ S.numArgs then .err .invalidNumberOfArguments
  else (readWords S.varFields args).map (Vals.append S.defaults)

/-- `info`, src/argument.rs:68-81. -/
def info (S : Schema) (width : Nat) : Str :=
  (S.vars.map fun v => Str.padRight width v.1.name ++ [':', ' '] ++ v.2 ++ ['\n']).flatten

/-- `brief_info`, src/argument.rs:83-96. -/
def briefInfo (S : Schema) : Str :=
  S.desc ++ (chars! " arguments : ") ++
    (S.vars.map fun v => ['('] ++ v.1.name ++ [')', ' ']).flatten

end Schema

/-! ### the field types -/

namespace Field

/-- a `f64` field (src/argument.rs:112-115, 129, 142-154 at `f64`). -/
def real {F : Type} (f : NumFmt F) (name : Str) : Field :=
  ⟨name, F, fun x => .ok (f.print x), fun s => Res.orInvalid (f.parse s)⟩

/-- a `usize` field (src/argument.rs:112-115, 129, 142-154 at `usize`). -/
def usize (name : Str) : Field :=
  ⟨name, Nat, fun n => .ok (Str.printNat n), fun s => Res.orInvalid (Str.parseNat s)⟩

/-- a `u128` field (src/argument.rs:112-115, 129, 142-154 at `u128`). -/
def u128 (name : Str) : Field :=
  ⟨name, Nat, fun n => .ok (Str.printNat n), fun s => Res.orInvalid (Str.parseU128 s)⟩

/-- a `String` field: printed as it is, parsing never fails (src/argument.rs:112-115, 129, 142-154 at `String`). -/
def string (name : Str) : Field := ⟨name, Str, fun s => .ok s, fun s => .ok s⟩

/-- a `Position<f64>` field (src/position.rs:117-130, 355-365). -/
def position {F : Type} (f : NumFmt F) (name : Str) : Field := ⟨name, Pos F, Pos.display f, Pos.fromStr f⟩

/-- a `SystemType` field (src/system_mod/mod.rs:55-101). -/
def systemType (name : Str) : Field := ⟨name, SystemType, fun t => .ok t.display, SystemType.fromStr⟩

/-- a `BoundaryCond` field (src/system_mod/mod.rs:121-157). -/
def boundaryCond (name : Str) : Field := ⟨name, BoundaryCond, fun t => .ok t.display, BoundaryCond.fromStr⟩

/-- a `TargetType` field (src/target_mod/mod.rs:41-54). -/
def targetType (name : Str) : Field := ⟨name, TargetType, fun t => .ok t.display, TargetType.fromStr⟩

/-- an `AgentType` field (src/agent_mod/types.rs:113-140). -/
def agentType (name : Str) : Field := ⟨name, AgentType, fun t => .ok t.display, AgentType.fromStr⟩

/-- a `MoveType` field (src/agent_mod/types.rs:157-190). -/
def moveType {F : Type} (f : NumFmt F) (name : Str) : Field :=
  ⟨name, MoveType F, fun t => .ok (t.display f), MoveType.fromStr f⟩

/-- an `InitType<f64>` field (src/agent_mod/types.rs:210-243). -/
def initType {F : Type} (f : NumFmt F) (name : Str) : Field :=
  ⟨name, InitType F, InitType.display f, InitType.fromStr f⟩

end Field

/-! ### the structures of the crate -/

section Structures
variable {F : Type} (f : NumFmt F)

/-- `ContCircSystemArguments`, src/system_mod/cont_circ.rs:32-36. -/
def circSchema : Schema where
  desc := chars! "System"
  numArgs := 2
  types := [.systemType (chars! "sys_type"), .boundaryCond (chars! "bctype")]
  defaults := (SystemType.continuousCircular, (BoundaryCond.reflection, ()))
  vars := [(.real f (chars! "sys_size"), chars! "Size of System"),
           (.usize (chars! "dim"), chars! "Dimension of System")]

/-- `ContCubicSystemArguments`, src/system_mod/cont_cubic.rs:38-42. -/
def cubicSchema : Schema where
  desc := chars! "System"
  numArgs := 3
  types := [.systemType (chars! "sys_type")]
  defaults := (SystemType.continuousRectangular, ())
  vars := [(.boundaryCond (chars! "bctype"),
              chars! "Boundary condition. ex) Reflective, Periodic, integer indicates Mixed"),
           (.real f (chars! "sys_size"), chars! "Size of System"),
           (.usize (chars! "dim"), chars! "Dimension of System")]

/-- `ContCylindricalSystemArguments`, src/system_mod/cont_cyl.rs:34-39. -/
def cylSchema : Schema where
  desc := chars! "System"
  numArgs := 5
  types := []
  defaults := ()
  vars := [(.systemType (chars! "sys_type"), chars! "Dimension of circular domain."),
           (.boundaryCond (chars! "bctype"),
              chars! "Boundary condition. ex) Reflective, Periodic, integer indicates Mixed"),
           (.real f (chars! "sys_radius"), chars! "Radius of Circular Domain"),
           (.real f (chars! "sys_length"), chars! "Length of Rectangular Domain (-length, length)"),
           (.usize (chars! "dim"), chars! "Dimension of System")]

/-- `ContBulkTargetArguments`, src/target_mod/cont_bulk.rs:28-31. -/
def bulkTargetSchema : Schema where
  desc := chars! "Target"
  numArgs := 2
  types := [.targetType (chars! "target_type")]
  defaults := (TargetType.continuousInBulk, ())
  vars := [(.position f (chars! "target_pos"),
              chars! "Position of Target ex) 0:0 = (0,0), 1.0:2.0 = (1.0, 2.0)"),
           (.real f (chars! "target_size"), chars! "Size of Target")]

/-- `ContPassiveIndepAgentArguments`, src/agent_mod/cont_passive_indep.rs:81-85. -/
def indepSchema : Schema where
  desc := chars! "Agent"
  numArgs := 3
  types := [.agentType (chars! "agent_type")]
  defaults := (AgentType.continuousPassiveIndependent, ())
  vars := [(.moveType f (chars! "mtype"),
              chars! "Random walk Characterstic. ex) 1.0 : Brownian with D=1 / Levy : Levy walk"),
           (.initType f (chars! "itype"),
              chars! "Initialization method. ex) 0,0 : All at 0,0 / Uniform : Uniform"),
           (.usize (chars! "num_agent"), chars! "Number of Agents")]

/-- `ContPassiveMergeAgentArguments`, src/agent_mod/cont_passive_merge.rs:107-114. -/
def mergeSchema : Schema where
  desc := chars! "Agent"
  numArgs := 5
  types := [.agentType (chars! "agent_type"), .usize (chars! "size")]
  defaults := (AgentType.continuousPassiveInteracting, ((1 : Nat), ()))
  vars := [(.moveType f (chars! "mtype"),
              chars! "Random walk Characterstic. ex) 1.0 : Brownian with D=1 / Levy : Levy walk"),
           (.initType f (chars! "itype"),
              chars! "Initialization method. ex) 0,0 : All at 0,0 / Uniform : Uniform"),
           (.real f (chars! "ptl_radius"), chars! "Radius of particle. When they collide, they merge. ex) 0.1"),
           (.real f (chars! "alpha"), chars! "Exponent of diffusion decrease. D ~ n^alpha ex) 1.0"),
           (.usize (chars! "num_agent"), chars! "Number of Agent")]

/-- `ContPassiveExpAgentArguments`, src/agent_mod/cont_passive_exp.rs:149-156. -/
def expSchema : Schema where
  desc := chars! "Agent"
  numArgs := 6
  types := [.agentType (chars! "agent_type")]
  defaults := (AgentType.continuousPassiveInteracting, ())
  vars := [(.moveType f (chars! "mtype"),
              chars! "Random walk Characterstic. ex) 1.0 : Brownian with D=1 / Levy : Levy walk"),
           (.initType f (chars! "itype"),
              chars! "Initialization method. ex) 0,0 : All at 0,0 / Uniform : Uniform"),
           (.real f (chars! "gamma"), chars! "Typical length scale of interaction. ex) 0.1, 0.5"),
           (.usize (chars! "exp_dim"), chars! "Dimension of system ex) 2, 3"),
           (.real f (chars! "strength"), chars! "Strength of interaction"),
           (.usize (chars! "num_agent"), chars! "Number of Agent")]

/-- `ContPassiveLJAgentArguments`, src/agent_mod/cont_passive_lj.rs:132-138. -/
def ljSchema : Schema where
  desc := chars! "Agent"
  numArgs := 5
  types := [.agentType (chars! "agent_type")]
  defaults := (AgentType.continuousPassiveInteracting, ())
  vars := [(.moveType f (chars! "mtype"),
              chars! "Random walk Characterstic. ex) 1.0 : Brownian with D=1 / Levy : Levy walk"),
           (.initType f (chars! "itype"),
              chars! "Initialization method. ex) 0,0 : All at 0,0 / Uniform : Uniform"),
           (.real f (chars! "ptl_size"), chars! "Particle size of agent. Should be an order of 1 ex) 1.0, 2.0"),
           (.real f (chars! "strength"), chars! "Strength of interaction"),
           (.usize (chars! "num_agent"), chars! "Number of Agent")]

/-- `ConstStepArguments`, src/time_mod/mod.rs:167-169. -/
def constStepSchema : Schema where
  desc := chars! "Time Iterator"
  numArgs := 2
  types := []
  defaults := ()
  vars := [(.real f (chars! "dt"), chars! "Time step size"),
           (.real f (chars! "tmax"),
              chars! "Upper limit of time for computing. ex) 1.0, 0 means INFINITE")]

/-- `ExponentialStepArguments`, src/time_mod/mod.rs:334-338. -/
def expStepSchema : Schema where
  desc := chars! "Time Iterator"
  numArgs := 4
  types := []
  defaults := ()
  vars := [(.real f (chars! "dt_min"), chars! "Initial time step size"),
           (.real f (chars! "dt_max"), chars! "Maximal time step size"),
           (.usize (chars! "length"), chars! "Number of step between time step size increase"),
           (.real f (chars! "tmax"),
              chars! "Upper limit of time for computing. ex) 1.0, 0 means INFINITE")]

/-- `VariableSimulationArguments`, src/setup.rs:124-128. -/
def variableSimSchema : Schema where
  desc := chars! "Variable Simulation"
  numArgs := 4
  types := []
  defaults := ()
  vars := [(.usize (chars! "num_ensemble"), chars! "Number of Ensemble"),
           (.usize (chars! "idx_set"), chars! "Index of Ensemble Set"),
           (.u128 (chars! "seed"), chars! "Initial Seed for Random Number Generator"),
           (.string (chars! "output_dir"), chars! "Directory containing output file")]

/-- `ParVariableSimulationArguments`, src/setup.rs:149-153. -/
def parVariableSimSchema : Schema where
  desc := chars! "Variable Simulation"
  numArgs := 4
  types := []
  defaults := ()
  vars := [(.usize (chars! "num_ensemble"), chars! "Number of Ensemble"),
           (.u128 (chars! "seed"), chars! "Initial Seed for Random Number Generator"),
           (.usize (chars! "n_thrd"), chars! "Number of Thread"),
           (.string (chars! "output_dir"), chars! "Directory containing output file")]

/-- `ProcessSimulationArguments`, src/setup.rs:175-180. -/
def processSimSchema : Schema where
  desc := chars! "Process Simulation"
  numArgs := 5
  types := []
  defaults := ()
  vars := [(.usize (chars! "num_ensemble"), chars! "Number of Ensemble"),
           (.real f (chars! "period"), chars! "Time between recording"),
           (.usize (chars! "idx_set"), chars! "Index of Ensemble Set"),
           (.u128 (chars! "seed"), chars! "Initial Seed for Random Number Generator"),
           (.string (chars! "output_dir"), chars! "Directory containing output file")]

end Structures
end Moledyn
