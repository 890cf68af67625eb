import Verif.Model.Setup
import Verif.Model.Analysis
/-
Model of `construct_dataset!`, `derive_hash!`, the `simulation!` procedural macro's choice of variables,
and of the reading part of `analyze` in src/analysis.rs.
-/
namespace Moledyn
variable {F : Type}

/-! ### datasets -/

/-- a variable of a dataset: all variables used by the crate are `f64` or `usize` (src/analysis.rs:31-52). -/
inductive DataVar (F : Type) where
  | real (x : F)
  | nat (n : Nat)

namespace DataVar
/-- `self.$var as f64` (src/macros.rs:139). -/
def asF64 [Fl F] : DataVar F → F
  | real x => x
  | nat n => Fl.ofNat n

/-- `{}` of the value (src/analysis.rs:77-82). -/
def display (f : NumFmt F) : DataVar F → Str
  | real x => f.print x
  | nat n => Str.printNat n
end DataVar

/-- the structure made by `construct_dataset!`, src/analysis.rs:32-36: named variables, and the variables
of the simulation part (in braces), which is optional. -/
structure DataSet (F : Type) where
  vars : List (Str × DataVar F)
  simVars : List (Str × DataVar F)

/-- `x as usize` of a `f64`, saturating at `usize::MAX` (src/macros.rs:146). -/
def toUsize [Fl F] (x : F) : Nat := min (Fl.toNat x) (2 ^ 64 - 1)

/-- what `derive_hash!` feeds to the hasher for one variable, src/macros.rs:139-146. -/
def hashWord [Fl F] (x : F) : Nat :=
  let c := x * Fl.lit (10 ^ 10)
  if Fl.lt c Fl.zero then toUsize (-c + Fl.one) else toUsize (c + Fl.zero)

namespace DataSet

/-- everything fed to the hasher: the variables in order, without those of the simulation part,
src/analysis.rs:104 and src/macros.rs:137-147. -/
def key [Fl F] (d : DataSet F) : List Nat := d.vars.map fun v => hashWord v.2.asF64

/-- `PartialEq`, src/analysis.rs:106-115: equal 64-bit digests.  The digest function of `DefaultHasher` is
an arbitrary function `dh` of what it is fed. -/
def eqv [Fl F] (dh : List Nat → Nat) (a b : DataSet F) : Bool := dh a.key == dh b.key

/-- `"_name_value"` for every variable (src/analysis.rs:73-99). -/
def nameParts (f : NumFmt F) (l : List (Str × DataVar F)) : Str :=
  (l.map fun v => ['_'] ++ v.1 ++ ['_'] ++ v.2.display f).flatten

/-- `export_file`, src/analysis.rs:73-85. -/
def exportFile (f : NumFmt F) (pre : Str) (d : DataSet F) : Str :=
  pre ++ nameParts f d.vars ++ nameParts f d.simVars ++ chars! ".dat"

/-- `export_file_removed_idx`, src/analysis.rs:88-97. -/
def exportFileRemovedIdx (f : NumFmt F) (pre : Str) (d : DataSet F) : Str :=
  pre ++ nameParts f d.vars ++ chars! ".dat"

/-- `export_form`, src/macros.rs:157-167: the padded names. -/
def exportForm (width : Nat) (names : List Str) : Str := (names.map (Str.padRight width)).flatten

/-- `export_data`, src/macros.rs:205-231: the padded values, each followed by a tab; `pe` is `{:e}` of a
`f64`.  (The error branch is for types the crate does not use here.) -/
def exportData (pe : F → Str) (width : Nat) (d : DataSet F) : Str :=
  (d.vars.map fun v =>
    Str.padRight width (match v.2 with | .real x => pe x | .nat n => Str.printNat n) ++ ['\t']).flatten

end DataSet

/-! ### the variables chosen by `simulation!` -/

/-- One component of a simulation: its argument structure and the variables that go into the dataset
(src/analysis.rs:32-33). -/
structure Component (F : Type) where
  schema : Schema
  pick : Vals schema.fields → List (Str × DataVar F)

/-- the structures of components (src/analysis.rs:32-33). -/
abbrev schemasOf (cs : List (Component F)) : List Schema := cs.map Component.schema

/-- the variables picked from all components (src/analysis.rs:41-51). -/
def pickAll : (cs : List (Component F)) → AllVals (schemasOf cs) → List (Str × DataVar F)
  | [], _ => []
  | c :: cs, v => c.pick v.1 ++ pickAll cs v.2

/-- `new` of a dataset, src/analysis.rs:41-51. -/
def DataSet.new (cs : List (Component F)) (sim : Component F) (v : AllVals (schemasOf cs))
    (s : Vals sim.schema.fields) : DataSet F := ⟨pickAll cs v, sim.pick s⟩

/-- `from_file`, src/analysis.rs:56-70, on a file that could be opened. -/
def DataSet.fromFile (cs : List (Component F)) (sim : Component F) (rd : Reader) :
    Res (DataSet F) × Reader :=
  match readAll (schemasOf cs) (rd.drop 1) with
  | (.ok v, rd) =>
    match readArgsFromLines sim.schema.fields rd with
    | (.ok s, rd) => (.ok (DataSet.new cs sim v s), rd)
    | (.err e, rd) => (.err e, rd)
    | (.panic, rd) => (.panic, rd)
  | (.err e, rd) => (.err e, rd)
  | (.panic, rd) => (.panic, rd)

section Components
variable (f : NumFmt F)

/-- moledyn_proc/src/lib.rs:64-69. -/
def circComponent : Component F where
  schema := circSchema f
  pick := fun (_, _, size, dim, _) => [(chars! "sys_size", .real size), (chars! "dim", .nat dim)]

/-- moledyn_proc/src/lib.rs:70-75. -/
def cubicComponent : Component F where
  schema := cubicSchema f
  pick := fun (_, _, size, dim, _) => [(chars! "sys_size", .real size), (chars! "dim", .nat dim)]

/-- moledyn_proc/src/lib.rs:90-95. -/
def bulkTargetComponent : Component F where
  schema := bulkTargetSchema f
  pick := fun (_, _, size, _) => [(chars! "target_size", .real size)]

/-- moledyn_proc/src/lib.rs:98-103. -/
def indepComponent : Component F where
  schema := indepSchema f
  pick := fun (_, _, _, n, _) => [(chars! "num_agent", .nat n)]

/-- moledyn_proc/src/lib.rs:110-115. -/
def expComponent : Component F where
  schema := expSchema f
  pick := fun (_, _, _, gamma, _, strength, n, _) =>
    [(chars! "gamma", .real gamma), (chars! "strength", .real strength), (chars! "num_agent", .nat n)]

/-- moledyn_proc/src/lib.rs:116-121. -/
def ljComponent : Component F where
  schema := ljSchema f
  pick := fun (_, _, _, size, strength, n, _) =>
    [(chars! "ptl_size", .real size), (chars! "strength", .real strength), (chars! "num_agent", .nat n)]

/-- moledyn_proc/src/lib.rs:124-129. -/
def constStepComponent : Component F where
  schema := constStepSchema f
  pick := fun (dt, tmax, _) => [(chars! "dt", .real dt), (chars! "tmax", .real tmax)]

/-- moledyn_proc/src/lib.rs:130-135. -/
def expStepComponent : Component F where
  schema := expStepSchema f
  pick := fun (dtMin, dtMax, len, tmax, _) =>
    [(chars! "dt_min", .real dtMin), (chars! "dt_max", .real dtMax), (chars! "length", .nat len),
     (chars! "tmax", .real tmax)]

/-- moledyn_proc/src/lib.rs:138-143. -/
def variableSimComponent : Component F where
  schema := variableSimSchema
  pick := fun (_, idx, _, _, _) => [(chars! "idx_set", .nat idx)]

/-- moledyn_proc/src/lib.rs:144-149. -/
def parVariableSimComponent : Component F where
  schema := parVariableSimSchema
  pick := fun (_, _, thr, _, _) => [(chars! "n_thrd", .nat thr)]

/-- moledyn_proc/src/lib.rs:150-155. -/
def processSimComponent : Component F where
  schema := processSimSchema f
  pick := fun (_, period, idx, _, _, _) => [(chars! "period", .real period), (chars! "idx_set", .nat idx)]

/-- the names `ident_to_dataset` uses for each structure, moledyn_proc/src/lib.rs:62-157, with the structure
(`ContBoundaryTarget` is not part of the crate: src/target_mod/mod.rs:24 comments it out). -/
def chosenNames : List (Schema × List Str) :=
  [(circSchema f, [chars! "sys_size", chars! "dim"]),
   (cubicSchema f, [chars! "sys_size", chars! "dim"]),
   (cylSchema f, [chars! "radius", chars! "length", chars! "dim"]),
   (bulkTargetSchema f, [chars! "target_size"]),
   (indepSchema f, [chars! "num_agent"]),
   (mergeSchema f, [chars! "radius", chars! "alpha", chars! "num_agent"]),
   (expSchema f, [chars! "gamma", chars! "strength", chars! "num_agent"]),
   (ljSchema f, [chars! "ptl_size", chars! "strength", chars! "num_agent"]),
   (constStepSchema f, [chars! "dt", chars! "tmax"]),
   (expStepSchema f, [chars! "dt_min", chars! "dt_max", chars! "length", chars! "tmax"]),
   (variableSimSchema, [chars! "idx_set"]),
   (parVariableSimSchema, [chars! "n_thrd"]),
   (processSimSchema f, [chars! "period", chars! "idx_set"])]
end Components

/-! ### the reading loop of `analyze` -/

/-- What `analyze` does differently for the three analyses: making an analysis for a new group, reading one
line of data into it, and whether it is skipped in the end when it holds no ensemble
(src/analysis.rs:501-614, 864-985, 1246-1380). -/
structure Analyzer (A : Type) where
  fresh : Res A
  line : A → Str → Res A
  skip : A → Bool

/-- an entry of the data directory: a sub-directory, a file that cannot be opened, a file, or an entry that
cannot be read (error tag) (src/analysis.rs:565-576). -/
inductive Entry where
  | dir
  | unopenable (tag : Nat)
  | file (rd : Reader)
  | bad (tag : Nat)

namespace Analyzer
variable {A : Type}

/-- the lines of data of one file, src/analysis.rs:592-596, 958-962, 1337-1344. -/
def lines (z : Analyzer A) (a : A) : Reader → Res A
  | [] => .ok a
  | .error t :: _ => .err (.io t)
  | .ok l :: rd => (z.line a l).bind fun a => z.lines a rd

/-- the hash map: groups in the order in which they were made (the real iteration order is unspecified).
`get_mut`: the group whose dataset equals the given one, changed by `g`.  Simplification: the map finds an
entry exactly when the datasets are equal (src/analysis.rs:578-596). -/
def update {D : Type} (eq : D → D → Bool) (d : D) (g : A → Res A) : List (D × A) → Res (List (D × A))
  | [] => .ok []
  | (d', a) :: m =>
    if eq d' d then (g a).map fun a => (d', a) :: m
    else (update eq d g m).map fun m => (d', a) :: m

/-- does the map contain the dataset (src/analysis.rs:578-587). -/
def mem {D : Type} (eq : D → D → Bool) (d : D) (m : List (D × A)) : Bool := m.any fun p => eq p.1 d

/-- one entry of the directory, src/analysis.rs:568-599 (also 934-965, 1313-1347). -/
def entry {D : Type} (z : Analyzer A) (eq : D → D → Bool) (fromFile : Reader → Res D × Reader)
    (m : List (D × A)) : Entry → Res (List (D × A))
  | .bad t => .err (.io t)
  | .dir => .ok m
  | .unopenable _ => .ok m
  | .file rd =>
    match fromFile rd with
    | (.err _, _) => .ok m
    | (.panic, _) => .panic
    | (.ok d, rd) =>
      (if mem eq d m then .ok m else z.fresh.map fun a => m ++ [(d, a)]).bind fun m =>
        update eq d (fun a => z.lines a (rd.drop 1)) m

/-- the loop over the directory, src/analysis.rs:567-599 (also 933-965, 1312-1347). -/
def loop {D : Type} (z : Analyzer A) (eq : D → D → Bool) (fromFile : Reader → Res D × Reader) :
    List (D × A) → List Entry → Res (List (D × A))
  | m, [] => .ok m
  | m, e :: es => (z.entry eq fromFile m e).bind fun m => z.loop eq fromFile m es

end Analyzer

section Analyzers
variable [Fl F] (f : NumFmt F)

/-- a panic or nothing: `add_ensemble` and `add_pair` return no value
(src/analysis.rs:386-399, 704-718, 1091-1118). -/
def settled {A : Type} (r : A × Res Unit) : Res A := r.2.map fun _ => r.1

/-- `TimeAnalysis::analyze`: src/analysis.rs:582-588 and 592-596; groups without data are drawn too. -/
def timeAnalyzer (mn mx b l : F) : Analyzer (TimeAnalysis F) where
  fresh := match Bins.updateFromBinSize Bins.new mn mx b l with
    | (bins, .ok ()) => .ok (TimeAnalysis.allocateVectors { TimeAnalysis.new with bins := bins })
    | (_, .err e) => .err e
    | (_, .panic) => .panic
  line a s := (Res.expect (f.parse (Str.trim s))).bind fun t => settled (a.addEnsemble t)
  skip _ := false

/-- all words of a line as numbers; a word that is not a number panics (src/analysis.rs:960, 1339). -/
def parseWords : List Str → Res (List F)
  | [] => .ok []
  | w :: ws => (Res.expect (f.parse w)).bind fun x => (parseWords ws).map fun xs => x :: xs

/-- `TimeVecAnalysis::analyze`: src/analysis.rs:948-954, 958-962, 968-970. -/
def vecAnalyzer (numVar : Nat) (mn mx b l : F) : Analyzer (TimeVecAnalysis F) where
  fresh := match Bins.updateFromBinSize Bins.new mn mx b l with
    | (bins, .ok ()) => .ok (TimeVecAnalysis.allocateVectors { TimeVecAnalysis.new numVar with bins := bins })
    | (_, .err e) => .err e
    | (_, .panic) => .panic
  line a s := (parseWords f (Str.words (Str.trim s))).bind fun xs => settled (a.addEnsemble xs)
  skip a := a.ensemble = 0

/-- `FromStr for Pair<f64>`, src/analysis.rs:987-1002: parentheses are dropped anywhere, the rest is split
at commas; a part that is not a number panics, a number of parts other than two is an error. -/
def pairFromStr (s : Str) : Res (F × F) :=
  (parseWords f (Str.splitBy (· == ',') (s.filter fun c => c != '(' && c != ')'))).bind fun xs =>
    match xs with
    | [x, y] => .ok (x, y)
    | _ => .err .invalidNumberOfArguments

/-- the pairs of a line, src/analysis.rs:1339-1342. -/
def addPairs (a : ProcessAnalysis F) : List Str → Res (ProcessAnalysis F)
  | [] => .ok a
  | w :: ws => (pairFromStr f w).bind fun p => (settled (a.addPair p.1 p.2)).bind fun a => addPairs a ws

/-- `ProcessAnalysis::analyze`: src/analysis.rs:1327-1333, 1337-1344, 1351-1353. -/
def processAnalyzer (mn mx b l : F) : Analyzer (ProcessAnalysis F) where
  fresh := match Bins.updateFromBinSize Bins.new mn mx b l with
    | (bins, .ok ()) => .ok (ProcessAnalysis.allocateVectors { ProcessAnalysis.new with bins := bins })
    | (_, .err e) => .err e
    | (_, .panic) => .panic
  line a s := (addPairs f a (Str.words (Str.trim s))).map ProcessAnalysis.addEnsemble
  skip a := a.ensemble = 0

/-- what the words given to an analysis mean: window, bin sizes, directory (src/analysis.rs:504-534). -/
structure AnalysisArgs (F : Type) where
  numVar : Nat
  mn : F
  mx : F
  b : F
  l : F
  dir : Str

/-- the words of `TimeAnalysis::analyze` and `ProcessAnalysis::analyze`, src/analysis.rs:511-534 and
1256-1279 (words are not trimmed; a word that is not understood panics). -/
def timeArgs (args : List Str) : Res (AnalysisArgs F) :=
  match args with
  | [a0, a1, a2, dir] =>
    (Res.expect (f.parse a0)).bind fun mn => (Res.expect (f.parse a1)).bind fun mx =>
      (Res.expect (Str.parseNat a2)).bind fun n =>
        (Bins.convertNumBinToBinSize mn mx n).map fun r => ⟨0, mn, mx, r.1, r.2, dir⟩
  | [a0, a1, a2, a3, dir] =>
    (Res.expect (f.parse a0)).bind fun mn => (Res.expect (f.parse a1)).bind fun mx =>
      (Res.expect (f.parse a2)).bind fun b => (Res.expect (f.parse a3)).map fun l => ⟨0, mn, mx, b, l, dir⟩
  | _ => .err .invalidNumberOfArguments

/-- the words of `TimeVecAnalysis::analyze`, src/analysis.rs:875-900. -/
def vecArgs (args : List Str) : Res (AnalysisArgs F) :=
  match args with
  | [n0, a0, a1, a2, dir] =>
    (Res.expect (Str.parseNat n0)).bind fun k =>
    (Res.expect (f.parse a0)).bind fun mn => (Res.expect (f.parse a1)).bind fun mx =>
      (Res.expect (Str.parseNat a2)).bind fun n =>
        (Bins.convertNumBinToBinSize mn mx n).map fun r => ⟨k, mn, mx, r.1, r.2, dir⟩
  | [n0, a0, a1, a2, a3, dir] =>
    (Res.expect (Str.parseNat n0)).bind fun k =>
    (Res.expect (f.parse a0)).bind fun mn => (Res.expect (f.parse a1)).bind fun mx =>
      (Res.expect (f.parse a2)).bind fun b => (Res.expect (f.parse a3)).map fun l => ⟨k, mn, mx, b, l, dir⟩
  | _ => .err .invalidNumberOfArguments

end Analyzers
end Moledyn
