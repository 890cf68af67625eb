import Verif.Model.Setup
/-
The result file of a simulation while it is being written: `BufWriter<&File>` (Rust std) as used by
`export_simulation_info!` (src/setup.rs) and by the main programs.
-/
namespace Moledyn

/-- A file opened through `BufWriter::new(&output)`, src/setup.rs:58-59: what has been handed to the operating system, and
what is still in the memory of the program. -/
structure OutFile where
  disk : Str
  buf : Str

namespace OutFile

/-- `fs::File::create`, src/setup.rs:58: an existing file of this name is emptied. -/
def create (_old : Str) : OutFile := ⟨[], []⟩

/-- the two calls the programs make: `write!` and `flush()` (src/setup.rs:61-68, examples/mfpt_exp.rs:81-82). -/
inductive Op where
  | write (s : Str)
  | flush

/-- A finished call.  `write_all` of `BufWriter` with capacity `cap` (Rust std; src/setup.rs:61-67): what does not fit into the
buffer makes it be written out first; a text as long as the buffer is not buffered.  Simplification: lengths are counted in
characters (the theorems hold for every capacity). -/
def step (cap : Nat) (w : OutFile) : Op → OutFile
  | .write s =>
    let w1 : OutFile := if cap < w.buf.length + s.length then ⟨w.disk ++ w.buf, []⟩ else w
    if cap ≤ s.length then ⟨w1.disk ++ w1.buf ++ s, []⟩ else ⟨w1.disk, w1.buf ++ s⟩
  | .flush => ⟨w.disk ++ w.buf, []⟩

/-- several finished calls (src/setup.rs:61-68). -/
def exec (cap : Nat) (w : OutFile) (ops : List Op) : OutFile := ops.foldl (step cap) w

end OutFile

/-- the blocks of all structures, one `write!` each, src/setup.rs:63-65. -/
def printBlocks (width : Nat) : (Ss : List Schema) → AllVals Ss → Res (List Str)
  | [], _ => .ok []
  | S :: Ss, v =>
    (printConfiguration width S.fields v.1).bind fun a => (printBlocks width Ss v.2).map fun b => a :: b

open OutFile in
/-- what a program does with its result file: the header (src/setup.rs:61-68), then for every ensemble the line with its result
and a `flush` (examples/mfpt_exp.rs:81-82; `write!` hands the text before the end of the line and the end of the line over
one after the other). -/
def outputOps (blocks : List Str) (results : List Str) : List Op :=
  [.write (descriptionsLine ++ ['\n'])] ++ blocks.map .write ++ [.write (dataStartsLine ++ ['\n']), .flush] ++
    results.flatMap fun l => [.write l, .write ['\n'], .flush]

end Moledyn
