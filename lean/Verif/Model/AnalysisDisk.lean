import Verif.Model.Export
/-
What `analyze` (src/analysis.rs) does to the disk, call by call, when calls of the operating system may fail, may write less
than they were asked to, and when the program may be killed between any two of them.

The operating system is a list of answers, one for every call that makes a directory, makes a file or writes to one; when
the list is used up the program is killed.  Answers to the calls that read are in `exist` and `listing` (Verif/Model/Export).
Simplifications: `create_dir_all` is one call; interrupted calls that are tried again by std are not answers; `println!` is
left out; a killed program leaves what the calls have handed over (nothing is said about a power failure).
-/
namespace Moledyn
variable {F A : Type}

/-- The answer of the operating system to a call (Rust std, used by `fs::create_dir_all`, `File::create` and
`Write for File`, src/analysis.rs:557-564): done (a write: at most `n` characters were taken), or an error. -/
inductive Answer where
  | done (n : Nat)
  | fail (tag : Nat)
deriving DecidableEq

/-- how a call of the program ended: the answers that are left are for the next calls; `killed`: the program is gone
(src/analysis.rs:557-564). -/
inductive Ended where
  | ok (rest : List Answer)
  | err (tag : Nat) (rest : List Answer)
  | killed
deriving DecidableEq

/-- the texts of the files, by path (src/analysis.rs:557-564). -/
abbrev Files := Str → Option Str

namespace Files
/-- the file gets this text (`File::create`: the empty one; src/analysis.rs:561). -/
def set (fs : Files) (p t : Str) : Files := fun q => if q = p then some t else fs q

/-- text is added to an open file (src/analysis.rs:463). -/
def append (fs : Files) (p t : Str) : Files := fun q => if q = p then some ((fs p).getD [] ++ t) else fs q
end Files

/-- the tag of std's "failed to write whole buffer" (`ErrorKind::WriteZero`; src/analysis.rs:463). -/
def writeZero : Nat := 0

/-- `write_all` of a `File` (Rust std; src/analysis.rs:463): `write` is called until everything is written.
Also `flush_buf` of `BufWriter`: the second component is what has not been written. -/
def writeAll (p : Str) : List Answer → Files → Str → Files × Str × Ended
  | rs, fs, [] => (fs, [], .ok rs)
  | [], fs, c :: s => (fs, c :: s, .killed)
  | .fail t :: rs, fs, c :: s => (fs, c :: s, .err t rs)
  | .done 0 :: rs, fs, c :: s => (fs, c :: s, .err writeZero rs)
  | .done (n + 1) :: rs, fs, c :: s => writeAll p rs (fs.append p ((c :: s).take (n + 1))) ((c :: s).drop (n + 1))

/-- `write` of a `File` (Rust std; src/analysis.rs:484): one call. -/
def writeOnce (p : Str) : List Answer → Files → Str → Files × Ended
  | [], fs, _ => (fs, .killed)
  | .fail t :: rs, fs, _ => (fs, .err t rs)
  | .done n :: rs, fs, s => (fs.append p (s.take n), .ok rs)

/-- the calls of `analyze` that change the disk. -/
inductive Cmd where
  /-- `fs::create_dir_all`, src/analysis.rs:557-559 -/
  | mkdir (p : Str)
  /-- `File::create`, src/analysis.rs:561, 488, 494 -/
  | create (p : Str)
  /-- `write_fmt` into a distribution file: `get_mut()` of a `BufWriter` is the file itself, src/analysis.rs:490, 496 -/
  | file (p s : Str)
  /-- a piece of `write_fmt` into the summary, a `BufWriter`, src/analysis.rs:564, 606 -/
  | table (s : Str)
  /-- `write` into the summary, whose result, the number of bytes taken, is thrown away, src/analysis.rs:484 -/
  | tableOnce (s : Str)
deriving DecidableEq

/-- what `analyze` works on: the files, the directories made so far, and the text in the memory of the `BufWriter` of the
summary (src/analysis.rs:561-562). -/
structure OnDisk where
  files : Files
  dirs : List Str
  buf : Str

namespace OnDisk

/-- `BufWriter::write_all` (`once = false`) and `BufWriter::write` (`once = true`) with capacity `cap` (Rust std;
src/analysis.rs:564, 606, 484): what does not fit makes the buffer be written out first; a text as long as the buffer is not
buffered.  Lengths are counted in characters. -/
def put (cap : Nat) (sum : Str) (once : Bool) (w : OnDisk) (s : Str) (rs : List Answer) : OnDisk × Ended :=
  let next (w : OnDisk) (rs : List Answer) : OnDisk × Ended :=
    if cap ≤ s.length then
      if once then
        let r := writeOnce sum rs w.files s
        ({ w with files := r.1 }, r.2)
      else
        let r := writeAll sum rs w.files s
        ({ w with files := r.1 }, r.2.2)
    else ({ w with buf := w.buf ++ s }, .ok rs)
  if cap < w.buf.length + s.length then
    match writeAll sum rs w.files w.buf with
    | (fs, b, .ok rs) => next { w with files := fs, buf := b } rs
    | (fs, b, e) => ({ w with files := fs, buf := b }, e)
  else next w rs

/-- one call; `sum` is the path of the summary (src/analysis.rs:557-564, 482-499). -/
def step (cap : Nat) (sum : Str) (w : OnDisk) : Cmd → List Answer → OnDisk × Ended
  | .mkdir _, [] => (w, .killed)
  | .mkdir _, .fail t :: rs => (w, .err t rs)
  | .mkdir p, .done _ :: rs => ({ w with dirs := w.dirs ++ [p] }, .ok rs)
  | .create _, [] => (w, .killed)
  | .create _, .fail t :: rs => (w, .err t rs)
  | .create p, .done _ :: rs => ({ w with files := w.files.set p [] }, .ok rs)
  | .file p s, rs =>
    let r := writeAll p rs w.files s
    ({ w with files := r.1 }, r.2.2)
  | .table s, rs => put cap sum false w s rs
  | .tableOnce s, rs => put cap sum true w s rs

/-- the calls one after the other; `?` returns at the first error (src/analysis.rs:557-608). -/
def exec (cap : Nat) (sum : Str) : OnDisk → List Cmd → List Answer → OnDisk × Ended
  | w, [], rs => (w, .ok rs)
  | w, c :: cs, rs =>
    match step cap sum w c rs with
    | (w, .ok rs) => exec cap sum w cs rs
    | r => r

end OnDisk

/-- What an analysis does to the disk, and how it ends when none of these calls fails (`none`: it does not end)
(src/analysis.rs:557-610). -/
structure Script where
  cmds : List Cmd
  last : Option (Res Unit)

/-- first one, then, if it ends well, the other (src/analysis.rs:557-610). -/
def Script.andThen (a b : Script) : Script :=
  match a.last with
  | some (.ok ()) => ⟨a.cmds ++ b.cmds, b.last⟩
  | _ => a

open OnDisk in
/-- A run of the program: the calls, then, unless it was killed, the end of the scope, where the `BufWriter` writes out its
text and ignores errors (Rust std, `Drop for BufWriter`; src/analysis.rs:499, 609).  What is returned is an error, or how the
script ends; `none`: killed, or never ends. -/
def Script.run (cap : Nat) (sum : Str) (p : Script) (w : OnDisk) (rs : List Answer) : OnDisk × Option (Res Unit) :=
  let drop (w : OnDisk) (rs : List Answer) (r : Res Unit) : OnDisk × Option (Res Unit) :=
    match writeAll sum rs w.files w.buf with
    | (fs, b, .killed) => ({ w with files := fs, buf := b }, none)
    | (fs, b, _) => ({ w with files := fs, buf := b }, some r)
  match exec cap sum w p.cmds rs with
  | (w, .killed) => (w, none)
  | (w, .err t rs) => drop w rs (.err (.io t))
  | (w, .ok rs) =>
    match p.last with
    | none => (w, none)
    | some r => drop w rs r

/-! ### the rows of a distribution, one by one -/

/-- what a loop that writes rows has written when it ends, and how it ends (src/analysis.rs:452-481). -/
structure Rows where
  rows : List Str
  last : Option (Res Unit)

/-- `Hist.whileRows` with the rows that are written before a panic, src/analysis.rs:788-808, 819-838, 1188-1201, 1210-1222. -/
def Hist.whileEmit [Fl F] {R : Type} (text : R → Str) (maxTime : F) (next : F → F) (row : Nat → F → Res (Option R)) :
    Nat → Nat → F → Rows
  | 0, _, _ => ⟨[], none⟩
  | fuel + 1, i, time =>
    if Fl.le time maxTime then
      match row i time with
      | .ok r =>
        let q := whileEmit text maxTime next row fuel (i + 1) (next time)
        ⟨(r.map text).toList ++ q.rows, q.last⟩
      | .err e => ⟨[], some (.err e)⟩
      | .panic => ⟨[], some .panic⟩
    else ⟨[], some (.ok ())⟩

/-- the loop of `export_distribution` of `TimeAnalysis` and of its logarithmic sibling with the rows that are written before
a panic, src/analysis.rs:455-463, 471-479. -/
def TimeAnalysis.emit [Fl F] (text : F × Nat × F → Str) (next : F → F) (count : List Nat) : Nat → F → List F → Rows
  | _, _, [] => ⟨[], some (.ok ())⟩
  | i, time, x :: xs =>
    let time := next time
    if Fl.lt (Fl.abs x) (Fl.lit (1 / 10 ^ 15)) then emit text next count (i + 1) time xs
    else match count[i]? with
      | none => ⟨[], some .panic⟩
      | some n =>
        let q := emit text next count (i + 1) time xs
        ⟨text (time, n, x) :: q.rows, q.last⟩

/-- the two loops that write the distributions of a group, src/analysis.rs:490, 496. -/
structure RowWriter (A : Type) where
  linear : A → Rows
  log : A → Rows

/-- `TimeAnalysis`, src/analysis.rs:452-481. -/
def timeWriter [Fl F] (pe : F → Str) (prec : Nat) : RowWriter (TimeAnalysis F) where
  linear a := TimeAnalysis.emit (timeRowText pe prec) (fun t => t + a.bins.binSize) a.count 0
    (a.bins.minTime - a.bins.binSize / Fl.two) a.hist
  log a := TimeAnalysis.emit (timeRowText pe prec) (fun t => t * a.bins.lbinSize) a.lcount 0
    (a.bins.minTime / Fl.sqrt a.bins.lbinSize) a.lhist

/-- `TimeVecAnalysis`, src/analysis.rs:783-840. -/
def vecWriter [Fl F] (pe : F → Str) (prec fuel : Nat) : RowWriter (TimeVecAnalysis F) where
  linear a := Hist.whileEmit (vecRowText pe prec) a.bins.maxTime (fun t => t + a.bins.binSize) (a.row a.count a.hist) fuel 0
    (a.bins.minTime + a.bins.binSize / Fl.two)
  log a := Hist.whileEmit (vecRowText pe prec) a.bins.maxTime (fun t => t * a.bins.lbinSize) (a.row a.lcount a.lhist) fuel 0
    (a.bins.minTime * Fl.sqrt a.bins.lbinSize)

/-- `ProcessAnalysis`, src/analysis.rs:1183-1224. -/
def processWriter [Fl F] (pe : F → Str) (prec fuel : Nat) : RowWriter (ProcessAnalysis F) where
  linear a := Hist.whileEmit (processRowText pe prec) a.bins.maxTime (fun t => t + a.bins.binSize) (fun i time =>
    match a.count[i]?, a.mean[i]?, a.stddev[i]? with
    | some n, some x, some dx => .ok (if Fl.gt x (Fl.lit (1 / 10 ^ 15)) then some (time, n, x, dx) else none)
    | _, _, _ => .panic) fuel 0 (a.bins.minTime + a.bins.binSize / Fl.two)
  log a := Hist.whileEmit (processRowText pe prec) a.bins.maxTime (fun t => t * a.bins.lbinSize) (fun i time =>
    match a.lcount[i]?, a.logMean[i]?, a.logStddev[i]? with
    | some n, some x, some dx => .ok (if Fl.gt x (Fl.lit (1 / 10 ^ 15)) then some (time, n, x, dx) else none)
    | _, _, _ => .panic) fuel 0 (a.bins.minTime * Fl.sqrt a.bins.lbinSize)

/-! ### the script -/

/-- one distribution file: made, then the rows one by one, each handed over in the pieces of `write_fmt`,
src/analysis.rs:486-490, 492-496. -/
def Rows.script (pieces : Str → List Str) (p : Str) (r : Rows) : Script :=
  ⟨.create p :: r.rows.flatMap fun s => (pieces s).map (.file p), r.last⟩

section Script
variable (x : Exporter A) (e : RowWriter A) (f : NumFmt F) (pe : F → Str) (pieces : Str → List Str)

/-- one group: `draw`, the variables and the result in the summary, the two distributions,
src/analysis.rs:602-607, 482-499. -/
def Exporter.groupScript (width : Nat) (pre dir : Str) (d : DataSet F) (a : A) : Script :=
  match x.draw a with
  | (a, .ok ()) =>
    let name := d.exportFileRemovedIdx f pre
    Script.andThen ⟨(pieces (d.exportData pe width)).map .table ++ [.tableOnce (x.brief a ++ ['\n'])], some (.ok ())⟩
      (Script.andThen ((e.linear a).script pieces (dir ++ chars! "/linear_distribution/" ++ name))
        ((e.log a).script pieces (dir ++ chars! "/logarithmic_distribution/" ++ name)))
  | (_, .err er) => ⟨[], some (.err er)⟩
  | (_, .panic) => ⟨[], some .panic⟩

/-- the loop over the groups, src/analysis.rs:601-608 (also 967-977, 1350-1360). -/
def Exporter.groupsScript (skip : A → Bool) (width : Nat) (pre dir : Str) : List (DataSet F × A) → Script
  | [] => ⟨[], some (.ok ())⟩
  | (d, a) :: m =>
    if skip a then groupsScript skip width pre dir m
    else Script.andThen (groupScript x e f pe pieces width pre dir d a) (groupsScript skip width pre dir m)

/-- the summary and the directories, src/analysis.rs:555-565 (also 921-931, 1300-1310). -/
def Exporter.titleScript (names : List Str) (width : Nat) (dir : Str) : Script :=
  ⟨[.mkdir dir, .mkdir (dir ++ chars! "/linear_distribution"), .mkdir (dir ++ chars! "/logarithmic_distribution"),
      .create (dir ++ chars! "/" ++ x.summaryName)] ++
    (pieces (DataSet.exportForm width names ++ DataSet.exportForm width x.labels ++ ['\n'])).map .table, some (.ok ())⟩

/-- `analyze` once the words are understood and the directory `dir` is chosen, src/analysis.rs:555-610 (also 921-979,
1300-1362): the title is written before the data are read. -/
def analyzeScript [Fl F] (z : Analyzer A) (dh : List Nat → Nat) (fromFile : Reader → Res (DataSet F) × Reader)
    (names : List Str) (listing : Str → Option (List Entry)) (width : Nat) (pre dataDir dir : Str) : Script :=
  (x.titleScript pieces names width dir).andThen
    (match z.loop (DataSet.eqv dh) fromFile [] (((listing dataDir).getD []) ++ [Entry.dir]) with
    | .ok m => x.groupsScript e f pe pieces z.skip width pre dir m
    | .err er => ⟨[], some (.err er)⟩
    | .panic => ⟨[], some .panic⟩)

/-- `analyze` on a disk: `summaryDir` chooses the directory (src/analysis.rs:537-553), then the calls follow, lines 555-610.
(`none` in the second component: killed, or does not end.) -/
def analyzeOnDisk [Fl F] (z : Analyzer A) (dh : List Nat → Nat) (fromFile : Reader → Res (DataSet F) × Reader)
    (names : List Str) (exist : Str → Bool) (listing : Str → Option (List Entry)) (date : Str) (width : Nat)
    (pre dataDir : Str) (fuel cap : Nat) (files : Files) (rs : List Answer) : OnDisk × Option (Res Unit) :=
  match summaryDir exist dataDir date fuel with
  | none => (⟨files, [], []⟩, none)
  | some dir => (analyzeScript x e f pe pieces z dh fromFile names listing width pre dataDir dir).run cap
      (dir ++ chars! "/" ++ x.summaryName) ⟨files, [], []⟩ rs
end Script

end Moledyn
