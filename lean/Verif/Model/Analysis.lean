import Verif.Model.Position
/-
Model of src/analysis.rs: binning, the three analyses, the export loops.  Functions changing `self` return
the new value also when they panic.
-/
namespace Moledyn
variable {F : Type} [Fl F]

/-! ### bins -/

/-- the six fields every analysis uses for binning, src/analysis.rs:316-321, 624-629, 1015-1020. -/
structure Bins (F : Type) where
  minTime : F
  maxTime : F
  binSize : F
  lbinSize : F
  numBin : Nat
  numLbin : Nat

namespace Bins
/-- the bins of a new analysis, src/analysis.rs:337-342. -/
def new : Bins F := ⟨Fl.zero, Fl.zero, Fl.zero, Fl.zero, 0, 0⟩

/-- the bins of the `Default` analyses, src/analysis.rs:357-362, 679-684, 1073-1078. -/
def default : Bins F := ⟨Fl.lit (1 / 10 ^ 15), Fl.lit (10 ^ 13), Fl.lit (10 ^ 10), Fl.lit (12 / 10), 1001, 355⟩

/-- the smallest time: values below 1e-15 are replaced by it, src/analysis.rs:160-166, 186-192, 210-216. -/
def clip (minTime : F) : F :=
  if Fl.lt minTime (Fl.lit (1 / 10 ^ 15)) then Fl.lit (1 / 10 ^ 15) else minTime

/-- `update_from_bin_size`, src/analysis.rs:155-178. -/
def updateFromBinSize (s : Bins F) (minTime maxTime binSize lbinSize : F) : Bins F × Res Unit :=
  if Fl.lt minTime Fl.zero || Fl.lt maxTime minTime || Fl.lt binSize Fl.zero || Fl.lt lbinSize Fl.zero then
    (s, .err .invalidArgumentInput)
  else
    let time := clip minTime
    let numBin := Fl.toNat (Fl.ceil ((maxTime - time) / binSize + Fl.lit (1 / 2)))
    let numLbin := Fl.toNat (Fl.ceil (Fl.log2 (maxTime / time) / Fl.log2 lbinSize + Fl.lit (1 / 2)))
    (⟨time, maxTime, binSize, lbinSize, numBin, numLbin⟩, .ok ())

/-- `convert_num_bin_to_bin_size`, src/analysis.rs:205-221. -/
def convertNumBinToBinSize (minTime maxTime : F) (numBin : Nat) : Res (F × F) :=
  if Fl.lt minTime Fl.zero || Fl.lt maxTime minTime || decide (numBin < 10) then .err .invalidArgumentInput
  else
    let time := clip minTime
    .ok ((maxTime - time) / Fl.ofNat numBin, Fl.powf (maxTime / time) (Fl.one / Fl.ofNat numBin))

/-- `update_from_num_bin`, src/analysis.rs:181-203. -/
def updateFromNumBin (s : Bins F) (minTime maxTime : F) (numBin : Nat) : Bins F × Res Unit :=
  if Fl.lt minTime Fl.zero || Fl.lt maxTime minTime || decide (numBin < 10) then
    (s, .err .invalidArgumentInput)
  else
    let time := clip minTime
    match convertNumBinToBinSize time maxTime numBin with
    | .ok (binSize, lbinSize) => (⟨time, maxTime, binSize, lbinSize, numBin, numBin⟩, .ok ())
    | .err e => (s, .err e)
    | .panic => (s, .panic)

/-- `bin_pos`, src/analysis.rs:224-231. -/
def binPos (s : Bins F) (v : F) : Option Nat :=
  if Fl.lt v s.minTime || Fl.lt s.maxTime v then none
  else some (Fl.toNat (Fl.floor ((v - s.minTime) / s.binSize)))

/-- `lbin_pos`, src/analysis.rs:234-241. -/
def lbinPos (s : Bins F) (v : F) : Option Nat :=
  if Fl.lt v s.minTime || Fl.lt s.maxTime v then none
  else some (Fl.toNat (Fl.floor (Fl.log2 (v / s.minTime) / Fl.log2 s.lbinSize)))
end Bins

namespace Hist
/-- `v[idx] += 1` or `v[idx] += x`: panics out of range (src/analysis.rs:387-397, 705-716, 1104-1117). -/
def bump {T : Type} (f : T → T) (v : List T) (idx : Nat) : List T × Res Unit :=
  match v[idx]? with
  | some x => (v.set idx (f x), .ok ())
  | none => (v, .panic)

/-- `match self.bin_pos(t){Some(idx) => {count[idx] += 1;}, None => ()}` (src/analysis.rs:391-398, 710-717). -/
def bumpAt (v : List Nat) : Option Nat → List Nat × Res Unit
  | some idx => bump (· + 1) v idx
  | none => (v, .ok ())

/-- `for (i, &x) in count.iter().enumerate(){ hist[i] = .. }`: the new values overwrite the front of `hist`;
panics when `hist` is too short (src/analysis.rs:412-418, 735-743). -/
def overwrite (new old : List F) : List F × Res Unit :=
  if new.length ≤ old.length then (new ++ old.drop new.length, .ok ())
  else (new.take old.length, .panic)

/-- linear densities, src/analysis.rs:412-414. -/
def density (dBin : F) (count : List Nat) : List F := count.map fun x => Fl.ofNat x / dBin

/-- logarithmic densities: the width is multiplied by `lbin` after each bin, src/analysis.rs:416-419. -/
def logDensity (lbin : F) : F → List Nat → List F
  | _, [] => []
  | dLbin, x :: xs => (Fl.ofNat x / dLbin) :: logDensity lbin (dLbin * lbin) xs

/-- the loop `while time <= max_time {.. row i ..; time = next; i += 1;}` of the exports,
src/analysis.rs:788-808, 819-838, 1188-1201, 1210-1222.  `row` is what iteration `i` writes, if anything.
Fuelled: with a bin size that does not advance `time` the loop does not end (`none`). -/
def whileRows {R : Type} (maxTime : F) (next : F → F) (row : Nat → F → Res (Option R)) :
    Nat → Nat → F → Option (Res (List R))
  | 0, _, _ => none
  | fuel + 1, i, time =>
    if Fl.le time maxTime then
      match row i time with
      | .ok r => (whileRows maxTime next row fuel (i + 1) (next time)).map fun x => x.map fun l => r.toList ++ l
      | .err e => some (.err e)
      | .panic => some .panic
    else some (.ok [])
end Hist

/-! ### one time per ensemble -/

/-- `TimeAnalysis`, src/analysis.rs:312-327. -/
structure TimeAnalysis (F : Type) where
  mean : F
  stddev : F
  ensemble : Nat
  bins : Bins F
  hist : List F
  lhist : List F
  count : List Nat
  lcount : List Nat

namespace TimeAnalysis
/-- `new`, src/analysis.rs:331-347. -/
def new : TimeAnalysis F := ⟨Fl.zero, Fl.zero, 0, Bins.new, [], [], [], []⟩

/-- `Default`, src/analysis.rs:350-368. -/
def default : TimeAnalysis F :=
  ⟨Fl.zero, Fl.zero, 0, Bins.default, List.replicate 1001 Fl.zero, List.replicate 355 Fl.zero,
   List.replicate 1001 0, List.replicate 355 0⟩

/-- `allocate_vectors`, src/analysis.rs:373-378. -/
def allocateVectors (a : TimeAnalysis F) : TimeAnalysis F :=
  { a with hist := List.replicate a.bins.numBin Fl.zero, lhist := List.replicate a.bins.numLbin Fl.zero,
           count := List.replicate a.bins.numBin 0, lcount := List.replicate a.bins.numLbin 0 }

/-- `add_ensemble`, src/analysis.rs:385-399. -/
def addEnsemble (a : TimeAnalysis F) (fpt : F) : TimeAnalysis F × Res Unit :=
  let a1 := { a with ensemble := a.ensemble + 1, mean := a.mean + fpt, stddev := a.stddev + fpt * fpt }
  match Hist.bumpAt a1.count (a1.bins.binPos fpt) with
  | (c, .ok ()) =>
    let r := Hist.bumpAt a1.lcount (a1.bins.lbinPos fpt)
    ({ a1 with count := c, lcount := r.1 }, r.2)
  | (c, r) => ({ a1 with count := c }, r)

/-- `draw`, src/analysis.rs:402-420. -/
def draw (a : TimeAnalysis F) : TimeAnalysis F × Res Unit :=
  let en : F := Fl.ofNat a.ensemble
  let mean := a.mean / en
  let stddev := Fl.sqrt (a.stddev / en - Fl.powi mean 2)
  let dBin := en * a.bins.binSize
  let lbin := a.bins.lbinSize
  let dLbin := a.bins.minTime * en * (lbin - Fl.one)
  let a1 := { a with mean := mean, stddev := stddev }
  match Hist.overwrite (Hist.density dBin a.count) a.hist with
  | (h, .ok ()) =>
    let r := Hist.overwrite (Hist.logDensity lbin dLbin a.lcount) a.lhist
    ({ a1 with hist := h, lhist := r.1 }, r.2)
  | (h, r) => ({ a1 with hist := h }, r)

/-- `clear`, src/analysis.rs:428-434 (the densities are kept). -/
def clear (a : TimeAnalysis F) : TimeAnalysis F :=
  { a with mean := Fl.zero, stddev := Fl.zero, ensemble := 0, count := List.replicate a.bins.numBin 0,
           lcount := List.replicate a.bins.numLbin 0 }

/-- the rows written by `export_distribution` (time, count, density), src/analysis.rs:453-465: rows whose
density is below 1e-15 are skipped.  Text formatting is left out. -/
def exportRows (a : TimeAnalysis F) : Res (List (F × Nat × F)) :=
  let rec go : Nat → F → List F → Res (List (F × Nat × F))
    | _, _, [] => .ok []
    | i, time, x :: xs =>
      let time := time + a.bins.binSize
      if Fl.lt (Fl.abs x) (Fl.lit (1 / 10 ^ 15)) then go (i + 1) time xs
      else match a.count[i]? with
        | none => .panic
        | some n => (go (i + 1) time xs).map fun r => (time, n, x) :: r
  go 0 (a.bins.minTime - a.bins.binSize / Fl.two) a.hist

/-- the rows written by `export_log_scaled_distribution`, src/analysis.rs:468-481. -/
def exportLogRows (a : TimeAnalysis F) : Res (List (F × Nat × F)) :=
  let rec go : Nat → F → List F → Res (List (F × Nat × F))
    | _, _, [] => .ok []
    | i, time, x :: xs =>
      let time := time * a.bins.lbinSize
      if Fl.lt (Fl.abs x) (Fl.lit (1 / 10 ^ 15)) then go (i + 1) time xs
      else match a.lcount[i]? with
        | none => .panic
        | some n => (go (i + 1) time xs).map fun r => (time, n, x) :: r
  go 0 (a.bins.minTime / Fl.sqrt a.bins.lbinSize) a.lhist
end TimeAnalysis

/-! ### several times per ensemble -/

/-- `TimeVecAnalysis`, src/analysis.rs:619-635. -/
structure TimeVecAnalysis (F : Type) where
  means : List F
  stddevs : List F
  ensemble : Nat
  bins : Bins F
  numVar : Nat
  hist : List (List F)
  lhist : List (List F)
  count : List (List Nat)
  lcount : List (List Nat)

namespace TimeVecAnalysis
/-- `new`, src/analysis.rs:639-656. -/
def new (numVar : Nat) : TimeVecAnalysis F :=
  ⟨List.replicate numVar Fl.zero, List.replicate numVar Fl.zero, 0, Bins.new, numVar, [], [], [], []⟩

/-- `Default`, src/analysis.rs:673-692: ten variables. -/
def default : TimeVecAnalysis F :=
  ⟨List.replicate 10 Fl.zero, List.replicate 10 Fl.zero, 0, Bins.default, 10,
    List.replicate 10 (List.replicate 1001 Fl.zero), List.replicate 10 (List.replicate 355 Fl.zero),
    List.replicate 10 (List.replicate 1001 0), List.replicate 10 (List.replicate 355 0)⟩

/-- `allocate_vectors`, src/analysis.rs:662-670. -/
def allocateVectors (a : TimeVecAnalysis F) : TimeVecAnalysis F :=
  { a with means := List.replicate a.numVar Fl.zero, stddevs := List.replicate a.numVar Fl.zero,
           hist := List.replicate a.numVar (List.replicate a.bins.numBin Fl.zero),
           lhist := List.replicate a.numVar (List.replicate a.bins.numLbin Fl.zero),
           count := List.replicate a.numVar (List.replicate a.bins.numBin 0),
           lcount := List.replicate a.numVar (List.replicate a.bins.numLbin 0) }

/-- a position of the parallel arrays of the struct during `add_ensemble` (src/analysis.rs:704-718). -/
structure Acc (F : Type) where
  means : List F
  stddevs : List F
  count : List (List Nat)
  lcount : List (List Nat)

/-- the loop of `add_ensemble`, src/analysis.rs:706-718: entry `idx` of each array is updated with the
`idx`-th value; panics when an array is too short (simplified: then without updating the entries before the
missing one; no array is shorter than another in an allocated analysis). -/
def addLoop (b : Bins F) : List F → Acc F → Acc F × Res Unit
  | [], s => (s, .ok ())
  | t :: ts, ⟨m :: ms, d :: ds, c :: cs, l :: ls⟩ =>
    match Hist.bumpAt c (b.binPos t) with
    | (c', .ok ()) =>
      match Hist.bumpAt l (b.lbinPos t) with
      | (l', .ok ()) =>
        let r := addLoop b ts ⟨ms, ds, cs, ls⟩
        (⟨(m + t) :: r.1.means, (d + t * t) :: r.1.stddevs, c' :: r.1.count, l' :: r.1.lcount⟩, r.2)
      | (l', r) => (⟨(m + t) :: ms, (d + t * t) :: ds, c' :: cs, l' :: ls⟩, r)
    | (c', r) => (⟨(m + t) :: ms, (d + t * t) :: ds, c' :: cs, l :: ls⟩, r)
  | _ :: _, s => (s, .panic)

/-- `add_ensemble`, src/analysis.rs:696-719: an analysis made for 0 values adapts to the first ensemble;
otherwise a wrong number of values panics. -/
def addEnsemble (a : TimeVecAnalysis F) (values : List F) : TimeVecAnalysis F × Res Unit :=
  let a0 := if a.numVar = 0 then allocateVectors { a with numVar := values.length } else a
  if a0.numVar ≠ values.length then (a0, .panic)
  else
    let r := addLoop a0.bins values ⟨a0.means, a0.stddevs, a0.count, a0.lcount⟩
    ({ a0 with ensemble := a0.ensemble + 1, means := r.1.means, stddevs := r.1.stddevs, count := r.1.count,
               lcount := r.1.lcount }, r.2)

/-- the arrays `draw` works on (src/analysis.rs:722-745). -/
structure DrawAcc (F : Type) where
  means : List F
  stddevs : List F
  hist : List (List F)
  lhist : List (List F)

/-- the loop `for idx in 0..num_var` of `draw`, src/analysis.rs:727-745. -/
def drawLoop (b : Bins F) (en : F) : Nat → List (List Nat) → List (List Nat) → DrawAcc F → DrawAcc F × Res Unit
  | 0, _, _, s => (s, .ok ())
  | n + 1, c :: cs, l :: ls, ⟨m :: ms, d :: ds, h :: hs, lh :: lhs⟩ =>
    let mean := m / en
    let stddev := Fl.sqrt (d / en - Fl.powi mean 2)
    match Hist.overwrite (Hist.density (en * b.binSize) c) h with
    | (h', .ok ()) =>
      match Hist.overwrite (Hist.logDensity b.lbinSize (b.minTime * en * (b.lbinSize - Fl.one)) l) lh with
      | (lh', .ok ()) =>
        let r := drawLoop b en n cs ls ⟨ms, ds, hs, lhs⟩
        (⟨mean :: r.1.means, stddev :: r.1.stddevs, h' :: r.1.hist, lh' :: r.1.lhist⟩, r.2)
      | (lh', r) => (⟨mean :: ms, stddev :: ds, h' :: hs, lh' :: lhs⟩, r)
    | (h', r) => (⟨mean :: ms, stddev :: ds, h' :: hs, lh :: lhs⟩, r)
  | _ + 1, _, _, s => (s, .panic)

/-- `draw`, src/analysis.rs:722-746. -/
def draw (a : TimeVecAnalysis F) : TimeVecAnalysis F × Res Unit :=
  let r := drawLoop a.bins (Fl.ofNat a.ensemble) a.numVar a.count a.lcount ⟨a.means, a.stddevs, a.hist, a.lhist⟩
  ({ a with means := r.1.means, stddevs := r.1.stddevs, hist := r.1.hist, lhist := r.1.lhist }, r.2)

/-- `clear`, src/analysis.rs:753-760. -/
def clear (a : TimeVecAnalysis F) : TimeVecAnalysis F :=
  { a with means := List.replicate a.numVar Fl.zero, stddevs := List.replicate a.numVar Fl.zero, ensemble := 0,
           count := List.replicate a.numVar (List.replicate a.bins.numBin 0),
           lcount := List.replicate a.numVar (List.replicate a.bins.numLbin 0) }

/-- the cells (count, density) of bin `i` of the first `n` variables; panics when one is missing
(src/analysis.rs:786-806, 817-837). -/
def cells (count : List (List Nat)) (hist : List (List F)) (i : Nat) : Nat → Res (List (Nat × F))
  | 0 => .ok []
  | n + 1 =>
    match cells count hist i n with
    | .ok l =>
      match (count[n]?).bind (·[i]?), (hist[n]?).bind (·[i]?) with
      | some c, some x => .ok (l ++ [(c, x)])
      | _, _ => .panic
    | r => r

/-- one row: written when some density is above 1e-15, src/analysis.rs:789-804, 820-835. -/
def row (a : TimeVecAnalysis F) (count : List (List Nat)) (hist : List (List F)) (i : Nat) (time : F) :
    Res (Option (F × List (Nat × F))) :=
  (cells count hist i a.numVar).map fun l =>
    if l.any fun c => Fl.gt c.2 (Fl.lit (1 / 10 ^ 15)) then some (time, l) else none

/-- the rows written by `export_distribution`, src/analysis.rs:783-810.  Text formatting is left out. -/
def exportRows (a : TimeVecAnalysis F) (fuel : Nat) : Option (Res (List (F × List (Nat × F)))) :=
  Hist.whileRows a.bins.maxTime (fun t => t + a.bins.binSize) (a.row a.count a.hist) fuel 0
    (a.bins.minTime + a.bins.binSize / Fl.two)

/-- the rows written by `export_log_scaled_distribution`, src/analysis.rs:814-840. -/
def exportLogRows (a : TimeVecAnalysis F) (fuel : Nat) : Option (Res (List (F × List (Nat × F)))) :=
  Hist.whileRows a.bins.maxTime (fun t => t * a.bins.lbinSize) (a.row a.lcount a.lhist) fuel 0
    (a.bins.minTime * Fl.sqrt a.bins.lbinSize)
end TimeVecAnalysis

/-! ### a process in time -/

/-- `ProcessAnalysis`, src/analysis.rs:1010-1027. -/
structure ProcessAnalysis (F : Type) where
  longTermMean : F
  longTermStddev : F
  totPoint : Nat
  ensemble : Nat
  bins : Bins F
  mean : List F
  stddev : List F
  count : List Nat
  logMean : List F
  logStddev : List F
  lcount : List Nat

namespace ProcessAnalysis
/-- `new`, src/analysis.rs:1031-1050. -/
def new : ProcessAnalysis F := ⟨Fl.zero, Fl.zero, 0, 0, Bins.new, [], [], [], [], [], []⟩

/-- `Default`, src/analysis.rs:1067-1088. -/
def default : ProcessAnalysis F :=
  ⟨Fl.zero, Fl.zero, 0, 0, Bins.default, List.replicate 1001 Fl.zero, List.replicate 1001 Fl.zero,
    List.replicate 1001 0, List.replicate 355 Fl.zero, List.replicate 355 Fl.zero, List.replicate 355 0⟩

/-- `allocate_vectors`, src/analysis.rs:1056-1064. -/
def allocateVectors (a : ProcessAnalysis F) : ProcessAnalysis F :=
  { a with mean := List.replicate a.bins.numBin Fl.zero, stddev := List.replicate a.bins.numBin Fl.zero,
           count := List.replicate a.bins.numBin 0,
           logMean := List.replicate a.bins.numLbin Fl.zero, logStddev := List.replicate a.bins.numLbin Fl.zero,
           lcount := List.replicate a.bins.numLbin 0 }

/-- `add_ensemble`, src/analysis.rs:1091-1093. -/
def addEnsemble (a : ProcessAnalysis F) : ProcessAnalysis F := { a with ensemble := a.ensemble + 1 }

/-- `count[idx] += 1; mean[idx] += value; stddev[idx] += value * value`, src/analysis.rs:1105-1109 and
1113-1117. -/
def bump3 (c : List Nat) (m s : List F) (value : F) : Option Nat → (List Nat × List F × List F) × Res Unit
  | none => ((c, m, s), .ok ())
  | some idx =>
    match Hist.bump (· + 1) c idx with
    | (c', .ok ()) =>
      match Hist.bump (· + value) m idx with
      | (m', .ok ()) => let r := Hist.bump (· + value * value) s idx; ((c', m', r.1), r.2)
      | (m', r) => ((c', m', s), r)
    | (c', r) => ((c', m, s), r)

/-- `add_pair`, src/analysis.rs:1096-1120. -/
def addPair (a : ProcessAnalysis F) (time value : F) : ProcessAnalysis F × Res Unit :=
  let a1 := { a with totPoint := a.totPoint + 1, longTermMean := a.longTermMean + value,
                     longTermStddev := a.longTermStddev + value * value }
  match bump3 a1.count a1.mean a1.stddev value (a1.bins.binPos time) with
  | ((c, m, s), .ok ()) =>
    let r := bump3 a1.lcount a1.logMean a1.logStddev value (a1.bins.lbinPos time)
    ({ a1 with count := c, mean := m, stddev := s, lcount := r.1.1, logMean := r.1.2.1, logStddev := r.1.2.2 }, r.2)
  | ((c, m, s), r) => ({ a1 with count := c, mean := m, stddev := s }, r)

/-- the two averaging loops of `draw`, src/analysis.rs:1132-1135, 1140-1143. -/
def average : List Nat → List F → List F → (List F × List F) × Res Unit
  | [], m, s => ((m, s), .ok ())
  | x :: xs, m :: ms, s :: ss =>
    let m' := m / Fl.ofNat x
    let s' := Fl.sqrt (s / Fl.ofNat x - Fl.powi m' 2)
    let r := average xs ms ss
    ((m' :: r.1.1, s' :: r.1.2), r.2)
  | _ :: _, m, s => ((m, s), .panic)

/-- `draw`, src/analysis.rs:1123-1144. -/
def draw (a : ProcessAnalysis F) : ProcessAnalysis F × Res Unit :=
  let en : F := Fl.ofNat a.totPoint
  let ltm := a.longTermMean / en
  let lts := Fl.sqrt (a.longTermStddev / en - Fl.powi ltm 2)
  let a1 := { a with longTermMean := ltm, longTermStddev := lts }
  match average a.count a.mean a.stddev with
  | ((m, s), .ok ()) =>
    let r := average a.lcount a.logMean a.logStddev
    ({ a1 with mean := m, stddev := s, logMean := r.1.1, logStddev := r.1.2 }, r.2)
  | ((m, s), r) => ({ a1 with mean := m, stddev := s }, r)

/-- `clear`, src/analysis.rs:1151-1163: `tot_point` is not reset. -/
def clear (a : ProcessAnalysis F) : ProcessAnalysis F :=
  { a with longTermMean := Fl.zero, longTermStddev := Fl.zero, ensemble := 0,
           mean := List.replicate a.bins.numBin Fl.zero, stddev := List.replicate a.bins.numBin Fl.zero,
           count := List.replicate a.bins.numBin 0,
           logMean := List.replicate a.bins.numLbin Fl.zero, logStddev := List.replicate a.bins.numLbin Fl.zero,
           lcount := List.replicate a.bins.numLbin 0 }

/-- the rows written by `export_distribution` (time, count, mean, spread), src/analysis.rs:1183-1203: rows whose
mean is not above 1e-15 are skipped.  Text formatting is left out. -/
def exportRows (a : ProcessAnalysis F) (fuel : Nat) : Option (Res (List (F × Nat × F × F))) :=
  Hist.whileRows a.bins.maxTime (fun t => t + a.bins.binSize) (fun i time =>
    match a.count[i]?, a.mean[i]?, a.stddev[i]? with
    | some n, some x, some dx => .ok (if Fl.gt x (Fl.lit (1 / 10 ^ 15)) then some (time, n, x, dx) else none)
    | _, _, _ => .panic) fuel 0 (a.bins.minTime + a.bins.binSize / Fl.two)

/-- the rows written by `export_log_scaled_distribution`, src/analysis.rs:1205-1224. -/
def exportLogRows (a : ProcessAnalysis F) (fuel : Nat) : Option (Res (List (F × Nat × F × F))) :=
  Hist.whileRows a.bins.maxTime (fun t => t * a.bins.lbinSize) (fun i time =>
    match a.lcount[i]?, a.logMean[i]?, a.logStddev[i]? with
    | some n, some x, some dx => .ok (if Fl.gt x (Fl.lit (1 / 10 ^ 15)) then some (time, n, x, dx) else none)
    | _, _, _ => .panic) fuel 0 (a.bins.minTime * Fl.sqrt a.bins.lbinSize)
end ProcessAnalysis

end Moledyn
