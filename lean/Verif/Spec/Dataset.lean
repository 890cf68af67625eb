import Verif.Model.Dataset
import Verif.Spec.Setup
import Verif.Spec.Analysis
/-
Vocabulary for grouping result files.
-/
namespace Moledyn
variable {F D A : Type}

/-- what a directory entry contributes: the dataset in the header of a readable result file, and the lines
after the separator line. -/
def Entry.contributes (fromFile : Reader → Res D × Reader) : Entry → Option (D × Reader)
  | .file rd =>
    match fromFile rd with
    | (.ok d, rd) => some (d, rd.drop 1)
    | _ => none
  | _ => none

/-- all lines of data of the files whose dataset is in the class of `d`, in directory order. -/
def groupData {K : Type} [DecidableEq K] (cls : D → K) (fromFile : Reader → Res D × Reader) (d : D)
    (es : List Entry) : Reader :=
  (((es.filterMap (Entry.contributes fromFile)).filter fun p => cls p.1 = cls d).map Prod.snd).flatten

/-- an entry that ends the whole analysis: an unreadable directory entry or a header that panics. -/
def Entry.fatal (fromFile : Reader → Res D × Reader) : Entry → Prop
  | .bad _ => True
  | .file rd => (fromFile rd).1 = .panic
  | _ => False

/-- one more structure at the end. -/
def AllVals.snoc : {Ss : List Schema} → {S : Schema} → AllVals Ss → Vals S.fields → AllVals (Ss ++ [S])
  | [], _, _, x => (x, ())
  | _ :: _, _, v, x => (v.1, AllVals.snoc v.2 x)

/-- the readable numbers on the lines, when all of them are readable. -/
def samplesOf (f : NumFmt F) : Reader → Option (List F)
  | [] => some []
  | .error _ :: _ => none
  | .ok l :: rd => (f.parse (Str.trim l)).bind fun x => (samplesOf f rd).map fun xs => x :: xs

/-- the printed value of the first field with the given name. -/
def fieldText : (fs : List Field) → Vals fs → Str → Option (Res Str)
  | [], _, _ => none
  | f :: fs, v, n => if f.name = n then some (f.print v.1) else fieldText fs v.2 n

end Moledyn
