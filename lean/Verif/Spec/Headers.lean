import Verif.Model.Dataset
/-
Vocabulary for C89: what a reader makes of the line where the value of a field is expected.
-/
namespace Moledyn

/-- What the line at the place of the value of `g` amounts to: `none` is the end of the file. -/
inductive LineFor (g : Field) : Option (Except Nat Str) → Res g.V → Prop
  /-- the file has ended -/
  | missing : LineFor g none (.err .invalidFile)
  /-- the operating system could not read the line -/
  | broken (t : Nat) : LineFor g (some (.error t)) (.err (.io t))
  /-- the line does not contain exactly one colon -/
  | colons (s : Str) (h : s.count ':' ≠ 1) : LineFor g (some (.ok s)) (.err .invalidFormat)
  /-- the text behind the colon is that of a value -/
  | value (a w : Str) (x : g.V) (ha : ':' ∉ a) (hw : ':' ∉ w) (h : g.parse (Str.trim w) = .ok x) :
      LineFor g (some (.ok (a ++ ':' :: w))) (.ok x)
  /-- the text behind the colon is not that of a value -/
  | garbage (a w : Str) (ha : ':' ∉ a) (hw : ':' ∉ w) (h : ∀ x, g.parse (Str.trim w) ≠ .ok x) :
      LineFor g (some (.ok (a ++ ':' :: w))) .panic

/-- the lines of `rd` are, one by one, lines for the values `v`. -/
def Fits : (fs : List Field) → Reader → Vals fs → Prop
  | [], _, _ => True
  | g :: fs, rd, v => LineFor g rd.head? (.ok v.1) ∧ Fits fs rd.tail v.2

/-- a failure: an error code, or a panic. -/
def failure {α : Type} : Option ErrorCode → Res α
  | some e => .err e
  | none => .panic

/-- the first line of `rd` that is not a line for the value of its field is line `k`, and it fails with `r`. -/
def FirstBad (fs : List Field) (rd : Reader) (k : Nat) (r : Option ErrorCode) : Prop :=
  (∀ (j : Nat) (h : Field), j < k → fs[j]? = some h → ∃ x, LineFor h rd[j]? (.ok x)) ∧
  ∃ g, fs[k]? = some g ∧ LineFor g rd[k]? (failure r)

/-- the lines of `rd` are, block by block, lines for the values `v`. -/
def FitsAll : (Ss : List Schema) → Reader → AllVals Ss → Prop
  | [], _, _ => True
  | S :: Ss, rd, v => Fits S.fields rd v.1 ∧ FitsAll Ss (rd.drop S.fields.length) v.2

/-- all values of a result file, in the order of the header: those of the structures, then those of the simulation. -/
def headerFields {F : Type} (cs : List (Component F)) (sim : Component F) : List Field :=
  (schemasOf cs).flatMap Schema.fields ++ sim.schema.fields

end Moledyn
