import Verif.Model.Random
/-
Whole-number arithmetic, for running concrete examples inside the kernel.  It is one possible `Fl`; theorems
proved for every `Fl` hold for it, and examples computed with it show that their hypotheses can be met.
-/
namespace Moledyn

/-- integers as numbers; `sqrt` is the integer part of the root of a number below 10000, the other functions
are crude. -/
structure Z where
  val : Int
deriving DecidableEq

namespace Z
/-- integer part of the square root, searched among 0..100. -/
def isqrt (x : Int) : Int := ((List.range 100).filter fun k => decide ((k : Int) * k ≤ x)).getLastD 0

instance : Fl Z where
  add a b := ⟨a.val + b.val⟩
  sub a b := ⟨a.val - b.val⟩
  mul a b := ⟨a.val * b.val⟩
  div a b := ⟨a.val / b.val⟩
  neg a := ⟨-a.val⟩
  lit q := ⟨q.num / q.den⟩
  ofNat n := ⟨n⟩
  abs a := ⟨a.val.natAbs⟩
  sqrt a := ⟨isqrt a.val⟩
  exp _ := ⟨1⟩
  log2 a := ⟨Nat.log2 a.val.toNat⟩
  powf a _ := a
  floor a := a
  ceil a := a
  toNat a := a.val.toNat
  lt a b := decide (a.val < b.val)
  le a b := decide (a.val ≤ b.val)
  maxVal := ⟨1000000⟩

/-- a list of numbers as random source; 0 when it is used up. -/
def draws : RngOps (List Int) Z :=
  let draw := fun (g : List Int) => match g with | [] => (⟨0⟩, []) | x :: g => ((⟨x⟩ : Z), g)
  ⟨draw, draw⟩
end Z
end Moledyn
