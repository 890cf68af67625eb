import Verif.Model.Pcg
/-
The normal random numbers behind src/random_mod/mod.rs:75-121: `StandardNormal` of the crate rand_distr 0.2 (the ziggurat method),
written down from the published source of that crate (it is not part of /repo).  The tables of the method are parameters.
-/
namespace Moledyn

/-- `ZIG_NORM_X`, `ZIG_NORM_F`, `ZIG_NORM_R` of rand_distr, and the natural logarithm (used by `get_gaussian`,
src/random_mod/mod.rs:79). -/
structure ZigTables (F : Type) where
  x : Nat → F
  f : Nat → F
  r : F
  ln : F → F

section
variable {F : Type} [Fl F]

/-- `rng.gen::<f64>()` of rand: 53 bits, a number in [0, 1) (src/random_mod/mod.rs:79). -/
def standard01 (w : BitVec 64) : F := Fl.lit ((w >>> 11).toNat / 2 ^ 53)

/-- the number in [-1, 1) of the ziggurat: 52 bits make a number in [2, 4), from which 3 is taken (src/random_mod/mod.rs:79). -/
def symmetric01 (w : BitVec 64) : F := Fl.lit (2 + (w >>> 12).toNat / 2 ^ 51) - Fl.lit 3

/-- the loop for the tails, `while -2.0 * y < x * x { .. }` (src/random_mod/mod.rs:79).  Fuelled. -/
def ZigTables.tail (t : ZigTables F) : Nat → F → F → Pcg64 → Option (F × Pcg64)
  | 0, _, _, _ => none
  | n + 1, x, y, g =>
    if Fl.lt (Fl.lit (-2) * y) (x * x) then
      let a := getUniform (F := F) g
      let b := getUniform (F := F) a.2
      ZigTables.tail t n (t.ln a.1 / t.r) (t.ln b.1) b.2
    else some (x, g)

/-- `get_gaussian`: `rng.sample(StandardNormal)`, src/random_mod/mod.rs:75-80.  Fuelled. -/
def ZigTables.gaussian (t : ZigTables F) : Nat → Pcg64 → Option (F × Pcg64)
  | 0, _ => none
  | n + 1, g =>
    let w := g.nextU64
    let i := (w.1 &&& 0xff#64).toNat
    let u : F := symmetric01 w.1
    let x := u * t.x i
    if Fl.lt (Fl.abs x) (t.x (i + 1)) then some (x, w.2)
    else if i = 0 then
      (ZigTables.tail t (n + 1) Fl.one Fl.zero w.2).map fun r =>
        (if Fl.lt u Fl.zero then r.1 - t.r else t.r - r.1, r.2)
    else
      let s := w.2.nextU64
      if Fl.lt (t.f (i + 1) + (t.f i - t.f (i + 1)) * standard01 s.1) (Fl.exp (-x * x / Fl.two)) then some (x, s.2)
      else ZigTables.gaussian t n s.2

/-- the generator of the crate with both kinds of numbers (src/random_mod/mod.rs:18-121).  If the loops have not ended after `n`
rounds the number is 0; this never happens for `n = 2^129 + 3` (C85). -/
def ZigTables.ops (t : ZigTables F) (n : Nat) : RngOps Pcg64 F :=
  pcgOps fun g => (t.gaussian n g).getD (Fl.zero, g)

end
end Moledyn
