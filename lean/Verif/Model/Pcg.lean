import Verif.Model.Random
/-
The generator behind src/random_mod/mod.rs:18-32: `Pcg64` of the crate rand_pcg 0.2 and `Open01` of rand 0.7, written down from
the published sources of these crates (they are not part of /repo).  The values asserted in `test_random_vec`,
src/random_mod/mod.rs:165-178, come out exactly (see the examples of C84).  `StandardNormal` stays arbitrary.
-/
namespace Moledyn

/-- `Pcg64` = `Lcg128Xsl64` of rand_pcg, handed around by src/random_mod/mod.rs:18-121. -/
structure Pcg64 where
  state : BitVec 128
  increment : BitVec 128
deriving DecidableEq

namespace Pcg64

/-- the multiplier of rand_pcg's 128-bit generators (src/random_mod/mod.rs:23). -/
def multiplier : BitVec 128 := 0x2360ED051FC65DA44385DF649FCCF645#128

/-- `step`: one round of the linear congruential generator, arithmetic modulo 2^128 (src/random_mod/mod.rs:31). -/
def step (g : Pcg64) : Pcg64 := { g with state := g.state * multiplier + g.increment }

/-- `Pcg64::new(state, stream)`, used in src/random_mod/mod.rs:23. -/
def new (state stream : BitVec 128) : Pcg64 :=
  let increment := (stream <<< 1) ||| 1#128
  step ⟨state + increment, increment⟩

/-- the output function XSL-RR: the halves are combined by exclusive or and rotated by the six highest bits
(src/random_mod/mod.rs:31). -/
def output (s : BitVec 128) : BitVec 64 :=
  (((s >>> 64).setWidth 64) ^^^ (s.setWidth 64)).rotateRight (s >>> 122).toNat

/-- `next_u64` (src/random_mod/mod.rs:31). -/
def nextU64 (g : Pcg64) : BitVec 64 × Pcg64 := (output g.step.state, g.step)

end Pcg64

/-- `rng_seed`, src/random_mod/mod.rs:18-24. -/
def rngSeed (seed : BitVec 128) : Pcg64 := .new seed 0xa02bdbf7bb3c0a7ac28fa16a64abf96#128

section
variable {F : Type} [Fl F]

/-- `Open01` of rand for a `f64`: 52 bits make a number in [1, 2), from which `1 - EPSILON / 2` is taken
(src/random_mod/mod.rs:31). -/
def open01 (w : BitVec 64) : F := Fl.lit (1 + (w >>> 12).toNat / 2 ^ 52) - Fl.lit (1 - 1 / 2 ^ 53)

/-- `get_uniform`, src/random_mod/mod.rs:27-32. -/
def getUniform (g : Pcg64) : F × Pcg64 := (open01 g.nextU64.1, g.nextU64.2)

/-- the generator as the programs of the crate use it; `gaussian` is `get_gaussian`, src/random_mod/mod.rs:75-80, any
function at all. -/
def pcgOps (gaussian : Pcg64 → F × Pcg64) : RngOps Pcg64 F := ⟨getUniform, gaussian⟩

end
end Moledyn
