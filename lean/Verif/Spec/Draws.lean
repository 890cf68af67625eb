import Verif.Model.Pcg
/-
Vocabulary for sequences of random numbers.
-/
namespace Moledyn
variable {F : Type} [Fl F]

/-- the generator after `n` calls of `get_uniform`. -/
def afterDraws (F : Type) [Fl F] (n : Nat) (g : Pcg64) : Pcg64 := (fun g => (getUniform (F := F) g).2)^[n] g

/-- the result of the call of `get_uniform` that comes after `n` others. -/
def drawAt (n : Nat) (g : Pcg64) : F := (getUniform (afterDraws F n g)).1

/-- The numbers `1/2^53, 3/2^53, …, (2^53 - 1)/2^53`. -/
def oddGrid (k : Fin (2 ^ 52)) : ℚ := (2 * (k : Nat) + 1) / 2 ^ 53

end Moledyn
