import Verif.Model.Random
/-
Vocabulary for random numbers: what a generator delivers, independent of how the code asks for it.
-/
namespace Moledyn

/-- the first `n` numbers delivered by a generator in state `g`. -/
def delivered {G F : Type} (draw : G → F × G) : Nat → G → List F
  | 0, _ => []
  | n + 1, g => (draw g).1 :: delivered draw n (draw g).2

/-- the state of the generator after `n` draws. -/
def advanced {G F : Type} (draw : G → F × G) : Nat → G → G
  | 0, g => g
  | n + 1, g => advanced draw n (draw g).2

end Moledyn
