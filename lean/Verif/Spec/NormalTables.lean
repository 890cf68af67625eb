import Verif.Model.Ziggurat
import Verif.Model.Fl
/-
What is used of the tables of the ziggurat method.
-/
namespace Moledyn

/-- The tables: widths `x 0, …, x 256` that fall from less than 4 to 0, none less than half the one before except the last;
heights `f 255 < 0.99` and `f 256 = 1`; the tail begins between 3.65 and 3.66. -/
structure NormalTables (t : ZigTables ℝ) : Prop where
  nonneg : ∀ i ≤ 256, 0 ≤ t.x i
  le_four : ∀ i ≤ 256, t.x i ≤ 4
  pos : ∀ i < 255, 0 < t.x (i + 1)
  half : ∀ i < 255, t.x i ≤ 2 * t.x (i + 1)
  last : t.x 256 = 0
  small : t.x 255 ≤ 0.22
  height : t.f 255 ≤ 0.99
  top : t.f 256 = 1
  tail : 3.65 ≤ t.r ∧ t.r ≤ 3.66
  ln : t.ln = Real.log

end Moledyn
