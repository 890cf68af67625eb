import Verif.Model.Target
import Verif.Lemmas.System
/-
Property theorems C33 (src/target_mod/cont_bulk.rs).
-/
namespace Moledyn.Props
open Moledyn

/-- Exact arithmetic: `check_find` of a target of radius `r` at `c` reports true exactly for the points of
the open ball: those whose distance from `c` is less than `r`. -/
theorem C33_open_ball (c p : Pos ℝ) (r : ℝ) (h : c.length = p.length) :
    ∃ b, (BulkTarget.new c r).checkFind p = .ok b ∧
      (b = true ↔ radius (List.zipWith (fun x y => x - y) p c) < r) := by
  unfold BulkTarget.checkFind BulkTarget.distance BulkTarget.new
  rw [Pos.distance_eq c p h, Pos.sumSq_diff_comm]
  refine ⟨decide (radius (List.zipWith (fun x y => x - y) p c) < r), ?_, by simp⟩
  simp only [Res.bind_ok, fl_lt]
  change (if decide (radius (List.zipWith (fun x y => x - y) p c) < r) = true then _ else _) = _
  by_cases hlt : radius (List.zipWith (fun x y => x - y) p c) < r <;> simp [hlt]

/-- Any arithmetic: a position of another dimension gives InvalidDimension, never an answer; and
`convert_from` and `new` accept every radius, so also negative ones. -/
theorem C33_dimension {F : Type} [Fl F] (ty : TargetType) (c p : Pos F) (r : F) :
    (c.length ≠ p.length → (BulkTarget.convertFrom ty c r).checkFind p = .err .invalidDimension ∧
      (BulkTarget.new c r).checkFind p = .err .invalidDimension) ∧
    (c.length = p.length → ∃ b, (BulkTarget.convertFrom ty c r).checkFind p = .ok b) ∧
    ((BulkTarget.convertFrom ty c r).targetType = ty ∧ (BulkTarget.convertFrom ty c r).targetPos = c ∧
      (BulkTarget.convertFrom ty c r).targetSize = r) ∧
    BulkTarget.new c r = BulkTarget.convertFrom .continuousInBulk c r := by
  refine ⟨fun h => ?_, fun h => ?_, ⟨rfl, rfl, rfl⟩, rfl⟩
  · simp [BulkTarget.checkFind, BulkTarget.distance, BulkTarget.convertFrom, BulkTarget.new, Pos.distance,
      Pos.dim, h]
  · unfold BulkTarget.checkFind BulkTarget.distance BulkTarget.convertFrom Pos.distance Pos.dim
    rw [if_neg (by simpa using h)]
    simp only [Res.bind_ok]
    split
    · exact ⟨_, rfl⟩
    · exact ⟨_, rfl⟩

/-- Exact arithmetic: a target of radius 0 or less is never found, and the centre is found exactly when the
radius is positive. -/
theorem C33_degenerate (c p : Pos ℝ) (r : ℝ) (h : c.length = p.length) :
    (r ≤ 0 → (BulkTarget.new c r).checkFind p = .ok false) ∧
    ((BulkTarget.new c r).checkFind c = .ok true ↔ 0 < r) := by
  constructor
  · intro hr
    obtain ⟨b, hb, hi⟩ := C33_open_ball c p r h
    rw [hb]
    cases b with
    | false => rfl
    | true =>
      have := hi.1 rfl
      have h0 := radius_nonneg (List.zipWith (fun x y => x - y) p c)
      linarith
  · obtain ⟨b, hb, hi⟩ := C33_open_ball c c r rfl
    have h0 : radius (List.zipWith (fun x y => x - y) c c) = 0 := by
      have : Pos.sumSq (Pos.diff c c) = 0 := (Pos.sumSq_diff_eq_zero c c rfl).2 rfl
      change Real.sqrt (Pos.sumSq (Pos.diff c c)) = 0
      rw [this, Real.sqrt_zero]
    rw [h0] at hi
    rw [hb, ← hi]; simp

example : ([0, 0] : Pos ℝ).length = ([3, 4] : Pos ℝ).length := rfl

end Moledyn.Props
