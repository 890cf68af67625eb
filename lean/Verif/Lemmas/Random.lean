import Verif.Spec.Random
import Verif.Model.System
namespace Moledyn

variable {G F : Type} [Fl F]

omit [Fl F] in
@[simp] theorem delivered_length (draw : G → F × G) (n : Nat) (g : G) : (delivered draw n g).length = n := by
  induction n generalizing g with
  | zero => rfl
  | succ n ih => simp [delivered, ih]

omit [Fl F] in
theorem delivered_add (draw : G → F × G) (m n : Nat) (g : G) :
    delivered draw (m + n) g = delivered draw m g ++ delivered draw n (advanced draw m g) := by
  induction m generalizing g with
  | zero => simp [delivered, advanced]
  | succ m ih => rw [Nat.succ_add]; simp [delivered, advanced, ih]

omit [Fl F] in
theorem advanced_add (draw : G → F × G) (m n : Nat) (g : G) :
    advanced draw (m + n) g = advanced draw n (advanced draw m g) := by
  induction m generalizing g with
  | zero => simp [advanced]
  | succ m ih => rw [Nat.succ_add]; simp [advanced, ih]

omit [Fl F] in
theorem sweep_eq (draw : G → F × G) (f : F → F → F) (p : Pos F) (g : G) :
    Random.sweep draw f p g = (List.zipWith f p (delivered draw p.length g), advanced draw p.length g) := by
  induction p generalizing g with
  | nil => rfl
  | cons x p ih =>
    rw [Random.sweep]
    simp only [ih, List.length_cons, delivered, advanced, List.zipWith_cons_cons]

omit [Fl F] in
theorem sweep_fresh (draw : G → F × G) (p : Pos F) (g : G) :
    Random.sweep draw (fun _ r => r) p g = (delivered draw p.length g, advanced draw p.length g) := by
  rw [sweep_eq]
  congr 1
  generalize hd : delivered draw p.length g = d
  have hl : p.length = d.length := by rw [← hd]; simp
  clear hd
  induction p generalizing d with
  | nil => cases d with
    | nil => rfl
    | cons _ _ => simp at hl
  | cons x p ih => cases d with
    | nil => simp at hl
    | cons y d => simp [ih d (by simpa using hl)]

/-- rejection loop whose proposals are a pure function of the generator state -/
theorem rejectLoop_iff {α : Type} {try_ : G → Res (Option α) × G} {prop : G → α} {adv : G → G} {P : α → Prop}
    [DecidablePred P]
    (h : ∀ g, try_ g = (.ok (if P (prop g) then some (prop g) else none), adv g))
    (fuel : Nat) (g : G) (r : Res α) (g' : G) :
    rejectLoop try_ fuel g = some (r, g') ↔
      ∃ k < fuel, r = .ok (prop (adv^[k] g)) ∧ P (prop (adv^[k] g)) ∧ (∀ i < k, ¬ P (prop (adv^[i] g))) ∧
        g' = adv^[k + 1] g := by
  induction fuel generalizing g with
  | zero => simp [rejectLoop]
  | succ fuel ih =>
    rw [rejectLoop, h]
    by_cases hP : P (prop g)
    · simp only [hP, if_true, Option.some.injEq, Prod.mk.injEq]
      constructor
      · rintro ⟨rfl, rfl⟩
        exact ⟨0, Nat.succ_pos _, rfl, hP, fun i hi => absurd hi (Nat.not_lt_zero i), rfl⟩
      · rintro ⟨k, hk, rfl, h1, h2, rfl⟩
        cases k with
        | zero => exact ⟨rfl, rfl⟩
        | succ k => exact absurd hP (h2 0 (Nat.succ_pos _))
    · simp only [hP, if_false]
      rw [ih]
      constructor
      · rintro ⟨k, hk, rfl, h1, h2, rfl⟩
        refine ⟨k + 1, by omega, rfl, h1, ?_, rfl⟩
        intro i hi
        cases i with
        | zero => exact hP
        | succ i => exact h2 i (by omega)
      · rintro ⟨k, hk, rfl, h1, h2, rfl⟩
        cases k with
        | zero => exact absurd h1 hP
        | succ k => exact ⟨k, by omega, rfl, h1, fun i hi => h2 (i + 1) (by omega), rfl⟩

omit [Fl F] in
theorem iterate_advanced (draw : G → F × G) (n k : Nat) (g : G) :
    (advanced draw n)^[k] g = advanced draw (k * n) g := by
  induction k generalizing g with
  | zero => simp [advanced]
  | succ k ih => rw [Function.iterate_succ, Function.comp, ih, ← advanced_add]; congr 1; ring

end Moledyn
