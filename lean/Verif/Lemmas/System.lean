import Verif.Lemmas.Position
import Verif.Spec.System
/-
Helper lemmas on the domains.
-/
namespace Moledyn
open Pos hiding norm

section Step
variable {F : Type} [Fl F]

/-- the shape shared by the three `check_bc` -/
def bcStep (incl : Pos F → Res Bool) (fold : Pos F → Res (Pos F)) (pos dp : Pos F) : Pos F × Res Unit :=
  match pos.mutAdd dp with
  | (pos1, .ok ()) =>
    match incl pos1 with
    | .ok true => (pos1, .ok ())
    | .ok false =>
      match fold pos1 with
      | .ok pos2 =>
        match incl pos2 with
        | .ok true => (pos2, .ok ())
        | .ok false => (pos2, .err .tooLargeTimeStep)
        | .err e => (pos2, .err e)
        | .panic => (pos2, .panic)
      | .err e => (pos1, .err e)
      | .panic => (pos1, .panic)
    | .err e => (pos1, .err e)
    | .panic => (pos1, .panic)
  | (pos1, r) => (pos1, r)

/-- the radial fold of the sphere -/
def Circ.fold (s : Circ F) (p : Pos F) : Res (Pos F) :=
  .ok (p.mutScalarMul ((Fl.two * s.sysSize - p.norm) / p.norm))

theorem Cubic.checkBc_eq (s : Cubic F) (pos dp : Pos F) :
    s.checkBc pos dp = bcStep s.checkInclusion s.fold pos dp := rfl

theorem Circ.checkBc_eq (s : Circ F) (pos dp : Pos F) :
    s.checkBc pos dp = bcStep s.checkInclusion s.fold pos dp := by
  unfold Circ.checkBc bcStep Circ.fold
  rcases h : pos.mutAdd dp with ⟨p, r⟩
  cases r <;> rfl

theorem Cyl.checkBc_eq (s : Cyl F) (pos dp : Pos F) :
    s.checkBc pos dp = bcStep s.checkInclusion s.fold pos dp := rfl

variable {incl : Pos F → Res Bool} {fold : Pos F → Res (Pos F)} {pos dp : Pos F}

theorem bcStep_ok (h : (bcStep incl fold pos dp).2 = .ok ()) :
    incl (bcStep incl fold pos dp).1 = .ok true := by
  unfold bcStep at *
  rcases hm : pos.mutAdd dp with ⟨p, r⟩
  rw [hm] at h
  cases r with
  | err e => simp at h
  | panic => simp at h
  | ok u =>
    simp only at h ⊢
    rcases h1 : incl p with b | e | _
    · rw [h1] at h
      cases b with
      | true => simpa using h1
      | false =>
        simp only at h ⊢
        rcases h2 : fold p with p2 | e | _
        · rw [h2] at h
          simp only at h ⊢
          rcases h3 : incl p2 with b | e | _
          · rw [h3] at h
            cases b with
            | true => simpa using h3
            | false => simp at h
          · rw [h3] at h; simp at h
          · rw [h3] at h; simp at h
        · rw [h2] at h; simp at h
        · rw [h2] at h; simp at h
    · rw [h1] at h; simp at h
    · rw [h1] at h; simp at h

theorem mutAdd_eq (h : pos.length ≤ dp.length) :
    pos.mutAdd dp = (List.zipWith (· + ·) pos dp, .ok ()) := mutZip_fst _ _ _ h

theorem bcStep_inside (hl : pos.length ≤ dp.length)
    (h : incl (List.zipWith (· + ·) pos dp) = .ok true) :
    bcStep incl fold pos dp = (List.zipWith (· + ·) pos dp, .ok ()) := by
  unfold bcStep
  rw [mutAdd_eq hl]
  simp only [h]

theorem bcStep_outside (hl : pos.length ≤ dp.length) {q : Pos F} {b : Bool}
    (h : incl (List.zipWith (· + ·) pos dp) = .ok false)
    (hf : fold (List.zipWith (· + ·) pos dp) = .ok q) (hq : incl q = .ok b) :
    bcStep incl fold pos dp = (q, if b then .ok () else .err .tooLargeTimeStep) := by
  unfold bcStep
  rw [mutAdd_eq hl]
  simp only [h, hf, hq]
  cases b <;> rfl

theorem bcStep_short (hl : dp.length < pos.length) : (bcStep incl fold pos dp).2 = .panic := by
  unfold bcStep
  rw [show pos.mutAdd dp = _ from mutZip_panic _ _ _ hl]

theorem bcStep_err (hl : pos.length ≤ dp.length) {e : ErrorCode}
    (h : incl (List.zipWith (· + ·) pos dp) = .err e) :
    bcStep incl fold pos dp = (List.zipWith (· + ·) pos dp, .err e) := by
  unfold bcStep
  rw [mutAdd_eq hl]
  simp only [h]

theorem bcStep_tooLarge (hincl : ∀ p, incl p ≠ .err .tooLargeTimeStep)
    (hfold : ∀ p, fold p ≠ .err .tooLargeTimeStep)
    (h : (bcStep incl fold pos dp).2 = .err .tooLargeTimeStep) :
    incl (List.zipWith (· + ·) pos dp) = .ok false ∧
    fold (List.zipWith (· + ·) pos dp) = .ok (bcStep incl fold pos dp).1 ∧
    incl (bcStep incl fold pos dp).1 = .ok false := by
  rcases Nat.lt_or_ge dp.length pos.length with hl | hl
  · rw [bcStep_short hl] at h; simp at h
  unfold bcStep at *
  rw [mutAdd_eq hl] at *
  simp only at h ⊢
  generalize List.zipWith (· + ·) pos dp = p at *
  rcases h1 : incl p with b | e | _
  · rw [h1] at h
    cases b with
    | true => simp at h
    | false =>
      simp only at h ⊢
      rcases h2 : fold p with p2 | e | _
      · rw [h2] at h
        simp only at h ⊢
        rcases h3 : incl p2 with b | e | _
        · rw [h3] at h
          cases b with
          | true => simp at h
          | false => refine ⟨?_, ?_, ?_⟩ <;> trivial
        · rw [h3] at h; simp at h; exact absurd h3 (h ▸ hincl p2)
        · rw [h3] at h; simp at h
      · rw [h2] at h; simp at h; exact absurd h2 (h ▸ hfold p)
      · rw [h2] at h; simp at h
  · rw [h1] at h; simp at h; exact absurd h1 (h ▸ hincl p)
  · rw [h1] at h; simp at h

/-- if folding leaves a point inside alone, the outcome is always "fold, then test" -/
theorem bcStep_eq (hl : pos.length ≤ dp.length) {q : Pos F} {b : Bool}
    (h : ∃ b, incl (List.zipWith (· + ·) pos dp) = .ok b)
    (hf : fold (List.zipWith (· + ·) pos dp) = .ok q) (hq : incl q = .ok b)
    (hid : incl (List.zipWith (· + ·) pos dp) = .ok true → q = List.zipWith (· + ·) pos dp) :
    bcStep incl fold pos dp = (q, if b then .ok () else .err .tooLargeTimeStep) := by
  obtain ⟨b0, hb⟩ := h
  cases b0 with
  | false => exact bcStep_outside hl hb hf hq
  | true =>
    rw [bcStep_inside hl hb, ← hid hb]
    rw [← hid hb, hq] at hb
    simp only [Res.ok.injEq] at hb
    rw [hb]; rfl

/-! inclusion tests and dimensions, any arithmetic -/

theorem Cubic.checkInclusion_cases (s : Cubic F) (p : Pos F) :
    (s.dim ≠ p.length ∧ s.checkInclusion p = .err .invalidDimension) ∨
    (s.dim = p.length ∧ s.checkInclusion p = .ok (!(p.any fun x => Fl.gt (Fl.abs x) s.sysSize))) := by
  unfold Cubic.checkInclusion
  by_cases h : s.dim = p.length <;> simp [h]

theorem Circ.checkInclusion_cases (s : Circ F) (p : Pos F) :
    (s.dim ≠ p.length ∧ s.checkInclusion p = .err .invalidDimension) ∨
    (s.dim = p.length ∧ s.checkInclusion p = .ok (!(Fl.gt p.norm s.sysSize))) := by
  unfold Circ.checkInclusion
  by_cases h : s.dim = p.length
  · right; refine ⟨h, ?_⟩; rw [if_neg (by simpa using h)]; split <;> simp_all
  · simp [h]

theorem Cyl.checkInclusion_dim (s : Cyl F) (p : Pos F) (h : s.dim ≠ p.length) :
    s.checkInclusion p = .err .invalidDimension := by
  unfold Cyl.checkInclusion; simp [h]

theorem Cyl.checkInclusion_eq (s : Cyl F) (p : Pos F) (d : Nat) (h : s.dim = p.length)
    (ht : s.sysType = .continuousCylindrical d) (hd : d ≤ p.length) :
    s.checkInclusion p = .ok (!(Fl.gt (Pos.norm (p.take d)) s.sysRadius) &&
      !((p.drop d).any fun x => Fl.gt (Fl.abs x) s.sysLength)) := by
  unfold Cyl.checkInclusion
  rw [if_neg (by simpa using h), ht]
  simp only
  rw [if_neg (by omega)]
  split <;> simp_all

end Step

/-! ### exact arithmetic -/

theorem norm_eq_radius (p : List ℝ) : Pos.norm p = radius p := norm_eq p

theorem radius_nonneg (p : List ℝ) : 0 ≤ radius p := Real.sqrt_nonneg _

theorem radius_scale (p : List ℝ) (c : ℝ) : radius (p.map (· * c)) = |c| * radius p := by
  rw [← norm_eq_radius, ← norm_eq_radius]; exact norm_scale p c

theorem reflect_image (L x : ℝ) (hL : 0 < L) : MirrorImage L x (Fold.reflect L x) := by
  unfold Fold.reflect MirrorImage
  simp only [fl_le, fl_lt, fl_abs, fl_zero, fl_two, fl_mul, fl_sub, fl_neg, decide_eq_true_eq]
  refine ⟨fun h => by simp [h], fun h => ?_, fun h => ?_⟩
  · have : ¬ |x| ≤ L := by rw [abs_of_pos (by linarith)]; linarith
    rw [if_neg this, if_neg (by linarith)]; ring
  · have : ¬ |x| ≤ L := by rw [abs_of_neg (by linarith)]; linarith
    rw [if_neg this, if_pos (by linarith)]; ring

theorem wrap_image (L x : ℝ) (hL : 0 < L) : PeriodicImage L x (Fold.wrap L x) := by
  unfold Fold.wrap PeriodicImage
  simp only [fl_le, fl_lt, fl_abs, fl_zero, fl_two, fl_mul, fl_add, fl_neg, decide_eq_true_eq]
  refine ⟨fun h => by simp [h], fun h => ?_, fun h => ?_⟩
  · have : ¬ |x| ≤ L := by rw [abs_of_pos (by linarith)]; linarith
    rw [if_neg this, if_neg (by linarith)]; ring
  · have : ¬ |x| ≤ L := by rw [abs_of_neg (by linarith)]; linarith
    rw [if_neg this, if_pos (by linarith)]; ring

theorem mirror_inside_iff {L x y : ℝ} (hL : 0 < L) (h : MirrorImage L x y) : |y| ≤ L ↔ |x| ≤ 3 * L := by
  obtain ⟨h1, h2, h3⟩ := h
  rcases le_or_gt |x| L with hx | hx
  · rw [h1 hx]; exact ⟨fun h => by linarith, fun _ => hx⟩
  · rcases lt_abs.1 hx with hx | hx
    · have := h2 hx
      rw [abs_of_pos (show 0 < x by linarith), abs_le]
      constructor
      · intro h; linarith [h.1]
      · intro h; constructor <;> linarith
    · have := h3 (by linarith)
      rw [abs_of_neg (show x < 0 by linarith), abs_le]
      constructor
      · intro h; linarith [h.2]
      · intro h; constructor <;> linarith

theorem periodic_inside_iff {L x y : ℝ} (hL : 0 < L) (h : PeriodicImage L x y) : |y| ≤ L ↔ |x| ≤ 3 * L := by
  obtain ⟨h1, h2, h3⟩ := h
  rcases le_or_gt |x| L with hx | hx
  · rw [h1 hx]; exact ⟨fun h => by linarith, fun _ => hx⟩
  · rcases lt_abs.1 hx with hx | hx
    · have := h2 hx
      rw [abs_of_pos (show 0 < x by linarith), abs_le]
      constructor
      · intro h; linarith [h.2]
      · intro h; constructor <;> linarith
    · have := h3 (by linarith)
      rw [abs_of_neg (show x < 0 by linarith), abs_le]
      constructor
      · intro h; linarith [h.1]
      · intro h; constructor <;> linarith

theorem any_gt_real (L : ℝ) (p : List ℝ) :
    (!(p.any fun x => Fl.gt (Fl.abs x) L)) = decide (∀ x ∈ p, |x| ≤ L) := by
  rw [Bool.eq_iff_iff]
  simp

theorem radial_inside_iff {R : ℝ} {x y : List ℝ} (hR : 0 < R) (h : RadialImage R x y) :
    radius y ≤ R ↔ radius x ≤ 3 * R := by
  obtain ⟨h1, h2⟩ := h
  rcases le_or_gt (radius x) R with hx | hx
  · rw [h1 hx]; exact ⟨fun h => by linarith, fun _ => hx⟩
  · have hpos : 0 < radius x := lt_trans hR hx
    have e : y = x.map (· * ((2 * R - radius x) / radius x)) := by
      rw [h2 hx]
      apply List.map_congr_left
      intro c _; ring
    rw [e, radius_scale, abs_div, abs_of_pos hpos, div_mul_cancel₀ _ hpos.ne', abs_le]
    constructor
    · intro h; linarith [h.1]
    · intro h; constructor <;> linarith

theorem radial_radius {R : ℝ} {x y : List ℝ} (hR : 0 < R) (h : RadialImage R x y) (hx : R < radius x) :
    radius y = |2 * R - radius x| := by
  have hpos : 0 < radius x := lt_trans hR hx
  have e : y = x.map (· * ((2 * R - radius x) / radius x)) := by
    rw [h.2 hx]
    apply List.map_congr_left
    intro c _; ring
  rw [e, radius_scale, abs_div, abs_of_pos hpos, div_mul_cancel₀ _ hpos.ne']

end Moledyn
