import Verif.Props.DoubleBall
import Verif.Props.DoubleBox
/-
C94: the cylinder is a ball times a periodic box, in any arithmetic; cylinders in double precision.
-/
set_option linter.unusedSimpArgs false
namespace Moledyn.Props
open Moledyn Moledyn.Pos

/-- the numbers of a position. -/
local notation "vals" => List.map RF.val

section Product
variable {F : Type} [Fl F]

/-- inclusion of the parts. -/
theorem cyl_incl_parts {d n : Nat} {R L : F} (hd : d ≤ n) {p : Pos F} (hp : p.length = n) :
    (⟨.continuousCylindrical d, .mixed d, R, L, n⟩ : Cyl F).checkInclusion p =
      .ok (!(Fl.gt (Pos.norm (p.take d)) R) && !((p.drop d).any fun x => Fl.gt (Fl.abs x) L)) := by
  unfold Cyl.checkInclusion
  rw [if_neg (by simpa using hp.symm)]
  simp only
  rw [if_neg (by omega)]
  cases Fl.gt (Pos.norm (p.take d)) R <;> simp

theorem ball_incl {d : Nat} {R : F} {p : Pos F} (hp : p.length = d) :
    (⟨.continuousCircular, .reflection, R, d⟩ : Circ F).checkInclusion p = .ok (!(Fl.gt (Pos.norm p) R)) := by
  unfold Circ.checkInclusion
  rw [if_neg (by simpa using hp.symm)]
  cases Fl.gt (Pos.norm p) R <;> simp

theorem box_incl {m : Nat} {L : F} {p : Pos F} (hp : p.length = m) :
    (⟨.continuousRectangular, .periodic, L, m⟩ : Cubic F).checkInclusion p =
      .ok (!(p.any fun x => Fl.gt (Fl.abs x) L)) := by
  unfold Cubic.checkInclusion
  rw [if_neg (by simpa using hp.symm)]

/-- the radial mirror image as the code computes it. -/
def mirrored (R : F) (p : Pos F) : Pos F :=
  if Fl.gt (Pos.norm p) R then p.map (· * ((Fl.two * R - Pos.norm p) / Pos.norm p)) else p

theorem ball_bc {d : Nat} {R : F} {p z : Pos F} (hp : p.length = d) (hz : z.length = d) :
    (⟨.continuousCircular, .reflection, R, d⟩ : Circ F).checkBc p z =
      (mirrored R (List.zipWith (· + ·) p z),
        if Fl.gt (Pos.norm (mirrored R (List.zipWith (· + ·) p z))) R then .err .tooLargeTimeStep else .ok ()) := by
  unfold Circ.checkBc
  rw [show p.mutAdd z = _ from mutZip_fst _ _ _ (by omega)]
  simp only
  have hl : (List.zipWith (· + ·) p z).length = d := by simp [hp, hz]
  generalize List.zipWith (· + ·) p z = q at hl
  rw [ball_incl hl]
  unfold mirrored
  cases h : Fl.gt (Pos.norm q) R with
  | false => simp [h]
  | true =>
    simp only [Bool.not_true, if_true]
    rw [show Pos.mutScalarMul q ((Fl.two * R - Pos.norm q) / Pos.norm q) =
      q.map (· * ((Fl.two * R - Pos.norm q) / Pos.norm q)) from rfl]
    rw [ball_incl (by rw [List.length_map]; exact hl)]
    cases Fl.gt (Pos.norm (q.map (· * ((Fl.two * R - Pos.norm q) / Pos.norm q)))) R <;> simp

theorem box_bc {m : Nat} {L : F} (hc : ∀ x : F, Fl.gt (Fl.abs x) L = false → Fl.le (Fl.abs x) L = true)
    {p z : Pos F} (hp : p.length = m) (hz : z.length = m) :
    (⟨.continuousRectangular, .periodic, L, m⟩ : Cubic F).checkBc p z =
      ((List.zipWith (· + ·) p z).map (Fold.wrap L),
        if ((List.zipWith (· + ·) p z).map (Fold.wrap L)).any fun x => Fl.gt (Fl.abs x) L then .err .tooLargeTimeStep
        else .ok ()) := by
  unfold Cubic.checkBc
  rw [show p.mutAdd z = _ from mutZip_fst _ _ _ (by omega)]
  simp only
  have hl : (List.zipWith (· + ·) p z).length = m := by simp [hp, hz]
  generalize List.zipWith (· + ·) p z = q at hl
  rw [box_incl hl]
  cases h : q.any fun x => Fl.gt (Fl.abs x) L with
  | false =>
    have hq : q.map (Fold.wrap L) = q := by
      refine (List.map_congr_left fun x hx => ?_).trans (List.map_id q)
      have : Fl.gt (Fl.abs x) L = false := by
        rw [List.any_eq_false] at h
        simpa using h x hx
      unfold Fold.wrap
      rw [if_pos (hc x this)]; rfl
    simp [hq, h]
  | true =>
    simp only [Bool.not_true]
    unfold Cubic.fold
    simp only
    rw [box_incl (by rw [List.length_map]; exact hl)]
    cases (q.map (Fold.wrap L)).any fun x => Fl.gt (Fl.abs x) L <;> simp

theorem cyl_bc {d n : Nat} {R L : F} (hd : d ≤ n)
    (hc : ∀ x : F, Fl.gt (Fl.abs x) L = false → Fl.le (Fl.abs x) L = true)
    {p z : Pos F} (hp : p.length = n) (hz : z.length = n) :
    (⟨.continuousCylindrical d, .mixed d, R, L, n⟩ : Cyl F).checkBc p z =
      (mirrored R ((List.zipWith (· + ·) p z).take d) ++ ((List.zipWith (· + ·) p z).drop d).map (Fold.wrap L),
        if Fl.gt (Pos.norm (mirrored R ((List.zipWith (· + ·) p z).take d))) R ||
          (((List.zipWith (· + ·) p z).drop d).map (Fold.wrap L)).any (fun x => Fl.gt (Fl.abs x) L) then
          .err .tooLargeTimeStep else .ok ()) := by
  unfold Cyl.checkBc
  rw [show p.mutAdd z = _ from mutZip_fst _ _ _ (by omega)]
  simp only
  have hl : (List.zipWith (· + ·) p z).length = n := by simp [hp, hz]
  generalize List.zipWith (· + ·) p z = q at hl
  rw [cyl_incl_parts hd hl]
  have hml : (mirrored R (q.take d)).length = d := by
    unfold mirrored; split <;> simp [hl, hd]
  have hfold : (⟨.continuousCylindrical d, .mixed d, R, L, n⟩ : Cyl F).fold q =
      .ok (mirrored R (q.take d) ++ (q.drop d).map (Fold.wrap L)) := by
    unfold Cyl.fold mirrored
    simp only
    rw [if_neg (by omega)]
  have hwrap : ((q.drop d).any fun x => Fl.gt (Fl.abs x) L) = false → (q.drop d).map (Fold.wrap L) = q.drop d := by
    intro h
    refine (List.map_congr_left fun x hx => ?_).trans (List.map_id (q.drop d))
    have : Fl.gt (Fl.abs x) L = false := by
      rw [List.any_eq_false] at h
      simpa using h x hx
    unfold Fold.wrap
    rw [if_pos (hc x this)]; rfl
  by_cases hin : (!(Fl.gt (Pos.norm (q.take d)) R) && !((q.drop d).any fun x => Fl.gt (Fl.abs x) L)) = true
  · rw [hin]
    simp only [Bool.and_eq_true, Bool.not_eq_true'] at hin
    obtain ⟨h1, h2⟩ := hin
    have hm : mirrored R (q.take d) = q.take d := by unfold mirrored; rw [h1]; simp
    rw [hm, hwrap h2, h1, h2, List.take_append_drop]
    rfl
  · rw [Bool.not_eq_true] at hin
    rw [hin]
    simp only
    rw [hfold]
    simp only
    have hlen : (mirrored R (q.take d) ++ (q.drop d).map (Fold.wrap L)).length = n := by
      rw [List.length_append, hml, List.length_map, List.length_drop]; omega
    rw [cyl_incl_parts hd hlen]
    have t1 : (mirrored R (q.take d) ++ (q.drop d).map (Fold.wrap L)).take d = mirrored R (q.take d) := by
      exact List.take_left' hml
    have t2 : (mirrored R (q.take d) ++ (q.drop d).map (Fold.wrap L)).drop d = (q.drop d).map (Fold.wrap L) := by
      exact List.drop_left' hml
    rw [t1, t2]
    cases Fl.gt (Pos.norm (mirrored R (q.take d))) R <;>
      cases ((q.drop d).map (Fold.wrap L)).any fun x => Fl.gt (Fl.abs x) L <;> rfl

/-- what `new` makes of good parameters. -/
theorem new_parts {d n : Nat} {R L : F} {s : Cyl F} {ball : Circ F} {box : Cubic F} (hnew : Cyl.new d R L n = .ok s)
    (hball : Circ.new R d = .ok ball) (hbox : Cubic.new .periodic L (n - d) = .ok box) :
    d ≤ n ∧ s = ⟨.continuousCylindrical d, .mixed d, R, L, n⟩ ∧ ball = ⟨.continuousCircular, .reflection, R, d⟩ ∧
      box = ⟨.continuousRectangular, .periodic, L, n - d⟩ := by
  unfold Cyl.new at hnew
  unfold Circ.new at hball
  unfold Cubic.new at hbox
  split at hnew
  · simp at hnew
  rename_i h
  split at hball
  · simp at hball
  split at hbox
  · simp at hbox
  simp only [Bool.or_eq_true, decide_eq_true_eq, not_or, not_lt] at h
  exact ⟨by omega, (Res.ok.inj hnew).symm, (Res.ok.inj hball).symm, (Res.ok.inj hbox).symm⟩

/-- Any arithmetic in which every number is above `L` or not (so no NaN): a cylinder is a ball times a periodic
box.  `check_bc` of the cylinder puts the first `d` coordinates where the ball puts them and the others where the
box puts them; it accepts a move exactly if both accept it, and says TooLargeTimeStep otherwise. -/
theorem C94_product (d n : Nat) (R L : F) (s : Cyl F) (ball : Circ F) (box : Cubic F) (hnew : Cyl.new d R L n = .ok s)
    (hball : Circ.new R d = .ok ball) (hbox : Cubic.new .periodic L (n - d) = .ok box)
    (hc : ∀ x : F, Fl.gt (Fl.abs x) L = false → Fl.le (Fl.abs x) L = true)
    (pos dp : Pos F) (hp : pos.length = n) (hz : dp.length = n) :
    (s.checkBc pos dp).1 = (ball.checkBc (pos.take d) (dp.take d)).1 ++ (box.checkBc (pos.drop d) (dp.drop d)).1 ∧
    (ball.checkBc (pos.take d) (dp.take d)).1.length = d ∧ (box.checkBc (pos.drop d) (dp.drop d)).1.length = n - d ∧
    ((s.checkBc pos dp).2 = .ok () ↔ (ball.checkBc (pos.take d) (dp.take d)).2 = .ok () ∧
      (box.checkBc (pos.drop d) (dp.drop d)).2 = .ok ()) ∧
    ((s.checkBc pos dp).2 = .ok () ∨ (s.checkBc pos dp).2 = .err .tooLargeTimeStep) := by
  obtain ⟨hd, rfl, rfl, rfl⟩ := new_parts hnew hball hbox
  rw [cyl_bc hd hc hp hz, ball_bc (by simp [hp, hd]) (by simp [hz, hd]),
    box_bc hc (by simp [hp]) (by simp [hz])]
  simp only [List.take_zipWith, List.drop_zipWith]
  refine ⟨trivial, ?_, by simp [hp, hz], ?_, ?_⟩
  · unfold mirrored; split <;> simp [hp, hz, hd]
  · cases Fl.gt (Pos.norm (mirrored R (List.zipWith (· + ·) (pos.take d) (dp.take d)))) R <;>
      cases ((List.zipWith (· + ·) (pos.drop d) (dp.drop d)).map (Fold.wrap L)).any fun x => Fl.gt (Fl.abs x) L <;>
      simp
  · cases Fl.gt (Pos.norm (mirrored R (List.zipWith (· + ·) (pos.take d) (dp.take d)))) R <;>
      cases ((List.zipWith (· + ·) (pos.drop d) (dp.drop d)).map (Fold.wrap L)).any fun x => Fl.gt (Fl.abs x) L <;>
      simp

/-- a trajectory in a cylinder is one in the ball and one in the box. -/
theorem follows_parts {d n : Nat} {R L : F} {s : Cyl F} {ball : Circ F} {box : Cubic F} (hnew : Cyl.new d R L n = .ok s)
    (hball : Circ.new R d = .ok ball) (hbox : Cubic.new .periodic L (n - d) = .ok box)
    (hc : ∀ x : F, Fl.gt (Fl.abs x) L = false → Fl.le (Fl.abs x) L = true)
    {p q : Pos F} {zs : List (Pos F)} (hp : p.length = n) (hz : ∀ z ∈ zs, z.length = n) (hf : Follows s.checkBc p zs q) :
    q.length = n ∧ Follows ball.checkBc (p.take d) (zs.map (·.take d)) (q.take d) ∧
      Follows box.checkBc (p.drop d) (zs.map (·.drop d)) (q.drop d) := by
  have hd := (new_parts hnew hball hbox).1
  induction hf with
  | stay p => exact ⟨hp, .stay _, .stay _⟩
  | @step p z r zs q h1 _ ih =>
    obtain ⟨e1, l1, l2, e2, _⟩ := C94_product d n R L s ball box hnew hball hbox hc p z hp (hz z (by simp))
    rw [h1] at e1 e2
    simp only at e1 e2
    have e2' := e2.1 trivial
    have hr : r.length = n := by rw [e1, List.length_append, l1, l2]; omega
    obtain ⟨i1, i2, i3⟩ := ih hr (fun z hz' => hz z (by simp [hz']))
    have t1 : r.take d = (ball.checkBc (p.take d) (z.take d)).1 := by
      rw [e1]
      exact List.take_left' l1
    have t2 : r.drop d = (box.checkBc (p.drop d) (z.drop d)).1 := by
      rw [e1]
      exact List.drop_left' l1
    refine ⟨i1, .step (Prod.ext t1.symm e2'.1) i2, .step (Prod.ext t2.symm e2'.2) i3⟩
end Product

theorem comparable_double (L x : Double) : Fl.gt (Fl.abs x) L = false → Fl.le (Fl.abs x) L = true := by
  simp [Fl.gt, RF.lt_val, RF.le_val]

theorem comparable_real (L x : ℝ) : Fl.gt (Fl.abs x) L = false → Fl.le (Fl.abs x) L = true := by
  simp [Fl.gt]

/-- the ball and the box a cylinder is made of exist. -/
theorem parts_exist {F : Type} [Fl F] {d n : Nat} {R L : F} {s : Cyl F} (hnew : Cyl.new d R L n = .ok s) (hd : 1 ≤ d) (hn : d < n) :
    ∃ (ball : Circ F) (box : Cubic F), Circ.new R d = .ok ball ∧ Cubic.new .periodic L (n - d) = .ok box := by
  unfold Cyl.new at hnew
  split at hnew
  · simp at hnew
  rename_i h
  simp only [Bool.or_eq_true, decide_eq_true_eq, not_or, beq_iff_eq] at h
  obtain ⟨⟨⟨-, h1⟩, h2⟩, -⟩ := h
  refine ⟨⟨.continuousCircular, .reflection, R, d⟩, ⟨.continuousRectangular, .periodic, L, n - d⟩, ?_, ?_⟩
  · unfold Circ.new
    rw [if_neg]
    simp only [Bool.or_eq_true, beq_iff_eq, not_or]
    exact ⟨h1, by omega⟩
  · unfold Cubic.new
    rw [if_neg]
    simp only [Bool.or_eq_true, beq_iff_eq, not_or]
    exact ⟨h2, by omega⟩

/-- Double precision, a cylinder with a ball of `d` dimensions (radius a double of at least `2^-440`) as its section and
half length `L`, a double: after an accepted move the first `d` coordinates are within `10(d+5)/2^53` radii of the radial
image of `pos + dp`, both taken exactly; on every other axis the particle is exactly at the periodic image of the rounded
sum.  All coordinates are doubles. -/
theorem C94_cylinder (R L : Double) (hR : R.Rep) (hR1 : 2 ^ (-440 : ℤ) ≤ R.val) (hL : L.Rep) (d n : Nat) (hd1 : 1 ≤ d)
    (hdn : d < n) (hd : d ≤ 2 ^ 26) (s : Cyl Double) (hnew : Cyl.new d R L n = .ok s) (pos dp : Pos Double)
    (hpos : pos.length = n) (hdp : dp.length = n) (hp : ∀ x ∈ pos, x.Rep) (hz : ∀ x ∈ dp, x.Rep)
    (hok : (s.checkBc pos dp).2 = .ok ()) :
    (s.checkBc pos dp).1.length = n ∧ (∀ x ∈ (s.checkBc pos dp).1, x.Rep) ∧
    (∀ z, RadialImage R.val (List.zipWith (· + ·) (vals (pos.take d)) (vals (dp.take d))) z →
      apart (vals ((s.checkBc pos dp).1.take d)) z ≤ 10 * (d + 5) / 2 ^ 53 * R.val) ∧
    ∀ (i : Nat) (a b : Double), d ≤ i → pos[i]? = some a → dp[i]? = some b →
      ∃ y, (s.checkBc pos dp).1[i]? = some y ∧ |y.val| ≤ L.val ∧ PeriodicImage L.val (a + b).val y.val := by
  obtain ⟨ball, box, hball, hbox⟩ := parts_exist hnew hd1 hdn
  obtain ⟨e1, l1, l2, e2, -⟩ :=
    C94_product d n R L s ball box hnew hball hbox (comparable_double L) pos dp hpos hdp
  obtain ⟨k1, k2⟩ := e2.1 hok
  have lf : (pos.take d).length = d := by simp [hpos]; omega
  have lf' : (dp.take d).length = d := by simp [hdp]; omega
  have lb : (pos.drop d).length = n - d := by simp [hpos]
  have lb' : (dp.drop d).length = n - d := by simp [hdp]
  obtain ⟨-, a2, a3⟩ := C90_ball R hR hR1 d hd ball hball (pos.take d) (dp.take d) lf lf'
    (fun x hx => hp x (List.mem_of_mem_take hx)) (fun x hx => hz x (List.mem_of_mem_take hx)) k1
  obtain ⟨-, b2, b3, -⟩ := C87_cube .periodic L hL (n - d) box hbox (pos.drop d) (dp.drop d) lb lb'
  have hL0 : 0 ≤ L.val := by
    by_contra hneg
    unfold Cyl.new at hnew
    split at hnew
    · simp at hnew
    rename_i h
    apply h
    simp only [Bool.or_eq_true, RF.le_val]
    left; right
    simp [Fl.zero, Rounding.double.zero]; linarith
  have hax : ∀ (i : Nat) (a b : Double), d ≤ i → pos[i]? = some a → dp[i]? = some b →
      ∃ y, (s.checkBc pos dp).1[i]? = some y ∧ y.Rep ∧ |y.val| ≤ L.val ∧ PeriodicImage L.val (a + b).val y.val := by
    intro i a b hi ha hb
    have ha' : (pos.drop d)[i - d]? = some a := by rw [List.getElem?_drop, show d + (i - d) = i by omega]; exact ha
    have hb' : (dp.drop d)[i - d]? = some b := by rw [List.getElem?_drop, show d + (i - d) = i by omega]; exact hb
    have h3 := b3.1 k2 (i - d) a b ha' hb'
    obtain ⟨y, hy, hr, him⟩ := b2 (i - d) a b ha' hb'
    have hper := (him (by linarith)).2 (by simp [BoundaryCond.mirrored])
    refine ⟨y, ?_, hr, ?_, hper⟩
    · rw [e1, List.getElem?_append_right (by omega), l1]; exact hy
    · obtain ⟨p1, p2, p3⟩ := hper
      have h3' := abs_le.1 h3
      rcases le_or_gt (abs (a + b).val) L.val with h | h
      · rw [p1 h]; exact h
      · rcases lt_abs.1 h with h | h
        · rw [p2 h, abs_le]; constructor <;> linarith
        · rw [p3 (by linarith), abs_le]; constructor <;> linarith
  refine ⟨by rw [e1, List.length_append, l1, l2]; omega, ?_, ?_, ?_⟩
  · intro x hx
    rw [e1, List.mem_append] at hx
    rcases hx with hx | hx
    · exact a2 x hx
    · obtain ⟨i, hi, rfl⟩ := List.getElem_of_mem hx
      have hi' : i < n - d := by omega
      obtain ⟨y, hy, hr, -⟩ := b2 i ((pos.drop d)[i]'(by omega)) ((dp.drop d)[i]'(by omega))
        (List.getElem?_eq_getElem _) (List.getElem?_eq_getElem _)
      rw [List.getElem?_eq_getElem hi] at hy
      rw [Option.some.inj hy]; exact hr
  · intro z hz'
    rw [e1, List.take_left' l1]
    exact a3 z hz'
  · intro i a b hi ha hb
    obtain ⟨y, h1, -, h2, h3⟩ := hax i a b hi ha hb
    exact ⟨y, h1, h2, h3⟩

/-- Double precision: which moves a cylinder accepts.  With `D` the exact distance of `pos + dp` from the axis: accepted
if `D` stays clear (by `10(d+5)/2^53` radii) of the sphere and of three times the sphere, and below the latter, and every
rounded axial sum is within `[-3L, 3L]`; refused with TooLargeTimeStep if `D` is clearly beyond three radii or some
rounded axial sum beyond `3L`. -/
theorem C94_accepts (R L : Double) (hR : R.Rep) (hR1 : 2 ^ (-440 : ℤ) ≤ R.val) (hL : L.Rep) (d n : Nat) (hd1 : 1 ≤ d)
    (hdn : d < n) (hd : d ≤ 2 ^ 26) (s : Cyl Double) (hnew : Cyl.new d R L n = .ok s) (pos dp : Pos Double)
    (hpos : pos.length = n) (hdp : dp.length = n) (hp : ∀ x ∈ pos, x.Rep) (hz : ∀ x ∈ dp, x.Rep) :
    let D := radius (List.zipWith (· + ·) (vals (pos.take d)) (vals (dp.take d)))
    let w := 10 * (d + 5) / 2 ^ 53 * R.val
    let axial := ∀ (i : Nat) (a b : Double), d ≤ i → pos[i]? = some a → dp[i]? = some b → |(a + b).val| ≤ 3 * L.val
    ((s.checkBc pos dp).2 = .ok () ∨ (s.checkBc pos dp).2 = .err .tooLargeTimeStep) ∧
    (axial → (D ≤ R.val - w ∨ R.val + w ≤ D ∧ D ≤ 3 * R.val - w) → (s.checkBc pos dp).2 = .ok ()) ∧
    (¬ axial ∨ 3 * R.val + w ≤ D → (s.checkBc pos dp).2 = .err .tooLargeTimeStep) := by
  intro D w axial
  obtain ⟨ball, box, hball, hbox⟩ := parts_exist hnew hd1 hdn
  obtain ⟨-, -, -, e2, e3⟩ :=
    C94_product d n R L s ball box hnew hball hbox (comparable_double L) pos dp hpos hdp
  have lf : (pos.take d).length = d := by simp [hpos]; omega
  have lf' : (dp.take d).length = d := by simp [hdp]; omega
  have lb : (pos.drop d).length = n - d := by simp [hpos]
  have lb' : (dp.drop d).length = n - d := by simp [hdp]
  obtain ⟨-, a2, a3⟩ := C90_accepts R hR hR1 d hd ball hball (pos.take d) (dp.take d) lf lf'
    (fun x hx => hp x (List.mem_of_mem_take hx)) (fun x hx => hz x (List.mem_of_mem_take hx))
  obtain ⟨-, -, b3, -⟩ := C87_cube .periodic L hL (n - d) box hbox (pos.drop d) (dp.drop d) lb lb'
  have hax : (box.checkBc (pos.drop d) (dp.drop d)).2 = .ok () ↔ axial := by
    rw [b3]
    constructor
    · intro h i a b hi ha hb
      exact h (i - d) a b (by rw [List.getElem?_drop, show d + (i - d) = i by omega]; exact ha)
        (by rw [List.getElem?_drop, show d + (i - d) = i by omega]; exact hb)
    · intro h i a b ha hb
      rw [List.getElem?_drop] at ha hb
      exact h (d + i) a b (by omega) ha hb
  refine ⟨e3, fun h1 h2 => e2.2 ⟨a2 h2, hax.2 h1⟩, fun h => ?_⟩
  rcases e3 with h' | h'
  · obtain ⟨k1, k2⟩ := e2.1 h'
    rcases h with h | h
    · exact absurd (hax.1 k2) h
    · rw [a3 h] at k1; cases k1
  · exact h'

/-- A whole trajectory in a cylinder in double precision stays close to the exact one.  Both start from the same doubles
and receive the same displacements.  As long as both accept every move, after `k` moves the first `d` coordinates are at
most `k · 10(d+5)/2^53` radii apart, and on every other axis the two differ by at most `k · L/2^51` up to full turns. -/
theorem C94_trajectory (R L : Double) (hR : R.Rep) (hR1 : 2 ^ (-440 : ℤ) ≤ R.val) (hL : L.Rep) (d n : Nat) (hd1 : 1 ≤ d)
    (hdn : d < n) (hd : d ≤ 2 ^ 26) (s : Cyl Double) (s' : Cyl ℝ) (hnew : Cyl.new d R L n = .ok s)
    (hnew' : Cyl.new d R.val L.val n = .ok s')
    (p q : Pos Double) (q' : Pos ℝ) (zs : List (Pos Double)) (hp : p.length = n) (hpr : ∀ x ∈ p, x.Rep)
    (hz : ∀ z ∈ zs, z.length = n ∧ ∀ x ∈ z, x.Rep)
    (hf : Follows s.checkBc p zs q) (hf' : Follows s'.checkBc (vals p) (zs.map vals) q') :
    q.length = n ∧ q'.length = n ∧ (∀ x ∈ q, x.Rep) ∧
      apart (vals (q.take d)) (q'.take d) ≤ zs.length * (10 * (d + 5) / 2 ^ 53 * R.val) ∧
      ∀ (i : Nat) a a', d ≤ i → q[i]? = some a → q'[i]? = some a' →
        ∃ m : ℤ, |a.val - a' - m * (2 * L.val)| ≤ zs.length * (L.val / 2 ^ 51) := by
  obtain ⟨ball, box, hball, hbox⟩ := parts_exist hnew hd1 hdn
  obtain ⟨ball', box', hball', hbox'⟩ := parts_exist hnew' hd1 hdn
  obtain ⟨l, f1, f2⟩ := follows_parts hnew hball hbox (comparable_double L) hp (fun z h => (hz z h).1) hf
  obtain ⟨l', f1', f2'⟩ := follows_parts hnew' hball' hbox' (comparable_real L.val) (by simp [hp])
    (by intro z h; obtain ⟨y, hy, rfl⟩ := List.mem_map.1 h; simp [(hz y hy).1]) hf'
  have m1 : (zs.map vals).map (·.take d) = (zs.map (·.take d)).map vals := by
    simp [List.map_map, Function.comp_def, List.map_take]
  have m2 : (zs.map vals).map (·.drop d) = (zs.map (·.drop d)).map vals := by
    simp [List.map_map, Function.comp_def, List.map_drop]
  rw [m1, ← List.map_take] at f1'
  rw [m2, ← List.map_drop] at f2'
  obtain ⟨-, -, r1, c1⟩ := C90_trajectory R hR hR1 d hd ball ball' hball hball' (p.take d) (q.take d) (q'.take d)
    (zs.map (·.take d)) (by simp [hp]; omega) (fun x hx => hpr x (List.mem_of_mem_take hx))
    (by intro z h; obtain ⟨y, hy, rfl⟩ := List.mem_map.1 h
        exact ⟨by simp [(hz y hy).1]; omega, fun x hx => (hz y hy).2 x (List.mem_of_mem_take hx)⟩) f1 f1'
  obtain ⟨-, -, r2, c2⟩ := C87_trajectory .periodic L hL (n - d) box box' hbox hbox' (p.drop d) (q.drop d) (q'.drop d)
    (zs.map (·.drop d)) (by simp [hp]) (fun x hx => hpr x (List.mem_of_mem_drop hx))
    (by intro z h; obtain ⟨y, hy, rfl⟩ := List.mem_map.1 h
        exact ⟨by simp [(hz y hy).1], fun x hx => (hz y hy).2 x (List.mem_of_mem_drop hx)⟩) f2 f2'
  refine ⟨l, l', ?_, ?_, ?_⟩
  · intro x hx
    rw [← List.take_append_drop d q, List.mem_append] at hx
    rcases hx with hx | hx
    · exact r1 x hx
    · exact r2 x hx
  · rw [List.length_map] at c1
    exact c1
  · intro i a a' hi ha ha'
    obtain ⟨-, h⟩ := c2 (i - d) a a' (by rw [List.getElem?_drop, show d + (i - d) = i by omega]; exact ha)
      (by rw [List.getElem?_drop, show d + (i - d) = i by omega]; exact ha')
    obtain ⟨m, hm⟩ := h (by simp [BoundaryCond.mirrored])
    rw [List.length_map] at hm
    exact ⟨m, hm⟩

/-- A cylinder of radius 13 and half length 4: the point `(5, 12, 3)` with the displacement `(5, 12, 3)` meets the hypotheses of
`C94_product`, `C94_cylinder` and `C94_trajectory`: the move is accepted, the front is reflected to within `10^-12` of the axis
and the axial coordinate `6` comes back at `-2`. -/
example : ∃ s : Cyl Double, Cyl.new 2 ⟨13⟩ ⟨4⟩ 3 = .ok s ∧
    (s.checkBc [⟨5⟩, ⟨12⟩, ⟨3⟩] [⟨5⟩, ⟨12⟩, ⟨3⟩]).2 = .ok () ∧
    radius (((s.checkBc [⟨5⟩, ⟨12⟩, ⟨3⟩] [⟨5⟩, ⟨12⟩, ⟨3⟩]).1.take 2).map RF.val) ≤ 1 / 10 ^ 12 ∧
    (s.checkBc [⟨5⟩, ⟨12⟩, ⟨3⟩] [⟨5⟩, ⟨12⟩, ⟨3⟩]).1[2]? = some ⟨-2⟩ ∧
    ∃ (s' : Cyl ℝ) (q : Pos Double) (q' : Pos ℝ), Cyl.new 2 13 4 3 = .ok s' ∧
      Follows s.checkBc [⟨5⟩, ⟨12⟩, ⟨3⟩] [[⟨5⟩, ⟨12⟩, ⟨3⟩]] q ∧ Follows s'.checkBc [5, 12, 3] [[5, 12, 3]] q' := by
  have hnew : Cyl.new 2 ⟨13⟩ ⟨4⟩ 3 = .ok (⟨.continuousCylindrical 2, .mixed 2, ⟨13⟩, ⟨4⟩, 3⟩ : Cyl Double) := by
    unfold Cyl.new; rw [if_neg (by simp [Rounding.double.zero])]
  have r : ∀ n : ℕ, n < 2 ^ 53 → (⟨n⟩ : Double).Rep := fun n h => double_nat h
  have r13 : (⟨13⟩ : Double).Rep := by exact_mod_cast r 13 (by norm_num)
  have r4 : (⟨4⟩ : Double).Rep := by exact_mod_cast r 4 (by norm_num)
  have hall : ∀ x ∈ [(⟨5⟩ : Double), ⟨12⟩, ⟨3⟩], x.Rep := by
    intro x hx
    simp only [List.mem_cons, List.not_mem_nil, or_false] at hx
    rcases hx with rfl | rfl | rfl
    · exact_mod_cast r 5 (by norm_num)
    · exact_mod_cast r 12 (by norm_num)
    · exact_mod_cast r 3 (by norm_num)
  have t : (2 : ℝ) ^ (-440 : ℤ) ≤ 13 := by
    calc (2 : ℝ) ^ (-440 : ℤ) ≤ 2 ^ (0 : ℤ) := zpow_le_zpow_right₀ (by norm_num) (by norm_num)
      _ ≤ 13 := by norm_num
  have s6 : ((⟨3⟩ : Double) + ⟨3⟩).val = 6 := by
    have h : Rounding.double.rnd ((6 : ℕ) : ℝ) = ((6 : ℕ) : ℝ) := double_nat (by norm_num)
    have : ((⟨3⟩ : Double) + ⟨3⟩).val = Rounding.double.rnd (3 + 3) := rfl
    rw [this, show (3 + 3 : ℝ) = ((6 : ℕ) : ℝ) by norm_num, h]; norm_num
  have rad : radius (List.zipWith (· + ·) (([(⟨5⟩ : Double), ⟨12⟩, ⟨3⟩].take 2).map RF.val)
      (([(⟨5⟩ : Double), ⟨12⟩, ⟨3⟩].take 2).map RF.val)) = 26 := by
    unfold radius
    simp only [List.take_succ_cons, List.take_zero, List.map_cons, List.map_nil, List.zipWith_cons_cons, List.zipWith_nil_left, List.sum_cons, List.sum_nil]
    rw [show ((5 + 5 : ℝ) ^ 2 + ((12 + 12) ^ 2 + 0)) = 26 ^ 2 by norm_num]
    exact Real.sqrt_sq (by norm_num)
  have acc := (C94_accepts ⟨13⟩ ⟨4⟩ r13 t r4 2 3 (by norm_num) (by norm_num) (by norm_num) _ hnew [⟨5⟩, ⟨12⟩, ⟨3⟩]
    [⟨5⟩, ⟨12⟩, ⟨3⟩] rfl rfl hall hall).2.1 ?_ ?_
  · obtain ⟨-, -, c3, c4⟩ := C94_cylinder ⟨13⟩ ⟨4⟩ r13 t r4 2 3 (by norm_num) (by norm_num) (by norm_num) _ hnew
      [⟨5⟩, ⟨12⟩, ⟨3⟩] [⟨5⟩, ⟨12⟩, ⟨3⟩] rfl rfl hall hall acc
    have hnew' : Cyl.new 2 13 4 3 = .ok (⟨.continuousCylindrical 2, .mixed 2, 13, 4, 3⟩ : Cyl ℝ) := by
      unfold Cyl.new; rw [if_neg (by simp)]
    have acc' := (C22_cylinder_image 2 13 4 3 _ hnew' [5, 12, 3] [5, 12, 3] rfl rfl).2.2.2.1.2 ⟨?_, ?_⟩
    refine ⟨_, hnew, acc, ?_, ?_, _, _, _, hnew', .step (Prod.ext rfl acc) (.stay _), .step (Prod.ext rfl acc') (.stay _)⟩
    · have h0 := c3 [0, 0] ⟨fun h => absurd h (by rw [rad]; norm_num), fun _ => by rw [rad]; norm_num⟩
      have hl : ((⟨.continuousCylindrical 2, .mixed 2, ⟨13⟩, ⟨4⟩, 3⟩ : Cyl Double).checkBc [⟨5⟩, ⟨12⟩, ⟨3⟩]
        [⟨5⟩, ⟨12⟩, ⟨3⟩]).1.length = 3 := (C94_cylinder ⟨13⟩ ⟨4⟩ r13 t r4 2 3 (by norm_num) (by norm_num) (by norm_num)
          _ hnew [⟨5⟩, ⟨12⟩, ⟨3⟩] [⟨5⟩, ⟨12⟩, ⟨3⟩] rfl rfl hall hall acc).1
      generalize (Cyl.checkBc (⟨.continuousCylindrical 2, .mixed 2, ⟨13⟩, ⟨4⟩, 3⟩ : Cyl Double) [⟨5⟩, ⟨12⟩, ⟨3⟩] [⟨5⟩, ⟨12⟩, ⟨3⟩]).1 = m at h0 hl ⊢
      match m, hl with
      | [x, y, z], _ =>
        unfold apart at h0
        simp only [List.take_succ_cons, List.take_zero, List.map_cons, List.map_nil, List.zipWith_cons_cons,
          List.zipWith_nil_left, sub_zero] at h0 ⊢
        refine h0.trans ?_
        norm_num
    · obtain ⟨y, hy, -, -, h, -⟩ := c4 2 ⟨3⟩ ⟨3⟩ (by norm_num) rfl rfl
      rw [hy, show y = ⟨y.val⟩ from rfl, h (by rw [s6]; norm_num), s6]
      norm_num
    · have e : (List.zipWith (· + ·) [(5 : ℝ), 12, 3] [5, 12, 3]).take 2 =
          List.zipWith (· + ·) (([(⟨5⟩ : Double), ⟨12⟩, ⟨3⟩].take 2).map RF.val)
            (([(⟨5⟩ : Double), ⟨12⟩, ⟨3⟩].take 2).map RF.val) := rfl
      rw [e, rad]; norm_num
    · intro i a b hi ha hb
      have : i = 2 := by
        have := (List.getElem?_eq_some_iff.1 ha).1
        simp at this; omega
      subst this
      simp only [List.getElem?_cons_succ, List.getElem?_cons_zero, Option.some.injEq] at ha hb
      subst ha; subst hb
      norm_num
  · intro i a b hi ha hb
    have : i = 2 := by
      have := (List.getElem?_eq_some_iff.1 ha).1
      simp at this; omega
    subst this
    simp only [List.getElem?_cons_succ, List.getElem?_cons_zero, Option.some.injEq] at ha hb
    subst ha; subst hb
    rw [s6]; norm_num
  · right
    rw [rad]; norm_num

end Moledyn.Props
