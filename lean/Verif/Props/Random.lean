import Verif.Lemmas.System
import Verif.Lemmas.Random
import Verif.Props.System
/-
Property theorems C26, C27, C34 (random vectors, random positions, positions outside).
-/
set_option linter.unusedSimpArgs false
namespace Moledyn.Props
open Moledyn

/-! ## C34: random vectors -/

/-- Any arithmetic, any generator: the standard vector draws return the next `dim` numbers delivered, in
order, and advance the generator by exactly `dim` draws; the forms writing into a vector do the same with
the length of the vector and forget its old content. -/
theorem C34_standard {F G : Type} [Fl F] (rng : RngOps G F) (g : G) (dim : Nat) (vec : Pos F) :
    Random.getUniformVec rng g dim = (delivered rng.uniform dim g, advanced rng.uniform dim g) ∧
    Random.getGaussianVec rng g dim = (delivered rng.gaussian dim g, advanced rng.gaussian dim g) ∧
    Random.getUniformToVec rng g vec =
      (delivered rng.uniform vec.length g, advanced rng.uniform vec.length g) ∧
    Random.getGaussianToVec rng g vec =
      (delivered rng.gaussian vec.length g, advanced rng.gaussian vec.length g) := by
  refine ⟨?_, ?_, ?_, ?_⟩
  · unfold Random.getUniformVec; rw [sweep_fresh]; simp
  · unfold Random.getGaussianVec; rw [sweep_fresh]; simp
  · unfold Random.getUniformToVec; rw [sweep_fresh]; simp [Pos.clear]
  · unfold Random.getGaussianToVec; rw [sweep_fresh]; simp [Pos.clear]

/-- Any arithmetic, any generator: the nonstandard forms do not overwrite, they add: coordinate `i` becomes
`old + draw * (max - min) + min`, resp. `old + draw * stddev + mean`, with one draw per coordinate in
order. -/
theorem C34_nonstandard_adds {F G : Type} [Fl F] (rng : RngOps G F) (g : G) (vec : Pos F) (a b : F) :
    Random.getUniformToVecNonstandard rng g vec a b =
      (List.zipWith (fun old r => old + r * (b - a) + a) vec (delivered rng.uniform vec.length g),
       advanced rng.uniform vec.length g) ∧
    Random.getGaussianToVecNonstandard rng g vec a b =
      (List.zipWith (fun old r => old + r * b + a) vec (delivered rng.gaussian vec.length g),
       advanced rng.gaussian vec.length g) :=
  ⟨sweep_eq _ _ _ _, sweep_eq _ _ _ _⟩

private theorem delivered_mem {F G : Type} {draw : G → F × G} {P : F → Prop} (h : ∀ g, P (draw g).1)
    (n : Nat) (g : G) : ∀ x ∈ delivered draw n g, P x := by
  induction n generalizing g with
  | zero => simp [delivered]
  | succ n ih =>
    intro x hx
    simp only [delivered, List.mem_cons] at hx
    rcases hx with rfl | hx
    · exact h g
    · exact ih _ x hx

private theorem mem_zipWith_left {α β γ : Type} {f : α → β → γ} {l : List α} {r : List β} {y : γ}
    (h : y ∈ List.zipWith f l r) : ∃ a ∈ l, ∃ b ∈ r, y = f a b := by
  obtain ⟨i, hi⟩ := List.mem_iff_getElem?.1 h
  rw [List.getElem?_zipWith_eq_some] at hi
  obtain ⟨a, b, ha, hb, hab⟩ := hi
  exact ⟨a, List.mem_of_getElem? ha, b, List.mem_of_getElem? hb, hab.symm⟩

/-- Exact arithmetic: with draws in (0,1), a vector of zeros and `a < b`, the nonstandard uniform draw puts
every coordinate strictly between `a` and `b`. -/
theorem C34_uniform_range {G : Type} (rng : RngOps G ℝ) (hu : ∀ g, 0 < (rng.uniform g).1 ∧ (rng.uniform g).1 < 1)
    (g : G) (vec : Pos ℝ) (hz : ∀ x ∈ vec, x = 0) (a b : ℝ) (hab : a < b) :
    (Random.getUniformToVecNonstandard rng g vec a b).1.length = vec.length ∧
    ∀ x ∈ (Random.getUniformToVecNonstandard rng g vec a b).1, a < x ∧ x < b := by
  rw [(C34_nonstandard_adds rng g vec a b).1]
  refine ⟨by simp, fun x hx => ?_⟩
  obtain ⟨o, ho, r, hr, rfl⟩ := mem_zipWith_left hx
  obtain ⟨h0, h1⟩ := delivered_mem (P := fun x => 0 < x ∧ x < 1) hu _ _ r hr
  simp only [fl_add, fl_mul, fl_sub, hz o ho]
  constructor <;> nlinarith

/-- Two consecutive vector draws are one longer draw cut in two: nothing is skipped or reused. -/
theorem C34_consecutive {F G : Type} [Fl F] (rng : RngOps G F) (g : G) (m n : Nat) :
    (Random.getGaussianVec rng g m).1 ++ (Random.getGaussianVec rng (Random.getGaussianVec rng g m).2 n).1 =
      (Random.getGaussianVec rng g (m + n)).1 ∧
    (Random.getGaussianVec rng (Random.getGaussianVec rng g m).2 n).2 = (Random.getGaussianVec rng g (m + n)).2 ∧
    (Random.getUniformVec rng g m).1 ++ (Random.getUniformVec rng (Random.getUniformVec rng g m).2 n).1 =
      (Random.getUniformVec rng g (m + n)).1 ∧
    (Random.getUniformVec rng (Random.getUniformVec rng g m).2 n).2 = (Random.getUniformVec rng g (m + n)).2 := by
  simp only [(C34_standard rng _ _ []).1, (C34_standard rng _ _ []).2.1]
  exact ⟨(delivered_add _ _ _ _).symm, (advanced_add _ _ _ _).symm, (delivered_add _ _ _ _).symm,
    (advanced_add _ _ _ _).symm⟩

/-- a generator delivering 1/2, 7/8, 1/2, 7/8, …; used in the examples. -/
noncomputable def altRng : RngOps Bool ℝ :=
  ⟨fun b => (if b then 7 / 8 else 1 / 2, !b), fun b => (if b then -1 else 2, !b)⟩

example : ∀ g, 0 < (altRng.uniform g).1 ∧ (altRng.uniform g).1 < 1 := by
  intro g; cases g <;> simp [altRng] <;> norm_num

example : (Random.getUniformVec altRng false 3).1 = [1 / 2, 7 / 8, 1 / 2] := by
  rw [(C34_standard altRng false 3 []).1]; simp [delivered, altRng]

/-! ## C26: random positions -/

private theorem add_half {F G : Type} [Fl F] (rng : RngOps G F) (n : Nat) (g : G) :
    Pos.add (delivered rng.uniform n g) (List.replicate n (-(Fl.lit (1 / 2) : F))) =
      .ok ((delivered rng.uniform n g).map fun r => r + -(Fl.lit (1 / 2))) := by
  unfold Pos.add Pos.dim
  rw [if_neg (by simp)]
  congr 1
  have : ∀ l : List F, List.zipWith (· + ·) l (List.replicate l.length (-(Fl.lit (1 / 2) : F))) =
      l.map fun r => r + -(Fl.lit (1 / 2)) := by
    intro l
    induction l with
    | nil => rfl
    | cons x l ih => rw [List.length_cons, List.replicate_succ, List.zipWith_cons_cons, ih]; rfl
  have := this (delivered rng.uniform n g)
  rwa [delivered_length] at this

private theorem cleared {F : Type} [Fl F] (n : Nat) (l : List F) (z : F) (h : F → F → F) (hl : l.length = n) :
    List.zipWith h (List.replicate n z) l = l.map (h z) := by
  subst hl
  induction l with
  | nil => rfl
  | cons x l ih => rw [List.length_cons, List.replicate_succ, List.zipWith_cons_cons, ih]; rfl

private theorem clear_eq {F : Type} [Fl F] (v : Pos F) (z : F) : Pos.clear z v = List.replicate v.length z := by
  simp [Pos.clear, List.map_const']

/-- Exact arithmetic, any generator with draws in (0,1): the random positions of a cube lie strictly inside,
have the right dimension, pass `check_inclusion`, and use exactly `dim` draws. -/
theorem C26_cube {G : Type} (rng : RngOps G ℝ) (hu : ∀ g, 0 < (rng.uniform g).1 ∧ (rng.uniform g).1 < 1)
    (bc : BoundaryCond) (L : ℝ) (n : Nat) (s : Cubic ℝ) (hnew : Cubic.new bc L n = .ok s) (g : G)
    (vec : Pos ℝ) (hvec : vec.length = n) :
    (∃ p, s.randomPos rng g = (.ok p, advanced rng.uniform n g) ∧ p.length = n ∧ (∀ x ∈ p, |x| < L) ∧
      s.checkInclusion p = .ok true) ∧
    (∃ p, s.randomPosToVec rng g vec = ((p, .ok ()), advanced rng.uniform n g) ∧ p.length = n ∧
      (∀ x ∈ p, |x| < L) ∧ s.checkInclusion p = .ok true) := by
  obtain ⟨hL, hn, rfl, -⟩ := new_cubic hnew
  have hin : ∀ p : Pos ℝ, p.length = n → (∀ x ∈ p, |x| < L) →
      (⟨.continuousRectangular, bc, L, n⟩ : Cubic ℝ).checkInclusion p = .ok true := by
    intro p hp hx
    rcases Cubic.checkInclusion_cases (⟨.continuousRectangular, bc, L, n⟩ : Cubic ℝ) p with ⟨h, _⟩ | ⟨_, e⟩
    · exact absurd hp.symm h
    · rw [e, any_gt_real]; simp only [Res.ok.injEq, decide_eq_true_eq]; exact fun x h => (hx x h).le
  have hd := delivered_mem (P := fun x => 0 < x ∧ x < 1) hu n g
  constructor
  · refine ⟨Pos.mutScalarMul ((delivered rng.uniform n g).map fun r => r + -(Fl.lit (1 / 2))) (Fl.two * L), ?_, ?_, ?_, ?_⟩
    · unfold Cubic.randomPos
      simp only [(C34_standard rng g n []).1, add_half, Res.map_ok]
    · simp [Pos.mutScalarMul]
    · intro x hx
      simp only [Pos.mutScalarMul, List.mem_map] at hx
      obtain ⟨y, ⟨r, hr, rfl⟩, rfl⟩ := hx
      have := hd r hr
      simp only [fl_add, fl_mul, fl_neg, fl_lit, fl_two]
      push_cast
      rw [abs_lt]; constructor <;> nlinarith
    · apply hin
      · simp [Pos.mutScalarMul]
      intro x hx
      simp only [Pos.mutScalarMul, List.mem_map] at hx
      obtain ⟨y, ⟨r, hr, rfl⟩, rfl⟩ := hx
      have := hd r hr
      simp only [fl_add, fl_mul, fl_neg, fl_lit, fl_two]
      push_cast
      rw [abs_lt]; constructor <;> nlinarith
  · have hz : ∀ x ∈ Pos.clear (Fl.zero : ℝ) vec, x = 0 := by
      simp [Pos.clear]
    obtain ⟨h1, h2⟩ := C34_uniform_range rng hu g (Pos.clear Fl.zero vec) hz (-L) L (by linarith)
    refine ⟨(Random.getUniformToVecNonstandard rng g (Pos.clear Fl.zero vec) (-L) L).1, ?_, ?_, ?_, ?_⟩
    · unfold Cubic.randomPosToVec
      rw [if_neg (by simpa [Pos.dim] using hvec)]
      simp only [fl_neg]
      rw [(C34_nonstandard_adds rng g _ _ _).1]
      simp [Pos.clear, hvec]
    · rw [h1]; simp [Pos.clear, hvec]
    · intro x hx; rw [abs_lt]; exact h2 x hx
    · apply hin
      · rw [h1]; simp [Pos.clear, hvec]
      · intro x hx; rw [abs_lt]; exact h2 x hx

/-- With rounding: if 1/2, 2, L and 2L are floating-point numbers, the random positions of the cube still
pass `check_inclusion`. -/
theorem C26_cube_rounded {G : Type} (R : Rounding) (rng : RngOps G (RF R))
    (hu : ∀ g, 0 < (rng.uniform g).1.val ∧ (rng.uniform g).1.val < 1)
    (bc : BoundaryCond) (L : ℝ) (hL : 0 < L) (n : Nat)
    (hhalf : R.rnd (1 / 2) = 1 / 2) (htwo : R.rnd 2 = 2) (hrL : R.rnd L = L) (hr2L : R.rnd (2 * L) = 2 * L)
    (g : G) (vec : Pos (RF R)) (hvec : vec.length = n) :
    let s : Cubic (RF R) := ⟨.continuousRectangular, bc, ⟨L⟩, n⟩
    (∃ p, (s.randomPos rng g).1 = .ok p ∧ s.checkInclusion p = .ok true) ∧
    (∃ p, (s.randomPosToVec rng g vec).1 = (p, .ok ()) ∧ s.checkInclusion p = .ok true) := by
  intro s
  have hin : ∀ p : Pos (RF R), p.length = n → (∀ x ∈ p, |x.val| ≤ L) → s.checkInclusion p = .ok true := by
    intro p hp hx
    rcases Cubic.checkInclusion_cases s p with ⟨h, _⟩ | ⟨_, e⟩
    · exact absurd hp.symm h
    · rw [e]
      simp only [Res.ok.injEq, Bool.not_eq_true', List.any_eq_false, RF.lt_val, RF.val_abs,
        decide_eq_true_eq, not_lt]
      exact hx
  have hd := delivered_mem (P := fun x : RF R => 0 < x.val ∧ x.val < 1) hu n g
  have hmhalf : R.rnd (-(1 / 2)) = -(1 / 2) := by rw [R.odd, hhalf]
  have hmL : R.rnd (-L) = -L := by rw [R.odd, hrL]
  constructor
  · refine ⟨Pos.mutScalarMul ((delivered rng.uniform n g).map fun r => r + -(Fl.lit (1 / 2))) (Fl.two * ⟨L⟩), ?_, ?_⟩
    · unfold Cubic.randomPos
      simp only [(C34_standard rng g n []).1, add_half, Res.map_ok, s]
    · apply hin
      · simp [Pos.mutScalarMul]
      intro x hx
      simp only [Pos.mutScalarMul, List.mem_map] at hx
      obtain ⟨y, ⟨r, hr, rfl⟩, rfl⟩ := hx
      obtain ⟨h0, h1⟩ := hd r hr
      simp only [RF.val_mul, RF.val_add, RF.val_neg, RF.val_lit]
      push_cast
      rw [htwo, hr2L, hhalf]
      have e1 : R.rnd (r.val + -(1 / 2)) ≤ 1 / 2 := by rw [← hhalf]; apply R.mono; rw [hhalf]; linarith
      have e2 : -(1 / 2) ≤ R.rnd (r.val + -(1 / 2)) := by
        rw [← hmhalf]; apply R.mono; rw [hmhalf]; linarith
      rw [abs_le]
      constructor
      · rw [← hmL]; apply R.mono; nlinarith
      · conv_rhs => rw [← hrL]
        apply R.mono; nlinarith
  · have hl : (Pos.clear Fl.zero vec : Pos (RF R)).length = n := by simp [Pos.clear, hvec]
    refine ⟨(Random.getUniformToVecNonstandard rng g (Pos.clear Fl.zero vec) (-⟨L⟩) ⟨L⟩).1, ?_, ?_⟩
    · unfold Cubic.randomPosToVec
      rw [if_neg (by simpa [Pos.dim, s] using hvec)]
    · apply hin
      · rw [(C34_nonstandard_adds rng g _ _ _).1]; simp [hl]
      intro x hx
      rw [(C34_nonstandard_adds rng g _ _ _).1, hl] at hx
      obtain ⟨o, ho, r, hr, rfl⟩ := mem_zipWith_left hx
      obtain ⟨h0, h1⟩ := hd r hr
      have ho' : o = Fl.zero := by
        simp only [Pos.clear, List.mem_map] at ho; obtain ⟨_, _, h⟩ := ho; exact h.symm
      subst ho'
      simp only [RF.val_mul, RF.val_add, RF.val_neg, RF.val_lit, RF.val_sub]
      push_cast
      rw [R.zero, zero_add, show L - -L = 2 * L by ring, hr2L, R.idem]
      have e1 : R.rnd (r.val * (2 * L)) ≤ 2 * L := by
        conv_rhs => rw [← hr2L]
        apply R.mono; nlinarith
      have e2 : 0 ≤ R.rnd (r.val * (2 * L)) := by
        rw [← R.zero]; apply R.mono; positivity
      rw [abs_le]
      constructor
      · rw [← hmL]; apply R.mono; rw [hmL]; linarith
      · conv_rhs => rw [← hrL]
        apply R.mono; linarith

/-- Any arithmetic, any generator: `random_pos` of a sphere, when it returns, returns the first proposal
that passes `check_inclusion`; proposal number `k` is made from draws `k*dim .. (k+1)*dim`, shifted by -1/2
and scaled by `2R`; it never fails and never panics. -/
theorem C26_sphere {F G : Type} [Fl F] (rng : RngOps G F) (R : F) (n : Nat) (s : Circ F)
    (hnew : Circ.new R n = .ok s) (fuel : Nat) (g : G) (r : Res (Pos F)) (g' : G) :
    let proposal : Nat → Pos F := fun k =>
      (delivered rng.uniform n (advanced rng.uniform (k * n) g)).map fun u => (u + -(Fl.lit (1 / 2))) * (Fl.two * R)
    s.randomPos rng fuel g = some (r, g') ↔
      ∃ k < fuel, r = .ok (proposal k) ∧ s.checkInclusion (proposal k) = .ok true ∧
        (∀ i < k, s.checkInclusion (proposal i) = .ok false) ∧
        g' = advanced rng.uniform ((k + 1) * n) g := by
  intro proposal
  have hs : s = ⟨.continuousCircular, .reflection, R, n⟩ := by
    unfold Circ.new at hnew
    split at hnew
    · simp at hnew
    · simp only [Res.ok.injEq] at hnew; exact hnew.symm
  have hb : ∀ g, s.checkInclusion ((delivered rng.uniform n g).map fun u => (u + -(Fl.lit (1 / 2))) * (Fl.two * R))
      = .ok true ∨ s.checkInclusion ((delivered rng.uniform n g).map fun u => (u + -(Fl.lit (1 / 2))) * (Fl.two * R))
      = .ok false := by
    intro g
    rcases Circ.checkInclusion_cases s ((delivered rng.uniform n g).map fun u =>
      (u + -(Fl.lit (1 / 2))) * (Fl.two * R)) with ⟨h, _⟩ | ⟨_, e⟩
    · exact absurd (by simp [hs]) h
    · rw [e]; cases Fl.gt (Pos.norm ((delivered rng.uniform n g).map fun u =>
        (u + -(Fl.lit (1 / 2))) * (Fl.two * R))) s.sysSize <;> simp
  classical
  have key := rejectLoop_iff (try_ := Circ.propose rng s)
    (prop := fun g => (delivered rng.uniform n g).map fun u => (u + -(Fl.lit (1 / 2))) * (Fl.two * R))
    (adv := advanced rng.uniform n) (P := fun p => s.checkInclusion p = .ok true) (by
      intro g
      have hp : Circ.propose rng s g = ((s.checkInclusion ((delivered rng.uniform n g).map fun u =>
          (u + -(Fl.lit (1 / 2))) * (Fl.two * R))).map fun b =>
            if b then some ((delivered rng.uniform n g).map fun u =>
              (u + -(Fl.lit (1 / 2))) * (Fl.two * R)) else none, advanced rng.uniform n g) := by
        unfold Circ.propose
        subst hs
        simp only [(C34_standard rng g n []).1, add_half, Res.bind_ok, Pos.mutScalarMul, List.map_map]
        rfl
      rw [hp]
      rcases hb g with h | h
      · rw [h]; simp [h]
      · rw [h]; simp [h]) fuel g r g'
  unfold Circ.randomPos
  rw [key]
  simp only [iterate_advanced]
  have hneg : ∀ i, (¬ s.checkInclusion (proposal i) = .ok true) ↔ s.checkInclusion (proposal i) = .ok false := by
    intro i
    rcases hb (advanced rng.uniform (i * n) g) with h | h
    · change s.checkInclusion (proposal i) = _ at h; rw [h]; simp
    · change s.checkInclusion (proposal i) = _ at h; rw [h]; simp
  constructor
  · rintro ⟨k, hk, h1, h2, h3, h4⟩
    exact ⟨k, hk, h1, h2, fun i hi => (hneg i).1 (h3 i hi), h4⟩
  · rintro ⟨k, hk, h1, h2, h3, h4⟩
    exact ⟨k, hk, h1, h2, fun i hi => (hneg i).2 (h3 i hi), h4⟩

/-- Any arithmetic: `random_pos_to_vec` of a sphere, when it returns Ok, has put into the vector a point
that passes `check_inclusion`; for a vector of the right dimension it cannot fail. -/
theorem C26_sphere_to_vec {F G : Type} [Fl F] (rng : RngOps G F) (s : Circ F) (fuel : Nat) (g : G)
    (vec : Pos F) (hvec : vec.length = s.dim) (r : Res (Pos F)) (g' : G)
    (h : s.randomPosToVec rng fuel g vec = some (r, g')) :
    ∃ p, r = .ok p ∧ s.checkInclusion p = .ok true := by
  unfold Circ.randomPosToVec at h
  rw [if_neg (by simpa [Pos.dim] using hvec)] at h
  induction fuel generalizing g with
  | zero => simp [rejectLoop] at h
  | succ fuel ih =>
    rw [rejectLoop] at h
    have hp : ∃ p g1 b, Circ.proposeToVec rng s vec g = (.ok (if b then some p else none), g1) ∧
        s.checkInclusion p = .ok b := by
      refine ⟨(Random.getUniformToVecNonstandard rng g (vec.clear Fl.zero) (-s.sysSize) s.sysSize).1,
        (Random.getUniformToVecNonstandard rng g (vec.clear Fl.zero) (-s.sysSize) s.sysSize).2, ?_⟩
      rcases Circ.checkInclusion_cases s (Random.getUniformToVecNonstandard rng g (vec.clear Fl.zero)
        (-s.sysSize) s.sysSize).1 with ⟨h, _⟩ | ⟨_, e⟩
      · exact absurd (by rw [(C34_nonstandard_adds rng g _ _ _).1]; simp [Pos.clear, hvec]) h
      · refine ⟨_, ?_, e⟩
        unfold Circ.proposeToVec
        simp only [e, Res.map_ok]
    obtain ⟨p, g1, b, hp, hi⟩ := hp
    rw [hp] at h
    cases b with
    | true => simp at h; exact ⟨p, h.1.symm, hi⟩
    | false => simp at h; exact ih g1 h

/-- the point a cylinder proposes from the uniform draws `u`: the first `d` coordinates in the cube of
half-side `R`, the others in the cube of half-side `L`. -/
noncomputable def cylProposal (d : Nat) (R L : ℝ) (u : List ℝ) : List ℝ :=
  (u.take d).map (fun x => (x - 1 / 2) * (2 * R)) ++ (u.drop d).map (fun x => (x - 1 / 2) * (2 * L))

/-- Exact arithmetic, any generator with draws in (0,1): `random_pos` of a cylinder, when it returns, returns
the first proposal whose circular part is closer than `R` to the axis, and that point is inside the
cylinder; it never fails and never panics. -/
theorem C26_cylinder {G : Type} (rng : RngOps G ℝ)
    (hu : ∀ g, 0 < (rng.uniform g).1 ∧ (rng.uniform g).1 < 1)
    (d : Nat) (R L : ℝ) (n : Nat) (s : Cyl ℝ) (hnew : Cyl.new d R L n = .ok s)
    (fuel : Nat) (g : G) (r : Res (Pos ℝ)) (g' : G) :
    let proposal : Nat → Pos ℝ := fun k =>
      cylProposal d R L (delivered rng.uniform n (advanced rng.uniform (k * n) g))
    (s.randomPos rng fuel g = some (r, g') ↔
      ∃ k < fuel, r = .ok (proposal k) ∧ radius ((proposal k).take d) < R ∧
        (∀ i < k, R ≤ radius ((proposal i).take d)) ∧ g' = advanced rng.uniform ((k + 1) * n) g) ∧
    (s.randomPos rng fuel g = some (r, g') → ∃ p, r = .ok p ∧ s.checkInclusion p = .ok true) := by
  intro proposal
  obtain ⟨hR, hL, hdn, hn, rfl⟩ := new_cyl hnew
  classical
  have htake : ∀ u : List ℝ, u.length = n → (cylProposal d R L u).take d =
      (u.take d).map (fun x => (x - 1 / 2) * (2 * R)) := by
    intro u hl
    unfold cylProposal
    rw [List.take_append_of_le_length (by simp; omega), List.take_of_length_le (by simp)]
  have hdrop : ∀ u : List ℝ, u.length = n → (cylProposal d R L u).drop d =
      (u.drop d).map (fun x => (x - 1 / 2) * (2 * L)) := by
    intro u hl
    unfold cylProposal
    rw [List.drop_append_of_le_length (by simp; omega), List.drop_of_length_le (by simp), List.nil_append]
  have key := rejectLoop_iff (try_ := fun g =>
      ((Pos.add (Random.getUniformVec rng g n).1 (List.replicate n (-(Fl.lit (1 / 2))))).bind
        (Cyl.scaleTest (⟨.continuousCylindrical d, .mixed d, R, L, n⟩ : Cyl ℝ) d),
        (Random.getUniformVec rng g n).2))
    (prop := fun g => cylProposal d R L (delivered rng.uniform n g))
    (adv := advanced rng.uniform n) (P := fun p => radius (p.take d) < R) (by
      intro g
      simp only [(C34_standard rng g n []).1, add_half, Res.bind_ok]
      have e1 : ((delivered rng.uniform n g).map fun r => r + -(Fl.lit (1 / 2) : ℝ)).take d =
          ((delivered rng.uniform n g).take d).map fun r => r + -(Fl.lit (1 / 2) : ℝ) := by
        rw [List.map_take]
      have e2 : ((delivered rng.uniform n g).map fun r => r + -(Fl.lit (1 / 2) : ℝ)).drop d =
          ((delivered rng.uniform n g).drop d).map fun r => r + -(Fl.lit (1 / 2) : ℝ) := by
        rw [List.map_drop]
      unfold Cyl.scaleTest
      rw [if_neg (by simp; omega), e1, e2]
      simp only [List.map_map]
      have f1 : ∀ c : ℝ, ((fun x : ℝ => x * (Fl.two * c)) ∘ fun r => r + -(Fl.lit (1 / 2) : ℝ)) =
          fun x => (x - 1 / 2) * (2 * c) := by
        intro c; funext x
        simp only [Function.comp, fl_add, fl_mul, fl_neg, fl_lit, fl_two]; push_cast; ring
      rw [show ((fun x : ℝ => x * (Fl.two * R)) ∘ fun r => r + -(Fl.lit (1 / 2) : ℝ)) = _ from f1 R,
        show ((fun x : ℝ => x * (Fl.two * L)) ∘ fun r => r + -(Fl.lit (1 / 2) : ℝ)) = _ from f1 L,
        norm_eq_radius, htake _ (by simp)]
      simp only [fl_lt, decide_eq_true_eq]
      split <;> rfl) fuel g r g'
  have hiff : (⟨.continuousCylindrical d, .mixed d, R, L, n⟩ : Cyl ℝ).randomPos rng fuel g = some (r, g') ↔
      ∃ k < fuel, r = .ok (proposal k) ∧ radius ((proposal k).take d) < R ∧
        (∀ i < k, R ≤ radius ((proposal i).take d)) ∧ g' = advanced rng.uniform ((k + 1) * n) g := by
    unfold Cyl.randomPos
    simp only [iterate_advanced, not_lt] at key
    exact key
  refine ⟨hiff, fun h => ?_⟩
  obtain ⟨k, -, rfl, hk, -, -⟩ := hiff.1 h
  refine ⟨_, rfl, ?_⟩
  have hl : (proposal k).length = n := by simp [proposal, cylProposal]; omega
  rw [((C19_inclusion_meaning ⟨.network, .periodic, 0, 0⟩ ⟨.network, .periodic, 0, 0⟩ _ d rfl hdn _).2.2)]
  refine ⟨hl, hk.le, fun x hx => ?_⟩
  rw [hdrop _ (by simp)] at hx
  obtain ⟨u, hu', rfl⟩ := List.mem_map.1 hx
  obtain ⟨h0, h1⟩ := delivered_mem (P := fun x => 0 < x ∧ x < 1) hu _ _ u (List.mem_of_mem_drop hu')
  rw [abs_le]; constructor <;> nlinarith

/-- With rounding, the same acceptance for the cylinder: whatever `random_pos` returns passes
`check_inclusion`, provided 1/2, 2, L and 2L are floating-point numbers. -/
theorem C26_cylinder_rounded {G : Type} (Q : Rounding) (rng : RngOps G (RF Q))
    (hu : ∀ g, 0 < (rng.uniform g).1.val ∧ (rng.uniform g).1.val < 1)
    (d n : Nat) (hd : d ≤ n) (R L : ℝ) (hL : 0 < L)
    (hhalf : Q.rnd (1 / 2) = 1 / 2) (htwo : Q.rnd 2 = 2) (hrL : Q.rnd L = L) (hr2L : Q.rnd (2 * L) = 2 * L)
    (fuel : Nat) (g : G) (r : Res (Pos (RF Q))) (g' : G) :
    let s : Cyl (RF Q) := ⟨.continuousCylindrical d, .mixed d, ⟨R⟩, ⟨L⟩, n⟩
    s.randomPos rng fuel g = some (r, g') → ∃ p, r = .ok p ∧ s.checkInclusion p = .ok true := by
  intro s h
  have hmhalf : Q.rnd (-(1 / 2)) = -(1 / 2) := by rw [Q.odd, hhalf]
  have hmL : Q.rnd (-L) = -L := by rw [Q.odd, hrL]
  unfold Cyl.randomPos at h
  simp only [s] at h
  induction fuel generalizing g with
  | zero => simp [rejectLoop] at h
  | succ fuel ih =>
    rw [rejectLoop] at h
    simp only [(C34_standard rng g n []).1, add_half, Res.bind_ok] at h
    unfold Cyl.scaleTest at h
    rw [if_neg (by simp; omega)] at h
    simp only at h
    split at h
    · rename_i hlt
      split at hlt
      · rename_i hnorm
        simp only [Prod.mk.injEq, Res.ok.injEq, Option.some.injEq] at hlt h
        obtain ⟨rfl, rfl⟩ := hlt
        refine ⟨_, h.1.symm, ?_⟩
        rw [Cyl.checkInclusion_eq s _ d (by simp [s]; omega) rfl (by simp; omega)]
        rw [List.take_append_of_le_length (by simp; omega), List.take_of_length_le (by simp),
          List.drop_append_of_le_length (by simp; omega), List.drop_of_length_le (by simp), List.nil_append]
        simp only [RF.lt_val, decide_eq_true_eq] at hnorm
        simp only [Res.ok.injEq, Bool.and_eq_true, Bool.not_eq_true', RF.lt_val, decide_eq_false_iff_not, s]
        refine ⟨not_lt.2 hnorm.le, ?_⟩
        simp only [List.any_eq_false, decide_eq_true_eq, not_lt, RF.val_abs]
        intro x hx
        obtain ⟨y, hy, rfl⟩ := List.mem_map.1 hx
        obtain ⟨u, hu', rfl⟩ := List.mem_map.1 (List.mem_of_mem_drop hy)
        obtain ⟨h0, h1⟩ := delivered_mem (P := fun x : RF Q => 0 < x.val ∧ x.val < 1) hu _ _ u hu'
        simp only [RF.val_mul, RF.val_add, RF.val_neg, RF.val_lit]
        push_cast
        rw [htwo, hr2L, hhalf]
        have e1 : Q.rnd (u.val + -(1 / 2)) ≤ 1 / 2 := by rw [← hhalf]; apply Q.mono; rw [hhalf]; linarith
        have e2 : -(1 / 2) ≤ Q.rnd (u.val + -(1 / 2)) := by
          rw [← hmhalf]; apply Q.mono; rw [hmhalf]; linarith
        rw [abs_le]
        constructor
        · rw [← hmL]; apply Q.mono; nlinarith
        · conv_rhs => rw [← hrL]
          apply Q.mono; nlinarith
      · simp at hlt
    · rename_i g1 hlt
      exact ih _ h
    · rename_i hlt
      split at hlt <;> simp at hlt
    · rename_i hlt
      split at hlt <;> simp at hlt

/-- The claim is false for `random_pos_to_vec` of a cylinder: whatever the cylinder, as soon as it has a
rectangular axis, some generator with draws in (0,1) makes it return a point with coordinate `3L/2` on that
axis, outside the system. -/
theorem C26_cylinder_to_vec_claim_false (d : Nat) (R L : ℝ) (n : Nat) (hd : d < n) (s : Cyl ℝ)
    (hnew : Cyl.new d R L n = .ok s) (vec : Pos ℝ) (hvec : vec.length = n) :
    ∃ rng : RngOps Nat ℝ, (∀ g, 0 < (rng.uniform g).1 ∧ (rng.uniform g).1 < 1) ∧
      ∃ p g', s.randomPosToVec rng 1 0 vec = some (.ok p, g') ∧ p[d]? = some (3 / 2 * L) ∧
        s.checkInclusion p = .ok false := by
  obtain ⟨hR, hL, hdn, hn, rfl⟩ := new_cyl hnew
  let rng : RngOps Nat ℝ := ⟨fun g => (if g < d then 1 / 2 else 7 / 8, g + 1), fun g => (0, g)⟩
  have hdel : ∀ m g, delivered rng.uniform m g =
      (List.range m).map fun i => if g + i < d then (1 / 2 : ℝ) else 7 / 8 := by
    intro m
    induction m with
    | zero => intro g; rfl
    | succ m ih =>
      intro g
      rw [delivered, ih, List.range_succ_eq_map, List.map_cons, List.map_map]
      simp only [rng, Nat.add_zero, List.cons.injEq, true_and]
      apply List.map_congr_left
      intro i _
      simp only [Function.comp, Nat.succ_eq_add_one]
      rw [show g + 1 + i = g + (i + 1) by omega]
  refine ⟨rng, ?_, ?_⟩
  · intro g; simp only [rng]; split <;> norm_num
  · have hv : (Random.getUniformToVecNonstandard rng 0 (Pos.clear Fl.zero vec) (-Fl.one) Fl.one).1 =
        (List.range n).map fun i => if i < d then (0 : ℝ) else 3 / 4 := by
      rw [(C34_nonstandard_adds rng 0 _ _ _).1, clear_eq, List.length_replicate, hvec]
      simp only
      rw [cleared n _ _ _ (by simp), hdel, List.map_map]
      apply List.map_congr_left
      intro i _
      simp only [Function.comp, Nat.zero_add, fl_add, fl_mul, fl_sub, fl_neg, fl_zero, fl_one]
      split <;> norm_num
    have htake : ((List.range n).map fun i => if i < d then (0 : ℝ) else 3 / 4).take d = List.replicate d 0 := by
      apply List.ext_getElem?
      intro i
      by_cases hi : i < d
      · simp [List.getElem?_take, hi, List.getElem?_range (show i < n by omega)]
      · rw [List.getElem?_take, if_neg hi, List.getElem?_eq_none (by simp; omega)]
    have hdrop : ((List.range n).map fun i => if i < d then (0 : ℝ) else 3 / 4).drop d =
        List.replicate (n - d) (3 / 4) := by
      apply List.ext_getElem?
      intro i
      by_cases hi : i < n - d
      · rw [List.getElem?_drop, List.getElem?_map, List.getElem?_range (by omega)]
        simp [hi]
      · rw [List.getElem?_eq_none (by simp; omega), List.getElem?_eq_none (by simp; omega)]
    have hr0 : radius (List.replicate d (0 : ℝ)) = 0 := by simp [radius]
    let p : Pos ℝ := List.replicate d 0 ++ List.replicate (n - d) (3 / 2 * L)
    have hst : Cyl.scaleTest (⟨.continuousCylindrical d, .mixed d, R, L, n⟩ : Cyl ℝ) d
        ((List.range n).map fun i => if i < d then (0 : ℝ) else 3 / 4) = .ok (some p) := by
      unfold Cyl.scaleTest
      rw [if_neg (by simp; omega), htake, hdrop]
      simp only [List.map_replicate, fl_mul, zero_mul, fl_two]
      rw [norm_eq_radius, hr0]
      rw [if_pos (by simpa using hR)]
      simp only [p]
      congr 4; ring
    refine ⟨p, (Random.getUniformToVecNonstandard rng 0 (Pos.clear Fl.zero vec) (-Fl.one) Fl.one).2, ?_, ?_, ?_⟩
    · unfold Cyl.randomPosToVec
      simp only
      rw [if_neg (by simpa [Pos.dim] using hvec), rejectLoop]
      simp only [hv, hst]
    · simp only [p]
      rw [List.getElem?_append_right (by simp)]
      simp [hd]
    · rw [Cyl.checkInclusion_eq _ p d (by simp [p]; omega) rfl (by simp [p])]
      have : p.drop d = List.replicate (n - d) (3 / 2 * L) := by
        simp only [p]
        rw [List.drop_append_of_le_length (by simp), List.drop_of_length_le (by simp), List.nil_append]
      rw [this]
      have hmem : (3 / 2 * L) ∈ List.replicate (n - d) (3 / 2 * L) := by
        rw [List.mem_replicate]; exact ⟨by omega, rfl⟩
      have hany : ((List.replicate (n - d) (3 / 2 * L)).any fun x => Fl.gt (Fl.abs x) L) = true := by
        rw [List.any_eq_true]
        refine ⟨_, hmem, ?_⟩
        simp only [fl_lt, fl_abs, decide_eq_true_eq]
        rw [abs_of_pos (by linarith)]; linarith
      rw [hany]; simp

/-- What `random_pos_to_vec` of a cylinder guarantees instead (exact arithmetic): the circular part is
within `R` of the axis, the other coordinates within `2L` (twice the extent of the system). -/
theorem C26_cylinder_to_vec_bound {G : Type} (rng : RngOps G ℝ)
    (hu : ∀ g, 0 < (rng.uniform g).1 ∧ (rng.uniform g).1 < 1)
    (d : Nat) (R L : ℝ) (n : Nat) (s : Cyl ℝ) (hnew : Cyl.new d R L n = .ok s) (vec : Pos ℝ)
    (hvec : vec.length = n) (fuel : Nat) (g : G) (r : Res (Pos ℝ)) (g' : G)
    (h : s.randomPosToVec rng fuel g vec = some (r, g')) :
    ∃ p, r = .ok p ∧ p.length = n ∧ radius (p.take d) < R ∧ ∀ x ∈ p.drop d, |x| < 2 * L := by
  obtain ⟨hR, hL, hdn, hn, rfl⟩ := new_cyl hnew
  unfold Cyl.randomPosToVec at h
  simp only at h
  rw [if_neg (by simpa [Pos.dim] using hvec)] at h
  unfold Cyl.scaleTest at h
  simp only [fl_neg, fl_one] at h
  induction fuel generalizing g with
  | zero => simp [rejectLoop] at h
  | succ fuel ih =>
    rw [rejectLoop] at h
    obtain ⟨hl, hr⟩ := C34_uniform_range rng hu g (Pos.clear Fl.zero vec) (by simp [Pos.clear]) (-1) 1 (by norm_num)
    generalize Random.getUniformToVecNonstandard rng g (Pos.clear Fl.zero vec) (-1) 1 = q at h hl hr
    have hl' : q.1.length = n := by rw [hl]; simp [Pos.clear, hvec]
    rw [if_neg (by omega)] at h
    split at h
    · rename_i hlt
      split at hlt
      · rename_i hnorm
        simp only [Prod.mk.injEq, Res.ok.injEq, Option.some.injEq] at hlt h
        obtain ⟨rfl, rfl⟩ := hlt
        refine ⟨_, h.1.symm, by simp; omega, ?_, ?_⟩
        · rw [List.take_append_of_le_length (by simp; omega), List.take_of_length_le (by simp)]
          rw [norm_eq_radius] at hnorm
          simpa using hnorm
        · rw [List.drop_append_of_le_length (by simp; omega), List.drop_of_length_le (by simp), List.nil_append]
          intro x hx
          obtain ⟨y, hy, rfl⟩ := List.mem_map.1 hx
          obtain ⟨h0, h1⟩ := hr y (List.mem_of_mem_drop hy)
          simp only [fl_mul, fl_two]
          rw [abs_lt]; constructor <;> nlinarith
      · simp at hlt
    · exact ih _ h
    · rename_i hlt
      split at hlt <;> simp at hlt
    · rename_i hlt
      split at hlt <;> simp at hlt

/-- Termination is not guaranteed: for every sphere of dimension at least 2 some generator with draws in
(0,1) makes `random_pos` reject for ever. -/
theorem C26_sphere_may_loop (R : ℝ) (n : Nat) (hn : 2 ≤ n) (s : Circ ℝ) (hnew : Circ.new R n = .ok s) :
    ∃ rng : RngOps Unit ℝ, (∀ g, 0 < (rng.uniform g).1 ∧ (rng.uniform g).1 < 1) ∧
      ∀ fuel, s.randomPos rng fuel () = none := by
  let rng : RngOps Unit ℝ := ⟨fun g => (9 / 10, g), fun g => (0, g)⟩
  refine ⟨rng, fun g => by simp only [rng]; norm_num, fun fuel => ?_⟩
  by_contra hne
  obtain ⟨⟨r, g'⟩, hr⟩ := Option.ne_none_iff_exists'.1 hne
  obtain ⟨k, -, -, hin, -, -⟩ := (C26_sphere rng R n s hnew fuel () r g').1 hr
  have hs : 0 < R ∧ s = ⟨.continuousCircular, .reflection, R, n⟩ := by
    unfold Circ.new at hnew
    split at hnew
    · simp at hnew
    · rename_i hc
      simp only [fl_le, fl_zero, Bool.or_eq_true, decide_eq_true_eq, not_or, not_le] at hc
      simp only [Res.ok.injEq] at hnew; exact ⟨hc.1, hnew.symm⟩
  obtain ⟨hR, rfl⟩ := hs
  have hdel : ∀ m g, delivered rng.uniform m g = List.replicate m (9 / 10 : ℝ) := by
    intro m
    induction m with
    | zero => intro g; rfl
    | succ m ih => intro g; rw [delivered, ih, List.replicate_succ]
  simp only [hdel, List.map_replicate] at hin
  have := ((C19_inclusion_meaning ⟨.network, .periodic, 0, 0⟩ (⟨.continuousCircular, .reflection, R, n⟩ : Circ ℝ)
    ⟨.continuousCylindrical 0, .periodic, 0, 0, 0⟩ 0 rfl le_rfl _).2.1.1 hin).2
  unfold radius at this
  rw [List.map_replicate, List.sum_replicate] at this
  simp only [fl_add, fl_mul, fl_neg, fl_lit, fl_two, nsmul_eq_mul] at this
  push_cast at this
  have h2 : (2 : ℝ) ≤ n := by exact_mod_cast hn
  rw [Real.sqrt_le_left (by linarith)] at this
  nlinarith [sq_nonneg R, mul_pos hR hR]

/-! ## C27: positions outside -/

private theorem radius_replicate (n : Nat) (c : ℝ) : radius (List.replicate n c) = Real.sqrt (n * c ^ 2) := by
  unfold radius; rw [List.map_replicate, List.sum_replicate, nsmul_eq_mul]

/-- Exact arithmetic: for cubes and spheres built by `new`, `position_out_of_system` is a point of the right
dimension that `check_inclusion` reports outside, and the writing form puts that point into any vector of
the right dimension. -/
theorem C27_cube_and_sphere (bc : BoundaryCond) (L : ℝ) (n : Nat) (cu : Cubic ℝ) (ci : Circ ℝ)
    (h1 : Cubic.new bc L n = .ok cu) (h2 : Circ.new L n = .ok ci) (vec : Pos ℝ) (hvec : vec.length = n) :
    cu.checkInclusion cu.positionOutOfSystem = .ok false ∧
    cu.positionOutOfSystemToVec vec = (cu.positionOutOfSystem, .ok ()) ∧
    ci.checkInclusion ci.positionOutOfSystem = .ok false ∧
    ci.positionOutOfSystemToVec vec = (ci.positionOutOfSystem, .ok ()) := by
  obtain ⟨hL, hn, rfl, -⟩ := new_cubic h1
  unfold Circ.new at h2
  split at h2
  · simp at h2
  simp only [Res.ok.injEq] at h2
  subst h2
  refine ⟨?_, ?_, ?_, ?_⟩
  · unfold Cubic.checkInclusion Cubic.positionOutOfSystem
    rw [if_neg (by simp)]
    congr 1
    rw [Bool.not_eq_false', List.any_eq_true]
    refine ⟨Fl.two * L, by simp; omega, ?_⟩
    simp only [fl_lt, fl_abs, fl_mul, fl_two, decide_eq_true_eq]
    rw [abs_of_pos (by linarith)]; linarith
  · unfold Cubic.positionOutOfSystemToVec Cubic.positionOutOfSystem
    rw [if_neg (by simp [Pos.dim, hvec])]
    simp [List.map_const', hvec]
  · unfold Circ.checkInclusion Circ.positionOutOfSystem
    rw [if_neg (by simp)]
    simp only
    rw [if_pos]
    rw [norm_eq_radius, radius_replicate]
    simp only [fl_lt, fl_mul, fl_two, decide_eq_true_eq]
    have h1 : (1 : ℝ) ≤ n := by exact_mod_cast hn
    rw [Real.lt_sqrt hL.le]
    nlinarith [mul_pos hL hL]
  · unfold Circ.positionOutOfSystemToVec Circ.positionOutOfSystem
    rw [if_neg (by simp [Pos.dim, hvec])]
    simp [List.map_const', hvec]

/-- Exact arithmetic: for a cylinder, `position_out_of_system` is outside exactly when there is a
rectangular axis, or the circular radius is below `2 L √dim`.  So the claim is false for a cylinder without
rectangular axes (`d = dim`) and `R ≥ 2 L √dim`. -/
theorem C27_cylinder_iff (d : Nat) (R L : ℝ) (n : Nat) (s : Cyl ℝ) (hnew : Cyl.new d R L n = .ok s)
    (vec : Pos ℝ) (hvec : vec.length = n) :
    (s.checkInclusion s.positionOutOfSystem = .ok false ↔ d < n ∨ R < 2 * L * Real.sqrt n) ∧
    s.positionOutOfSystemToVec vec = (s.positionOutOfSystem, .ok ()) := by
  obtain ⟨hR, hL, hdn, hn, rfl⟩ := new_cyl hnew
  constructor
  · unfold Cyl.positionOutOfSystem
    rw [Cyl.checkInclusion_eq _ _ d (by simp) rfl (by simpa using hdn)]
    simp only [List.take_replicate, List.drop_replicate]
    rw [norm_eq_radius, radius_replicate]
    rcases Nat.lt_or_ge d n with hd | hd
    · have : ((List.replicate (n - d) (Fl.two * L)).any fun x => Fl.gt (Fl.abs x) L) = true := by
        rw [List.any_eq_true]
        refine ⟨Fl.two * L, by simp; omega, ?_⟩
        simp only [fl_lt, fl_abs, fl_mul, fl_two, decide_eq_true_eq]
        rw [abs_of_pos (by linarith)]; linarith
      rw [this]; simp [hd]
    · have hdn' : d = n := by omega
      subst hdn'
      simp only [Nat.sub_self, List.replicate_zero, List.any_nil, Bool.not_false, Bool.and_true, min_self,
        Res.ok.injEq, Bool.not_eq_false', fl_lt, decide_eq_true_eq, fl_mul, fl_two, lt_irrefl, false_or]
      rw [Real.sqrt_mul (by positivity), Real.sqrt_sq (by linarith), mul_comm]
  · unfold Cyl.positionOutOfSystemToVec Cyl.positionOutOfSystem
    rw [if_neg (by simp [Pos.dim, hvec])]
    simp [List.map_const', hvec]

/-- the false case happens: a disk-like cylinder of radius 10 with `L = 1`, both axes circular. -/
theorem C27_cylinder_claim_false : ∃ s : Cyl ℝ, Cyl.new 2 10 1 2 = .ok s ∧
    s.checkInclusion s.positionOutOfSystem ≠ .ok false := by
  have hn : Cyl.new 2 (10 : ℝ) 1 2 = .ok ⟨.continuousCylindrical 2, .mixed 2, 10, 1, 2⟩ := by
    unfold Cyl.new; rw [if_neg (by simp)]
  refine ⟨_, hn, ?_⟩
  rw [Ne, (C27_cylinder_iff 2 10 1 2 _ hn [0, 0] rfl).1]
  simp only [lt_irrefl, false_or, not_lt]
  have : Real.sqrt ((2 : ℕ) : ℝ) ≤ 2 := by
    rw [Real.sqrt_le_left (by norm_num)]; norm_num
  linarith

end Moledyn.Props
