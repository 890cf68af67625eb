import Verif.Spec.Units
/-
Helper lemmas for C119: every operation of the library commutes with a change of units.
-/
namespace Moledyn
set_option linter.unusedSimpArgs false
variable {G S S' C C' α β : Type}
namespace Units
variable (U : Units)

theorem foldl_sq (xs : Pos ℝ) (c k : ℝ) :
    (xs.map (k * ·)).foldl (fun res x => res + x * x) (k ^ 2 * c) = k ^ 2 * xs.foldl (fun res x => res + x * x) c := by
  induction xs generalizing c with
  | nil => rfl
  | cons x xs ih =>
    simp only [List.map_cons, List.foldl_cons]
    rw [← ih]
    congr 1
    show k ^ 2 * c + k * x * (k * x) = k ^ 2 * (c + x * x)
    ring

theorem norm_scale {k : ℝ} (hk : 0 ≤ k) (p : Pos ℝ) : Pos.norm (p.map (k * ·)) = k * Pos.norm p := by
  unfold Pos.norm
  simp only [fl_sqrt, Fl.zero, fl_zero]
  have := foldl_sq p 0 k
  rw [mul_zero] at this
  show Real.sqrt ((p.map (k * ·)).foldl (fun res x => res + x * x) 0) = k * Real.sqrt (p.foldl (fun res x => res + x * x) 0)
  rw [this, Real.sqrt_mul (by positivity), Real.sqrt_sq hk]

theorem norm_pos (p : Pos ℝ) : Pos.norm (U.pos p) = U.len * Pos.norm p := norm_scale U.len_pos.le p

theorem distance_pos (p q : Pos ℝ) : Pos.distance (U.pos p) (U.pos q) = (Pos.distance p q).map (U.len * ·) := by
  unfold Pos.distance Pos.dim Units.pos
  simp only [List.length_map]
  by_cases h : p.length ≠ q.length
  · rw [if_pos h, if_pos h]; rfl
  · rw [if_neg h, if_neg h]
    simp only [Res.map_ok, fl_sqrt, Fl.zero, fl_zero]
    congr 1
    have key : ∀ (z : List (ℝ × ℝ)) (c : ℝ), (z.map (Prod.map (U.len * ·) (U.len * ·))).foldl (fun r q => r + (q.1 - q.2) * (q.1 - q.2)) (U.len ^ 2 * c)
        = U.len ^ 2 * z.foldl (fun r q => r + (q.1 - q.2) * (q.1 - q.2)) c := by
      intro z
      induction z with
      | nil => intro c; rfl
      | cons x z ih =>
        intro c
        simp only [List.map_cons, List.foldl_cons]
        rw [← ih]
        congr 1; simp only [Prod.map]; ring
    have k0 := key (p.zip q) 0
    rw [mul_zero] at k0
    rw [List.zip_map]
    refine (congrArg Real.sqrt k0).trans ?_
    rw [Real.sqrt_mul (by positivity), Real.sqrt_sq U.len_pos.le]

theorem mutZip_pos {op : ℝ → ℝ → ℝ} (hop : ∀ x y, op (U.len * x) (U.len * y) = U.len * op x y) (p q : Pos ℝ) :
    Pos.mutZip op (U.pos p) (U.pos q) = (U.pos (Pos.mutZip op p q).1, (Pos.mutZip op p q).2) := by
  induction p generalizing q with
  | nil => rfl
  | cons x p ih =>
    cases q with
    | nil => rfl
    | cons y q =>
      have := ih q
      simp only [Units.pos, List.map_cons, Pos.mutZip] at this ⊢
      rw [this, hop]

theorem mutAdd_pos (p q : Pos ℝ) : Pos.mutAdd (U.pos p) (U.pos q) = (U.pos (Pos.mutAdd p q).1, (Pos.mutAdd p q).2) :=
  U.mutZip_pos (op := (· + ·)) (fun _ _ => (mul_add _ _ _).symm) p q
theorem mutSub_pos (p q : Pos ℝ) : Pos.mutSub (U.pos p) (U.pos q) = (U.pos (Pos.mutSub p q).1, (Pos.mutSub p q).2) :=
  U.mutZip_pos (op := (· - ·)) (fun _ _ => (mul_sub _ _ _).symm) p q

theorem mutScalarMul_pos (p : Pos ℝ) (k : ℝ) : Pos.mutScalarMul (U.pos p) k = U.pos (Pos.mutScalarMul p k) := by
  simp only [Pos.mutScalarMul, Units.pos, List.map_map]
  exact List.map_congr_left fun x _ => mul_assoc U.len x k

theorem mutScalarMul_len (p : Pos ℝ) (k : ℝ) : Pos.mutScalarMul p (U.len * k) = U.pos (Pos.mutScalarMul p k) := by
  simp only [Pos.mutScalarMul, Units.pos, List.map_map]
  exact List.map_congr_left fun x _ => mul_left_comm x U.len k

theorem length_pos (p : Pos ℝ) : (U.pos p).length = p.length := List.length_map ..

theorem lt_scale {k : ℝ} (hk : 0 < k) (a b : ℝ) : Fl.lt (k * a) (k * b) = Fl.lt a b := by
  simp only [fl_lt, mul_lt_mul_iff_right₀ hk]
theorem le_scale {k : ℝ} (hk : 0 < k) (a b : ℝ) : Fl.le (k * a) (k * b) = Fl.le a b := by
  simp only [fl_le, mul_le_mul_iff_right₀ hk]

theorem any_gt (p : Pos ℝ) (L : ℝ) :
    ((U.pos p).any fun x => Fl.gt (Fl.abs x) (U.len * L)) = p.any fun x => Fl.gt (Fl.abs x) L := by
  simp only [Units.pos, List.any_map]
  congr 1
  funext x
  simp only [Function.comp, Fl.gt, fl_abs, abs_mul, abs_of_pos U.len_pos]
  exact lt_scale U.len_pos _ _

theorem reflect_len (L x : ℝ) : Fold.reflect (U.len * L) (U.len * x) = U.len * Fold.reflect L x := by
  unfold Fold.reflect
  have h1 : Fl.le (Fl.abs (U.len * x)) (U.len * L) = Fl.le (Fl.abs x) L := by
    simp only [fl_abs, abs_mul, abs_of_pos U.len_pos]; exact le_scale U.len_pos _ _
  have h2 : Fl.lt (U.len * x) Fl.zero = Fl.lt x (Fl.zero : ℝ) := by
    have := lt_scale U.len_pos x 0
    simpa [Fl.zero] using this
  rw [h1, h2]
  split_ifs
  · rfl
  · show (-Fl.two) * (U.len * L) - U.len * x = U.len * ((-Fl.two) * L - x); ring
  · show Fl.two * (U.len * L) - U.len * x = U.len * (Fl.two * L - x); ring

theorem wrap_len (L x : ℝ) : Fold.wrap (U.len * L) (U.len * x) = U.len * Fold.wrap L x := by
  unfold Fold.wrap
  have h1 : Fl.le (Fl.abs (U.len * x)) (U.len * L) = Fl.le (Fl.abs x) L := by
    simp only [fl_abs, abs_mul, abs_of_pos U.len_pos]; exact le_scale U.len_pos _ _
  have h2 : Fl.lt (U.len * x) Fl.zero = Fl.lt x (Fl.zero : ℝ) := by
    have := lt_scale U.len_pos x 0
    simpa [Fl.zero] using this
  rw [h1, h2]
  split_ifs
  · rfl
  · show Fl.two * (U.len * L) + U.len * x = U.len * (Fl.two * L + x); ring
  · show (-Fl.two) * (U.len * L) + U.len * x = U.len * ((-Fl.two) * L + x); ring

theorem map_reflect (L : ℝ) (p : Pos ℝ) : (U.pos p).map (Fold.reflect (U.len * L)) = U.pos (p.map (Fold.reflect L)) := by
  simp only [Units.pos, List.map_map]
  exact List.map_congr_left fun x _ => U.reflect_len L x
theorem map_wrap (L : ℝ) (p : Pos ℝ) : (U.pos p).map (Fold.wrap (U.len * L)) = U.pos (p.map (Fold.wrap L)) := by
  simp only [Units.pos, List.map_map]
  exact List.map_congr_left fun x _ => U.wrap_len L x
theorem pos_append (p q : Pos ℝ) : U.pos (p ++ q) = U.pos p ++ U.pos q := List.map_append ..
theorem pos_take (n : Nat) (p : Pos ℝ) : (U.pos p).take n = U.pos (p.take n) := List.map_take.symm
theorem pos_drop (n : Nat) (p : Pos ℝ) : (U.pos p).drop n = U.pos (p.drop n) := List.map_drop.symm

/-- what the programs need of two systems that are the same in other units. -/
structure Alike (U : Units) (sys sys' : SysOps G ℝ) : Prop where
  bc : ∀ p dp, sys'.checkBc (U.pos p) (U.pos dp) = (U.pos (sys.checkBc p dp).1, (sys.checkBc p dp).2)
  out : sys'.positionOut = U.pos sys.positionOut
  outTo : ∀ p, sys'.positionOutToVec (U.pos p) = (U.pos (sys.positionOutToVec p).1, (sys.positionOutToVec p).2)
  draw : ∀ inner g p, sys'.randomPosToVec inner g (U.pos p) =
    (sys.randomPosToVec inner g p).map fun r => ((U.pos r.1.1, r.1.2), r.2)

theorem sweep_uniform (rng : RngOps G ℝ) (a b : ℝ) (p q : Pos ℝ) (g : G) (h : q.length = p.length) :
    Random.getUniformToVecNonstandard rng g (q.clear Fl.zero) (U.len * a) (U.len * b) =
      (U.pos (Random.getUniformToVecNonstandard rng g (p.clear Fl.zero) a b).1, (Random.getUniformToVecNonstandard rng g (p.clear Fl.zero) a b).2) := by
  unfold Random.getUniformToVecNonstandard
  induction p generalizing q g with
  | nil => obtain rfl := List.length_eq_zero_iff.1 h; rfl
  | cons x p ih =>
    cases q with
    | nil => simp at h
    | cons y q =>
      simp only [Pos.clear, List.map_cons, Random.sweep] at ih ⊢
      rw [ih q _ (by simpa using h)]
      simp only [Units.pos, List.map_cons, Prod.mk.injEq, List.cons.injEq, and_true]
      simp only [Fl.zero, fl_zero, fl_add, fl_mul, fl_sub]
      ring

theorem replicate_pos (n : Nat) (x : ℝ) : List.replicate n (U.len * x) = U.pos (List.replicate n x) := by
  simp [Units.pos]

theorem map_const_pos (p : Pos ℝ) (x : ℝ) : (U.pos p).map (fun _ => U.len * x) = U.pos (p.map fun _ => x) := by
  simp [Units.pos, Function.comp_def]

theorem inclusion_cubic (s : Cubic ℝ) (p : Pos ℝ) : (U.cubic s).checkInclusion (U.pos p) = s.checkInclusion p := by
  unfold Cubic.checkInclusion
  rw [U.length_pos]
  have := U.any_gt p s.sysSize
  simp only [Units.cubic]
  rw [this]
  rfl

theorem fold_cubic (s : Cubic ℝ) (p : Pos ℝ) : (U.cubic s).fold (U.pos p) = (s.fold p).map U.pos := by
  unfold Cubic.fold Units.cubic
  rcases s.bctype with _ | _ | d
  · simp only [Res.map_ok, U.map_wrap]
  · simp only [Res.map_ok, U.map_reflect]
  · simp only [U.length_pos]
    split_ifs
    · rfl
    · simp only [Res.map_ok, U.pos_append, U.pos_take, U.pos_drop, U.map_wrap, U.map_reflect]

theorem bc_cubic (s : Cubic ℝ) (p dp : Pos ℝ) :
    (U.cubic s).checkBc (U.pos p) (U.pos dp) = (U.pos (s.checkBc p dp).1, (s.checkBc p dp).2) := by
  unfold Cubic.checkBc
  rw [U.mutAdd_pos]
  rcases p.mutAdd dp with ⟨q, r⟩
  cases r with
  | err e => rfl
  | panic => rfl
  | ok _ =>
    simp only [U.inclusion_cubic, U.fold_cubic]
    rcases s.checkInclusion q with b | e | _
    · cases b
      · simp only
        rcases s.fold q with r | e | _
        · simp only [Res.map_ok, U.inclusion_cubic]
          rcases s.checkInclusion r with b | e | _
          · cases b <;> rfl
          · rfl
          · rfl
        · rfl
        · rfl
      · rfl
    · rfl
    · rfl

theorem out_any (d : Nat) (L : ℝ) : List.replicate d (Fl.two * (U.len * L)) = U.pos (List.replicate d (Fl.two * L)) := by
  rw [← U.replicate_pos]
  congr 1
  exact mul_left_comm _ _ _

theorem outTo_any (d : Nat) (L : ℝ) (p : Pos ℝ) :
    (if d ≠ (U.pos p).dim then (U.pos p, .err .invalidDimension) else ((U.pos p).map fun _ => Fl.two * (U.len * L), .ok ()) : Pos ℝ × Res Unit) =
      (U.pos (if d ≠ p.dim then (p, .err .invalidDimension) else (p.map fun _ => Fl.two * L, .ok ()) : Pos ℝ × Res Unit).1,
        (if d ≠ p.dim then (p, .err .invalidDimension) else (p.map fun _ => Fl.two * L, .ok ()) : Pos ℝ × Res Unit).2) := by
  have e : (Fl.two * (U.len * L) : ℝ) = U.len * (Fl.two * L) := mul_left_comm _ _ _
  by_cases h : d ≠ p.length
  · have h' : d ≠ (U.pos p).dim := by rw [show (U.pos p).dim = p.length from U.length_pos p]; exact h
    rw [if_pos h', if_pos (show d ≠ p.dim from h)]
  · have h' : ¬ d ≠ (U.pos p).dim := by rw [show (U.pos p).dim = p.length from U.length_pos p]; exact h
    rw [if_neg h', if_neg (show ¬ d ≠ p.dim from h), e, U.map_const_pos]

theorem draw_cubic (rng : RngOps G ℝ) (s : Cubic ℝ) (g : G) (p : Pos ℝ) :
    (U.cubic s).randomPosToVec rng g (U.pos p) =
      ((U.pos (s.randomPosToVec rng g p).1.1, (s.randomPosToVec rng g p).1.2), (s.randomPosToVec rng g p).2) := by
  unfold Cubic.randomPosToVec
  rw [show (U.pos p).dim = p.dim from U.length_pos p]
  by_cases hd : p.dim ≠ s.dim
  · rw [if_pos hd, if_pos (show p.dim ≠ (U.cubic s).dim from hd)]
  · rw [if_neg hd, if_neg (show ¬ p.dim ≠ (U.cubic s).dim from hd)]
    have h := U.sweep_uniform rng (-s.sysSize) s.sysSize p (U.pos p) g (U.length_pos p)
    rw [show U.len * -s.sysSize = -(U.len * s.sysSize) from mul_neg _ _] at h
    exact congrArg (fun r : Pos ℝ × G => ((r.1, (Res.ok () : Res Unit)), r.2)) h

theorem alike_cubic (rng : RngOps G ℝ) (s : Cubic ℝ) : Alike U (s.ops rng) ((U.cubic s).ops rng) where
  bc := U.bc_cubic s
  out := U.out_any s.dim s.sysSize
  outTo p := U.outTo_any s.dim s.sysSize p
  draw := by
    intro inner g p
    exact congrArg some (U.draw_cubic rng s g p)

/-! ### ball -/

theorem inclusion_circ (s : Circ ℝ) (p : Pos ℝ) : (U.circ s).checkInclusion (U.pos p) = s.checkInclusion p := by
  unfold Circ.checkInclusion Units.circ
  have := lt_scale U.len_pos s.sysSize p.norm
  simp only [U.length_pos, U.norm_pos, Fl.gt, this]

theorem bounce_ratio (R n : ℝ) : ((Fl.two * (U.len * R) - U.len * n) / (U.len * n) : ℝ) = (Fl.two * R - n) / n := by
  have h : (Fl.two * (U.len * R) - U.len * n : ℝ) = U.len * (Fl.two * R - n) := by
    show (Fl.two : ℝ) * (U.len * R) - U.len * n = U.len * (Fl.two * R - n); ring
  exact (congrArg (fun x : ℝ => x / (U.len * n)) h).trans (mul_div_mul_left _ _ U.len_pos.ne')

theorem bc_circ (s : Circ ℝ) (p dp : Pos ℝ) :
    (U.circ s).checkBc (U.pos p) (U.pos dp) = (U.pos (s.checkBc p dp).1, (s.checkBc p dp).2) := by
  unfold Circ.checkBc
  rw [U.mutAdd_pos]
  rcases p.mutAdd dp with ⟨q, r⟩
  cases r with
  | err e => rfl
  | panic => rfl
  | ok _ =>
    have e : (Fl.two * (U.circ s).sysSize - Pos.norm (U.pos q)) / Pos.norm (U.pos q) = (Fl.two * s.sysSize - q.norm) / q.norm := by
      rw [U.norm_pos]; exact U.bounce_ratio s.sysSize q.norm
    simp only [U.inclusion_circ, e, U.mutScalarMul_pos]
    rcases s.checkInclusion q with b | e | _
    · cases b
      · simp only
        rcases s.checkInclusion (q.mutScalarMul ((Fl.two * s.sysSize - q.norm) / q.norm)) with b | e | _
        · cases b <;> rfl
        · rfl
        · rfl
      · rfl
    · rfl
    · rfl

theorem rejectLoop_map {f : α → β} {try_ : G → Res (Option α) × G} {try' : G → Res (Option β) × G}
    (h : ∀ g, try' g = ((try_ g).1.map (Option.map f), (try_ g).2)) (fuel : Nat) (g : G) :
    rejectLoop try' fuel g = (rejectLoop try_ fuel g).map fun r => (r.1.map f, r.2) := by
  induction fuel generalizing g with
  | zero => rfl
  | succ n ih =>
    unfold rejectLoop
    rw [h]
    rcases try_ g with ⟨o | e | _, g1⟩
    · cases o with
      | none => exact ih g1
      | some a => rfl
    · rfl
    · rfl

theorem wroteVec_map (p : Pos ℝ) (r : Option (Res (Pos ℝ) × G)) :
    wroteVec (U.pos p) (r.map fun r => (r.1.map U.pos, r.2)) = (wroteVec p r).map fun r => ((U.pos r.1.1, r.1.2), r.2) := by
  rcases r with _ | ⟨r | e | _, g⟩ <;> rfl

theorem alike_circ (rng : RngOps G ℝ) (s : Circ ℝ) : Alike U (s.ops rng) ((U.circ s).ops rng) where
  bc := U.bc_circ s
  out := U.out_any s.dim s.sysSize
  outTo p := U.outTo_any s.dim s.sysSize p
  draw := by
    intro inner g p
    show wroteVec (U.pos p) ((U.circ s).randomPosToVec rng inner g (U.pos p)) = (wroteVec p (s.randomPosToVec rng inner g p)).map _
    rw [← U.wroteVec_map]
    congr 1
    unfold Circ.randomPosToVec
    rw [show (U.pos p).dim = p.dim from U.length_pos p]
    by_cases hd : p.dim ≠ s.dim
    · rw [if_pos hd, if_pos (show p.dim ≠ (U.circ s).dim from hd)]; rfl
    · rw [if_neg hd, if_neg (show ¬ p.dim ≠ (U.circ s).dim from hd)]
      refine rejectLoop_map (fun g => ?_) inner g
      unfold Circ.proposeToVec
      have h := U.sweep_uniform rng (-s.sysSize) s.sysSize p (U.pos p) g (U.length_pos p)
      rw [show U.len * -s.sysSize = -(U.len * s.sysSize) from mul_neg _ _] at h
      have h' : Random.getUniformToVecNonstandard rng g (Pos.clear Fl.zero (U.pos p)) (-(U.circ s).sysSize) (U.circ s).sysSize = _ := h
      rw [h']
      simp only [U.inclusion_circ]
      rcases s.checkInclusion _ with b | e | _
      · cases b <;> rfl
      · rfl
      · rfl

/-! ### cylinder -/

theorem inclusion_cyl (s : Cyl ℝ) (p : Pos ℝ) : (U.cyl s).checkInclusion (U.pos p) = s.checkInclusion p := by
  unfold Cyl.checkInclusion Units.cyl
  simp only [U.length_pos]
  rcases s.sysType with _ | _ | d | _ | _
  · rfl
  · rfl
  · have h1 := lt_scale U.len_pos s.sysRadius (Pos.norm (p.take d))
    have h2 := U.any_gt (p.drop d) s.sysLength
    simp only [U.pos_take, U.pos_drop, U.norm_pos, Fl.gt] at h1 h2 ⊢
    simp only [h1, h2]
  · rfl
  · rfl

theorem fold_cyl (s : Cyl ℝ) (p : Pos ℝ) : (U.cyl s).fold (U.pos p) = (s.fold p).map U.pos := by
  unfold Cyl.fold Units.cyl
  simp only [U.length_pos]
  rcases s.bctype with _ | _ | d
  · rfl
  · rfl
  · have h1 := lt_scale U.len_pos s.sysRadius (Pos.norm (p.take d))
    have h3 := U.bounce_ratio s.sysRadius (Pos.norm (p.take d))
    have h4 := U.mutScalarMul_pos (p.take d) ((Fl.two * s.sysRadius - Pos.norm (p.take d)) / Pos.norm (p.take d))
    unfold Pos.mutScalarMul at h4
    simp only [U.pos_take, U.pos_drop, U.norm_pos, Fl.gt, U.map_wrap] at h1 h3 h4 ⊢
    simp only [h1, h3, h4]
    by_cases hd : d > p.length
    · simp only [if_pos hd]; rfl
    · simp only [if_neg hd, Res.map_ok, U.pos_append]
      congr 2
      split_ifs <;> rfl

theorem bc_cyl (s : Cyl ℝ) (p dp : Pos ℝ) :
    (U.cyl s).checkBc (U.pos p) (U.pos dp) = (U.pos (s.checkBc p dp).1, (s.checkBc p dp).2) := by
  unfold Cyl.checkBc
  rw [U.mutAdd_pos]
  rcases p.mutAdd dp with ⟨q, r⟩
  cases r with
  | err e => rfl
  | panic => rfl
  | ok _ =>
    simp only [U.inclusion_cyl, U.fold_cyl]
    rcases s.checkInclusion q with b | e | _
    · cases b
      · simp only
        rcases s.fold q with r | e | _
        · simp only [Res.map_ok, U.inclusion_cyl]
          rcases s.checkInclusion r with b | e | _
          · cases b <;> rfl
          · rfl
          · rfl
        · rfl
        · rfl
      · rfl
    · rfl
    · rfl

theorem scaleTest_cyl (s : Cyl ℝ) (d : Nat) (p : Pos ℝ) : (U.cyl s).scaleTest d p = (s.scaleTest d p).map (Option.map U.pos) := by
  unfold Cyl.scaleTest
  have e1 : (p.take d).map (· * (Fl.two * (U.cyl s).sysRadius)) = U.pos ((p.take d).map (· * (Fl.two * s.sysRadius))) := by
    rw [show (Fl.two * (U.cyl s).sysRadius : ℝ) = U.len * (Fl.two * s.sysRadius) from mul_left_comm _ _ _]
    exact U.mutScalarMul_len _ _
  have e2 : (p.drop d).map (· * (Fl.two * (U.cyl s).sysLength)) = U.pos ((p.drop d).map (· * (Fl.two * s.sysLength))) := by
    rw [show (Fl.two * (U.cyl s).sysLength : ℝ) = U.len * (Fl.two * s.sysLength) from mul_left_comm _ _ _]
    exact U.mutScalarMul_len _ _
  by_cases hd : d > p.length
  · simp only [if_pos hd]; rfl
  · simp only [if_neg hd]
    rw [e1, e2, U.norm_pos]
    have h1 := lt_scale U.len_pos (Pos.norm ((p.take d).map (· * (Fl.two * s.sysRadius)))) s.sysRadius
    have h2 : Fl.lt (U.len * Pos.norm ((p.take d).map (· * (Fl.two * s.sysRadius)))) (U.cyl s).sysRadius = _ := h1
    simp only [h2, ← U.pos_append]
    by_cases hb : Fl.lt (Pos.norm ((p.take d).map (· * (Fl.two * s.sysRadius)))) s.sysRadius = true
    · rw [if_pos hb, if_pos hb]; rfl
    · rw [if_neg hb, if_neg hb]; rfl

theorem clear_pos (p : Pos ℝ) (x : ℝ) : (U.pos p).clear x = p.clear x := by
  simp [Pos.clear, Units.pos, Function.comp_def]

theorem alike_cyl (rng : RngOps G ℝ) (s : Cyl ℝ) : Alike U (s.ops rng) ((U.cyl s).ops rng) where
  bc := U.bc_cyl s
  out := U.out_any s.dim s.sysLength
  outTo p := U.outTo_any s.dim s.sysLength p
  draw := by
    intro inner g p
    show wroteVec (U.pos p) ((U.cyl s).randomPosToVec rng inner g (U.pos p)) = (wroteVec p (s.randomPosToVec rng inner g p)).map _
    rw [← U.wroteVec_map]
    congr 1
    unfold Cyl.randomPosToVec
    rw [show (U.pos p).dim = p.dim from U.length_pos p]
    rw [show (U.cyl s).sysType = s.sysType from rfl]
    rcases s.sysType with _ | _ | d | _ | _
    · rfl
    · rfl
    · by_cases hd : p.dim ≠ s.dim
      · simp only
        rw [if_pos hd, if_pos (show p.dim ≠ (U.cyl s).dim from hd)]; rfl
      · simp only
        rw [if_neg hd, if_neg (show ¬ p.dim ≠ (U.cyl s).dim from hd)]
        refine rejectLoop_map (fun g => ?_) inner g
        simp only [U.clear_pos, U.scaleTest_cyl]
    · rfl
    · rfl

theorem SameRoom.alike {rng : RngOps G ℝ} {U : Units} {sys sys' : SysOps G ℝ} (h : SameRoom rng U sys sys') : Alike U sys sys' := by
  cases h with
  | cubic s => exact U.alike_cubic rng s
  | circ s => exact U.alike_circ rng s
  | cyl s => exact U.alike_cyl rng s

/-! ### targets -/

theorem find_target (t : BulkTarget ℝ) (p : Pos ℝ) : (U.target t).checkFind (U.pos p) = t.checkFind p := by
  unfold BulkTarget.checkFind BulkTarget.distance
  rw [show (U.target t).targetPos = U.pos t.targetPos from rfl, U.distance_pos]
  rcases t.targetPos.distance p with d | e | _
  · have := lt_scale U.len_pos d t.targetSize
    simp only [Res.map_ok, Res.bind_ok]
    rw [show (U.target t).targetSize = U.len * t.targetSize from rfl, this]
  · rfl
  · rfl
end Units
end Moledyn
