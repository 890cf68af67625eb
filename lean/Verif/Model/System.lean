import Verif.Model.Random
/-
Model of src/system_mod: the three domains.  Functions that change `pos` through `&mut` return the new
value of `pos` together with the result, also when they fail.
-/
namespace Moledyn
variable {F : Type} [Fl F]

/-- `SystemType`, src/system_mod/mod.rs:45-52. -/
inductive SystemType where
  | continuousCircular
  | continuousRectangular
  | continuousCylindrical (d : Nat)
  | lattice
  | network
deriving DecidableEq, Repr

/-- `BoundaryCond`, src/system_mod/mod.rs:113-118. -/
inductive BoundaryCond where
  | periodic
  | reflection
  | mixed (d : Nat)
deriving DecidableEq, Repr

namespace Fold
/-- reflection of one coordinate, src/system_mod/cont_cubic.rs:103-112. -/
def reflect (length x : F) : F :=
  if Fl.le (Fl.abs x) length then x
  else if Fl.lt x Fl.zero then (-Fl.two) * length - x
  else Fl.two * length - x

/-- periodic image of one coordinate, src/system_mod/cont_cubic.rs:120-129 and
src/system_mod/cont_cyl.rs:142-151. -/
def wrap (length x : F) : F :=
  if Fl.le (Fl.abs x) length then x
  else if Fl.lt x Fl.zero then Fl.two * length + x
  else (-Fl.two) * length + x
end Fold

/-- the rejection loop of `random_pos`: `try_ g` makes one proposal; `none` after `fuel` rejected
proposals means "still looping"
(src/system_mod/cont_circ.rs:110-119, 133-145, src/system_mod/cont_cyl.rs:184-204, 225-245). -/
def rejectLoop {G α : Type} (try_ : G → (Res (Option α)) × G) : Nat → G → Option (Res α × G)
  | 0, _ => none
  | fuel + 1, g =>
    match try_ g with
    | (.ok (some a), g') => some (.ok a, g')
    | (.ok none, g') => rejectLoop try_ fuel g'
    | (.err e, g') => some (.err e, g')
    | (.panic, g') => some (.panic, g')

/-! ### cube -/

/-- `ContCubicSystem`, src/system_mod/cont_cubic.rs:6-12. -/
structure Cubic (F : Type) where
  sysType : SystemType
  bctype : BoundaryCond
  sysSize : F
  dim : Nat

namespace Cubic

/-- `ContCubicSystem::new`, src/system_mod/cont_cubic.rs:15-35. -/
def new (bctype : BoundaryCond) (length : F) (dim : Nat) : Res (Cubic F) :=
  if Fl.le length Fl.zero || dim == 0 then .panic
  else match bctype with
    | .mixed d => if d > dim then .panic else .ok ⟨.continuousRectangular, bctype, length, dim⟩
    | _ => .ok ⟨.continuousRectangular, bctype, length, dim⟩

/-- `ContCubicSystem::convert_from`, src/system_mod/cont_cubic.rs:46-64. -/
def convertFrom (sysType : SystemType) (bctype : BoundaryCond) (sysSize : F) (dim : Nat) :
    Res (Cubic F) :=
  if Fl.le sysSize Fl.zero || dim == 0 then .panic
  else match bctype with
    | .mixed d => if d > dim then .panic else .ok ⟨sysType, bctype, sysSize, dim⟩
    | _ => .ok ⟨sysType, bctype, sysSize, dim⟩

/-- `check_inclusion`, src/system_mod/cont_cubic.rs:69-85. -/
def checkInclusion (s : Cubic F) (pos : Pos F) : Res Bool :=
  if s.dim ≠ pos.length then .err .invalidDimension
  else .ok (!(pos.any fun x => Fl.gt (Fl.abs x) s.sysSize))

/-- the `match self.bctype` of `check_bc`, src/system_mod/cont_cubic.rs:99-173: the folded position
(slicing `[..d]` panics when `d` exceeds the length). -/
def fold (s : Cubic F) (pos : Pos F) : Res (Pos F) :=
  match s.bctype with
  | .reflection => .ok (pos.map (Fold.reflect s.sysSize))
  | .periodic => .ok (pos.map (Fold.wrap s.sysSize))
  | .mixed d =>
    if d > pos.length then .panic
    else .ok ((pos.take d).map (Fold.reflect s.sysSize) ++ (pos.drop d).map (Fold.wrap s.sysSize))

/-- `check_bc`, src/system_mod/cont_cubic.rs:87-179; `dp` is only read. -/
def checkBc (s : Cubic F) (pos dp : Pos F) : Pos F × Res Unit :=
  match pos.mutAdd dp with
  | (pos1, .ok ()) =>
    match s.checkInclusion pos1 with
    | .ok true => (pos1, .ok ())
    | .ok false =>
      match s.fold pos1 with
      | .ok pos2 =>
        match s.checkInclusion pos2 with
        | .ok true => (pos2, .ok ())
        | .ok false => (pos2, .err .tooLargeTimeStep)
        | .err e => (pos2, .err e)
        | .panic => (pos2, .panic)
      | .err e => (pos1, .err e)
      | .panic => (pos1, .panic)
    | .err e => (pos1, .err e)
    | .panic => (pos1, .panic)
  | (pos1, r) => (pos1, r)

variable {G : Type}

/-- `random_pos`, src/system_mod/cont_cubic.rs:183-195. -/
def randomPos (rng : RngOps G F) (s : Cubic F) (g : G) : Res (Pos F) × G :=
  let u := Random.getUniformVec rng g s.dim
  ((Pos.add u.1 (List.replicate s.dim (-(Fl.lit (1 / 2))))).map fun p =>
    p.mutScalarMul (Fl.two * s.sysSize), u.2)

/-- `random_pos_to_vec`, src/system_mod/cont_cubic.rs:197-212. -/
def randomPosToVec (rng : RngOps G F) (s : Cubic F) (g : G) (vec : Pos F) : (Pos F × Res Unit) × G :=
  if vec.dim ≠ s.dim then ((vec, .err .invalidDimension), g)
  else
    let r := Random.getUniformToVecNonstandard rng g (vec.clear Fl.zero) (-s.sysSize) s.sysSize
    ((r.1, .ok ()), r.2)

/-- `position_out_of_system`, src/system_mod/cont_cubic.rs:214-221. -/
def positionOutOfSystem (s : Cubic F) : Pos F := List.replicate s.dim (Fl.two * s.sysSize)

/-- `position_out_of_system_to_vec`, src/system_mod/cont_cubic.rs:223-235. -/
def positionOutOfSystemToVec (s : Cubic F) (vec : Pos F) : Pos F × Res Unit :=
  if s.dim ≠ vec.dim then (vec, .err .invalidDimension)
  else (vec.map fun _ => Fl.two * s.sysSize, .ok ())

end Cubic

/-! ### sphere -/

/-- `ContCircSystem`, src/system_mod/cont_circ.rs:6-12. -/
structure Circ (F : Type) where
  sysType : SystemType
  bctype : BoundaryCond
  sysSize : F
  dim : Nat

namespace Circ

/-- `ContCircSystem::new`, src/system_mod/cont_circ.rs:15-29. -/
def new (r : F) (dim : Nat) : Res (Circ F) :=
  if Fl.le r Fl.zero || dim == 0 then .panic
  else .ok ⟨.continuousCircular, .reflection, r, dim⟩

/-- `ContCircSystem::convert_from`, src/system_mod/cont_circ.rs:40-52. -/
def convertFrom (sysType : SystemType) (bctype : BoundaryCond) (sysSize : F) (dim : Nat) :
    Res (Circ F) :=
  if Fl.le sysSize Fl.zero || dim == 0 then .panic
  else .ok ⟨sysType, bctype, sysSize, dim⟩

/-- `check_inclusion`, src/system_mod/cont_circ.rs:57-74. -/
def checkInclusion (s : Circ F) (pos : Pos F) : Res Bool :=
  if s.dim ≠ pos.length then .err .invalidDimension
  else if Fl.gt pos.norm s.sysSize then .ok false else .ok true

/-- `check_bc`, src/system_mod/cont_circ.rs:76-96. -/
def checkBc (s : Circ F) (pos dp : Pos F) : Pos F × Res Unit :=
  match pos.mutAdd dp with
  | (pos1, .ok ()) =>
    match s.checkInclusion pos1 with
    | .ok true => (pos1, .ok ())
    | .ok false =>
      let r0 := s.sysSize
      let n := pos1.norm
      let pos2 := pos1.mutScalarMul ((Fl.two * r0 - n) / n)
      match s.checkInclusion pos2 with
      | .ok true => (pos2, .ok ())
      | .ok false => (pos2, .err .tooLargeTimeStep)
      | .err e => (pos2, .err e)
      | .panic => (pos2, .panic)
    | .err e => (pos1, .err e)
    | .panic => (pos1, .panic)
  | (pos1, r) => (pos1, r)

variable {G : Type}

/-- one proposal of `random_pos`, src/system_mod/cont_circ.rs:110-116. -/
def propose (rng : RngOps G F) (s : Circ F) (g : G) : Res (Option (Pos F)) × G :=
  let u := Random.getUniformVec rng g s.dim
  ((Pos.add u.1 (List.replicate s.dim (-(Fl.lit (1 / 2))))).bind fun p =>
    let pos1 := p.mutScalarMul (Fl.two * s.sysSize)
    (s.checkInclusion pos1).map fun b => if b then some pos1 else none, u.2)

/-- `random_pos`, src/system_mod/cont_circ.rs:100-119. -/
def randomPos (rng : RngOps G F) (s : Circ F) (fuel : Nat) (g : G) : Option (Res (Pos F) × G) :=
  rejectLoop (propose rng s) fuel g

/-- one proposal of `random_pos_to_vec`, src/system_mod/cont_circ.rs:134-138: the vector is overwritten,
so its old content does not matter, only its length. -/
def proposeToVec (rng : RngOps G F) (s : Circ F) (vec : Pos F) (g : G) : Res (Option (Pos F)) × G :=
  let r := Random.getUniformToVecNonstandard rng g (vec.clear Fl.zero) (-s.sysSize) s.sysSize
  ((s.checkInclusion r.1).map fun b => if b then some r.1 else none, r.2)

/-- `random_pos_to_vec`, src/system_mod/cont_circ.rs:121-141; on success the returned position is the new
content of `vec`. -/
def randomPosToVec (rng : RngOps G F) (s : Circ F) (fuel : Nat) (g : G) (vec : Pos F) :
    Option (Res (Pos F) × G) :=
  if vec.dim ≠ s.dim then some (.err .invalidDimension, g)
  else rejectLoop (proposeToVec rng s vec) fuel g

/-- `position_out_of_system`, src/system_mod/cont_circ.rs:143-150. -/
def positionOutOfSystem (s : Circ F) : Pos F := List.replicate s.dim (Fl.two * s.sysSize)

/-- `position_out_of_system_to_vec`, src/system_mod/cont_circ.rs:152-164. -/
def positionOutOfSystemToVec (s : Circ F) (vec : Pos F) : Pos F × Res Unit :=
  if s.dim ≠ vec.dim then (vec, .err .invalidDimension)
  else (vec.map fun _ => Fl.two * s.sysSize, .ok ())

/-- the common end of `check_bc_exact` and `check_bc_first_order`,
src/system_mod/cont_circ.rs:191-198 and 222-229: add `dp` and test. -/
def finish (s : Circ F) (pos dp : Pos F) : (Pos F × Pos F) × Res Unit :=
  match pos.mutAdd dp with
  | (pos3, .ok ()) =>
    match s.checkInclusion pos3 with
    | .ok true => ((pos3, dp), .ok ())
    | .ok false => ((pos3, dp), .err .tooLargeTimeStep)
    | .err e => ((pos3, dp), .err e)
    | .panic => ((pos3, dp), .panic)
  | (pos3, r) => ((pos3, dp), r)

/-- `check_bc_exact`, src/system_mod/cont_circ.rs:167-199; returns the new `pos` and `dp`. -/
def checkBcExact (s : Circ F) (pos dp : Pos F) : (Pos F × Pos F) × Res Unit :=
  match pos.mutAdd dp with
  | (pos1, .ok ()) =>
    match s.checkInclusion pos1 with
    | .ok true => ((pos1, dp), .ok ())
    | .ok false =>
      match pos1.mutSub dp with
      | (pos2, .ok ()) =>
        let r0 := s.sysSize
        let r := pos2.norm
        let dr := dp.norm
        match pos2.innerProduct dp with
        | .ok rdr =>
          let t := (-rdr + Fl.sqrt (rdr * rdr + dr * dr * (r0 * r0 - r * r))) / (dr * dr)
          let k := (Fl.one - t) * (rdr + t * dr * dr) / (r0 * r0)
          finish s (pos2.mutScalarMul (Fl.one - Fl.two * k)) (dp.mutScalarMul (Fl.one - Fl.two * k * t))
        | .err e => ((pos2, dp), .err e)
        | .panic => ((pos2, dp), .panic)
      | (pos2, r) => ((pos2, dp), r)
    | .err e => ((pos1, dp), .err e)
    | .panic => ((pos1, dp), .panic)
  | (pos1, r) => ((pos1, dp), r)

/-- `check_bc_first_order`, src/system_mod/cont_circ.rs:201-230. -/
def checkBcFirstOrder (s : Circ F) (pos dp : Pos F) : (Pos F × Pos F) × Res Unit :=
  match pos.mutAdd dp with
  | (pos1, .ok ()) =>
    match s.checkInclusion pos1 with
    | .ok true => ((pos1, dp), .ok ())
    | .ok false =>
      match pos1.mutSub dp with
      | (pos2, .ok ()) =>
        let r0 := s.sysSize
        let r := pos2.norm
        let dr := dp.norm
        match pos2.innerProduct dp with
        | .ok rdr =>
          let a := r / r0
          let b := dr / r0
          let cos := rdr / (r * dr)
          let t := (Fl.one - a) / (b * cos)
          let k := a * b * cos - a * (Fl.one - a)
          finish s (pos2.mutScalarMul (Fl.one - Fl.two * k)) (dp.mutScalarMul (Fl.one - Fl.two * k * t))
        | .err e => ((pos2, dp), .err e)
        | .panic => ((pos2, dp), .panic)
      | (pos2, r) => ((pos2, dp), r)
    | .err e => ((pos1, dp), .err e)
    | .panic => ((pos1, dp), .panic)
  | (pos1, r) => ((pos1, dp), r)

end Circ

/-! ### cylinder -/

/-- `ContCylindricalSystem`, src/system_mod/cont_cyl.rs:6-13. -/
structure Cyl (F : Type) where
  sysType : SystemType
  bctype : BoundaryCond
  sysRadius : F
  sysLength : F
  dim : Nat

namespace Cyl

/-- `ContCylindricalSystem::new`, src/system_mod/cont_cyl.rs:16-31. -/
def new (cylDim : Nat) (sysRadius sysLength : F) (dim : Nat) : Res (Cyl F) :=
  if decide (cylDim > dim) || Fl.le sysRadius Fl.zero || Fl.le sysLength Fl.zero || dim == 0 then .panic
  else .ok ⟨.continuousCylindrical cylDim, .mixed cylDim, sysRadius, sysLength, dim⟩

/-- `ContCylindricalSystem::convert_from`, src/system_mod/cont_cyl.rs:43-68 (a zero radius is accepted
here). -/
def convertFrom (sysType : SystemType) (bctype : BoundaryCond) (sysRadius sysLength : F) (dim : Nat) :
    Res (Cyl F) :=
  match sysType with
  | .continuousCylindrical d1 =>
    match bctype with
    | .mixed d2 =>
      if d1 != d2 || decide (d1 > dim) || Fl.lt sysRadius Fl.zero || Fl.le sysLength Fl.zero || dim == 0
      then .panic
      else .ok ⟨sysType, bctype, sysRadius, sysLength, dim⟩
    | _ => .panic
  | _ => .panic

/-- `check_inclusion`, src/system_mod/cont_cyl.rs:73-106 (slicing panics when `d` exceeds the
dimension). -/
def checkInclusion (s : Cyl F) (pos : Pos F) : Res Bool :=
  if s.dim ≠ pos.length then .err .invalidDimension
  else match s.sysType with
    | .continuousCylindrical d =>
      if d > pos.length then .panic
      else if Fl.gt (Pos.norm (pos.take d)) s.sysRadius then .ok false
      else .ok (!((pos.drop d).any fun x => Fl.gt (Fl.abs x) s.sysLength))
    | _ => .err .invalidType

/-- the folding done by `check_bc`, src/system_mod/cont_cyl.rs:122-152. -/
def fold (s : Cyl F) (pos : Pos F) : Res (Pos F) :=
  match s.bctype with
  | .mixed d =>
    if d > pos.length then .panic
    else
      let r := Pos.norm (pos.take d)
      let front :=
        if Fl.gt r s.sysRadius then (pos.take d).map (· * ((Fl.two * s.sysRadius - r) / r))
        else pos.take d
      .ok (front ++ (pos.drop d).map (Fold.wrap s.sysLength))
  | _ => .err .invalidType

/-- `check_bc`, src/system_mod/cont_cyl.rs:108-163. -/
def checkBc (s : Cyl F) (pos dp : Pos F) : Pos F × Res Unit :=
  match pos.mutAdd dp with
  | (pos1, .ok ()) =>
    match s.checkInclusion pos1 with
    | .ok true => (pos1, .ok ())
    | .ok false =>
      match s.fold pos1 with
      | .ok pos2 =>
        match s.checkInclusion pos2 with
        | .ok true => (pos2, .ok ())
        | .ok false => (pos2, .err .tooLargeTimeStep)
        | .err e => (pos2, .err e)
        | .panic => (pos2, .panic)
      | .err e => (pos1, .err e)
      | .panic => (pos1, .panic)
    | .err e => (pos1, .err e)
    | .panic => (pos1, .panic)
  | (pos1, r) => (pos1, r)

variable {G : Type}

/-- the scaling and acceptance test of both random functions, src/system_mod/cont_cyl.rs:187-199 and
229-241: the first `d` coordinates times `2R`, the others times `2L`; accepted if the radius of the first
`d` is below `R` (indexing panics when `d` exceeds the dimension). -/
def scaleTest (s : Cyl F) (d : Nat) (p : Pos F) : Res (Option (Pos F)) :=
  if d > p.length then .panic
  else
    let front := (p.take d).map (· * (Fl.two * s.sysRadius))
    let back := (p.drop d).map (· * (Fl.two * s.sysLength))
    if Fl.lt (Pos.norm front) s.sysRadius then .ok (some (front ++ back)) else .ok none

/-- `random_pos`, src/system_mod/cont_cyl.rs:167-204. -/
def randomPos (rng : RngOps G F) (s : Cyl F) (fuel : Nat) (g : G) : Option (Res (Pos F) × G) :=
  match s.sysType with
  | .continuousCylindrical d =>
    rejectLoop (fun g =>
      let u := Random.getUniformVec rng g s.dim
      ((Pos.add u.1 (List.replicate s.dim (-(Fl.lit (1 / 2))))).bind (scaleTest s d), u.2)) fuel g
  | _ => some (.err .invalidType, g)

/-- `random_pos_to_vec`, src/system_mod/cont_cyl.rs:206-245. -/
def randomPosToVec (rng : RngOps G F) (s : Cyl F) (fuel : Nat) (g : G) (vec : Pos F) :
    Option (Res (Pos F) × G) :=
  match s.sysType with
  | .continuousCylindrical d =>
    if vec.dim ≠ s.dim then some (.err .invalidDimension, g)
    else
      rejectLoop (fun g =>
        let r := Random.getUniformToVecNonstandard rng g (vec.clear Fl.zero) (-Fl.one) Fl.one
        (scaleTest s d r.1, r.2)) fuel g
  | _ => some (.err .invalidType, g)

/-- `position_out_of_system`, src/system_mod/cont_cyl.rs:247-254. -/
def positionOutOfSystem (s : Cyl F) : Pos F := List.replicate s.dim (Fl.two * s.sysLength)

/-- `position_out_of_system_to_vec`, src/system_mod/cont_cyl.rs:256-268. -/
def positionOutOfSystemToVec (s : Cyl F) (vec : Pos F) : Pos F × Res Unit :=
  if s.dim ≠ vec.dim then (vec, .err .invalidDimension)
  else (vec.map fun _ => Fl.two * s.sysLength, .ok ())

end Cyl
end Moledyn
