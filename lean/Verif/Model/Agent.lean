import Verif.Model.System
import Verif.Model.Target
import Verif.Model.Types
import Verif.Model.LinkedList
/-
Model of src/agent_mod: the four agents.  Loops that draw until a condition holds are fuelled; `none` means
"still looping".  Functions changing `self` return the new value also when they fail.
-/
namespace Moledyn
variable {G F : Type} [Fl F]

/-! ### what an agent needs from a system and a target -/

/-- the methods of `dyn SystemCore<f64>` (src/system_mod/mod.rs:13-33) used by agents and simulations, for
one system value.  `randomPosToVec` is fuelled because of the rejection loops. -/
structure SysOps (G F : Type) where
  checkInclusion : Pos F → Res Bool
  checkBc : Pos F → Pos F → Pos F × Res Unit
  positionOut : Pos F
  positionOutToVec : Pos F → Pos F × Res Unit
  randomPosToVec : Nat → G → Pos F → Option ((Pos F × Res Unit) × G)

/-- `dyn TargetCore<f64>`, src/target_mod/mod.rs:14-20: `check_find`. -/
structure TargetOps (F : Type) where
  checkFind : Pos F → Res Bool

/-- the vector and result of a rejection loop started on `vec` (on failure `vec` is left as it was:
src/system_mod/cont_circ.rs:126-128, src/system_mod/cont_cyl.rs:212-221). -/
def wroteVec (vec : Pos F) : Option (Res (Pos F) × G) → Option ((Pos F × Res Unit) × G)
  | none => none
  | some (.ok p, g) => some ((p, .ok ()), g)
  | some (.err e, g) => some ((vec, .err e), g)
  | some (.panic, g) => some ((vec, .panic), g)

/-- `impl SystemCore<f64> for ContCubicSystem`, src/system_mod/cont_cubic.rs:67-236. -/
def Cubic.ops (rng : RngOps G F) (s : Cubic F) : SysOps G F where
  checkInclusion := s.checkInclusion
  checkBc := s.checkBc
  positionOut := s.positionOutOfSystem
  positionOutToVec := s.positionOutOfSystemToVec
  randomPosToVec := fun _ g vec => some (s.randomPosToVec rng g vec)

/-- `impl SystemCore<f64> for ContCircSystem`, src/system_mod/cont_circ.rs:55-165. -/
def Circ.ops (rng : RngOps G F) (s : Circ F) : SysOps G F where
  checkInclusion := s.checkInclusion
  checkBc := s.checkBc
  positionOut := s.positionOutOfSystem
  positionOutToVec := s.positionOutOfSystemToVec
  randomPosToVec := fun fuel g vec => wroteVec vec (s.randomPosToVec rng fuel g vec)

/-- `impl SystemCore<f64> for ContCylindricalSystem`, src/system_mod/cont_cyl.rs:71-269. -/
def Cyl.ops (rng : RngOps G F) (s : Cyl F) : SysOps G F where
  checkInclusion := s.checkInclusion
  checkBc := s.checkBc
  positionOut := s.positionOutOfSystem
  positionOutToVec := s.positionOutOfSystemToVec
  randomPosToVec := fun fuel g vec => wroteVec vec (s.randomPosToVec rng fuel g vec)

/-- `impl TargetCore<f64> for ContBulkTarget`, src/target_mod/cont_bulk.rs:46-61. -/
def BulkTarget.ops (t : BulkTarget F) : TargetOps F := ⟨t.checkFind⟩

/-! ### code shared by the four agents -/

namespace AgentCore

/-- the loop `loop{ random_pos_to_vec; if !check_find {break} }`, identical in every `new_uniform` and
`renew_uniform`: src/agent_mod/cont_passive_indep.rs:42-47, 70-75; src/agent_mod/cont_passive_merge.rs:52-57, 85-90;
src/agent_mod/cont_passive_exp.rs:94-99, 138-143; src/agent_mod/cont_passive_lj.rs:77-82, 121-126. -/
def drawOffTarget (sys : SysOps G F) (target : TargetOps F) (inner : Nat) :
    Nat → G → Pos F → Option ((Pos F × Res Unit) × G)
  | 0, _, _ => none
  | fuel + 1, g, pos =>
    match sys.randomPosToVec inner g pos with
    | none => none
    | some ((pos1, .err e), g1) => some ((pos1, .err e), g1)
    | some ((pos1, .panic), g1) => some ((pos1, .panic), g1)
    | some ((pos1, .ok ()), g1) =>
      match target.checkFind pos1 with
      | .ok false => some ((pos1, .ok ()), g1)
      | .ok true => drawOffTarget sys target inner fuel g1 pos1
      | .err e => some ((pos1, .err e), g1)
      | .panic => some ((pos1, .panic), g1)

/-- the `match sys.position_out_of_system_to_vec(&mut self.pos)` of every `renew_uniform`
(src/agent_mod/cont_passive_indep.rs:63-69 and the same in the others): the position to start from, and whether it had to
be replaced (then the dimension is updated too). -/
def startPos (sys : SysOps G F) (pos : Pos F) : Pos F × Bool :=
  match sys.positionOutToVec pos with
  | (p, .ok ()) => (p, false)
  | _ => (sys.positionOut, true)

/-- `mutual_displacement`, identical in the four agents: src/agent_mod/cont_passive_indep.rs:120-128,
src/agent_mod/cont_passive_merge.rs:151-159, src/agent_mod/cont_passive_exp.rs:208-216,
src/agent_mod/cont_passive_lj.rs:184-192. -/
def mutualDisplacement (dim1 : Nat) (pos1 : Pos F) (dim2 : Nat) (pos2 : Pos F) : Res (Pos F × F) :=
  if dim1 ≠ dim2 then .err .invalidDimension
  else (Pos.sub pos2 pos1).bind fun disp =>
    let distance := disp.norm
    .ok (disp.mutScalarMul (Fl.one / distance), distance)

/-- the index loop of `mutual_displacement_to_vec`, src/agent_mod/cont_passive_indep.rs:136-143: writes `y - x` and
accumulates the squares; panics when a position is too short. -/
def dispLoop : Nat → Pos F → Pos F → Pos F → F → Pos F × Res F
  | 0, _, _, vec, s => (vec, .ok s)
  | n + 1, x :: xs, y :: ys, _ :: vs, s =>
    let r := dispLoop n xs ys vs (s + Fl.powi (y - x) 2)
    ((y - x) :: r.1, r.2)
  | _ + 1, _, _, vec, _ => (vec, .panic)

/-- `mutual_displacement_to_vec`, src/agent_mod/cont_passive_indep.rs:130-148, src/agent_mod/cont_passive_merge.rs:161-179,
src/agent_mod/cont_passive_exp.rs:218-236, src/agent_mod/cont_passive_lj.rs:194-212. -/
def mutualDisplacementToVec (dim1 : Nat) (pos1 : Pos F) (dim2 : Nat) (pos2 : Pos F) (vec : Pos F) :
    Pos F × Res F :=
  if dim1 ≠ dim2 ∨ dim1 ≠ vec.dim then (vec, .err .invalidDimension)
  else
    match dispLoop dim1 pos1 pos2 vec Fl.zero with
    | (v, .ok s) => let distance := Fl.sqrt s; (v.mutScalarMul (Fl.one / distance), .ok distance)
    | (v, .err e) => (v, .err e)
    | (v, .panic) => (v, .panic)

/-- `mutual_distance`, src/agent_mod/cont_passive_indep.rs:150-152 and the same in the others. -/
def mutualDistance (pos1 pos2 : Pos F) : Res F := pos1.distance pos2

/-- `random_move`, src/agent_mod/cont_passive_indep.rs:156-172, src/agent_mod/cont_passive_merge.rs:187-203,
src/agent_mod/cont_passive_exp.rs:244-260, src/agent_mod/cont_passive_lj.rs:220-236. -/
def randomMove (rng : RngOps G F) (dim : Nat) (mtype : MoveType F) (g : G) (dt : F) : Res (Pos F) × G :=
  match mtype with
  | .brownian coeffDiff =>
    let length := Fl.sqrt (Fl.two * coeffDiff * dt)
    let r := Random.getGaussianVec rng g dim
    (.ok (r.1.mutScalarMul length), r.2)
  | .levy => (.err .featureNotProvided, g)

/-- `random_move_to_vec`, src/agent_mod/cont_passive_indep.rs:174-192, src/agent_mod/cont_passive_merge.rs:205-223,
src/agent_mod/cont_passive_exp.rs:262-280, src/agent_mod/cont_passive_lj.rs:238-256: adds to `vec`. -/
def randomMoveToVec (rng : RngOps G F) (dim : Nat) (mtype : MoveType F) (g : G) (dt : F) (vec : Pos F) :
    (Pos F × Res Unit) × G :=
  if dim ≠ vec.dim then ((vec, .err .invalidDimension), g)
  else match mtype with
    | .brownian coeffDiff =>
      let length := Fl.sqrt (Fl.two * coeffDiff * dt)
      let r := Random.getGaussianToVecNonstandard rng g vec Fl.zero length
      ((r.1, .ok ()), r.2)
    | .levy => ((vec, .err .featureNotProvided), g)

/-- the dimension and position `convert_from` starts from, src/agent_mod/cont_passive_indep.rs:93-102,
src/agent_mod/cont_passive_merge.rs:122-131, src/agent_mod/cont_passive_exp.rs:166-175,
src/agent_mod/cont_passive_lj.rs:148-157. -/
def initPos : InitType F → Nat × Pos F
  | .uniform => (0, [])
  | .specificPosition p => (p.dim, p)

end AgentCore

/-! ### independent agents -/

/-- `ContPassiveIndepAgent`, src/agent_mod/cont_passive_indep.rs:9-16. -/
structure IndepAgent (F : Type) where
  agentType : AgentType
  mtype : MoveType F
  itype : InitType F
  dim : Nat
  pos : Pos F

namespace IndepAgent
/-- `new`, src/agent_mod/cont_passive_indep.rs:20-31. -/
def new (mtype : MoveType F) (pos : Pos F) : IndepAgent F :=
  ⟨.continuousPassiveIndependent, mtype, .specificPosition pos, pos.dim, pos⟩

/-- `new_uniform`, src/agent_mod/cont_passive_indep.rs:33-56. -/
def newUniform (sys : SysOps G F) (target : TargetOps F) (inner fuel : Nat) (g : G) (mtype : MoveType F) :
    Option (Res (IndepAgent F) × G) :=
  (AgentCore.drawOffTarget sys target inner fuel g sys.positionOut).map fun r =>
    (r.1.2.map fun _ => ⟨.continuousPassiveIndependent, mtype, .uniform, r.1.1.dim, r.1.1⟩, r.2)

/-- `renew_uniform`, src/agent_mod/cont_passive_indep.rs:58-78. -/
def renewUniform (sys : SysOps G F) (target : TargetOps F) (inner fuel : Nat) (g : G) (a : IndepAgent F) :
    Option ((IndepAgent F × Res Unit) × G) :=
  let st := AgentCore.startPos sys a.pos
  let a1 := { a with pos := st.1, dim := if st.2 then st.1.dim else a.dim }
  (AgentCore.drawOffTarget sys target inner fuel g a1.pos).map fun r =>
    (({ a1 with pos := r.1.1 }, r.1.2), r.2)

/-- `convert_from`, src/agent_mod/cont_passive_indep.rs:89-111. -/
def convertFrom (agentType : AgentType) (mtype : MoveType F) (itype : InitType F) (numAgent : Nat) :
    List (IndepAgent F) :=
  List.replicate numAgent ⟨agentType, mtype, itype, (AgentCore.initPos itype).1, (AgentCore.initPos itype).2⟩

/-- `mutual_displacement`, src/agent_mod/cont_passive_indep.rs:120-128. -/
def mutualDisplacement (a b : IndepAgent F) : Res (Pos F × F) :=
  AgentCore.mutualDisplacement a.dim a.pos b.dim b.pos
/-- `mutual_displacement_to_vec`, src/agent_mod/cont_passive_indep.rs:130-148. -/
def mutualDisplacementToVec (a b : IndepAgent F) (vec : Pos F) : Pos F × Res F :=
  AgentCore.mutualDisplacementToVec a.dim a.pos b.dim b.pos vec
/-- `mutual_distance`, src/agent_mod/cont_passive_indep.rs:150-152. -/
def mutualDistance (a b : IndepAgent F) : Res F := AgentCore.mutualDistance a.pos b.pos
/-- `random_move`, src/agent_mod/cont_passive_indep.rs:156-172. -/
def randomMove (rng : RngOps G F) (a : IndepAgent F) (g : G) (dt : F) : Res (Pos F) × G :=
  AgentCore.randomMove rng a.dim a.mtype g dt
/-- `random_move_to_vec`, src/agent_mod/cont_passive_indep.rs:174-192. -/
def randomMoveToVec (rng : RngOps G F) (a : IndepAgent F) (g : G) (dt : F) (vec : Pos F) :
    (Pos F × Res Unit) × G := AgentCore.randomMoveToVec rng a.dim a.mtype g dt vec
end IndepAgent

/-! ### merging agents -/

/-- `ContPassiveMergeAgent`, src/agent_mod/cont_passive_merge.rs:8-18.  `size` is a `usize`; sums of sizes
are taken without overflow (simplification). -/
structure MergeAgent (F : Type) where
  agentType : AgentType
  mtype : MoveType F
  itype : InitType F
  dim : Nat
  pos : Pos F
  ptlRadius : F
  size : Nat
  alpha : F

namespace MergeAgent
/-- `new`, src/agent_mod/cont_passive_merge.rs:22-39. -/
def new (mtype : MoveType F) (pos : Pos F) (ptlRadius alpha : F) : MergeAgent F :=
  ⟨.continuousPassiveInteracting, mtype, .specificPosition pos, pos.dim, pos, ptlRadius, 1, alpha⟩

/-- `new_uniform`, src/agent_mod/cont_passive_merge.rs:41-69. -/
def newUniform (sys : SysOps G F) (target : TargetOps F) (inner fuel : Nat) (g : G) (mtype : MoveType F)
    (ptlRadius alpha : F) : Option (Res (MergeAgent F) × G) :=
  (AgentCore.drawOffTarget sys target inner fuel g sys.positionOut).map fun r =>
    (r.1.2.map fun _ => ⟨.continuousPassiveInteracting, mtype, .uniform, r.1.1.dim, r.1.1, ptlRadius, 1, alpha⟩,
     r.2)

/-- the `match self.mtype` that recomputes the diffusion coefficient from the size:
src/agent_mod/cont_passive_merge.rs:93-101, 229-238, 247-256. -/
def rescale (a : MergeAgent F) : MergeAgent F × Res Unit :=
  match a.mtype with
  | .brownian _ => ({ a with mtype := .brownian (Fl.powf (Fl.ofNat a.size) (-a.alpha)) }, .ok ())
  | .levy => (a, .err .featureNotProvided)

/-- `renew_uniform`, src/agent_mod/cont_passive_merge.rs:71-104. -/
def renewUniform (sys : SysOps G F) (target : TargetOps F) (inner fuel : Nat) (g : G) (a : MergeAgent F) :
    Option ((MergeAgent F × Res Unit) × G) :=
  let st := AgentCore.startPos sys a.pos
  let a1 := { a with pos := st.1, dim := if st.2 then st.1.dim else a.dim }
  (AgentCore.drawOffTarget sys target inner fuel g a1.pos).map fun r =>
    let a2 := { a1 with pos := r.1.1 }
    match r.1.2 with
    | .ok () => (rescale { a2 with size := 1 }, r.2)
    | e => ((a2, e), r.2)

/-- `convert_from`, src/agent_mod/cont_passive_merge.rs:118-142. -/
def convertFrom (agentType : AgentType) (mtype : MoveType F) (itype : InitType F) (ptlRadius alpha : F)
    (numAgent : Nat) : List (MergeAgent F) :=
  List.replicate numAgent ⟨agentType, mtype, itype, (AgentCore.initPos itype).1, (AgentCore.initPos itype).2,
    ptlRadius, 1, alpha⟩

/-- `mutual_displacement`, src/agent_mod/cont_passive_merge.rs:151-159. -/
def mutualDisplacement (a b : MergeAgent F) : Res (Pos F × F) :=
  AgentCore.mutualDisplacement a.dim a.pos b.dim b.pos
/-- `mutual_displacement_to_vec`, src/agent_mod/cont_passive_merge.rs:161-179. -/
def mutualDisplacementToVec (a b : MergeAgent F) (vec : Pos F) : Pos F × Res F :=
  AgentCore.mutualDisplacementToVec a.dim a.pos b.dim b.pos vec
/-- `mutual_distance`, src/agent_mod/cont_passive_merge.rs:181-183. -/
def mutualDistance (a b : MergeAgent F) : Res F := AgentCore.mutualDistance a.pos b.pos
/-- `random_move`, src/agent_mod/cont_passive_merge.rs:187-203. -/
def randomMove (rng : RngOps G F) (a : MergeAgent F) (g : G) (dt : F) : Res (Pos F) × G :=
  AgentCore.randomMove rng a.dim a.mtype g dt
/-- `random_move_to_vec`, src/agent_mod/cont_passive_merge.rs:205-223. -/
def randomMoveToVec (rng : RngOps G F) (a : MergeAgent F) (g : G) (dt : F) (vec : Pos F) :
    (Pos F × Res Unit) × G := AgentCore.randomMoveToVec rng a.dim a.mtype g dt vec

/-- `merge`, src/agent_mod/cont_passive_merge.rs:227-239. -/
def merge (a other : MergeAgent F) : MergeAgent F × Res Unit :=
  rescale { a with size := a.size + other.size }

/-- `add_size`, src/agent_mod/cont_passive_merge.rs:245-257. -/
def addSize (a : MergeAgent F) (size : Nat) : MergeAgent F × Res Unit :=
  rescale { a with size := a.size + size }

/-- `impl Merge for ContPassiveMergeAgent`, src/agent_mod/cont_passive_merge.rs:226-258 (`size`: 241-243). -/
def mergeOps : MergeOps (MergeAgent F) := ⟨fun a => a.size, addSize⟩
end MergeAgent

/-! ### agents with an exponential interaction -/

/-- `ContPassiveExpAgent`, src/agent_mod/cont_passive_exp.rs:9-21. -/
structure ExpAgent (F : Type) where
  agentType : AgentType
  intType : InteractType F
  mtype : MoveType F
  itype : InitType F
  expDim : Nat
  pos : Pos F
  gamma : F
  strength : F
  coeffPot : F
  coeffForce : F

namespace ExpAgent
/-- `coeff`, src/agent_mod/cont_passive_exp.rs:24-41 (never fails). -/
def coeff (gamma strength : F) : F × F := (strength, strength / gamma)

/-- `new`, src/agent_mod/cont_passive_exp.rs:44-73. -/
def new (intType : InteractType F) (mtype : MoveType F) (pos : Pos F) (strength : F) : Res (ExpAgent F) :=
  match intType with
  | .exponential dim gamma =>
    if dim ≠ pos.dim then .panic
    else .ok ⟨.continuousPassiveInteracting, intType, mtype, .specificPosition pos, dim, pos, gamma, strength,
      (coeff gamma strength).1, (coeff gamma strength).2⟩
  | _ => .panic

/-- `new_uniform`, src/agent_mod/cont_passive_exp.rs:75-118. -/
def newUniform (sys : SysOps G F) (target : TargetOps F) (inner fuel : Nat) (g : G)
    (intType : InteractType F) (mtype : MoveType F) (strength : F) : Option (Res (ExpAgent F) × G) :=
  match intType with
  | .exponential dim gamma =>
    if dim ≠ sys.positionOut.dim then some (.err .invalidArgumentInput, g)
    else (AgentCore.drawOffTarget sys target inner fuel g sys.positionOut).map fun r =>
      (r.1.2.map fun _ => ⟨.continuousPassiveInteracting, intType, mtype, .uniform, r.1.1.dim, r.1.1, gamma,
        strength, (coeff gamma strength).1, (coeff gamma strength).2⟩, r.2)
  | _ => some (.err .invalidArgumentInput, g)

/-- `renew_uniform`, src/agent_mod/cont_passive_exp.rs:120-146. -/
def renewUniform (sys : SysOps G F) (target : TargetOps F) (inner fuel : Nat) (g : G) (a : ExpAgent F) :
    Option ((ExpAgent F × Res Unit) × G) :=
  let st := AgentCore.startPos sys a.pos
  let a1 := if st.2 then
      { a with pos := st.1, expDim := st.1.dim, coeffPot := (coeff a.gamma a.strength).1,
               coeffForce := (coeff a.gamma a.strength).2 }
    else { a with pos := st.1 }
  (AgentCore.drawOffTarget sys target inner fuel g a1.pos).map fun r =>
    (({ a1 with pos := r.1.1 }, r.1.2), r.2)

/-- `convert_from`, src/agent_mod/cont_passive_exp.rs:160-199. -/
def convertFrom (mtype : MoveType F) (itype : InitType F) (gamma : F) (expDim : Nat) (strength : F)
    (numAgent : Nat) : Res (List (ExpAgent F)) :=
  let dim := (AgentCore.initPos itype).1
  if dim ≠ 0 ∧ dim ≠ expDim then .panic
  else .ok (List.replicate numAgent ⟨.continuousPassiveInteracting, .exponential expDim gamma, mtype, itype,
    expDim, (AgentCore.initPos itype).2, gamma, strength, (coeff gamma strength).1, (coeff gamma strength).2⟩)

/-- `mutual_displacement`, src/agent_mod/cont_passive_exp.rs:208-216. -/
def mutualDisplacement (a b : ExpAgent F) : Res (Pos F × F) :=
  AgentCore.mutualDisplacement a.expDim a.pos b.expDim b.pos
/-- `mutual_displacement_to_vec`, src/agent_mod/cont_passive_exp.rs:218-236. -/
def mutualDisplacementToVec (a b : ExpAgent F) (vec : Pos F) : Pos F × Res F :=
  AgentCore.mutualDisplacementToVec a.expDim a.pos b.expDim b.pos vec
/-- `mutual_distance`, src/agent_mod/cont_passive_exp.rs:238-240. -/
def mutualDistance (a b : ExpAgent F) : Res F := AgentCore.mutualDistance a.pos b.pos
/-- `random_move`, src/agent_mod/cont_passive_exp.rs:244-260. -/
def randomMove (rng : RngOps G F) (a : ExpAgent F) (g : G) (dt : F) : Res (Pos F) × G :=
  AgentCore.randomMove rng a.expDim a.mtype g dt
/-- `random_move_to_vec`, src/agent_mod/cont_passive_exp.rs:262-280. -/
def randomMoveToVec (rng : RngOps G F) (a : ExpAgent F) (g : G) (dt : F) (vec : Pos F) :
    (Pos F × Res Unit) × G := AgentCore.randomMoveToVec rng a.expDim a.mtype g dt vec
/-- `potential`, src/agent_mod/cont_passive_exp.rs:284-286. -/
def potential (a : ExpAgent F) (r : F) : F := a.coeffPot * Fl.exp (-r / a.gamma)
/-- `force`, src/agent_mod/cont_passive_exp.rs:288-290. -/
def force (a : ExpAgent F) (r : F) : F := a.coeffForce * Fl.exp (-r / a.gamma)
end ExpAgent

/-! ### Lennard-Jones agents -/

/-- `ContPassiveLJAgent`, src/agent_mod/cont_passive_lj.rs:9-21. -/
structure LJAgent (F : Type) where
  agentType : AgentType
  intType : InteractType F
  mtype : MoveType F
  itype : InitType F
  dim : Nat
  pos : Pos F
  ptlSize : F
  strength : F
  coeffPot : F
  coeffForce : F

namespace LJAgent
/-- `coeff`, src/agent_mod/cont_passive_lj.rs:24-29 (never fails). -/
def coeff (ptlSize strength : F) : F × F := (Fl.lit 4 * strength, Fl.lit 24 * strength / ptlSize)

/-- `new`, src/agent_mod/cont_passive_lj.rs:32-59. -/
def new (intType : InteractType F) (mtype : MoveType F) (pos : Pos F) (strength : F) : Res (LJAgent F) :=
  match intType with
  | .lennardJones ptlSize =>
    .ok ⟨.continuousPassiveInteracting, intType, mtype, .specificPosition pos, pos.dim, pos, ptlSize, strength,
      (coeff ptlSize strength).1, (coeff ptlSize strength).2⟩
  | _ => .panic

/-- `new_uniform`, src/agent_mod/cont_passive_lj.rs:61-101. -/
def newUniform (sys : SysOps G F) (target : TargetOps F) (inner fuel : Nat) (g : G)
    (intType : InteractType F) (mtype : MoveType F) (strength : F) : Option (Res (LJAgent F) × G) :=
  match intType with
  | .lennardJones ptlSize =>
    (AgentCore.drawOffTarget sys target inner fuel g sys.positionOut).map fun r =>
      (r.1.2.map fun _ => ⟨.continuousPassiveInteracting, intType, mtype, .uniform, sys.positionOut.dim, r.1.1,
        ptlSize, strength, (coeff ptlSize strength).1, (coeff ptlSize strength).2⟩, r.2)
  | _ => some (.err .invalidArgumentInput, g)

/-- `renew_uniform`, src/agent_mod/cont_passive_lj.rs:103-129. -/
def renewUniform (sys : SysOps G F) (target : TargetOps F) (inner fuel : Nat) (g : G) (a : LJAgent F) :
    Option ((LJAgent F × Res Unit) × G) :=
  let st := AgentCore.startPos sys a.pos
  let a1 := if st.2 then
      { a with pos := st.1, dim := st.1.dim, coeffPot := (coeff a.ptlSize a.strength).1,
               coeffForce := (coeff a.ptlSize a.strength).2 }
    else { a with pos := st.1 }
  (AgentCore.drawOffTarget sys target inner fuel g a1.pos).map fun r =>
    (({ a1 with pos := r.1.1 }, r.1.2), r.2)

/-- `convert_from`, src/agent_mod/cont_passive_lj.rs:142-175. -/
def convertFrom (mtype : MoveType F) (itype : InitType F) (ptlSize strength : F) (numAgent : Nat) :
    List (LJAgent F) :=
  List.replicate numAgent ⟨.continuousPassiveInteracting, .lennardJones ptlSize, mtype, itype,
    (AgentCore.initPos itype).1, (AgentCore.initPos itype).2, ptlSize, strength, (coeff ptlSize strength).1,
    (coeff ptlSize strength).2⟩

/-- `mutual_displacement`, src/agent_mod/cont_passive_lj.rs:184-192. -/
def mutualDisplacement (a b : LJAgent F) : Res (Pos F × F) :=
  AgentCore.mutualDisplacement a.dim a.pos b.dim b.pos
/-- `mutual_displacement_to_vec`, src/agent_mod/cont_passive_lj.rs:194-212. -/
def mutualDisplacementToVec (a b : LJAgent F) (vec : Pos F) : Pos F × Res F :=
  AgentCore.mutualDisplacementToVec a.dim a.pos b.dim b.pos vec
/-- `mutual_distance`, src/agent_mod/cont_passive_lj.rs:214-216. -/
def mutualDistance (a b : LJAgent F) : Res F := AgentCore.mutualDistance a.pos b.pos
/-- `random_move`, src/agent_mod/cont_passive_lj.rs:220-236. -/
def randomMove (rng : RngOps G F) (a : LJAgent F) (g : G) (dt : F) : Res (Pos F) × G :=
  AgentCore.randomMove rng a.dim a.mtype g dt
/-- `random_move_to_vec`, src/agent_mod/cont_passive_lj.rs:238-256. -/
def randomMoveToVec (rng : RngOps G F) (a : LJAgent F) (g : G) (dt : F) (vec : Pos F) :
    (Pos F × Res Unit) × G := AgentCore.randomMoveToVec rng a.dim a.mtype g dt vec
/-- `potential`, src/agent_mod/cont_passive_lj.rs:260-265. -/
def potential (a : LJAgent F) (r : F) : F :=
  let x := a.ptlSize / r
  let x6 := Fl.powi x 6
  a.coeffPot * x6 * (x6 - Fl.one)
/-- `force`, src/agent_mod/cont_passive_lj.rs:267-272. -/
def force (a : LJAgent F) (r : F) : F :=
  let x := a.ptlSize / r
  let x6 := Fl.powi x 6
  a.coeffForce * x6 * x * (Fl.two * x6 - Fl.one)
end LJAgent
end Moledyn
