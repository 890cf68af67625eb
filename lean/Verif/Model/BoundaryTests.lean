import Verif.Model.System
/-
Model of the checks of tests/boundary_cond.rs.
-/
namespace Moledyn
variable {F : Type} [Fl F]

/-- `assert!(x.abs() < 1e-10)`, tests/boundary_cond.rs:140, 145. -/
def assertSmall (x : F) : Res Unit := if Fl.lt (Fl.abs x) (Fl.lit (1 / 10 ^ 10)) then .ok () else .panic

/-- `single_test_cont_circ_exact`, tests/boundary_cond.rs:124-152: every step of `check_bc_exact` with its claim. -/
def exactSteps (s : Circ F) (pos dp : Pos F) : Res Unit :=
  (pos.add dp).bind fun pos2 => (s.checkInclusion pos2).bind fun inside =>
    if inside then .ok ()
    else
      let r0 := s.sysSize
      let r := pos.norm
      let dr := dp.norm
      (pos.innerProduct dp).bind fun rdr =>
      let t := (-rdr + Fl.sqrt (rdr * rdr + dr * dr * (r0 * r0 - r * r))) / (dr * dr)
      let k := (Fl.one - t) * (rdr + t * dr * dr) / (r0 * r0)
      (pos.add (dp.scalarMul t)).bind fun h => (assertSmall (h.norm - r0)).bind fun _ =>
      ((dp.scalarMul (Fl.one - t)).sub (h.scalarMul k)).bind fun dx => (dx.innerProduct h).bind fun inner => (assertSmall inner).bind fun _ =>
      ((pos.scalarMul (Fl.one - Fl.two * k)).add (dp.scalarMul (Fl.one - Fl.two * k * t))).bind fun pos3 => (s.checkInclusion pos3).bind fun inside =>
      if inside then .ok () else .err .tooLargeTimeStep

end Moledyn
