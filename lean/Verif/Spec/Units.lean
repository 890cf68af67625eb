import Verif.Model.ExpProgram
import Verif.Model.BundledPrograms
/-
Vocabulary for C119: the same problem written down in other units.
-/
namespace Moledyn
variable {G F α β : Type}

/-- other units: what was the length 1 is now `len`, what was the time 1 is now `time`. -/
structure Units where
  len : ℝ
  time : ℝ
  len_pos : 0 < len
  time_pos : 0 < time

namespace Units
variable (U : Units)

/-- a place, in the new units. -/
def pos (p : Pos ℝ) : Pos ℝ := p.map (U.len * ·)

/-- a way of moving: a diffusion coefficient is a length squared per time. -/
noncomputable def mtype : MoveType ℝ → MoveType ℝ
  | .brownian D => .brownian (U.len ^ 2 / U.time * D)
  | .levy => .levy

/-- where an agent is to begin. -/
def itype : InitType ℝ → InitType ℝ
  | .specificPosition p => .specificPosition (U.pos p)
  | .uniform => .uniform

/-- an interaction: `gamma` and the particle size are lengths. -/
def intType : InteractType ℝ → InteractType ℝ
  | .exponential dim gamma => .exponential dim (U.len * gamma)
  | .coulomb2D => .coulomb2D
  | .coulomb3D => .coulomb3D
  | .lennardJones ptlSize => .lennardJones (U.len * ptlSize)

/-- a cube, a ball, a cylinder in the new units. -/
def cubic (s : Cubic ℝ) : Cubic ℝ := { s with sysSize := U.len * s.sysSize }
def circ (s : Circ ℝ) : Circ ℝ := { s with sysSize := U.len * s.sysSize }
def cyl (s : Cyl ℝ) : Cyl ℝ := { s with sysRadius := U.len * s.sysRadius, sysLength := U.len * s.sysLength }

/-- a target in the new units. -/
def target (t : BulkTarget ℝ) : BulkTarget ℝ := { t with targetPos := U.pos t.targetPos, targetSize := U.len * t.targetSize }

/-- `SameRoom rng U sys sys'`: `sys'` is the library's system `sys` in the new units, with the same generator. -/
inductive SameRoom (rng : RngOps G ℝ) (U : Units) : SysOps G ℝ → SysOps G ℝ → Prop
  | cubic (s : Cubic ℝ) : SameRoom rng U (s.ops rng) ((U.cubic s).ops rng)
  | circ (s : Circ ℝ) : SameRoom rng U (s.ops rng) ((U.circ s).ops rng)
  | cyl (s : Cyl ℝ) : SameRoom rng U (s.ops rng) ((U.cyl s).ops rng)

/-- agents in the new units.  The strength of a force between agents enters the programs as a displacement per time times a
length, so it is a length squared per time, as the diffusion coefficient is. -/
noncomputable def indep (a : IndepAgent ℝ) : IndepAgent ℝ := { a with mtype := U.mtype a.mtype, itype := U.itype a.itype, pos := U.pos a.pos }
noncomputable def merging (a : MergeAgent ℝ) : MergeAgent ℝ :=
  { a with mtype := U.mtype a.mtype, itype := U.itype a.itype, pos := U.pos a.pos, ptlRadius := U.len * a.ptlRadius }
noncomputable def exp (a : ExpAgent ℝ) : ExpAgent ℝ :=
  { a with intType := U.intType a.intType, mtype := U.mtype a.mtype, itype := U.itype a.itype, pos := U.pos a.pos,
           gamma := U.len * a.gamma, strength := U.len ^ 2 / U.time * a.strength,
           coeffPot := U.len ^ 2 / U.time * a.coeffPot, coeffForce := U.len / U.time * a.coeffForce }

/-- a clock in the new units. -/
def timeType : TimeType ℝ → TimeType ℝ
  | .constant dt => .constant (U.time * dt)
  | .exponential dtMin dtMax length => .exponential (U.time * dtMin) (U.time * dtMax) length
def constClock (c : ConstStep ℝ) : ConstStep ℝ :=
  { titype := U.timeType c.titype, current := U.time * c.current, dt := U.time * c.dt, tmax := U.time * c.tmax }
def expClock (c : ExpStep ℝ) : ExpStep ℝ :=
  { c with titype := U.timeType c.titype, current := U.time * c.current, dt := U.time * c.dt, tmax := U.time * c.tmax }

/-- a list whose elements are written in new units. -/
def list (f : α → β) (l : LList α) : LList β :=
  { links := l.links, contents := l.contents.map f, head := l.head, tail := l.tail, c0 := l.c0, c1 := l.c1, c2 := l.c2 }

/-- a reported time, in the new units, with the state of the program `f`-translated. -/
def answer (f : α → β) (r : Option (Res ℝ × α)) : Option (Res ℝ × β) := r.map fun x => (x.1.map (U.time * ·), f x.2)

end Units
end Moledyn
