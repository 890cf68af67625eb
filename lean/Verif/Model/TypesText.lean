import Verif.Model.Types
import Verif.Model.System
import Verif.Model.Target
import Verif.Model.Time
/-
Model of the text forms (`Display` and `FromStr`) of the type tags.

Numbers are printed and parsed by a `NumFmt` (`f64`); `usize` by `Str.printNat` / `Str.parseNat`.
-/
namespace Moledyn

namespace Res

/-- `.map_err(|_| InvalidArgumentInput)?` applied to a failed or successful `parse`
(e.g. src/agent_mod/types.rs:307-308). -/
def orInvalid {α : Type} : Option α → Res α
  | some a => .ok a
  | none => .err .invalidArgumentInput

/-- `.expect("Failed to parse")` / `.unwrap()` applied to a failed or successful `parse`
(e.g. src/agent_mod/types.rs:175). -/
def expect {α : Type} : Option α → Res α
  | some a => .ok a
  | none => .panic

/-- `.expect("Failed to parse")` on a `Result`: an error becomes a panic (src/agent_mod/types.rs:236). -/
def expectOk {α : Type} : Res α → Res α
  | .ok a => .ok a
  | .err _ => .panic
  | .panic => .panic

end Res

/-- `&s[n..]` of a string: `n` counts bytes of the UTF-8 encoding and must be a character boundary
within the string, otherwise the slice panics (Rust std, used in src/system_mod/mod.rs). -/
def Str.dropBytes : Nat → Str → Res Str
  | 0, s => .ok s
  | _ + 1, [] => .panic
  | n + 1, c :: s => if c.utf8Size ≤ n + 1 then Str.dropBytes (n + 1 - c.utf8Size) s else .panic
termination_by _ s => s.length

namespace AgentType

/-- the table given to `impl_fmt_for_type!` and `impl_fromstr_for_type!`,
src/agent_mod/types.rs:113-125 and 127-139 (the two tables are identical). -/
def text : AgentType → Str
  | .continuousPassiveIndependent => (chars! "Passive Independent Agent in Continous system.")
  | .continuousPassiveInteracting => (chars! "Passive Interacting Agent in Continous system.")
  | .continuousActiveIndependent => (chars! "Active Independent Agent in Continous system.")
  | .continuousActiveInteracting => (chars! "Active Interacting Agent in Continous system.")
  | .latticePassiveIndependent => (chars! "Passive Independent Agent in Lattice system.")
  | .latticePassiveInteracting => (chars! "Passive Interacting Agent in Lattice system.")
  | .latticeActiveIndependent => (chars! "Active Independent Agent in Lattice system.")
  | .latticeActiveInteracting => (chars! "Active Interacting Agent in Lattice system.")
  | .networkPassiveIndependent => (chars! "Passive Independent Agent in Network.")
  | .networkPassiveInteracting => (chars! "Passive Interacting Agent in Network.")
  | .networkActiveIndependent => (chars! "Active Independent Agent in Network.")
  | .networkActiveInteracting => (chars! "Active Interacting Agent in Network.")

/-- `Display for AgentType`, src/agent_mod/types.rs:113-125 with src/macros.rs:7-18. -/
def display (t : AgentType) : Str := t.text

/-- the arms of the generated match, in source order (src/agent_mod/types.rs:127-140). -/
def all : List AgentType :=
  [.continuousPassiveIndependent, .continuousPassiveInteracting, .continuousActiveIndependent,
   .continuousActiveInteracting, .latticePassiveIndependent, .latticePassiveInteracting,
   .latticeActiveIndependent, .latticeActiveInteracting, .networkPassiveIndependent,
   .networkPassiveInteracting, .networkActiveIndependent, .networkActiveInteracting]

/-- `FromStr for AgentType`, src/agent_mod/types.rs:127-139 with src/macros.rs:34-47: the first arm
whose text is the whole input. -/
def fromStr (s : Str) : Res AgentType := Res.orInvalid (all.find? fun t => t.text = s)

end AgentType

namespace TargetType

/-- the table given to the two macros, src/target_mod/mod.rs:41-46 and 48-53 (identical). -/
def text : TargetType → Str
  | .continuousInBulk => (chars! "Target in Bulk of Continous System.")
  | .continuousAtBoundary => (chars! "Target at Boundary of Continous System.")
  | .latticeInBulk => (chars! "Target in Bulk of Lattice System.")
  | .latticeAtBoundary => (chars! "Target at Boundary of Lattice System.")
  | .networkSingleNode => (chars! "Target is a Single Node in Network.")

/-- `Display for TargetType`, src/target_mod/mod.rs:41-46. -/
def display (t : TargetType) : Str := t.text

/-- the arms of the generated match, in source order (src/target_mod/mod.rs:48-54). -/
def all : List TargetType :=
  [.continuousInBulk, .continuousAtBoundary, .latticeInBulk, .latticeAtBoundary, .networkSingleNode]

/-- `FromStr for TargetType`, src/target_mod/mod.rs:48-53. -/
def fromStr (s : Str) : Res TargetType := Res.orInvalid (all.find? fun t => t.text = s)

end TargetType

namespace MoveType
variable {F : Type}

/-- `Display for MoveType`, src/agent_mod/types.rs:157-166. -/
def display (f : NumFmt F) : MoveType F → Str
  | .brownian c => (chars! "Brownian with diffusion coefficient ") ++ f.print c
  | .levy => (chars! "Levy walk")

/-- `FromStr for MoveType`, src/agent_mod/types.rs:169-189.  `split[0]` and `split[4]` panic when the
word is missing, `expect` panics on an unreadable number. -/
def fromStr (f : NumFmt F) (s : Str) : Res (MoveType F) :=
  let split := Str.words s
  (Res.index split 0).bind fun w0 =>
    if w0 = (chars! "Brownian") then
      (Res.index split 4).bind fun w => (Res.expect (f.parse w)).map .brownian
    else if w0 = (chars! "Levy") then .ok .levy
    else if split.length = 1 then (Res.orInvalid (f.parse w0)).map .brownian
    else .err .invalidArgumentInput

end MoveType

namespace InitType
variable {F : Type}

/-- `Display for InitType<T>`, src/agent_mod/types.rs:210-219; printing an empty position panics
(src/position.rs:355-365). -/
def display (f : NumFmt F) : InitType F → Res Str
  | .specificPosition pos =>
    (Pos.display f pos).map fun p => (chars! "Initialize all agents at ") ++ p
  | .uniform => .ok (chars! "Initialize agents uniformly")

/-- `FromStr for InitType<T>`, src/agent_mod/types.rs:221-242. -/
def fromStr (f : NumFmt F) (s : Str) : Res (InitType F) :=
  let split := Str.words s
  if split.length = 1 then
    (Res.index split 0).bind fun w0 =>
      if w0 = (chars! "Uniform") then .ok .uniform
      else (Pos.fromStr f w0).map .specificPosition
  else
    (Res.index split 1).bind fun w1 =>
      if w1 = (chars! "all") then
        (Res.index split 4).bind fun w => (Res.expectOk (Pos.fromStr f w)).map .specificPosition
      else if w1 = (chars! "agents") then .ok .uniform
      else .err .invalidArgumentInput

end InitType

namespace InteractType
variable {F : Type}

/-- `Display for InteractType`, src/agent_mod/types.rs:277-290. -/
def display (f : NumFmt F) : InteractType F → Str
  | .exponential dim gamma =>
    (chars! "Exponential form interaction in ") ++ Str.printNat dim ++
      (chars! " D with typical length ") ++ f.print gamma
  | .coulomb2D => (chars! "Coulomb potential in 2 D")
  | .coulomb3D => (chars! "Coulomb potential in 3 D")
  | .lennardJones a => (chars! "Lennard Jones potential with particle size ") ++ f.print a

/-- `FromStr for InteractType`, one-word form, src/agent_mod/types.rs:299-324. -/
def fromWord (f : NumFmt F) (w : Str) : Res (InteractType F) :=
  let split := Str.splitBy (fun c => c == '(' || c == ')') w
  (Res.index split 0).bind fun name =>
    if name = (chars! "Exponential") then
      (Res.index split 1).bind fun a =>
        match Str.splitBy (· == ',') a with
        | [a0, a1] =>
          (Res.orInvalid (Str.parseNat a0)).bind fun dim =>
            (Res.orInvalid (f.parse a1)).map (.exponential dim)
        | _ => .err .invalidArgumentInput
    else if name = (chars! "Coulomb2D") then .ok .coulomb2D
    else if name = (chars! "Coulomb3D") then .ok .coulomb3D
    else if name = (chars! "LennardJones") then
      (Res.index split 1).bind fun a => (Res.orInvalid (f.parse a)).map .lennardJones
    else .err .invalidArgumentInput

/-- `FromStr for InteractType`, sentence form, src/agent_mod/types.rs:325-362 (`split` has a length
other than one). -/
def fromWords (f : NumFmt F) (split : List Str) : Res (InteractType F) :=
  (Res.index split 0).bind fun w0 =>
    if w0 = (chars! "Exponential") then
      if split.length ≠ 10 then .err .invalidArgumentInput
      else
        (Res.index split 4).bind fun w4 => (Res.orInvalid (Str.parseNat w4)).bind fun dim =>
          (Res.index split 9).bind fun w9 => (Res.orInvalid (f.parse w9)).map (.exponential dim)
    else if w0 = (chars! "Coulomb") then
      if split.length ≠ 5 then .err .invalidArgumentInput
      else
        (Res.index split 3).bind fun w3 =>
          if w3 = (chars! "2") then .ok .coulomb2D
          else if w3 = (chars! "3") then .ok .coulomb3D
          else .err .invalidArgumentInput
    else if w0 = (chars! "Lennard") then
      if split.length ≠ 7 then .err .invalidArgumentInput
      else (Res.index split 6).bind fun w6 => (Res.orInvalid (f.parse w6)).map .lennardJones
    else .err .invalidArgumentInput

/-- `FromStr for InteractType`, src/agent_mod/types.rs:293-364. -/
def fromStr (f : NumFmt F) (s : Str) : Res (InteractType F) :=
  let split := Str.words s
  if split.length = 1 then (Res.index split 0).bind (fromWord f) else fromWords f split

end InteractType

namespace SystemType

/-- `Display for SystemType`, src/system_mod/mod.rs:55-65. -/
def display : SystemType → Str
  | .continuousCircular => (chars! "Continuous Circular system.")
  | .continuousRectangular => (chars! "Continuous Rectangular system.")
  | .continuousCylindrical d =>
    (chars! "Continuous Cylindrical system. 0..") ++ Str.printNat d ++ (chars! " : Circular, ") ++
      Str.printNat d ++ (chars! ".. : Rectangular")
  | .lattice => (chars! "Lattice system.")
  | .network => (chars! "Network system.")

/-- `FromStr for SystemType`, src/system_mod/mod.rs:68-100. -/
def fromStr (s : Str) : Res SystemType :=
  let split := Str.words s
  (Res.index split 0).bind fun w0 =>
    if w0 = (chars! "Continuous") then
      (Res.index split 1).bind fun w1 =>
        if w1 = (chars! "Circular") then .ok .continuousCircular
        else if w1 = (chars! "Rectangular") then .ok .continuousRectangular
        else if w1 = (chars! "Cylindrical") then
          (Res.index split 3).bind fun w3 => (Str.dropBytes 3 w3).bind fun r =>
            (Res.orInvalid (Str.parseNat r)).map .continuousCylindrical
        else .err .invalidArgumentInput
    else if w0 = (chars! "Lattice") then .ok .lattice
    else if w0 = (chars! "Network") then .ok .network
    else if w0 = (chars! "Circular") then .ok .continuousCircular
    else if w0 = (chars! "Rectangular") then .ok .continuousRectangular
    else
      (Res.orInvalid (Str.parseNat w0)).bind fun d =>
        if d ≤ 0 then .err .invalidArgumentInput else .ok (.continuousCylindrical d)

end SystemType

namespace BoundaryCond

/-- `Display for BoundaryCond`, src/system_mod/mod.rs:122-130 (the spelling `Condtion` is the
source's). -/
def display : BoundaryCond → Str
  | .periodic => (chars! "Periodic Boundary Condition")
  | .reflection => (chars! "Reflective Boundary Condtion")
  | .mixed d =>
    (chars! "Mixed Boundary Condition. 0..") ++ Str.printNat d ++ (chars! " : Reflection, ") ++
      Str.printNat d ++ (chars! ".. : Periodic")

/-- `FromStr for BoundaryCond`, src/system_mod/mod.rs:134-157. -/
def fromStr (s : Str) : Res BoundaryCond :=
  let split := Str.words s
  (Res.index split 0).bind fun w0 =>
    if w0 = (chars! "Reflective") then .ok .reflection
    else if w0 = (chars! "Periodic") then .ok .periodic
    else if w0 = (chars! "Mixed") then
      (Res.index split 3).bind fun w3 => (Str.dropBytes 3 w3).bind fun r =>
        (Res.orInvalid (Str.parseNat r)).map .mixed
    else
      (Res.orInvalid (Str.parseNat w0)).bind fun x =>
        if x ≤ 0 then .err .invalidArgumentInput else .ok (.mixed x)

end BoundaryCond

namespace TimeType
variable {F : Type}

/-- `Display for TimeType`, src/time_mod/mod.rs:50-57; `e5` is the format `{:.5e}`. -/
def display (e5 : F → Str) : TimeType F → Str
  | .constant dt => (chars! "Constant Time step with size ") ++ e5 dt
  | .exponential dtMin dtMax length =>
    (chars! "Exponential time step increase from ") ++ e5 dtMin ++ (chars! " to ") ++ e5 dtMax ++
      (chars! " Each increase occurs in every ") ++ Str.printNat length ++ (chars! " step")

/-- `FromStr for TimeType`, src/time_mod/mod.rs:60-91. -/
def fromStr (f : NumFmt F) (s : Str) : Res (TimeType F) :=
  let split := Str.words s
  (Res.index split 0).bind fun w0 =>
    if w0 = (chars! "Constant") then
      (Res.index split 5).bind fun w => (Res.expect (f.parse w)).map .constant
    else if w0 = (chars! "Exponential") then
      (Res.index split 5).bind fun w5 => (Res.orInvalid (f.parse w5)).bind fun a =>
        (Res.index split 7).bind fun w7 => (Res.orInvalid (f.parse w7)).bind fun b =>
          (Res.index split 13).bind fun w13 => (Res.orInvalid (Str.parseNat w13)).map
            (.exponential a b)
    else
      match split with
      | [w] => (Res.orInvalid (f.parse w)).map .constant
      | [w, w', w''] =>
        (Res.orInvalid (f.parse w)).bind fun a => (Res.orInvalid (f.parse w')).bind fun b =>
          (Res.orInvalid (Str.parseNat w'')).map (.exponential a b)
      | _ => .err .invalidArgumentInput

end TimeType
end Moledyn
