import Verif.Props.Help
import Verif.Props.Reading
import Verif.Props.Error
/-
C80 (texts of the help, its examples) and C44 (texts of the errors).
-/
namespace Moledyn.Props
open Moledyn

section Texts

/-- the help on movements, as users see it -/
def helpMove : Str := chars! "Random walk Characterstic. ex) 1.0 : Brownian with D=1 / Levy : Levy walk"
/-- the help on placements -/
def helpInit : Str := chars! "Initialization method. ex) 0,0 : All at 0,0 / Uniform : Uniform"
/-- the help on walls -/
def helpWalls : Str := chars! "Boundary condition. ex) Reflective, Periodic, integer indicates Mixed"
/-- the help on the end of time -/
def helpTmax : Str := chars! "Upper limit of time for computing. ex) 1.0, 0 means INFINITE"

/-- Heading and explanations of every structure of the crate, in the order of the command line. -/
theorem C80_texts {F : Type} (f : NumFmt F) :
    (systemsOf f ++ targetsOf f ++ agentsOf f ++ clocksOf f ++ simulationsOf f).map (fun S => (S.desc, S.vars.map Prod.snd)) =
    [(chars! "System", [chars! "Size of System", chars! "Dimension of System"]),
     (chars! "System", [helpWalls, chars! "Size of System", chars! "Dimension of System"]),
     (chars! "System", [chars! "Dimension of circular domain.", helpWalls, chars! "Radius of Circular Domain",
        chars! "Length of Rectangular Domain (-length, length)", chars! "Dimension of System"]),
     (chars! "Target", [chars! "Position of Target ex) 0:0 = (0,0), 1.0:2.0 = (1.0, 2.0)", chars! "Size of Target"]),
     (chars! "Agent", [helpMove, helpInit, chars! "Number of Agents"]),
     (chars! "Agent", [helpMove, helpInit, chars! "Radius of particle. When they collide, they merge. ex) 0.1",
        chars! "Exponent of diffusion decrease. D ~ n^alpha ex) 1.0", chars! "Number of Agent"]),
     (chars! "Agent", [helpMove, helpInit, chars! "Typical length scale of interaction. ex) 0.1, 0.5",
        chars! "Dimension of system ex) 2, 3", chars! "Strength of interaction", chars! "Number of Agent"]),
     (chars! "Agent", [helpMove, helpInit, chars! "Particle size of agent. Should be an order of 1 ex) 1.0, 2.0",
        chars! "Strength of interaction", chars! "Number of Agent"]),
     (chars! "Time Iterator", [chars! "Time step size", helpTmax]),
     (chars! "Time Iterator", [chars! "Initial time step size", chars! "Maximal time step size",
        chars! "Number of step between time step size increase", helpTmax]),
     (chars! "Variable Simulation", [chars! "Number of Ensemble", chars! "Index of Ensemble Set",
        chars! "Initial Seed for Random Number Generator", chars! "Directory containing output file"]),
     (chars! "Variable Simulation", [chars! "Number of Ensemble", chars! "Initial Seed for Random Number Generator",
        chars! "Number of Thread", chars! "Directory containing output file"]),
     (chars! "Process Simulation", [chars! "Number of Ensemble", chars! "Time between recording", chars! "Index of Ensemble Set",
        chars! "Initial Seed for Random Number Generator", chars! "Directory containing output file"])] := rfl

/-- Headings and explanations of the analyses. -/
theorem C80_analysis_texts :
    [timeHelp, vecHelp, processHelp].map (fun A => (A.desc, A.vars.map Prod.snd)) =
    let t := [chars! "Minimal time for Histogram", chars! "Maximal time for Histogram", chars! "Bin size for Linear Histogram",
      chars! "Bin size for Logarithmic Histogram", chars! "Directory for data files"]
    [(chars! "Single Time", t), (chars! "Vector of Time", chars! "Number of data for each ensemble" :: t),
     (chars! "Random Process analysis", t)] := rfl

/-- The examples of the help are read, as what the help says they are: `1.0` and `Levy` for movements, `Uniform` and `0,0` for
placements, `0:0` for the target, `Reflective`, `Periodic` and a positive number for the walls. -/
theorem C80_examples {F : Type} (f : NumFmt F) (one zero : F) (h1 : f.parse (chars! "1.0") = some one)
    (h0 : f.parse (chars! "0") = some zero) :
    MoveType.fromStr f (chars! "1.0") = .ok (.brownian one) ∧
    MoveType.fromStr f (chars! "Levy") = .ok .levy ∧
    InitType.fromStr f (chars! "Uniform") = .ok .uniform ∧
    InitType.fromStr f (chars! "0,0") = .ok (.specificPosition [zero, zero]) ∧
    Pos.fromStr f (chars! "0:0") = .ok [zero, zero] ∧
    BoundaryCond.fromStr (chars! "Reflective") = .ok .reflection ∧
    BoundaryCond.fromStr (chars! "Periodic") = .ok .periodic ∧
    (∀ (w : Str) d, w.IsNumber d → 0 < d → BoundaryCond.fromStr w = .ok (.mixed d) ∧
      SystemType.fromStr w = .ok (.continuousCylindrical d)) := by
  refine ⟨?_, ?_, ?_, ?_, ?_, ?_, ?_, fun w d hw hd => ?_⟩
  · exact (C81_move_type f _ _).2 ⟨[chars! "1.0"], (C81_words _ _).1 (by decide +kernel),
      Or.inr (Or.inr ⟨_, one, rfl, by decide, by decide, h1, rfl⟩)⟩
  · exact (C81_move_type f _ _).2 ⟨[chars! "Levy"], (C81_words _ _).1 (by decide +kernel), Or.inr (Or.inl ⟨rfl, rfl⟩)⟩
  · exact (C81_init_type f _ _).2 ⟨[chars! "Uniform"], (C81_words _ _).1 (by decide +kernel), Or.inl ⟨rfl, rfl⟩⟩
  · refine (C81_init_type f _ _).2 ⟨[chars! "0,0"], (C81_words _ _).1 (by decide +kernel),
      Or.inr (Or.inl ⟨_, _, rfl, by decide, ?_, rfl⟩)⟩
    show Res.ok _ = _
    have : Str.splitBy (fun c => c == ',' || c == ':') (Str.trimMatches (fun c => c == '(' || c == ')') (Str.trim (chars! "0,0"))) =
      [chars! "0", chars! "0"] := by decide +kernel
    rw [this]; simp [h0]
  · show Res.ok _ = _
    have : Str.splitBy (fun c => c == ',' || c == ':') (Str.trimMatches (fun c => c == '(' || c == ')') (Str.trim (chars! "0:0"))) =
      [chars! "0", chars! "0"] := by decide +kernel
    rw [this]; simp [h0]
  · exact (C81_boundary_cond _ _).2 ⟨[chars! "Reflective"], (C81_words _ _).1 (by decide +kernel), Or.inl ⟨rfl, rfl⟩⟩
  · exact (C81_boundary_cond _ _).2 ⟨[chars! "Periodic"], (C81_words _ _).1 (by decide +kernel), Or.inr (Or.inl ⟨rfl, rfl⟩)⟩
  · have hW : Str.HasWords w [w] := by
      obtain ⟨cs, ds, hs, hne, hf, -⟩ := hw
      have hdec : ∀ c ∈ decimals, Str.isWs c = false := by decide
      have hd : ∀ c ∈ cs, Str.isWs c = false := by
        clear hs hne hd
        induction hf with
        | nil => simp
        | @cons c d cs ds h _ ih =>
          intro x hx
          rcases List.mem_cons.1 hx with rfl | hx
          · exact hdec _ (List.mem_of_getElem? h)
          · exact ih x hx
      refine ⟨[], [], by simp, fun c hc => by simp at hc, ?_, ?_, fun c hc => by simp at hc, fun c hc => by simp at hc⟩
      · rcases hs with rfl | rfl
        · exact hne
        · simp
      · rcases hs with rfl | rfl
        · exact hd
        · intro c hc
          rcases List.mem_cons.1 hc with rfl | hc
          · decide
          · exact hd c hc
    exact ⟨(C81_boundary_cond _ _).2 ⟨_, hW, Or.inr (Or.inr (Or.inl ⟨w, d, rfl, hw, hd, rfl⟩))⟩,
      (C81_system_type _ _).2 ⟨_, hW, Or.inr (Or.inr (Or.inr (Or.inr (Or.inl ⟨w, d, rfl, hw, hd, rfl⟩))))⟩⟩

/-- Non-vacuity: a format of numbers that reads the two examples. -/
example : ∃ (f : NumFmt ℚ) (one zero : ℚ), f.parse (chars! "1.0") = some one ∧ f.parse (chars! "0") = some zero :=
  ⟨⟨fun _ => [], fun s => if s = chars! "1.0" then some 1 else if s = chars! "0" then some 0 else none, 0⟩, 1, 0, rfl, rfl⟩

/-- The texts of the errors. -/
theorem C44_texts (ioText : Nat → Str) :
    ([.invalidType, .invalidDimension, .invalidConfiguration, .invalidNumberOfArguments, .invalidArgumentInput, .invalidFormat,
      .invalidFile, .tooLargeTimeStep, .featureNotProvided, .unexpectedEnd] : List ErrorCode).map (ErrorCode.display ioText) =
    [chars! "Invalid Type input", chars! "Invalid Dimension of vectors", chars! "Invalid Configuration is given",
     chars! "Number of Arguments is invalid", chars! "Given argument is invalid", chars! "Invalid Format", chars! "Invalid File",
     chars! "Time step is too large", chars! "Functionality is not provided yet", chars! "Function ends unexpectedly"] := rfl

end Texts

end Moledyn.Props
