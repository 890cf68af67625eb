import Verif.Model.System
import Verif.Model.Argument
/-
Model of the programs of tests/random_vec.rs, which write a file of random points, and of tests/random_histogram.rs, which
draw histograms of random numbers (here: the data, the bins and the curve that are handed to the plotting library, not what
that library does with them).
-/
namespace Moledyn
variable {G F : Type} [Fl F]

/-! ### tests/random_vec.rs -/

/-- `let (x, y) = (pos[0], pos[1]); write!(&mut file, "{}\t{}\n", x, y)`, tests/random_vec.rs:24-25, 46-47, 67-68, 89-90,
110-111, 132-133: indexing panics if there are fewer than two coordinates. -/
def pointLine (f : NumFmt F) : Pos F → Res Str
  | x :: y :: _ => .ok (f.print x ++ '\t' :: (f.print y ++ ['\n']))
  | _ => .panic

/-- `for _i in 0..n{ draw; write }`, tests/random_vec.rs:22-26, 44-48, 65-69, 87-91, 108-112, 130-134, with the vector that is
drawn into; the text written so far is kept when the program stops.  (Failures of writing are left out.) -/
def pointLoop (f : NumFmt F) (draw : Pos F → G → Option (Res (Pos F) × G)) : Nat → Pos F → G → Option ((Str × Res Unit) × G)
  | 0, _, g => some (([], .ok ()), g)
  | n + 1, v, g =>
    match draw v g with
    | none => none
    | some (.err e, g1) => some (([], .err e), g1)
    | some (.panic, g1) => some (([], .panic), g1)
    | some (.ok p, g1) =>
      match pointLine f p with
      | .ok s => (pointLoop f draw n p g1).map fun r => ((s ++ r.1.1, r.1.2), r.2)
      | .err e => some (([], .err e), g1)
      | .panic => some (([], .panic), g1)

/-- `test_cont_circ_random_pos_contour`, tests/random_vec.rs:10-29, for any system, any number of points and any generator. -/
def circPoints (f : NumFmt F) (rng : RngOps G F) (s : Circ F) (fuel n : Nat) (g : G) : Option ((Str × Res Unit) × G) :=
  pointLoop f (fun _ g => s.randomPos rng fuel g) n [] g

/-- `test_cont_circ_random_pos_to_vec_contour`, tests/random_vec.rs:33-51: one vector is drawn into again and again. -/
def circPointsToVec (f : NumFmt F) (rng : RngOps G F) (s : Circ F) (fuel n : Nat) (g : G) : Option ((Str × Res Unit) × G) :=
  pointLoop f (fun v g => s.randomPosToVec rng fuel g v) n [Fl.zero, Fl.zero] g

/-- `test_get_uniform_vec`, tests/random_vec.rs:55-72. -/
def uniformPoints (f : NumFmt F) (rng : RngOps G F) (n : Nat) (g : G) : Option ((Str × Res Unit) × G) :=
  pointLoop f (fun _ g => let r := Random.getUniformVec rng g 2; some (.ok r.1, r.2)) n [] g

/-- `test_get_uniform_to_vec`, tests/random_vec.rs:76-94. -/
def uniformPointsToVec (f : NumFmt F) (rng : RngOps G F) (n : Nat) (g : G) : Option ((Str × Res Unit) × G) :=
  pointLoop f (fun v g => let r := Random.getUniformToVec rng g v; some (.ok r.1, r.2)) n [Fl.zero, Fl.zero] g

/-- `test_get_gaussian_vec`, tests/random_vec.rs:98-115. -/
def gaussianPoints (f : NumFmt F) (rng : RngOps G F) (n : Nat) (g : G) : Option ((Str × Res Unit) × G) :=
  pointLoop f (fun _ g => let r := Random.getGaussianVec rng g 2; some (.ok r.1, r.2)) n [] g

/-- `test_get_gaussian_to_vec`, tests/random_vec.rs:119-137. -/
def gaussianPointsToVec (f : NumFmt F) (rng : RngOps G F) (n : Nat) (g : G) : Option ((Str × Res Unit) × G) :=
  pointLoop f (fun v g => let r := Random.getGaussianToVec rng g v; some (.ok r.1, r.2)) n [Fl.zero, Fl.zero] g

/-! ### tests/random_histogram.rs -/

/-- `bin_bounds`, tests/random_histogram.rs:10-19. -/
def binBounds (min max : F) (count : Nat) : List F :=
  let range := max - min
  (List.range count).map (fun n => (Fl.ofNat n / Fl.ofNat count) * range + min) ++ [max]

/-- what is pushed for a number `x`, tests/random_histogram.rs:86-94, 133-141. -/
def clampSample (min max : F) (n : Nat) (x : F) : F :=
  if Fl.lt x min then min + Fl.lit (1 / 2) / Fl.ofNat n
  else if Fl.lt max x then max - Fl.lit (1 / 2) / Fl.ofNat n
  else x

/-- `for _i in 0..1_000_000{ data.push(..) }`, tests/random_histogram.rs:28-30 (`keep` the identity), 84-95 (`keep` the
clamping). -/
def drawData (draw : G → F × G) (keep : F → F) : Nat → G → List F × G
  | 0, g => ([], g)
  | k + 1, g =>
    let d := draw g
    let r := drawData draw keep k d.2
    (keep d.1 :: r.1, r.2)

/-- `for line in reader.lines(){ let x = line?.parse::<f64>().expect("Not a number"); data.push(..) }`,
tests/random_histogram.rs:53-56, 131-142: `?` returns the error of reading, `expect` panics. -/
def readData (f : NumFmt F) (keep : F → F) : Reader → Res (List F)
  | [] => .ok []
  | .ok l :: rd =>
    match f.parse l with
    | some x => (readData f keep rd).map (keep x :: ·)
    | none => .panic
  | .error t :: _ => .err (.io t)

/-- the curve drawn over the histogram, tests/random_histogram.rs:80-81, 100-105, 128-129, 148-153, for `total` numbers
(1 000 000 there; line 150 writes `- 4.0` for `+ min`); `pi` is `std::f64::consts::PI`. -/
def gaussCurve (pi min max : F) (n total : Nat) : List (F × F) :=
  let dx := (max - min) / Fl.ofNat n
  let dh := Fl.sqrt (Fl.one / (Fl.two * pi))
  (List.range n).map fun i =>
    let x := (Fl.ofNat i + Fl.lit (1 / 2)) * dx + min
    (x, dh * Fl.exp (-x * x / Fl.two) * dx * Fl.ofNat total)

end Moledyn
