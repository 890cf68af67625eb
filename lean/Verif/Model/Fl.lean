import Mathlib.Analysis.Real.Sqrt
import Mathlib.Algebra.Order.Archimedean.Real.Basic
import Mathlib.Analysis.SpecialFunctions.Pow.Real
import Mathlib.Analysis.SpecialFunctions.Log.Base
/-
Arithmetic interface used by the model.  `Fl F` lists the `f64` operations the code uses and assumes
no law about them.  Theorems are proved at one of these levels:
 (A) any `F` with `[Fl F]`: hold whatever the arithmetic does (rounding, overflow, NaN);
 (B) `F = ℝ` with the exact operations;
 (C) `F = RF R`: real numbers where every result goes through a monotone rounding `R`;
 (D) `F = XF`: rationals extended by infinities and NaN, used to exhibit what happens with NaN.
-/
namespace Moledyn

/-- The `f64` operations used by the crate.  `lit` is a decimal literal, `ofNat` is `n as f64`,
`lt`/`le` are `<`/`<=` (so `a > b` is `lt b a`), `maxVal` is `std::f64::MAX`, `toNat` is `as usize`
(which truncates and saturates)
(f64 expressions throughout src, e.g. src/system_mod/cont_circ.rs:60-165, src/analysis.rs:160-245). -/
class Fl (F : Type) extends Add F, Sub F, Mul F, Div F, Neg F where
  lit : ℚ → F
  ofNat : Nat → F
  abs : F → F
  sqrt : F → F
  exp : F → F
  log2 : F → F
  powf : F → F → F
  floor : F → F
  ceil : F → F
  toNat : F → Nat
  lt : F → F → Bool
  le : F → F → Bool
  maxVal : F

namespace Fl
variable {F : Type} [Fl F]
/-- `a > b` (e.g. src/time_mod/mod.rs:240-250). -/
abbrev gt (a b : F) : Bool := lt b a
/-- `a >= b` (e.g. src/system_mod/cont_circ.rs:60-165). -/
abbrev ge (a b : F) : Bool := le b a
/-- `0f64` (e.g. src/position.rs:170-200). -/
abbrev zero : F := lit 0
/-- `1f64` (e.g. src/time_mod/mod.rs:200-235). -/
abbrev one : F := lit 1
/-- `2f64` (e.g. src/time_mod/mod.rs:220). -/
abbrev two : F := lit 2
/-- `x.powi(n)` for `n ≥ 0`: repeated multiplication (simplification: the order of the
multiplications is not specified by Rust; here left to right starting from 1)
(src/agent_mod/cont_passive_lj.rs:262, 269, src/analysis.rs:406). -/
def powi (x : F) : Nat → F
  | 0 => one
  | n + 1 => powi x n * x
end Fl

/-! ### (B) exact reals -/

/-- exact real arithmetic; `f64::MAX` is kept as an arbitrary large number. -/
noncomputable instance instFlReal : Fl ℝ where
  lit q := (q : ℝ)
  ofNat n := (n : ℝ)
  abs x := |x|
  sqrt := Real.sqrt
  exp := Real.exp
  log2 := Real.logb 2
  powf x y := x ^ y
  floor x := (⌊x⌋ : ℝ)
  ceil x := (⌈x⌉ : ℝ)
  toNat x := ⌊x⌋₊
  lt x y := decide (x < y)
  le x y := decide (x ≤ y)
  maxVal := (2 : ℝ) ^ (1024 : ℕ) - 2 ^ (971 : ℕ)

section RealLemmas
theorem fl_lit (q : ℚ) : (Fl.lit q : ℝ) = (q : ℝ) := rfl
@[simp] theorem fl_zero : (Fl.lit 0 : ℝ) = 0 := by simp [fl_lit]
@[simp] theorem fl_one : (Fl.lit 1 : ℝ) = 1 := by simp [fl_lit]
@[simp] theorem fl_two : (Fl.lit 2 : ℝ) = 2 := by simp [fl_lit]
@[simp] theorem fl_ofNat (n : Nat) : (Fl.ofNat n : ℝ) = n := rfl
@[simp] theorem fl_abs (x : ℝ) : Fl.abs x = |x| := rfl
@[simp] theorem fl_sqrt (x : ℝ) : Fl.sqrt x = Real.sqrt x := rfl
@[simp] theorem fl_exp (x : ℝ) : Fl.exp x = Real.exp x := rfl
@[simp] theorem fl_log2 (x : ℝ) : Fl.log2 x = Real.logb 2 x := rfl
@[simp] theorem fl_powf (x y : ℝ) : Fl.powf x y = x ^ y := rfl
@[simp] theorem fl_floor (x : ℝ) : Fl.floor x = (⌊x⌋ : ℝ) := rfl
@[simp] theorem fl_ceil (x : ℝ) : Fl.ceil x = (⌈x⌉ : ℝ) := rfl
@[simp] theorem fl_toNat (x : ℝ) : Fl.toNat x = ⌊x⌋₊ := rfl
@[simp] theorem fl_lt (x y : ℝ) : Fl.lt x y = decide (x < y) := rfl
@[simp] theorem fl_le (x y : ℝ) : Fl.le x y = decide (x ≤ y) := rfl
@[simp] theorem fl_add (x y : ℝ) : @HAdd.hAdd ℝ ℝ ℝ (@instHAdd ℝ Fl.toAdd) x y = x + y := rfl
@[simp] theorem fl_sub (x y : ℝ) : @HSub.hSub ℝ ℝ ℝ (@instHSub ℝ Fl.toSub) x y = x - y := rfl
@[simp] theorem fl_mul (x y : ℝ) : @HMul.hMul ℝ ℝ ℝ (@instHMul ℝ Fl.toMul) x y = x * y := rfl
@[simp] theorem fl_div (x y : ℝ) : @HDiv.hDiv ℝ ℝ ℝ (@instHDiv ℝ Fl.toDiv) x y = x / y := rfl
@[simp] theorem fl_neg (x : ℝ) : @Neg.neg ℝ Fl.toNeg x = -x := rfl
@[simp] theorem fl_powi (x : ℝ) (n : Nat) : Fl.powi x n = x ^ n := by
  induction n with
  | zero => simp [Fl.powi]
  | succ n ih => simp [Fl.powi, ih, pow_succ]
end RealLemmas

/-! ### (C) reals with a monotone rounding -/

/-- A rounding of reals: monotone, fixes what it produces, fixes 0, odd. -/
structure Rounding where
  rnd : ℝ → ℝ
  mono : ∀ x y, x ≤ y → rnd x ≤ rnd y
  idem : ∀ x, rnd (rnd x) = rnd x
  zero : rnd 0 = 0
  odd : ∀ x, rnd (-x) = -rnd x

/-- the real numbers, with every operation followed by the rounding `R`. -/
structure RF (R : Rounding) where
  val : ℝ

namespace RF
variable {R : Rounding}
/-- each operation rounds its exact result once, as IEEE 754 prescribes (for `exp`, `log2`, `powf` this
is an idealisation: libm is only approximately rounded). -/
noncomputable instance : Fl (RF R) where
  add a b := ⟨R.rnd (a.val + b.val)⟩
  sub a b := ⟨R.rnd (a.val - b.val)⟩
  mul a b := ⟨R.rnd (a.val * b.val)⟩
  div a b := ⟨R.rnd (a.val / b.val)⟩
  neg a := ⟨-a.val⟩
  lit q := ⟨R.rnd (q : ℝ)⟩
  ofNat n := ⟨R.rnd (n : ℝ)⟩
  abs a := ⟨|a.val|⟩
  sqrt a := ⟨R.rnd (Real.sqrt a.val)⟩
  exp a := ⟨R.rnd (Real.exp a.val)⟩
  log2 a := ⟨R.rnd (Real.logb 2 a.val)⟩
  powf a b := ⟨R.rnd (a.val ^ b.val)⟩
  floor a := ⟨R.rnd (⌊a.val⌋ : ℝ)⟩
  ceil a := ⟨R.rnd (⌈a.val⌉ : ℝ)⟩
  toNat a := ⌊a.val⌋₊
  lt a b := decide (a.val < b.val)
  le a b := decide (a.val ≤ b.val)
  maxVal := ⟨R.rnd ((2 : ℝ) ^ (1024 : ℕ) - 2 ^ (971 : ℕ))⟩

/-- a number that the rounding leaves alone ("a floating-point number"). -/
def Rep (a : RF R) : Prop := R.rnd a.val = a.val

@[simp] theorem val_add (a b : RF R) : (a + b).val = R.rnd (a.val + b.val) := rfl
@[simp] theorem val_sub (a b : RF R) : (a - b).val = R.rnd (a.val - b.val) := rfl
@[simp] theorem val_mul (a b : RF R) : (a * b).val = R.rnd (a.val * b.val) := rfl
@[simp] theorem val_div (a b : RF R) : (a / b).val = R.rnd (a.val / b.val) := rfl
@[simp] theorem val_neg (a : RF R) : (-a).val = -a.val := rfl
@[simp] theorem val_abs (a : RF R) : (Fl.abs a).val = |a.val| := rfl
@[simp] theorem val_lit (q : ℚ) : (Fl.lit q : RF R).val = R.rnd (q : ℝ) := rfl
@[simp] theorem lt_val (a b : RF R) : Fl.lt a b = decide (a.val < b.val) := rfl
@[simp] theorem le_val (a b : RF R) : Fl.le a b = decide (a.val ≤ b.val) := rfl
@[ext] theorem ext {a b : RF R} (h : a.val = b.val) : a = b := by cases a; cases b; simp_all

theorem rep_add (a b : RF R) : (a + b).Rep := R.idem _
theorem rep_mul (a b : RF R) : (a * b).Rep := R.idem _
theorem rep_lit (q : ℚ) : (Fl.lit q : RF R).Rep := R.idem _
end RF

/-- exact arithmetic is the trivial rounding. -/
def Rounding.exact : Rounding := ⟨id, fun _ _ h => h, fun _ => rfl, rfl, fun _ => rfl⟩

/-- rounding towards zero to an integer multiple of `1/8`: a non-trivial rounding. -/
noncomputable def Rounding.eighths : Rounding where
  rnd x := if 0 ≤ x then (⌊x * 8⌋ : ℝ) / 8 else (⌈x * 8⌉ : ℝ) / 8
  mono x y h := by
    by_cases hx : 0 ≤ x
    · have hy : 0 ≤ y := le_trans hx h
      simp only [hx, hy, if_true]
      have : ⌊x * 8⌋ ≤ ⌊y * 8⌋ := Int.floor_le_floor (by linarith)
      have : (⌊x * 8⌋ : ℝ) ≤ ⌊y * 8⌋ := by exact_mod_cast this
      linarith
    · by_cases hy : 0 ≤ y
      · simp only [hx, hy, if_true, if_false]
        have h1 : ⌈x * 8⌉ ≤ 0 := Int.ceil_le.2 (by push_cast; linarith)
        have h2 : 0 ≤ ⌊y * 8⌋ := Int.floor_nonneg.2 (by linarith)
        have h1' : (⌈x * 8⌉ : ℝ) ≤ 0 := by exact_mod_cast h1
        have h2' : (0 : ℝ) ≤ ⌊y * 8⌋ := by exact_mod_cast h2
        linarith
      · simp only [hx, hy, if_false]
        have : ⌈x * 8⌉ ≤ ⌈y * 8⌉ := Int.ceil_le_ceil (by linarith)
        have : (⌈x * 8⌉ : ℝ) ≤ ⌈y * 8⌉ := by exact_mod_cast this
        linarith
  idem x := by
    by_cases hx : 0 ≤ x
    · have h2 : (0 : ℝ) ≤ (⌊x * 8⌋ : ℝ) / 8 := by
        have : 0 ≤ ⌊x * 8⌋ := Int.floor_nonneg.2 (by linarith)
        have : (0 : ℝ) ≤ ⌊x * 8⌋ := by exact_mod_cast this
        linarith
      simp only [hx, if_true, h2]
      have : (⌊x * 8⌋ : ℝ) / 8 * 8 = (⌊x * 8⌋ : ℝ) := by ring
      rw [this, Int.floor_intCast]
    · simp only [hx, if_false]
      by_cases h2 : (0 : ℝ) ≤ (⌈x * 8⌉ : ℝ) / 8
      · simp only [h2, if_true]
        have : (⌈x * 8⌉ : ℝ) / 8 * 8 = (⌈x * 8⌉ : ℝ) := by ring
        rw [this, Int.floor_intCast]
      · simp only [h2, if_false]
        have : (⌈x * 8⌉ : ℝ) / 8 * 8 = (⌈x * 8⌉ : ℝ) := by ring
        rw [this, Int.ceil_intCast]
  zero := by simp
  odd x := by
    rcases lt_trichotomy x 0 with h | h | h
    · have h1 : 0 ≤ -x := by linarith
      have h2 : ¬ 0 ≤ x := not_le.2 h
      rw [if_pos h1, if_neg h2]
      have : -x * 8 = -(x * 8) := by ring
      rw [this, Int.floor_neg]; push_cast; ring
    · subst h; simp
    · have h1 : ¬ 0 ≤ -x := by linarith
      rw [if_neg h1, if_pos h.le]
      have : -x * 8 = -(x * 8) := by ring
      rw [this, Int.ceil_neg]; push_cast; ring

/-! ### (D) rationals with infinities and NaN -/

/-- extended rationals following the IEEE rules for infinities and NaN, but without rounding. -/
inductive XF where
  | fin (q : ℚ)
  | inf (neg : Bool)
  | nan
deriving DecidableEq

namespace XF
/-- addition. -/
def add' : XF → XF → XF
  | fin a, fin b => fin (a + b)
  | nan, _ => nan
  | _, nan => nan
  | inf s, inf t => if s = t then inf s else nan
  | inf s, fin _ => inf s
  | fin _, inf s => inf s
/-- negation. -/
def neg' : XF → XF
  | fin a => fin (-a)
  | inf s => inf (!s)
  | nan => nan
/-- multiplication. -/
def mul' : XF → XF → XF
  | fin a, fin b => fin (a * b)
  | nan, _ => nan
  | _, nan => nan
  | inf s, inf t => inf (xor s t)
  | inf s, fin b => if b = 0 then nan else inf (xor s (decide (b < 0)))
  | fin a, inf s => if a = 0 then nan else inf (xor s (decide (a < 0)))
/-- division. -/
def div' : XF → XF → XF
  | nan, _ => nan
  | _, nan => nan
  | fin a, fin b => if b = 0 then (if a = 0 then nan else inf (decide (a < 0))) else fin (a / b)
  | inf _, inf _ => nan
  | inf s, fin b => inf (xor s (decide (b < 0)))
  | fin _, inf _ => fin 0
/-- strict comparison; NaN compares false. -/
def lt' : XF → XF → Bool
  | fin a, fin b => decide (a < b)
  | nan, _ => false
  | _, nan => false
  | inf s, inf t => s && !t
  | inf s, fin _ => s
  | fin _, inf t => !t
/-- comparison; NaN compares false. -/
def le' : XF → XF → Bool
  | nan, _ => false
  | _, nan => false
  | a, b => lt' a b || decide (a = b)
/-- square root of a perfect square, NaN for negative numbers; other roots are not rational and give
0 (simplification: only used where the argument is a square). -/
def sqrt' : XF → XF
  | fin q => if q < 0 then nan else
      let n := q.num.toNat.sqrt; let d := q.den.sqrt
      if (n * n : ℤ) = q.num ∧ d * d = q.den then fin (n / d) else fin 0
  | inf s => if s then nan else inf false
  | nan => nan

/-- the transcendental functions are not used at this level: they return NaN. -/
instance : Fl XF where
  add := add'
  sub a b := add' a (neg' b)
  mul := mul'
  div := div'
  neg := neg'
  lit q := fin q
  ofNat n := fin n
  abs := fun a => match a with | fin q => fin |q| | inf _ => inf false | nan => nan
  sqrt := sqrt'
  exp _ := nan
  log2 _ := nan
  powf _ _ := nan
  floor := fun a => match a with | fin q => fin ⌊q⌋ | a => a
  ceil := fun a => match a with | fin q => fin ⌈q⌉ | a => a
  toNat := fun a => match a with | fin q => min ⌊q⌋.toNat (2 ^ 64 - 1) | inf s => if s then 0 else 2 ^ 64 - 1 | nan => 0
  lt := lt'
  le := le'
  maxVal := fin ((2 : ℚ) ^ (1024 : ℕ) - 2 ^ (971 : ℕ))
end XF

end Moledyn
