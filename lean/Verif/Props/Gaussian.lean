import Verif.Spec.NormalTables
import Verif.Props.Generator
import Mathlib.Analysis.SpecialFunctions.Log.Deriv
import Mathlib.Analysis.Complex.ExponentialBounds
/-
C85: normally distributed random numbers.
-/
namespace Moledyn.Props
open Moledyn Function

/-! ### more fuel changes nothing -/

theorem tail_more {F : Type} [Fl F] (t : ZigTables F) (n m : Nat) (h : n ≤ m) (x y : F) (g : Pcg64) {r : F × Pcg64}
    (e : t.tail n x y g = some r) : t.tail m x y g = some r := by
  induction n generalizing m x y g with
  | zero => simp [ZigTables.tail] at e
  | succ n ih =>
    obtain ⟨m, rfl⟩ : ∃ k, m = k + 1 := ⟨m - 1, by omega⟩
    rw [ZigTables.tail] at e ⊢
    split at e
    · rename_i hlt
      rw [if_pos hlt]
      exact ih m (by omega) _ _ _ e
    · rename_i hlt
      rw [if_neg hlt]
      exact e

theorem gaussian_more {F : Type} [Fl F] (t : ZigTables F) (n m : Nat) (h : n ≤ m) (g : Pcg64) {r : F × Pcg64}
    (e : t.gaussian n g = some r) : t.gaussian m g = some r := by
  induction n generalizing m g with
  | zero => simp [ZigTables.gaussian] at e
  | succ n ih =>
    obtain ⟨m, rfl⟩ : ∃ k, m = k + 1 := ⟨m - 1, by omega⟩
    rw [ZigTables.gaussian] at e ⊢
    dsimp only at e ⊢
    split at e
    · rename_i h1; rw [if_pos h1]; exact e
    · rename_i h1
      rw [if_neg h1]
      split at e
      · rename_i h2
        rw [if_pos h2]
        rw [Option.map_eq_some_iff] at e ⊢
        obtain ⟨a, ha, hr⟩ := e
        exact ⟨a, tail_more t _ _ (by omega) _ _ _ ha, hr⟩
      · rename_i h2
        rw [if_neg h2]
        split at e
        · rename_i h3; rw [if_pos h3]; exact e
        · rename_i h3; rw [if_neg h3]; exact ih m (by omega) _ e

/-! ### the words -/

theorem next_inc (g : Pcg64) : g.nextU64.2.increment = g.increment := by
  cases g; rfl

theorem after_one (F : Type) [Fl F] (g : Pcg64) (k : Nat) : afterDraws F (k + 1) g = afterDraws F k g.nextU64.2 := by
  unfold afterDraws
  rw [iterate_succ_apply]; rfl

theorem after_two (F : Type) [Fl F] (g : Pcg64) (k : Nat) : afterDraws F (k + 2) g = afterDraws F k g.nextU64.2.nextU64.2 := by
  rw [after_one, after_one]

theorem symmetric01_real (w : BitVec 64) : (symmetric01 w : ℝ) = 2 * ((bits52 w).val : ℝ) / 2 ^ 52 - 1 := by
  simp only [symmetric01, bits52, fl_sub, fl_lit]
  push_cast
  ring

theorem symmetric01_abs (w : BitVec 64) : |(symmetric01 w : ℝ)| ≤ 1 := by
  have h : ((bits52 w).val : ℝ) ≤ 2 ^ 52 := by exact_mod_cast (bits52 w).isLt.le
  have h0 : (0 : ℝ) ≤ ((bits52 w).val : ℝ) := by positivity
  rw [symmetric01_real, abs_le]
  constructor
  · have : (0 : ℝ) ≤ 2 * ((bits52 w).val : ℝ) / 2 ^ 52 := by positivity
    linarith
  · have : 2 * ((bits52 w).val : ℝ) / 2 ^ 52 ≤ 2 := by rw [div_le_iff₀ (by positivity)]; linarith
    linarith

theorem open01_least (w : BitVec 64) : 1 / 2 ^ 53 ≤ (open01 w : ℝ) ∧ (open01 w : ℝ) < 1 := by
  rw [open01_real]
  refine ⟨?_, by exact_mod_cast (oddGrid_range _).2⟩
  unfold oddGrid
  push_cast
  gcongr
  have : (0 : ℝ) ≤ ((bits52 w).val : ℝ) := by positivity
  linarith

/-! ### the values -/

theorem log_open01 (w : BitVec 64) : -(53 * Real.log 2) ≤ Real.log (open01 w : ℝ) ∧ Real.log (open01 w : ℝ) < 0 := by
  obtain ⟨h1, h2⟩ := open01_least w
  have h0 : (0 : ℝ) < open01 w := lt_of_lt_of_le (by positivity) h1
  refine ⟨?_, Real.log_neg h0 h2⟩
  have := Real.log_le_log (by positivity) h1
  rwa [one_div, Real.log_inv, Real.log_pow, Nat.cast_ofNat] at this

theorem tail_value (t : ZigTables ℝ) (n : Nat) (x y : ℝ) (g : Pcg64) {r : ℝ × Pcg64} (h : t.tail n x y g = some r) :
    (¬ -2 * y < x * x ∧ r.1 = x) ∨ ∃ w, r.1 = t.ln (open01 w) / t.r := by
  induction n generalizing x y g with
  | zero => simp [ZigTables.tail] at h
  | succ n ih =>
    rw [ZigTables.tail] at h
    split at h
    · rcases ih _ _ _ h with h | h
      · exact .inr ⟨_, h.2⟩
      · exact .inr h
    · rename_i hlt
      have e := Option.some.inj h
      simp only [fl_lt, fl_mul, fl_lit, decide_eq_true_eq] at hlt
      push_cast at hlt
      exact .inl ⟨hlt, by rw [← e]⟩

/-- Every normal number is at most the width of a layer in absolute value, or beyond the beginning of the tail by at most
`53 ln 2` divided by it: the least uniform number is `2^-53`.  In no case it is larger than 13.73. -/
theorem C85_bounded (t : ZigTables ℝ) (ht : NormalTables t) (n : Nat) (g : Pcg64) (v : ℝ) (g' : Pcg64)
    (h : t.gaussian n g = some (v, g')) :
    (|v| ≤ 4 ∨ (t.r < |v| ∧ |v| ≤ t.r + 53 * Real.log 2 / t.r)) ∧ |v| < 13.73 := by
  have hb : |v| ≤ 4 ∨ (t.r < |v| ∧ |v| ≤ t.r + 53 * Real.log 2 / t.r) := by
    have hr : 0 < t.r := by linarith [ht.tail.1]
    induction n generalizing g with
    | zero => simp [ZigTables.gaussian] at h
    | succ n ih =>
      rw [ZigTables.gaussian] at h
      dsimp only at h
      have hi : (g.nextU64.1 &&& 0xff#64).toNat ≤ 255 := by
        rw [BitVec.toNat_and]; exact Nat.and_le_right
      generalize (g.nextU64.1 &&& 0xff#64).toNat = i at h hi
      have hx : |(symmetric01 g.nextU64.1 : ℝ) * t.x i| ≤ 4 := by
        rw [abs_mul, abs_of_nonneg (ht.nonneg i (by omega))]
        calc _ ≤ 1 * t.x i := mul_le_mul_of_nonneg_right (symmetric01_abs _) (ht.nonneg i (by omega))
          _ ≤ 4 := by rw [one_mul]; exact ht.le_four i (by omega)
      split at h
      · have e := (Prod.mk.inj (Option.some.inj h)).1
        left; rw [← e]; exact hx
      · split at h
        · rw [Option.map_eq_some_iff] at h
          obtain ⟨a, ha, he⟩ := h
          have e := (Prod.mk.inj he).1
          rcases tail_value t _ _ _ _ ha with h1 | ⟨w, hw⟩
          · exfalso
            apply h1.1
            simp only [fl_one, fl_zero]
            norm_num
          · right
            rw [ht.ln] at hw
            obtain ⟨h1, h2⟩ := log_open01 w
            have h3 : a.1 < 0 := by rw [hw]; exact div_neg_of_neg_of_pos h2 hr
            have h4 : -(53 * Real.log 2 / t.r) ≤ a.1 := by
              rw [hw, ← neg_div]; exact div_le_div_of_nonneg_right h1 hr.le
            have h5 : |v| = t.r - a.1 := by
              rw [← e]
              split
              · simp only [fl_sub]; rw [abs_of_neg (by linarith)]; ring
              · simp only [fl_sub]; rw [abs_of_pos (by linarith)]
            rw [h5]
            constructor <;> linarith
        · split at h
          · have e := (Prod.mk.inj (Option.some.inj h)).1
            left; rw [← e]; exact hx
          · exact ih _ h
  refine ⟨hb, ?_⟩
  rcases hb with hb | ⟨-, hb⟩
  · linarith
  · have h2 := Real.log_two_lt_d9
    have h3 : 53 * Real.log 2 / t.r ≤ 53 * 0.6931471808 / 3.65 := by
      apply div_le_div₀ (by norm_num) (by linarith) (by norm_num) ht.tail.1
    have h4 := ht.tail.2
    norm_num at h3
    linarith

/-! ### every call returns -/

/-- a word that is accepted at once as a normal number, and as one of the two for the tail. -/
def goodWord (w : BitVec 64) : Bool :=
  decide (2 ^ 51 ≤ (bits52 w).val) && decide ((bits52 w).val < 2 ^ 51 + 2 ^ 50) &&
    decide ((w &&& 0xff#64).toNat ≠ 0) && decide ((w &&& 0xff#64).toNat < 254)

/-- a state followed by three good words. -/
def goodState : Pcg64 := ⟨29, seedIncrement⟩

theorem goodState_words : goodWord goodState.nextU64.1 = true ∧ goodWord goodState.nextU64.2.nextU64.1 = true ∧
    goodWord goodState.nextU64.2.nextU64.2.nextU64.1 = true := by decide +kernel

theorem good_first {t : ZigTables ℝ} (ht : NormalTables t) (n : Nat) {g : Pcg64} (hg : goodWord g.nextU64.1 = true) :
    ∃ r, t.gaussian (n + 1) g = some r := by
  simp only [goodWord, Bool.and_eq_true, decide_eq_true_eq] at hg
  obtain ⟨⟨⟨h1, h2⟩, h3⟩, h4⟩ := hg
  rw [ZigTables.gaussian]
  dsimp only
  generalize (g.nextU64.1 &&& 0xff#64).toNat = i at h3 h4
  rw [if_pos]
  · exact ⟨_, rfl⟩
  · have h1' : (2 : ℝ) ^ 51 ≤ ((bits52 g.nextU64.1).val : ℝ) := by exact_mod_cast h1
    have h2' : ((bits52 g.nextU64.1).val : ℝ) < 2 ^ 51 + 2 ^ 50 := by exact_mod_cast h2
    have hu : 0 ≤ (symmetric01 g.nextU64.1 : ℝ) ∧ (symmetric01 g.nextU64.1 : ℝ) < 1 / 2 := by
      rw [symmetric01_real]
      constructor
      · have : 1 ≤ 2 * ((bits52 g.nextU64.1).val : ℝ) / 2 ^ 52 := by rw [le_div_iff₀ (by positivity)]; linarith
        linarith
      · have : 2 * ((bits52 g.nextU64.1).val : ℝ) / 2 ^ 52 < 3 / 2 := by rw [div_lt_iff₀ (by positivity)]; linarith
        linarith
    have hp := ht.pos i (by omega)
    have hh := ht.half i (by omega)
    have hn := ht.nonneg i (by omega)
    simp only [fl_lt, fl_abs, fl_mul, decide_eq_true_eq]
    rw [abs_of_nonneg (mul_nonneg hu.1 hn)]
    nlinarith [mul_le_mul_of_nonneg_left hh hu.1, mul_lt_mul_of_pos_right hu.2 hp]

theorem good_open01 {w : BitVec 64} (hw : goodWord w = true) : 1 / 2 ≤ (open01 w : ℝ) ∧ (open01 w : ℝ) ≤ 3 / 4 := by
  simp only [goodWord, Bool.and_eq_true, decide_eq_true_eq] at hw
  obtain ⟨⟨⟨h1, h2⟩, -⟩, -⟩ := hw
  have h1' : (2 : ℝ) ^ 51 ≤ ((bits52 w).val : ℝ) := by exact_mod_cast h1
  have h2' : ((bits52 w).val : ℝ) + 1 ≤ 2 ^ 51 + 2 ^ 50 := by exact_mod_cast h2
  rw [open01_real]
  unfold oddGrid
  push_cast
  constructor
  · rw [le_div_iff₀ (by positivity)]; linarith
  · rw [div_le_iff₀ (by positivity)]; linarith

theorem good_pair {t : ZigTables ℝ} (ht : NormalTables t) (n : Nat) {g : Pcg64} (x y : ℝ)
    (h1 : goodWord g.nextU64.1 = true) (h2 : goodWord g.nextU64.2.nextU64.1 = true) :
    ∃ r, t.tail (n + 2) x y g = some r := by
  obtain ⟨a1, a2⟩ := good_open01 h1
  obtain ⟨b1, b2⟩ := good_open01 h2
  rw [ZigTables.tail]
  split
  · rw [ZigTables.tail, if_neg]
    · exact ⟨_, rfl⟩
    · simp only [getUniform, ht.ln, fl_lt, fl_mul, fl_lit, decide_eq_true_eq]
      push_cast
      rw [not_lt]
      have l1 : -Real.log 2 ≤ Real.log (open01 g.nextU64.1) := by
        rw [← Real.log_inv]
        exact Real.log_le_log (by norm_num) (by rw [inv_eq_one_div]; exact a1)
      have l1' : Real.log (open01 g.nextU64.1) ≤ 0 := Real.log_nonpos (by linarith) (by linarith)
      have l2 : Real.log (open01 g.nextU64.2.nextU64.1) ≤ -(1 / 4) := by
        have := Real.log_le_sub_one_of_pos (show (0 : ℝ) < open01 g.nextU64.2.nextU64.1 by linarith)
        linarith
      have hl := Real.log_two_lt_d9
      have hr := ht.tail.1
      have hr0 : 0 < t.r := by linarith
      have h5 : Real.log (open01 g.nextU64.1) / t.r * (Real.log (open01 g.nextU64.1) / t.r) ≤ 1 / 2 := by
        rw [div_mul_div_comm, div_le_iff₀ (by positivity)]
        nlinarith
      linarith
  · exact ⟨_, rfl⟩

/-- tables with which good words are accepted. -/
structure Returning {F : Type} [Fl F] (t : ZigTables F) : Prop where
  first : ∀ (n : Nat) (g : Pcg64), goodWord g.nextU64.1 = true → ∃ r, t.gaussian (n + 1) g = some r
  pair : ∀ (n : Nat) (g : Pcg64) (x y : F), goodWord g.nextU64.1 = true → goodWord g.nextU64.2.nextU64.1 = true →
    ∃ r, t.tail (n + 2) x y g = some r

theorem returning_real {t : ZigTables ℝ} (ht : NormalTables t) : Returning t :=
  ⟨fun n _ h => good_first ht n h, fun n _ x y h1 h2 => good_pair ht n x y h1 h2⟩

theorem tail_returns {F : Type} [Fl F] {t : ZigTables F} (ht : Returning t) (k : Nat) (n : Nat) (hn : k + 3 ≤ n) (x y : F) (g : Pcg64)
    (hg : (fun g => g.nextU64.2)^[k] g = goodState) : ∃ r, t.tail n x y g = some r := by
  induction k using Nat.strong_induction_on generalizing n x y g with
  | _ k ih =>
    obtain ⟨n, rfl⟩ : ∃ m, n = m + 3 := ⟨n - 3, by omega⟩
    obtain ⟨w0, w1, w2⟩ := goodState_words
    match k, hg with
    | 0, hg =>
      have hg : g = goodState := hg
      rw [hg]
      exact ht.pair (n + 1) _ x y w0 w1
    | 1, hg =>
      have hg : g.nextU64.2 = goodState := hg
      rw [ZigTables.tail]
      split
      · refine ht.pair n _ _ _ ?_ ?_
        · show goodWord g.nextU64.2.nextU64.2.nextU64.1 = true
          rw [hg]; exact w1
        · show goodWord g.nextU64.2.nextU64.2.nextU64.2.nextU64.1 = true
          rw [hg]; exact w2
      · exact ⟨_, rfl⟩
    | k + 2, hg =>
      rw [ZigTables.tail]
      split
      · refine ih k (by omega) (n + 2) (by omega) _ _ _ ?_
        rw [iterate_succ_apply, iterate_succ_apply] at hg
        exact hg
      · exact ⟨_, rfl⟩

theorem state_reaches (g : Pcg64) (hinc : g.increment = seedIncrement) :
    ∃ m, m < 2 ^ 128 ∧ (fun g => g.nextU64.2)^[m] g = goodState := by
  obtain ⟨m, hm, he⟩ := lcg_reaches (k := 127) multiplier_mod increment_odd g.state goodState.state
  refine ⟨m, hm, ?_⟩
  have h1 : ∀ (m : Nat) (s : BitVec 128), (fun g => g.nextU64.2)^[m] (⟨s, seedIncrement⟩ : Pcg64) =
      ⟨(lcg Pcg64.multiplier seedIncrement)^[m] s, seedIncrement⟩ := fun m s => after_eq (F := ℝ) m s _
  have h2 : g = ⟨g.state, seedIncrement⟩ := by rw [← hinc]
  rw [h2, h1, he]; rfl

theorem gaussian_returns {F : Type} [Fl F] {t : ZigTables F} (ht : Returning t) (M : Nat)
    (reach : ∀ g : Pcg64, g.increment = seedIncrement → ∃ m, m < M ∧ (fun g => g.nextU64.2)^[m] g = goodState)
    (k : Nat) (n : Nat) (hn : k + M + 3 ≤ n) (g : Pcg64)
    (hinc : g.increment = seedIncrement) (hg : (fun g => g.nextU64.2)^[k] g = goodState) : ∃ r, t.gaussian n g = some r := by
  induction k using Nat.strong_induction_on generalizing n g with
  | _ k ih =>
    obtain ⟨n, rfl⟩ : ∃ m, n = m + 3 := ⟨n - 3, by omega⟩
    obtain ⟨w0, w1, w2⟩ := goodState_words
    match k, hg with
    | 0, hg =>
      have hg : g = goodState := hg
      rw [hg]
      exact ht.first _ _ w0
    | k + 1, hg =>
      rw [ZigTables.gaussian]
      dsimp only
      generalize (g.nextU64.1 &&& 0xff#64).toNat = i
      split
      · exact ⟨_, rfl⟩
      · split
        · obtain ⟨m, hm, e⟩ := reach g.nextU64.2 (by rw [next_inc, hinc])
          obtain ⟨r, hr⟩ := tail_returns ht m (n + 2 + 1) (by omega) Fl.one Fl.zero _ e
          rw [hr]
          exact ⟨_, rfl⟩
        · split
          · exact ⟨_, rfl⟩
          · match k, hg with
            | 0, hg =>
              have hg : g.nextU64.2 = goodState := hg
              refine ht.first _ _ ?_
              rw [hg]; exact w1
            | k + 1, hg =>
              refine ih k (by omega) (n + 2) (by omega) _ (by rw [next_inc, next_inc, hinc]) ?_
              rw [iterate_succ_apply, iterate_succ_apply] at hg
              exact hg

/-- rounds enough for every state. -/
theorem returning_all {F : Type} [Fl F] {t : ZigTables F} (ht : Returning t) (g : Pcg64) (hg : g.increment = seedIncrement) :
    ∃ v g', ∀ n, 2 ^ 129 + 3 ≤ n → t.gaussian n g = some (v, g') := by
  have hM : 2 ^ 129 = 2 ^ 128 + 2 ^ 128 := by norm_num
  rw [hM]
  have reach := state_reaches
  generalize 2 ^ 128 = M at reach
  obtain ⟨m, hm, e⟩ := reach g hg
  obtain ⟨r, hr⟩ := gaussian_returns ht M reach m (M + M + 3) (by omega) g hg e
  exact ⟨r.1, r.2, fun n hn => gaussian_more t _ _ hn g hr⟩

/-- Every call for a normal number returns, whatever the seed is and whatever has been drawn before: there is a number of rounds
that is enough, and more rounds give the same. -/
theorem C85_returns (t : ZigTables ℝ) (ht : NormalTables t) (g : Pcg64) (hg : g.increment = (rngSeed 0).increment) :
    ∃ v g', ∀ n, 2 ^ 129 + 3 ≤ n → t.gaussian n g = some (v, g') := by
  exact returning_all (returning_real ht) g hg

/-! ### one round of the rejection method -/

/-- One round.  The first word `w` gives a layer, its last 8 bits, and a point of it, its first 52 bits read as a number in
`[-1, 1)`.  A point under the next layer is returned at once.  Elsewhere in a layer other than the lowest, the first 53 bits
of a second word, read as a number in `[0, 1)`, give a height between the two layers, and the point is returned if that is below the
curve `exp(-x²/2)`; otherwise all starts again behind the second word. -/
theorem C85_round (t : ZigTables ℝ) (n : Nat) (g : Pcg64) (w w' i : Nat) (x v : ℝ) (hw : w = g.nextU64.1.toNat)
    (hw' : w' = g.nextU64.2.nextU64.1.toNat) (hi : i = w % 256)
    (hx : x = (2 * ((w / 2 ^ 12 : ℕ) / 2 ^ 52) - 1) * t.x i) (hv : v = (w' / 2 ^ 11 : ℕ) / 2 ^ 53) :
    0 ≤ v ∧ v < 1 ∧
    (|x| < t.x (i + 1) → t.gaussian (n + 1) g = some (x, g.nextU64.2)) ∧
    (t.x (i + 1) ≤ |x| → i ≠ 0 →
      (t.f (i + 1) + (t.f i - t.f (i + 1)) * v < Real.exp (-(x ^ 2 / 2)) → t.gaussian (n + 1) g = some (x, g.nextU64.2.nextU64.2)) ∧
      (Real.exp (-(x ^ 2 / 2)) ≤ t.f (i + 1) + (t.f i - t.f (i + 1)) * v → t.gaussian (n + 1) g = t.gaussian n g.nextU64.2.nextU64.2)) := by
  have e1 : (g.nextU64.1 &&& 0xff#64).toNat = i := by
    rw [BitVec.toNat_and, hi, hw]
    exact Nat.and_two_pow_sub_one_eq_mod _ 8
  have e2 : (symmetric01 g.nextU64.1 : ℝ) * t.x i = x := by
    rw [hx, hw]
    simp only [symmetric01, fl_sub, fl_lit, BitVec.toNat_ushiftRight, Nat.shiftRight_eq_div_pow]
    push_cast
    ring
  have e3 : (standard01 g.nextU64.2.nextU64.1 : ℝ) = v := by
    rw [hv, hw']
    simp only [standard01, fl_lit, BitVec.toNat_ushiftRight, Nat.shiftRight_eq_div_pow]
    push_cast
    ring
  have hlt : w' / 2 ^ 11 < 2 ^ 53 := by
    have : w' < 2 ^ 64 := by rw [hw']; exact BitVec.isLt _
    omega
  refine ⟨by rw [hv]; positivity, ?_, ?_, ?_⟩
  · rw [hv, div_lt_one (by positivity)]; exact_mod_cast hlt
  · intro h
    rw [ZigTables.gaussian]
    dsimp only
    rw [e1, e2, if_pos (by simpa using h)]
  · intro h h0
    have e4 : ∀ k : Nat, t.gaussian (k + 1) g = if t.f (i + 1) + (t.f i - t.f (i + 1)) * v < Real.exp (-(x ^ 2 / 2)) then
        some (x, g.nextU64.2.nextU64.2) else t.gaussian k g.nextU64.2.nextU64.2 := by
      intro k
      rw [ZigTables.gaussian]
      dsimp only
      rw [e1, e2, if_neg (by simpa using h), if_neg h0, e3]
      have : -x * x / (Fl.two : ℝ) = -(x ^ 2 / 2) := by simp; ring
      rw [this]
      simp
    exact ⟨fun hh => by rw [e4, if_pos hh], fun hh => by rw [e4, if_neg (not_lt.2 hh)]⟩

/-! ### how many words a number takes -/

/-- Whatever is drawn, the generator is left in a state it comes to by uniform draws as well; the number of words is at least
one, and at least two if the low byte of the first is 255. -/
theorem C85_words (t : ZigTables ℝ) (ht : NormalTables t) (n : Nat) (g : Pcg64) (v : ℝ) (g' : Pcg64)
    (h : t.gaussian n g = some (v, g')) :
    ∃ k ≥ 1, g' = afterDraws ℝ k g ∧ ((g.nextU64.1 &&& 0xff#64) = 0xff#64 → 2 ≤ k) := by
  have htail : ∀ (n : Nat) (x y : ℝ) (g : Pcg64) (r : ℝ × Pcg64), t.tail n x y g = some r → ∃ k, r.2 = afterDraws ℝ k g := by
    intro n
    induction n with
    | zero => intro x y g r h; simp [ZigTables.tail] at h
    | succ n ih =>
      intro x y g r h
      rw [ZigTables.tail] at h
      split at h
      · obtain ⟨k, hk⟩ := ih _ _ _ _ h
        exact ⟨k + 2, by rw [hk, after_two]; rfl⟩
      · exact ⟨0, by rw [← Option.some.inj h]; rfl⟩
  induction n generalizing g with
  | zero => simp [ZigTables.gaussian] at h
  | succ n ih =>
    rw [ZigTables.gaussian] at h
    dsimp only at h
    have hi : (g.nextU64.1 &&& 0xff#64) = 0xff#64 → (g.nextU64.1 &&& 0xff#64).toNat = 255 := fun hb => by rw [hb]; rfl
    generalize (g.nextU64.1 &&& 0xff#64).toNat = i at h hi
    split at h
    · rename_i hlt
      refine ⟨1, le_rfl, (Prod.mk.inj (Option.some.inj h)).2.symm, fun hb => ?_⟩
      exfalso
      rw [hi hb, show 255 + 1 = 256 from rfl, ht.last] at hlt
      simp only [fl_lt, fl_abs, decide_eq_true_eq] at hlt
      exact absurd hlt (not_lt.2 (abs_nonneg _))
    · split at h
      · rename_i h0
        rw [Option.map_eq_some_iff] at h
        obtain ⟨a, ha, he⟩ := h
        obtain ⟨k, hk⟩ := htail _ _ _ _ _ ha
        refine ⟨k + 1, by omega, ?_, fun hb => ?_⟩
        · rw [← (Prod.mk.inj he).2, hk, after_one]
        · rw [hi hb] at h0; simp at h0
      · split at h
        · exact ⟨2, by omega, (Prod.mk.inj (Option.some.inj h)).2.symm, fun _ => le_rfl⟩
        · obtain ⟨k, -, hk, -⟩ := ih _ h
          exact ⟨k + 2, by omega, by rw [hk, after_two], fun _ => by omega⟩

/-- FINDING.  `test_sequence` (src/random_mod/mod.rs:138-162) asserts that drawing normal and uniform numbers in turn gives the same
uniform numbers as drawing uniform ones only, and says that this must be so for every seed.  With the seed 1466 it fails at the
second number already. -/
theorem C85_sequence_fails : ∃ seed : BitVec 128, ∀ t : ZigTables ℝ, NormalTables t → ∀ n ≥ 1,
    ∃ v g', t.gaussian n (rngSeed seed) = some (v, g') ∧ drawAt 0 g' ≠ (drawAt 1 (rngSeed seed) : ℝ) := by
  refine ⟨1466, fun t ht n hn => ?_⟩
  obtain ⟨n, rfl⟩ : ∃ m, n = m + 1 := ⟨n - 1, by omega⟩
  have k0 : ((rngSeed 1466).nextU64.1 &&& 0xff#64).toNat = 255 := by decide +kernel
  have k1 : 2 ^ 51 ≤ (bits52 (rngSeed 1466).nextU64.1).val ∧ (bits52 (rngSeed 1466).nextU64.1).val ≤ 2 ^ 51 + 2 ^ 49 := by decide +kernel
  have k2 : 2 ^ 52 ≤ ((rngSeed 1466).nextU64.2.nextU64.1 >>> 11).toNat := by decide +kernel
  have k3 : bits52 (rngSeed 1466).nextU64.2.nextU64.2.nextU64.1 ≠ bits52 (rngSeed 1466).nextU64.2.nextU64.1 := by decide +kernel
  generalize rngSeed 1466 = g at k0 k1 k2 k3
  refine ⟨(symmetric01 g.nextU64.1 : ℝ) * t.x 255, g.nextU64.2.nextU64.2, ?_, ?_⟩
  · rw [ZigTables.gaussian]
    dsimp only
    rw [k0]
    have h1' : (2 : ℝ) ^ 51 ≤ ((bits52 g.nextU64.1).val : ℝ) := by exact_mod_cast k1.1
    have h2' : ((bits52 g.nextU64.1).val : ℝ) ≤ 2 ^ 51 + 2 ^ 49 := by exact_mod_cast k1.2
    have hu : 0 ≤ (symmetric01 g.nextU64.1 : ℝ) ∧ (symmetric01 g.nextU64.1 : ℝ) ≤ 1 / 4 := by
      rw [symmetric01_real]
      constructor
      · have : 1 ≤ 2 * ((bits52 g.nextU64.1).val : ℝ) / 2 ^ 52 := by rw [le_div_iff₀ (by positivity)]; linarith
        linarith
      · have : 2 * ((bits52 g.nextU64.1).val : ℝ) / 2 ^ 52 ≤ 5 / 4 := by rw [div_le_iff₀ (by positivity)]; linarith
        linarith
    have hs : (1 : ℝ) / 2 ≤ standard01 g.nextU64.2.nextU64.1 := by
      have : (2 : ℝ) ^ 52 ≤ ((g.nextU64.2.nextU64.1 >>> 11).toNat : ℝ) := by exact_mod_cast k2
      simp only [standard01, fl_lit]
      push_cast
      rw [le_div_iff₀ (by positivity)]
      linarith
    have c1 : ¬ Fl.lt (Fl.abs ((symmetric01 g.nextU64.1 : ℝ) * t.x 255)) (t.x (255 + 1)) = true := by
      simp only [fl_lt, fl_abs, decide_eq_true_eq]
      norm_num only
      rw [ht.last]
      exact not_lt.2 (abs_nonneg _)
    rw [if_neg c1, if_neg (by norm_num), if_pos]
    · simp only [fl_lt, fl_add, fl_sub, fl_mul, fl_neg, fl_exp, fl_two, decide_eq_true_eq]
      norm_num only
      rw [ht.top]
      have h255 := ht.small
      have hn255 := ht.nonneg 255 (by omega)
      have hf := ht.height
      generalize (symmetric01 g.nextU64.1 : ℝ) = u at hu
      generalize (standard01 g.nextU64.2.nextU64.1 : ℝ) = s at hs
      have hx : 0 ≤ u * t.x 255 ∧ u * t.x 255 ≤ 0.055 := by
        constructor
        · exact mul_nonneg hu.1 hn255
        · calc u * t.x 255 ≤ 1 / 4 * 0.22 := mul_le_mul hu.2 h255 hn255 (by norm_num)
            _ = 0.055 := by norm_num
      have he := Real.add_one_le_exp (-(u * t.x 255) * (u * t.x 255) / 2)
      nlinarith [mul_le_mul hx.2 hx.2 hx.1 (by norm_num)]
  · show (open01 g.nextU64.2.nextU64.2.nextU64.1 : ℝ) ≠ open01 g.nextU64.2.nextU64.1
    rw [open01_real, open01_real]
    intro h
    exact k3 (oddGrid_injective (by exact_mod_cast h))

/-! ### the tables exist -/

/-- the widths of the layers, in millionths. -/
def layerWidths : List Nat :=
  [3910758, 3654153, 3449278, 3320245, 3224575, 3147889, 3083526, 3027838, 2978603, 2934367, 2894121, 2857139, 2822877, 
  2790921, 2760944, 2732685, 2705934, 2680515, 2656283, 2633116, 2610911, 2589576, 2569035, 2549222, 2530075, 2511544, 
  2493583, 2476150, 2459208, 2442725, 2426671, 2411018, 2395743, 2380823, 2366237, 2351967, 2337996, 2324308, 2310888, 
  2297723, 2284801, 2272109, 2259637, 2247375, 2235313, 2223443, 2211757, 2200246, 2188903, 2177721, 2166695, 2155818, 
  2145084, 2134487, 2124023, 2113687, 2103474, 2093380, 2083400, 2073530, 2063768, 2054108, 2044548, 2035084, 2025714, 
  2016434, 2007241, 1998132, 1989106, 1980159, 1971289, 1962493, 1953770, 1945117, 1936531, 1928012, 1919557, 1911165, 
  1902832, 1894559, 1886342, 1878180, 1870073, 1862018, 1854013, 1846058, 1838151, 1830290, 1822475, 1814703, 1806975, 
  1799288, 1791641, 1784034, 1776464, 1768932, 1761436, 1753975, 1746548, 1739154, 1731792, 1724462, 1717161, 1709890, 
  1702647, 1695432, 1688243, 1681081, 1673943, 1666830, 1659741, 1652674, 1645630, 1638606, 1631603, 1624621, 1617657, 
  1610712, 1603784, 1596874, 1589980, 1583102, 1576239, 1569390, 1562555, 1555734, 1548925, 1542128, 1535343, 1528568, 
  1521803, 1515048, 1508302, 1501564, 1494834, 1488110, 1481394, 1474684, 1467978, 1461278, 1454582, 1447890, 1441200, 
  1434513, 1427828, 1421144, 1414461, 1407778, 1401095, 1394410, 1387724, 1381035, 1374344, 1367649, 1360949, 1354245, 
  1347536, 1340820, 1334098, 1327369, 1320631, 1313885, 1307129, 1300363, 1293587, 1286799, 1279998, 1273185, 1266358, 
  1259517, 1252660, 1245787, 1238898, 1231991, 1225065, 1218119, 1211154, 1204167, 1197158, 1190126, 1183069, 1175988, 
  1168880, 1161745, 1154581, 1147389, 1140165, 1132909, 1125620, 1118297, 1110938, 1103542, 1096107, 1088631, 1081114, 
  1073554, 1065949, 1058296, 1050596, 1042844, 1035040, 1027182, 1019267, 1011292, 1003257, 995157, 986991, 978755, 970447, 
  962064, 953602, 945059, 936429, 927711, 918898, 909988, 900975, 891855, 882622, 873271, 863796, 854189, 844445, 834555, 
  824512, 814307, 803929, 793369, 782615, 771654, 760473, 749057, 737387, 725446, 713212, 700662, 687768, 674500, 660823, 
  646696, 632072, 616897, 601105, 584617, 567338, 549152, 529910, 509423, 487444, 463634, 437518, 408389, 375121, 335738, 
  286175, 215242, 0]

/-- tables rounded to six digits. -/
noncomputable def roundedTables : ZigTables ℝ :=
  ⟨fun i => (layerWidths.getD i 0 : ℝ) / 10 ^ 6, fun i => if i = 256 then 1 else Real.exp (-((layerWidths.getD i 0 : ℝ) / 10 ^ 6) ^ 2 / 2),
    3.654153, Real.log⟩

theorem roundedTables_ok : NormalTables roundedTables where
  nonneg i _ := by simp only [roundedTables]; positivity
  le_four i hi := by
    have h : ∀ i, i < 257 → layerWidths.getD i 0 ≤ 4 * 10 ^ 6 := by decide +kernel
    have : ((layerWidths.getD i 0 : Nat) : ℝ) ≤ 4 * 10 ^ 6 := by exact_mod_cast h i (by omega)
    simp only [roundedTables]
    rw [div_le_iff₀ (by positivity)]
    exact this
  pos i hi := by
    have h : ∀ i, i < 255 → 0 < layerWidths.getD (i + 1) 0 := by decide +kernel
    have : (0 : ℝ) < ((layerWidths.getD (i + 1) 0 : Nat) : ℝ) := by exact_mod_cast h i hi
    simp only [roundedTables]
    positivity
  half i hi := by
    have h : ∀ i, i < 255 → layerWidths.getD i 0 ≤ 2 * layerWidths.getD (i + 1) 0 := by decide +kernel
    have : ((layerWidths.getD i 0 : Nat) : ℝ) ≤ 2 * ((layerWidths.getD (i + 1) 0 : Nat) : ℝ) := by exact_mod_cast h i hi
    simp only [roundedTables]
    rw [← mul_div_assoc]
    exact div_le_div_of_nonneg_right this (by positivity)
  last := by
    have h : layerWidths.getD 256 0 = 0 := by decide +kernel
    simp only [roundedTables, h]
    norm_num
  small := by
    have h : layerWidths.getD 255 0 = 215242 := by decide +kernel
    simp only [roundedTables, h]
    norm_num
  height := by
    have h : layerWidths.getD 255 0 = 215242 := by decide +kernel
    simp only [roundedTables, h]
    rw [if_neg (by norm_num)]
    have h1 : Real.exp (-((215242 : ℕ) / 10 ^ 6 : ℝ) ^ 2 / 2) ≤ (1 + ((215242 : ℕ) / 10 ^ 6 : ℝ) ^ 2 / 2)⁻¹ := by
      rw [neg_div, Real.exp_neg]
      refine inv_anti₀ (by positivity) ?_
      have := Real.add_one_le_exp (((215242 : ℕ) / 10 ^ 6 : ℝ) ^ 2 / 2)
      linarith
    refine h1.trans ?_
    norm_num
  top := by simp [roundedTables]
  tail := by simp only [roundedTables]; norm_num
  ln := rfl

/-- a normal number of these tables. -/
example (seed : BitVec 128) : ∃ n v g', roundedTables.gaussian n (rngSeed seed) = some (v, g') ∧ |v| < 13.73 := by
  obtain ⟨v, g', h⟩ := C85_returns roundedTables roundedTables_ok (rngSeed seed) (by rw [rngSeed_eq, rngSeed_eq])
  generalize 2 ^ 129 + 3 = n at h
  have h := h n le_rfl
  exact ⟨n, v, g', h, (C85_bounded _ roundedTables_ok _ _ _ _ h).2⟩

end Moledyn.Props
