import Verif.Spec.Draws
import Verif.Lemmas.Lcg
import Verif.Props.Random
import Verif.Model.Binary
/-
C84: the random number generator.
-/
namespace Moledyn.Props
open Moledyn Function

/-- the increment for the stream of `rng_seed`. -/
def seedIncrement : BitVec 128 := (0xa02bdbf7bb3c0a7ac28fa16a64abf96#128 <<< 1) ||| 1#128

theorem multiplier_mod : Pcg64.multiplier.toNat % 4 = 1 := by decide
theorem increment_odd : seedIncrement.toNat % 2 = 1 := by decide

theorem rngSeed_eq (s : BitVec 128) : rngSeed s = ⟨lcg Pcg64.multiplier seedIncrement (s + seedIncrement), seedIncrement⟩ := rfl

theorem after_eq {F : Type} [Fl F] (n : Nat) (s inc : BitVec 128) :
    afterDraws F n ⟨s, inc⟩ = ⟨(lcg Pcg64.multiplier inc)^[n] s, inc⟩ := by
  unfold afterDraws
  induction n generalizing s with
  | zero => rfl
  | succ n ih => rw [iterate_succ_apply, iterate_succ_apply]; exact ih _

theorem after_seed {F : Type} [Fl F] (n : Nat) (s : BitVec 128) :
    afterDraws F n (rngSeed s) = ⟨(lcg Pcg64.multiplier seedIncrement)^[n] (rngSeed s).state, seedIncrement⟩ := by
  rw [rngSeed_eq, after_eq]

/-- The generator of every seed comes back to its first state after 2^128 draws, and not before. -/
theorem C84_period (F : Type) [Fl F] (seed : BitVec 128) (n : Nat) :
    afterDraws F n (rngSeed seed) = rngSeed seed ↔ 2 ^ 128 ∣ n := by
  have h := isPeriodicPt_iff_minimalPeriod_dvd (f := lcg Pcg64.multiplier seedIncrement) (n := n) (x := (rngSeed seed).state)
  rw [lcg_minimalPeriod (k := 127) multiplier_mod increment_odd] at h
  rw [after_seed, ← h]
  constructor
  · intro e; exact congrArg Pcg64.state e
  · intro e; rw [show (lcg Pcg64.multiplier seedIncrement)^[n] (rngSeed seed).state = (rngSeed seed).state from e]; rfl

theorem lcg_injective : Injective (lcg Pcg64.multiplier seedIncrement) := by
  intro s t h
  have hp := fun x => lcg_period (w := 128) (a := Pcg64.multiplier) (c := seedIncrement) multiplier_mod x
  have e : ∀ x, (lcg Pcg64.multiplier seedIncrement)^[2 ^ 128 - 1] (lcg Pcg64.multiplier seedIncrement x) = x := by
    intro x
    rw [← iterate_succ_apply]
    exact hp x
  rw [← e s, ← e t, h]

/-- Different seeds make different generators; but all of them run through one and the same sequence: the draws with one seed
are those with another one, from some place on. -/
theorem C84_seeds (F : Type) [Fl F] (seed seed' : BitVec 128) :
    (rngSeed seed = rngSeed seed' → seed = seed') ∧
    ∃ n < 2 ^ 128, afterDraws F n (rngSeed seed) = rngSeed seed' ∧
      ∀ m, (drawAt m (rngSeed seed') : F) = drawAt (n + m) (rngSeed seed) := by
  constructor
  · intro h
    rw [rngSeed_eq, rngSeed_eq] at h
    have h1 : seed + seedIncrement = seed' + seedIncrement := lcg_injective (Pcg64.mk.inj h).1
    generalize seedIncrement = c at h1
    have := congrArg (· - c) h1
    simpa using this
  · obtain ⟨n, hlt, hn⟩ := lcg_reaches (k := 127) multiplier_mod increment_odd (rngSeed seed).state (rngSeed seed').state
    have e : afterDraws F n (rngSeed seed) = rngSeed seed' := by
      rw [after_seed, hn]; rfl
    refine ⟨n, hlt, e, fun m => ?_⟩
    unfold drawAt
    rw [← e]
    unfold afterDraws
    rw [← iterate_add_apply, Nat.add_comm m]

/-! ### the values -/

theorem shift_lt (w : BitVec 64) : (w >>> 12).toNat < 2 ^ 52 := by
  rw [BitVec.toNat_ushiftRight, Nat.shiftRight_eq_div_pow]
  have := w.isLt
  omega

/-- the 52 bits that make a uniform number. -/
def bits52 (w : BitVec 64) : Fin (2 ^ 52) := ⟨(w >>> 12).toNat, shift_lt w⟩

theorem open01_real (w : BitVec 64) : (open01 w : ℝ) = ((oddGrid (bits52 w) : ℚ) : ℝ) := by
  simp only [open01, oddGrid, bits52, fl_sub, fl_lit]
  push_cast
  ring

theorem oddGrid_range (k : Fin (2 ^ 52)) : 0 < oddGrid k ∧ oddGrid k < 1 := by
  have h : ((k : Nat) : ℚ) + 1 ≤ 2 ^ 52 := by exact_mod_cast k.isLt
  unfold oddGrid
  constructor
  · positivity
  · rw [div_lt_one (by positivity)]
    have : (2 : ℚ) ^ 53 = 2 * 2 ^ 52 := by norm_num
    linarith

theorem oddGrid_injective : Injective oddGrid := by
  intro a b h
  unfold oddGrid at h
  rw [div_left_inj' (by positivity)] at h
  have : ((a : Nat) : ℚ) = (b : Nat) := by linarith
  exact Fin.ext (by exact_mod_cast this)

/-- Every draw of the generator is an odd multiple of 2^-53 between 0 and 1. -/
theorem C84_values (g : Pcg64) (n : Nat) :
    ∃ k, (drawAt n g : ℝ) = (oddGrid k : ℚ) ∧ 0 < (drawAt n g : ℝ) ∧ (drawAt n g : ℝ) < 1 := by
  refine ⟨_, open01_real _, ?_, ?_⟩
  · show (0 : ℝ) < open01 _
    rw [open01_real]; exact_mod_cast (oddGrid_range _).1
  · show open01 _ < (1 : ℝ)
    rw [open01_real]; exact_mod_cast (oddGrid_range _).2

/-! ### how often -/

/-- the higher half of the state. -/
def high (s : BitVec 128) : BitVec 64 := (s >>> 64).setWidth 64

/-- a state from its halves. -/
def join (h l : BitVec 64) : BitVec 128 := BitVec.ofNat 128 (h.toNat * 2 ^ 64 + l.toNat)

theorem high_toNat (s : BitVec 128) : (high s).toNat = s.toNat / 2 ^ 64 := by
  have := s.isLt
  simp only [high, BitVec.toNat_setWidth, BitVec.toNat_ushiftRight, Nat.shiftRight_eq_div_pow]
  omega

theorem rot_toNat (s : BitVec 128) : (s >>> 122).toNat = (high s).toNat / 2 ^ 58 := by
  rw [high_toNat, BitVec.toNat_ushiftRight, Nat.shiftRight_eq_div_pow]
  omega

theorem join_toNat (h l : BitVec 64) : (join h l).toNat = h.toNat * 2 ^ 64 + l.toNat := by
  have := h.isLt
  have := l.isLt
  rw [join, BitVec.toNat_ofNat]
  omega

theorem high_join (h l : BitVec 64) : high (join h l) = h := by
  apply BitVec.eq_of_toNat_eq
  rw [high_toNat, join_toNat]
  have := l.isLt
  omega

theorem low_join (h l : BitVec 64) : (join h l).setWidth 64 = l := by
  apply BitVec.eq_of_toNat_eq
  rw [BitVec.toNat_setWidth, join_toNat]
  have := l.isLt
  omega

theorem join_high_low (s : BitVec 128) : join (high s) (s.setWidth 64) = s := by
  apply BitVec.eq_of_toNat_eq
  rw [join_toNat, high_toNat, BitVec.toNat_setWidth]
  omega

theorem output_eq (s : BitVec 128) : Pcg64.output s = (high s ^^^ s.setWidth 64).rotateRight ((high s).toNat / 2 ^ 58) := by
  rw [← rot_toNat]; rfl

/-- a state is its higher half and its output. -/
def outEquiv : BitVec 128 ≃ BitVec 64 × BitVec 64 where
  toFun s := (high s, Pcg64.output s)
  invFun p := join p.1 (p.1 ^^^ p.2.rotateLeft (p.1.toNat / 2 ^ 58))
  left_inv s := by
    simp only [output_eq, rotateLeft_rotateRight, ← BitVec.xor_assoc, BitVec.xor_self, BitVec.zero_xor]
    exact join_high_low s
  right_inv p := by
    simp only [output_eq, high_join, low_join, ← BitVec.xor_assoc, BitVec.xor_self, BitVec.zero_xor, rotateRight_rotateLeft]

theorem card_words (k : Fin (2 ^ 52)) : Nat.card {w : BitVec 64 // bits52 w = k} = 2 ^ 12 := by
  have e : {w : BitVec 64 // bits52 w = k} ≃ Fin (2 ^ 12) :=
    { toFun := fun w => ⟨w.1.toNat % 2 ^ 12, Nat.mod_lt _ (by norm_num)⟩
      invFun := fun j => ⟨BitVec.ofNat 64 (k.val * 2 ^ 12 + j.val), by
        apply Fin.ext
        have := k.isLt
        have := j.isLt
        simp only [bits52, BitVec.toNat_ushiftRight, BitVec.toNat_ofNat, Nat.shiftRight_eq_div_pow]
        omega⟩
      left_inv := fun w => by
        apply Subtype.ext
        apply BitVec.eq_of_toNat_eq
        have h := congrArg Fin.val w.2
        simp only [bits52, BitVec.toNat_ushiftRight, Nat.shiftRight_eq_div_pow] at h
        have := w.1.isLt
        simp only [BitVec.toNat_ofNat]
        omega
      right_inv := fun j => by
        apply Fin.ext
        have := k.isLt
        have := j.isLt
        simp only [BitVec.toNat_ofNat]
        omega }
  rw [Nat.card_congr e, Nat.card_fin]

theorem card_states (k : Fin (2 ^ 52)) : Nat.card {s : BitVec 128 // bits52 (Pcg64.output s) = k} = 2 ^ 76 := by
  have e : {s : BitVec 128 // bits52 (Pcg64.output s) = k} ≃ BitVec 64 × {w : BitVec 64 // bits52 w = k} :=
    { toFun := fun s => ((outEquiv s.1).1, ⟨(outEquiv s.1).2, s.2⟩)
      invFun := fun p => ⟨outEquiv.symm (p.1, p.2.1), by
        have := congrArg Prod.snd (outEquiv.apply_symm_apply (p.1, p.2.1))
        have e : Pcg64.output (outEquiv.symm (p.1, p.2.1)) = p.2.1 := this
        rw [e]; exact p.2.2⟩
      left_inv := fun s => Subtype.ext (outEquiv.symm_apply_apply s.1)
      right_inv := fun p => by
        have := outEquiv.apply_symm_apply (p.1, p.2.1)
        have h1 : (outEquiv (outEquiv.symm (p.1, p.2.1))).1 = p.1 := congrArg Prod.fst this
        have h2 : (outEquiv (outEquiv.symm (p.1, p.2.1))).2 = p.2.1 := congrArg Prod.snd this
        exact Prod.ext h1 (Subtype.ext h2) }
  rw [Nat.card_congr e, Nat.card_prod, card_words, Nat.card_congr (BitVec.equivFin (m := 64)).toEquiv, Nat.card_fin, ← pow_add]

theorem draw_bits (n : Nat) (seed : BitVec 128) (k : Fin (2 ^ 52)) :
    (drawAt n (rngSeed seed) : ℝ) = (oddGrid k : ℚ) ↔
      bits52 (Pcg64.output (lcg Pcg64.multiplier seedIncrement ((lcg Pcg64.multiplier seedIncrement)^[n] (rngSeed seed).state))) = k := by
  have e : (drawAt n (rngSeed seed) : ℝ) =
      (oddGrid (bits52 (Pcg64.output (lcg Pcg64.multiplier seedIncrement ((lcg Pcg64.multiplier seedIncrement)^[n] (rngSeed seed).state)))) : ℚ) := by
    rw [drawAt, after_seed, getUniform, open01_real]; rfl
  rw [e, Rat.cast_inj, oddGrid_injective.eq_iff]

theorem lcg_bijective : Bijective (lcg Pcg64.multiplier seedIncrement) :=
  ⟨lcg_injective, fun t =>
    ⟨(lcg Pcg64.multiplier seedIncrement)^[2 ^ 128 - 1] t, by
      rw [← iterate_succ_apply' (lcg Pcg64.multiplier seedIncrement)]
      exact lcg_period (w := 128) (a := Pcg64.multiplier) (c := seedIncrement) multiplier_mod t⟩⟩

theorem card_preimage {α : Type*} (f : α → BitVec 128) (hf : Bijective f) (k : Fin (2 ^ 52)) :
    Nat.card {a : α // bits52 (Pcg64.output (f a)) = k} = 2 ^ 76 := by
  rw [← card_states k]
  exact Nat.card_congr ((Equiv.ofBijective f hf).subtypeEquiv fun a => Iff.rfl)

/-- Every value has the same chance: of the 2^128 seeds exactly 2^76 give a certain one of the 2^52 values at the `n`-th draw, and of
the first 2^128 draws with a certain seed exactly 2^76 give that value. -/
theorem C84_equal_chances (k : Fin (2 ^ 52)) :
    (∀ n, Nat.card {seed : BitVec 128 // (drawAt n (rngSeed seed) : ℝ) = (oddGrid k : ℚ)} = 2 ^ 76) ∧
    (∀ seed, Nat.card {n : Fin (2 ^ 128) // (drawAt n (rngSeed seed) : ℝ) = (oddGrid k : ℚ)} = 2 ^ 76) := by
  constructor
  · intro n
    simp only [draw_bits]
    refine card_preimage (fun seed => lcg Pcg64.multiplier seedIncrement ((lcg Pcg64.multiplier seedIncrement)^[n] (rngSeed seed).state)) ?_ k
    refine lcg_bijective.comp ((lcg_bijective.iterate n).comp ?_)
    have : (fun seed => (rngSeed seed).state) = lcg Pcg64.multiplier seedIncrement ∘ (· + seedIncrement) := rfl
    rw [this]
    refine lcg_bijective.comp ?_
    generalize seedIncrement = c
    exact ⟨fun a b h => by simpa using congrArg (· - c) h, fun b => ⟨b - c, by simp⟩⟩
  · intro seed
    simp only [draw_bits]
    refine card_preimage (fun n : Fin (2 ^ 128) => lcg Pcg64.multiplier seedIncrement ((lcg Pcg64.multiplier seedIncrement)^[n.val] (rngSeed seed).state)) ?_ k
    exact lcg_bijective.comp (lcg_orbit (k := 127) multiplier_mod increment_odd (rngSeed seed).state)

/-! ### double precision -/

theorem double_exact (m : Nat) (e : ℤ) (hm : m < 2 ^ 53) (he : -1074 ≤ e) :
    Rounding.double.rnd ((m : ℝ) * 2 ^ e) = (m : ℝ) * 2 ^ e := by
  rcases Nat.eq_zero_or_pos m with rfl | h0
  · simp [Rounding.double.zero]
  · have hx : (0 : ℝ) < (m : ℝ) * 2 ^ e := by positivity
    have hlt : (m : ℝ) * 2 ^ e < 2 ^ (e + 53) := by
      rw [zpow_add₀ (by norm_num), mul_comm]
      refine mul_lt_mul_of_pos_left ?_ (by positivity)
      exact_mod_cast hm
    have hb : lastBit 53 (-1074) ((m : ℝ) * 2 ^ e) ≤ e := by
      unfold lastBit
      rw [abs_of_pos hx]
      refine max_le ?_ he
      have : Int.log 2 ((m : ℝ) * 2 ^ e) < e + 53 := (Int.lt_zpow_iff_log_lt (by norm_num) hx).1 (by exact_mod_cast hlt)
      push_cast
      omega
    obtain ⟨n, hn⟩ := multiple_lower hb ⟨(m : ℤ), by push_cast; rfl⟩
    exact binaryRound_of_multiple n hn

theorem open01_double (w : BitVec 64) : (open01 w : RF Rounding.double).val = (oddGrid (bits52 w) : ℚ) := by
  have hk := (bits52 w).isLt
  have hw : (w >>> 12).toNat = (bits52 w).val := rfl
  unfold open01
  rw [hw]
  generalize bits52 w = k at hk
  have e1 : (((1 + (k.val : ℚ) / 2 ^ 52 : ℚ)) : ℝ) = ((2 ^ 52 + k.val : Nat) : ℝ) * 2 ^ (-52 : ℤ) := by
    push_cast
    rw [zpow_neg]
    field_simp
    norm_num
  have e2 : (((1 - 1 / 2 ^ 53 : ℚ)) : ℝ) = ((2 ^ 53 - 1 : Nat) : ℝ) * 2 ^ (-53 : ℤ) := by
    norm_num
  have e3 : ((2 ^ 52 + k.val : Nat) : ℝ) * 2 ^ (-52 : ℤ) - ((2 ^ 53 - 1 : Nat) : ℝ) * 2 ^ (-53 : ℤ) =
      ((2 * k.val + 1 : Nat) : ℝ) * 2 ^ (-53 : ℤ) := by
    push_cast
    norm_num
    ring
  show Rounding.double.rnd (Rounding.double.rnd (((1 + (k.val : ℚ) / 2 ^ 52 : ℚ)) : ℝ) -
    Rounding.double.rnd (((1 - 1 / 2 ^ 53 : ℚ)) : ℝ)) = _
  rw [e1, e2, double_exact _ _ (by omega) (by norm_num), double_exact _ _ (by norm_num) (by norm_num), e3,
    double_exact _ _ (by omega) (by norm_num)]
  unfold oddGrid
  push_cast
  rw [zpow_neg]
  field_simp

/-- In double precision the draws are the same numbers: nothing is rounded. -/
theorem C84_values_double (g : Pcg64) (n : Nat) : ∃ k, (drawAt n g : RF Rounding.double).val = (oddGrid k : ℚ) ∧
    (drawAt n g : ℝ) = (oddGrid k : ℚ) := by
  have hs : afterDraws (RF Rounding.double) n g = afterDraws ℝ n g := by
    cases g; rw [after_eq, after_eq]
  refine ⟨bits52 (afterDraws ℝ n g).nextU64.1, ?_, open01_real _⟩
  show (open01 (afterDraws (RF Rounding.double) n g).nextU64.1 : RF Rounding.double).val = _
  rw [hs]
  exact open01_double _

/-- So the assumption made about uniform numbers in C26 and C34 holds for the generator of the crate, in exact arithmetic and in
double precision. -/
theorem C84_open_interval :
    (∀ (gaussian : Pcg64 → ℝ × Pcg64) g, 0 < ((pcgOps gaussian).uniform g).1 ∧ ((pcgOps gaussian).uniform g).1 < 1) ∧
    (∀ (gaussian : Pcg64 → RF Rounding.double × Pcg64) g,
      0 < ((pcgOps gaussian).uniform g).1.val ∧ ((pcgOps gaussian).uniform g).1.val < 1) := by
  constructor
  · intro _ g
    obtain ⟨k, -, h⟩ := C84_values g 0
    exact h
  · intro _ g
    obtain ⟨k, h, -⟩ := C84_values_double g 0
    have h' : ((pcgOps (F := RF Rounding.double) ‹_›).uniform g).1.val = (oddGrid k : ℚ) := h
    rw [h']
    exact ⟨by exact_mod_cast (oddGrid_range k).1, by exact_mod_cast (oddGrid_range k).2⟩

/-- The numbers asserted in `test_random_vec`, src/random_mod/mod.rs:165-178: the first five draws with the seed 3123412314 are
the doubles nearest to these decimals (the number before each is the exponent of half the distance between the doubles there). -/
example : ∀ x ∈ ([(0, 54, 0.902588585455231), (1, 54, 0.7100941485044704), (2, 58, 0.05524656756602109),
      (3, 56, 0.1639200697192441), (4, 54, 0.6241346531407977)] : List (Nat × Nat × ℚ)),
    |(drawAt x.1 (rngSeed 3123412314) : ℝ) - x.2.2| ≤ 1 / 2 ^ x.2.1 := by
  have h : List.map (fun k => (bits52 (Pcg64.output (lcg Pcg64.multiplier seedIncrement
      ((lcg Pcg64.multiplier seedIncrement)^[k] (rngSeed 3123412314).state)))).val) [0, 1, 2, 3, 4] =
      [4064897617125041, 3197979742602702, 248808421103831, 738230364906133, 2810852591313910] := by decide +kernel
  simp only [List.map_cons, List.map_nil, List.cons.injEq] at h
  obtain ⟨h0, h1, h2, h3, h4, -⟩ := h
  have key : ∀ n k (hk : k < 2 ^ 52), (bits52 (Pcg64.output (lcg Pcg64.multiplier seedIncrement
      ((lcg Pcg64.multiplier seedIncrement)^[n] (rngSeed 3123412314).state)))).val = k →
      (drawAt n (rngSeed 3123412314) : ℝ) = ((2 * (k : ℚ) + 1) / 2 ^ 53 : ℚ) :=
    fun n k hk h => (draw_bits n _ ⟨k, hk⟩).2 (Fin.ext h)
  intro x hx
  simp only [List.mem_cons, List.not_mem_nil, or_false] at hx
  rcases hx with rfl | rfl | rfl | rfl | rfl
  · rw [key _ _ (by norm_num) h0]; norm_num [abs_le]
  · rw [key _ _ (by norm_num) h1]; norm_num [abs_le]
  · rw [key _ _ (by norm_num) h2]; norm_num [abs_le]
  · rw [key _ _ (by norm_num) h3]; norm_num [abs_le]
  · rw [key _ _ (by norm_num) h4]; norm_num [abs_le]

/-- C26 for the generator of the crate: a random position of a cube lies in it. -/
example (gaussian : Pcg64 → ℝ × Pcg64) (seed : BitVec 128) (s : Cubic ℝ) (h : Cubic.new .periodic 3 2 = .ok s) :
    ∃ p, (s.randomPos (pcgOps gaussian) (rngSeed seed)).1 = .ok p ∧ ∀ x ∈ p, |x| < 3 := by
  obtain ⟨p, hp, -, h, -⟩ := (C26_cube (pcgOps gaussian) (C84_open_interval.1 gaussian) .periodic 3 2 s h (rngSeed seed) [0, 0] rfl).1
  exact ⟨p, by rw [hp], h⟩

end Moledyn.Props
