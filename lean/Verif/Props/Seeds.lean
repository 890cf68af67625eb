import Verif.Model.ExpProgram
import Verif.Lemmas.Analysis
import Verif.Props.DoubleClock
/-
C71: the seeds of examples/mfpt_exp.rs: runs with different `idx_set` get different random numbers, unless the
interaction is attractive enough.
-/
set_option linter.unusedSimpArgs false
namespace Moledyn.Props
open Moledyn

/-- the number the parameters of a run are hashed to. -/
noncomputable def seedSum (sysSize : ℝ) (dim : Nat) (targetSize : ℝ) (numAgent : Nat) (strength gamma : ℝ)
    (idxSet : Nat) : ℝ :=
  628398227 * sysSize + 431710567 * dim + 277627711 * targetSize + 719236607 * numAgent + 917299259 * strength +
    367276621 * gamma + 570914867 * idxSet

private theorem shift_real (sysSize : ℝ) (dim : Nat) (targetSize : ℝ) (numAgent : Nat) (strength gamma : ℝ)
    (idxSet : Nat) :
    seedShift sysSize dim targetSize numAgent strength gamma idxSet =
      min ⌊seedSum sysSize dim targetSize numAgent strength gamma idxSet⌋₊ (2 ^ 128 - 1) := by
  unfold seedShift seedSum
  rw [toNat_floor]
  simp only [fl_add, fl_mul, fl_lit, fl_ofNat]
  norm_num

/-- Exact arithmetic: the generator is seeded with the given seed plus the integer part of the hash of the parameters
(0 if that is negative); unless this reaches `2^128`, when the program stops with an overflow. -/
theorem C71_seed_value (seed : Nat) (sysSize : ℝ) (dim : Nat) (targetSize : ℝ) (numAgent : Nat) (strength gamma : ℝ)
    (idxSet s : Nat) :
    expSeed seed sysSize dim targetSize numAgent strength gamma idxSet = .ok s ↔
      s < 2 ^ 128 ∧ s = seed + min ⌊seedSum sysSize dim targetSize numAgent strength gamma idxSet⌋₊ (2 ^ 128 - 1) := by
  unfold expSeed
  simp only [shift_real]
  split
  · next h =>
    rw [Res.ok.injEq]
    constructor
    · rintro rfl; exact ⟨h, rfl⟩
    · exact fun ⟨_, h⟩ => h.symm
  · next h =>
    constructor
    · intro h; simp at h
    · rintro ⟨h1, rfl⟩; exact absurd h1 h

/-- Exact arithmetic: runs with the same parameters but different `idx_set` get different seeds, exactly 570914867
apart per set, as long as the hash is not negative and not capped. -/
theorem C71_sets_apart (seed : Nat) (sysSize : ℝ) (dim : Nat) (targetSize : ℝ) (numAgent : Nat) (strength gamma : ℝ)
    (i j si sj : Nat) (hij : i ≤ j) (h0 : 0 ≤ seedSum sysSize dim targetSize numAgent strength gamma i)
    (h1 : seedSum sysSize dim targetSize numAgent strength gamma j < 2 ^ 128)
    (hi : expSeed seed sysSize dim targetSize numAgent strength gamma i = .ok si)
    (hj : expSeed seed sysSize dim targetSize numAgent strength gamma j = .ok sj) :
    sj = si + 570914867 * (j - i) := by
  rw [C71_seed_value] at hi hj
  obtain ⟨-, rfl⟩ := hi
  obtain ⟨-, rfl⟩ := hj
  have e : seedSum sysSize dim targetSize numAgent strength gamma j =
      seedSum sysSize dim targetSize numAgent strength gamma i + ((570914867 * (j - i) : ℕ) : ℝ) := by
    unfold seedSum
    rw [Nat.cast_mul, Nat.cast_sub hij]; push_cast; ring
  have hfl : ⌊seedSum sysSize dim targetSize numAgent strength gamma j⌋₊ =
      ⌊seedSum sysSize dim targetSize numAgent strength gamma i⌋₊ + 570914867 * (j - i) := by
    rw [e, Nat.floor_add_natCast h0]
  have hb : ⌊seedSum sysSize dim targetSize numAgent strength gamma j⌋₊ < 2 ^ 128 := by
    rw [Nat.floor_lt (h0.trans (by rw [e]; exact le_add_of_nonneg_right (Nat.cast_nonneg _)))]
    exact_mod_cast h1
  omega

/-- The seed given by the user is never lost: other things equal, different seeds give different generators (any
arithmetic). -/
theorem C71_user_seed {F : Type} [Fl F] (seed seed' : Nat) (sysSize : F) (dim : Nat) (targetSize : F) (numAgent : Nat)
    (strength gamma : F) (idxSet s : Nat) (h : expSeed seed sysSize dim targetSize numAgent strength gamma idxSet = .ok s)
    (h' : expSeed seed' sysSize dim targetSize numAgent strength gamma idxSet = .ok s) : seed = seed' := by
  unfold expSeed at h h'
  simp only at h h'
  split at h <;> split at h' <;> simp at h h'
  omega

/-- Finding: a negative hash (a strong enough attraction) counts as 0.  Then `idx_set`, and everything else, has no
influence: the generator is seeded with the user's seed. -/
theorem C71_negative_hash (seed : Nat) (hs : seed < 2 ^ 128) (sysSize : ℝ) (dim : Nat) (targetSize : ℝ) (numAgent : Nat)
    (strength gamma : ℝ) (idxSet : Nat) (h : seedSum sysSize dim targetSize numAgent strength gamma idxSet < 1) :
    expSeed seed sysSize dim targetSize numAgent strength gamma idxSet = .ok seed := by
  rw [C71_seed_value]
  refine ⟨hs, ?_⟩
  rw [Nat.floor_eq_zero.2 h]; simp

/-- Two runs, sets 1 and 2, of the same parameters with strength -100: the same seed. -/
theorem C71_collision : ∃ s, expSeed 7 (10 : ℝ) 2 1 3 (-100) 1 1 = .ok s ∧ expSeed 7 (10 : ℝ) 2 1 3 (-100) 1 2 = .ok s := by
  refine ⟨7, C71_negative_hash 7 (by norm_num) 10 2 1 3 (-100) 1 1 ?_, C71_negative_hash 7 (by norm_num) 10 2 1 3 (-100) 1 2 ?_⟩ <;>
    (unfold seedSum; norm_num)

/-! ### double precision -/

private theorem rnd_error {x : ℝ} (hx : 1 ≤ |x|) : |Rounding.double.rnd x - x| ≤ |x| / 2 ^ 53 := by
  have b := (log_bounds (by linarith : 0 < |x|)).1
  have hlog : 0 ≤ Int.log 2 |x| := (Int.zpow_le_iff_le_log (b := 2) (x := 0) (by norm_num) (by linarith)).1 (by simpa using hx)
  have l : lastBit 53 (-1074) x = Int.log 2 |x| + 1 - (53 : ℕ) := max_eq_left (by push_cast; omega)
  have e := binaryRound_error (p := 53) (emin := -1074) x
  refine e.trans ?_
  rw [l, show Int.log 2 |x| + 1 - ((53 : ℕ) : ℤ) = Int.log 2 |x| + (-52) by push_cast; ring,
    zpow_add₀ (by norm_num), le_div_iff₀ (by norm_num)]
  calc _ = (2 : ℝ) ^ Int.log 2 |x| := by
        rw [show (-52 : ℤ) = -((52 : ℕ) : ℤ) by norm_num, zpow_neg, zpow_natCast]; norm_num; ring
    _ ≤ _ := b

/-- whole numbers up to `2^53` are doubles. -/
theorem double_nat {n : ℕ} (h : n < 2 ^ 53) : Rounding.double.rnd (n : ℝ) = n := by
  rcases Nat.eq_zero_or_pos n with rfl | hn
  · simpa using Rounding.double.zero
  have h1 : (1 : ℝ) ≤ n := by exact_mod_cast hn
  have hl : lastBit 53 (-1074) (n : ℝ) ≤ 0 := by
    unfold lastBit
    rw [abs_of_pos (by linarith)]
    have b := (log_bounds (by linarith : (0 : ℝ) < n)).1
    have : (2 : ℝ) ^ Int.log 2 (n : ℝ) < 2 ^ (53 : ℤ) := b.trans_lt (by
      rw [show (53 : ℤ) = ((53 : ℕ) : ℤ) by norm_num, zpow_natCast]; exact_mod_cast h)
    have := (zpow_lt_zpow_iff_right₀ (by norm_num : (1 : ℝ) < 2)).1 this
    push_cast
    omega
  obtain ⟨m, hm⟩ := multiple_lower (x := (n : ℝ)) hl ⟨n, by simp⟩
  exact binaryRound_of_multiple m hm

private theorem rnd_up {x : ℝ} (h : 0 ≤ x) : Rounding.double.rnd x ≤ x + x / 2 ^ 53 + 1 := by
  rcases le_or_gt 1 x with h1 | h1
  · have := rnd_error (x := x) (by rwa [abs_of_nonneg h])
    rw [abs_of_nonneg h] at this
    have := (abs_le.1 this).2
    linarith
  · have : Rounding.double.rnd x ≤ Rounding.double.rnd ((1 : ℕ) : ℝ) := Rounding.double.mono _ _ (by simpa using h1.le)
    rw [double_nat (by norm_num)] at this
    have h2 : (0 : ℝ) ≤ x / 2 ^ 53 := by positivity
    push_cast at this
    linarith

private theorem rnd_down {x : ℝ} (h : 1 ≤ x) : x - x / 2 ^ 53 ≤ Rounding.double.rnd x := by
  have h0 : 0 ≤ x := by linarith
  have := rnd_error (x := x) (by rwa [abs_of_nonneg h0])
  rw [abs_of_nonneg h0] at this
  have := (abs_le.1 this).1
  linarith

private theorem rnd_nonneg {x : ℝ} (h : 0 ≤ x) : 0 ≤ Rounding.double.rnd x := by
  have := Rounding.double.mono _ _ h
  rwa [Rounding.double.zero] at this

private theorem rnd_le_pow {x : ℝ} (k : ℕ) (h : x ≤ 2 ^ k) : Rounding.double.rnd x ≤ 2 ^ k := by
  have := double_pow2 (e := (k : ℤ)) (by omega)
  rw [zpow_natCast] at this
  rw [← this]
  exact Rounding.double.mono _ _ h

private theorem term_bound {c : ℚ} {n : ℕ} (hc : c = n) (hn : n ≤ 2 ^ 30) {x : ℝ} (h0 : 0 ≤ x) (h1 : x ≤ 2 ^ 43) :
    0 ≤ Rounding.double.rnd (Rounding.double.rnd (c : ℝ) * x) ∧
      Rounding.double.rnd (Rounding.double.rnd (c : ℝ) * x) ≤ 2 ^ 73 := by
  have e : Rounding.double.rnd (c : ℝ) = n := by
    rw [hc]; push_cast; exact double_nat (by omega)
  rw [e]
  have hn' : (n : ℝ) ≤ 2 ^ 30 := by exact_mod_cast hn
  refine ⟨rnd_nonneg (by positivity), rnd_le_pow 73 ?_⟩
  calc (n : ℝ) * x ≤ 2 ^ 30 * 2 ^ 43 := mul_le_mul hn' h1 h0 (by positivity)
    _ = 2 ^ 73 := by norm_num

private theorem sum_bound {a b : ℝ} (k : ℕ) (ha : 0 ≤ a ∧ a ≤ 2 ^ k) (hb : 0 ≤ b ∧ b ≤ 2 ^ 73) (hk : 73 ≤ k) :
    0 ≤ Rounding.double.rnd (a + b) ∧ Rounding.double.rnd (a + b) ≤ 2 ^ (k + 1) := by
  refine ⟨rnd_nonneg (add_nonneg ha.1 hb.1), rnd_le_pow _ ?_⟩
  have : (2 : ℝ) ^ 73 ≤ 2 ^ k := pow_le_pow_right₀ (by norm_num) hk
  rw [pow_succ]; linarith [ha.2, hb.2]

/-- In double precision too: for non-negative parameters up to `2^43` and up to `2^23` sets, different `idx_set` give
different seeds, at least `2^28` apart and in the order of the sets.  None of these runs overflows if the user's seed is
below `2^127`. -/
theorem C71_double_sets_apart (seed : Nat) (sysSize targetSize strength gamma : Double) (dim numAgent i j : Nat)
    (h1 : 0 ≤ sysSize.val ∧ sysSize.val ≤ 2 ^ 43) (h2 : 0 ≤ targetSize.val ∧ targetSize.val ≤ 2 ^ 43)
    (h3 : 0 ≤ strength.val ∧ strength.val ≤ 2 ^ 43) (h4 : 0 ≤ gamma.val ∧ gamma.val ≤ 2 ^ 43)
    (h5 : dim ≤ 2 ^ 43) (h6 : numAgent ≤ 2 ^ 43) (hij : i < j) (hj : j < 2 ^ 23) (hseed : seed < 2 ^ 127) :
    ∃ si sj, expSeed seed sysSize dim targetSize numAgent strength gamma i = .ok si ∧
      expSeed seed sysSize dim targetSize numAgent strength gamma j = .ok sj ∧ si + 2 ^ 28 ≤ sj := by
  obtain ⟨B, hB⟩ : ∃ B : Double, B = (Fl.lit 628398227 * sysSize + Fl.lit 431710567 * Fl.ofNat dim +
      Fl.lit 277627711 * targetSize + Fl.lit 719236607 * Fl.ofNat numAgent + Fl.lit 917299259 * strength +
      Fl.lit 367276621 * gamma) := ⟨_, rfl⟩
  have hnat : ∀ n : ℕ, n ≤ 2 ^ 43 → (Fl.ofNat n : Double).val = n := fun n hn =>
    double_nat (n := n) (by omega)
  have hcast : ∀ n : ℕ, n ≤ 2 ^ 43 → 0 ≤ (Fl.ofNat n : Double).val ∧ (Fl.ofNat n : Double).val ≤ 2 ^ 43 := fun n hn => by
    rw [hnat n hn]; exact ⟨Nat.cast_nonneg _, by exact_mod_cast hn⟩
  have hb : 0 ≤ B.val ∧ B.val ≤ 2 ^ 78 := by
    rw [hB]
    have t1 := term_bound (c := 628398227) (n := 628398227) (by norm_num) (by norm_num) h1.1 h1.2
    have t2 := term_bound (c := 431710567) (n := 431710567) (by norm_num) (by norm_num) (hcast dim h5).1 (hcast dim h5).2
    have t3 := term_bound (c := 277627711) (n := 277627711) (by norm_num) (by norm_num) h2.1 h2.2
    have t4 := term_bound (c := 719236607) (n := 719236607) (by norm_num) (by norm_num) (hcast _ h6).1 (hcast _ h6).2
    have t5 := term_bound (c := 917299259) (n := 917299259) (by norm_num) (by norm_num) h3.1 h3.2
    have t6 := term_bound (c := 367276621) (n := 367276621) (by norm_num) (by norm_num) h4.1 h4.2
    exact sum_bound 77 (sum_bound 76 (sum_bound 75 (sum_bound 74 (sum_bound 73 t1 t2 le_rfl) t3 (by norm_num)) t4
      (by norm_num)) t5 (by norm_num)) t6 (by norm_num)
  -- the last term is exact
  have hlast : ∀ n : ℕ, n < 2 ^ 23 → (Fl.lit 570914867 * Fl.ofNat n : Double).val = ((570914867 * n : ℕ) : ℝ) := by
    intro n hn
    rw [RF.val_mul, hnat n (by omega), RF.val_lit]
    have e : Rounding.double.rnd (((570914867 : ℚ)) : ℝ) = ((570914867 : ℕ) : ℝ) := by
      rw [show (((570914867 : ℚ)) : ℝ) = ((570914867 : ℕ) : ℝ) by norm_num]
      exact double_nat (by norm_num)
    rw [e, ← Nat.cast_mul]
    exact double_nat (by omega)
  have hshift : ∀ n : ℕ, n < 2 ^ 23 → seedShift sysSize dim targetSize numAgent strength gamma n =
      min ⌊Rounding.double.rnd (⌊Rounding.double.rnd (B.val + ((570914867 * n : ℕ) : ℝ))⌋ : ℝ)⌋₊ (2 ^ 128 - 1) := by
    intro n hn
    unfold seedShift
    rw [← hB, ← hlast n hn]
    rfl
  have hi : i < 2 ^ 23 := by omega
  have hpj : ((570914867 * j : ℕ) : ℝ) ≤ 2 ^ 53 := by exact_mod_cast (by omega : 570914867 * j ≤ 2 ^ 53)
  have hpi : ((570914867 * i : ℕ) : ℝ) + 570914867 ≤ ((570914867 * j : ℕ) : ℝ) := by
    exact_mod_cast (by omega : 570914867 * i + 570914867 ≤ 570914867 * j)
  have hp0 : (0 : ℝ) ≤ ((570914867 * i : ℕ) : ℝ) := Nat.cast_nonneg _
  rw [show expSeed seed sysSize dim targetSize numAgent strength gamma i = _ from rfl]
  unfold expSeed
  simp only [hshift i hi, hshift j hj]
  generalize ((570914867 * i : ℕ) : ℝ) = pi at hpi hp0
  generalize ((570914867 * j : ℕ) : ℝ) = pj at hpi hpj
  generalize B.val = b at hb
  -- bounds on the sums
  have ui := rnd_up (x := b + pi) (by linarith)
  have li := rnd_nonneg (x := b + pi) (by linarith)
  have uj := rnd_up (x := b + pj) (by linarith)
  have lj := rnd_down (x := b + pj) (by linarith)
  generalize Rounding.double.rnd (b + pi) = ti at ui li
  generalize Rounding.double.rnd (b + pj) = tj at uj lj
  have hb2 : b ≤ 2 ^ 78 := hb.2
  have e1 : (b + pi) / 2 ^ 53 ≤ 2 ^ 25 + 1 := by
    rw [div_le_iff₀ (by norm_num)]; norm_num at hb2 hpj ⊢; linarith
  have e2 : (b + pj) / 2 ^ 53 ≤ 2 ^ 25 + 1 := by
    rw [div_le_iff₀ (by norm_num)]; norm_num at hb2 hpj ⊢; linarith
  have hti : ti ≤ 2 ^ 79 := by norm_num at hb2 hpj e1 ⊢; linarith
  have htj : tj ≤ 2 ^ 79 := by norm_num at hb2 hpj e2 ⊢; linarith
  have htj1 : 2 ≤ tj := by norm_num at hb e2 ⊢; linarith
  -- bounds on their integer parts
  have fi0 : (0 : ℝ) ≤ (⌊ti⌋ : ℝ) := by exact_mod_cast Int.floor_nonneg.2 li
  have fi1 := Int.floor_le ti
  have fj1 := Int.floor_le tj
  have fj2 := Int.lt_floor_add_one tj
  have ui2 := rnd_up fi0
  have lj2 := rnd_down (x := (⌊tj⌋ : ℝ)) (by linarith)
  have uj2 := rnd_up (x := (⌊tj⌋ : ℝ)) (by linarith)
  have li2 := rnd_nonneg fi0
  generalize Rounding.double.rnd (⌊ti⌋ : ℝ) = wi at ui2 li2
  generalize Rounding.double.rnd (⌊tj⌋ : ℝ) = wj at lj2 uj2
  have e3 : (⌊ti⌋ : ℝ) / 2 ^ 53 ≤ 2 ^ 26 := by
    rw [div_le_iff₀ (by norm_num)]; norm_num at hti ⊢; linarith
  have e4 : (⌊tj⌋ : ℝ) / 2 ^ 53 ≤ 2 ^ 26 := by
    rw [div_le_iff₀ (by norm_num)]; norm_num at htj ⊢; linarith
  have hw : wi + 2 ^ 28 + 1 ≤ wj := by
    norm_num at ui lj ui2 lj2 e1 e2 e3 e4 ⊢; linarith
  have hwj : wj ≤ 2 ^ 80 := by norm_num at htj e4 ⊢; linarith
  -- as whole numbers
  have nj : (⌊wj⌋₊ : ℝ) ≤ wj := Nat.floor_le (by linarith [li2])
  have nj' := Nat.lt_floor_add_one wj
  have ni : (⌊wi⌋₊ : ℝ) ≤ wi := Nat.floor_le li2
  have a1 : ⌊wj⌋₊ ≤ 2 ^ 80 := by
    have : (⌊wj⌋₊ : ℝ) ≤ ((2 ^ 80 : ℕ) : ℝ) := by push_cast; linarith
    exact_mod_cast this
  have a2 : ⌊wi⌋₊ + 2 ^ 28 ≤ ⌊wj⌋₊ := by
    have : ((⌊wi⌋₊ + 2 ^ 28 : ℕ) : ℝ) < ((⌊wj⌋₊ + 1 : ℕ) : ℝ) := by push_cast; linarith
    have : ⌊wi⌋₊ + 2 ^ 28 < ⌊wj⌋₊ + 1 := by exact_mod_cast this
    omega
  rw [min_eq_left (by omega), min_eq_left (by omega), if_pos (by omega), if_pos (by omega)]
  exact ⟨_, _, rfl, rfl, by omega⟩

-- the hypotheses can be met: a system of size 10 and dimension 2, target size 1, 3 agents, strength 1 and range 1
example : ∃ x y : Double, x = Fl.lit 10 ∧ y = Fl.lit 1 ∧ (0 ≤ x.val ∧ x.val ≤ 2 ^ 43) ∧ (0 ≤ y.val ∧ y.val ≤ 2 ^ 43) := by
  refine ⟨_, _, rfl, rfl, ⟨rnd_nonneg (by norm_num), rnd_le_pow 43 (by norm_num)⟩,
    ⟨rnd_nonneg (by norm_num), rnd_le_pow 43 (by norm_num)⟩⟩

-- exact arithmetic: sets 1 and 3 of such a run
example : ∃ si sj, expSeed 7 (10 : ℝ) 2 1 3 1 1 1 = .ok si ∧ expSeed 7 (10 : ℝ) 2 1 3 1 1 3 = .ok sj ∧
    0 ≤ seedSum 10 2 1 3 1 1 1 ∧ seedSum 10 2 1 3 1 1 3 < 2 ^ 128 ∧ si = 11438231690 ∧ sj = si + 570914867 * 2 := by
  have e : ∀ n : ℕ, seedSum 10 2 1 3 1 1 n = ((10867316816 + 570914867 * n : ℕ) : ℝ) := by
    intro n; unfold seedSum; push_cast; ring
  refine ⟨11438231690, 11438231690 + 570914867 * 2, (C71_seed_value ..).2 ⟨by norm_num, ?_⟩,
    (C71_seed_value ..).2 ⟨by norm_num, ?_⟩, ?_, ?_, ?_, rfl⟩
  all_goals simp only [e, Nat.floor_natCast]
  all_goals norm_num

end Moledyn.Props
