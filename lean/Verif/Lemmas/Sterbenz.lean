import Verif.Model.Binary
/-
Sums and differences of binary floating-point numbers that are exact (Sterbenz's lemma).
-/
namespace Moledyn
section
variable {p : ℕ} {emin : ℤ}

theorem rep_multiple {x : ℝ} (h : binaryRound p emin x = x) : ∃ n : ℤ, x = n * 2 ^ lastBit p emin x := ⟨_, h.symm⟩

/-- a number that is a multiple of some bit at or above its own last bit is a floating-point number. -/
theorem rep_of_multiple {x : ℝ} {k : ℤ} (hk : lastBit p emin x ≤ k) (h : ∃ n : ℤ, x = n * 2 ^ k) : binaryRound p emin x = x := by
  obtain ⟨n, hn⟩ := multiple_lower hk h
  exact binaryRound_of_multiple n hn

/-- Sterbenz: numbers within a factor of 2 have an exact difference. -/
theorem sterbenz {x y : ℝ} (hx : binaryRound p emin x = x) (hy : binaryRound p emin y = y) (y0 : 0 < y) (h1 : y / 2 ≤ x) (h2 : x ≤ 2 * y) :
    binaryRound p emin (x - y) = x - y := by
  have x0 : 0 < x := by linarith
  rcases eq_or_ne x y with rfl | hne
  · rw [sub_self]; exact binaryRound_zero
  have hd : 0 < |x - y| := abs_pos.2 (sub_ne_zero.2 hne)
  rcases le_total x y with h | h
  · have hm : |x - y| ≤ x := by rw [abs_of_nonpos (by linarith)]; linarith
    refine rep_of_multiple (k := lastBit p emin x) ?_ ?_
    · have := lastBit_mono (p := p) (emin := emin) hd hm
      rwa [show lastBit p emin |x - y| = lastBit p emin (x - y) by simp [lastBit]] at this
    · obtain ⟨n, hn⟩ := rep_multiple hx
      obtain ⟨m, hm'⟩ := multiple_lower (lastBit_mono (p := p) (emin := emin) x0 h) (rep_multiple hy)
      exact ⟨n - m, by push_cast; rw [sub_mul, ← hn, ← hm']⟩
  · have hm : |x - y| ≤ y := by rw [abs_of_nonneg (by linarith)]; linarith
    refine rep_of_multiple (k := lastBit p emin y) ?_ ?_
    · have := lastBit_mono (p := p) (emin := emin) hd hm
      rwa [show lastBit p emin |x - y| = lastBit p emin (x - y) by simp [lastBit]] at this
    · obtain ⟨n, hn⟩ := rep_multiple hy
      obtain ⟨m, hm'⟩ := multiple_lower (lastBit_mono (p := p) (emin := emin) y0 h) (rep_multiple hx)
      exact ⟨m - n, by push_cast; rw [sub_mul, ← hn, ← hm']⟩

/-- doubling is exact. -/
theorem rep_double {x : ℝ} (hx : binaryRound p emin x = x) : binaryRound p emin (2 * x) = 2 * x := by
  rcases eq_or_ne x 0 with rfl | h0
  · rw [mul_zero]; exact binaryRound_zero
  refine rep_of_multiple (k := lastBit p emin x + 1) ?_ ?_
  · unfold lastBit
    have hl : Int.log 2 |2 * x| ≤ Int.log 2 |x| + 1 := by
      have b2 := (log_bounds (abs_pos.2 h0)).2
      have b1 := (log_bounds (abs_pos.2 (mul_ne_zero two_ne_zero h0))).1
      have : (2 : ℝ) ^ Int.log 2 |2 * x| < 2 ^ (Int.log 2 |x| + 1 + 1) := by
        rw [zpow_add_one₀ (by norm_num)]
        rw [abs_mul, abs_two] at b1 ⊢
        linarith
      have := (zpow_lt_zpow_iff_right₀ (by norm_num : (1 : ℝ) < 2)).1 this
      omega
    omega
  · obtain ⟨n, hn⟩ := rep_multiple hx
    refine ⟨n, ?_⟩
    rw [zpow_add_one₀ (by norm_num)]
    linarith
end
end Moledyn
