import Verif.Model.Fl
import Mathlib.Data.EReal.Inv
/-
The arithmetic with infinities and NaN (`XF`), checked against the extended reals of Mathlib: wherever IEEE 754 does not
prescribe NaN, the result is the result of the extended reals.
-/
namespace Moledyn
namespace XF

/-- the number, NaN read as 0. -/
noncomputable def value : XF → EReal
  | fin q => ((q : ℝ) : EReal)
  | inf false => ⊤
  | inf true => ⊥
  | nan => 0

/-- comparison: false if one side is NaN, otherwise the order of the extended reals. -/
theorem lt_iff (a b : XF) : Fl.lt a b = true ↔ a ≠ nan ∧ b ≠ nan ∧ a.value < b.value := by
  show lt' a b = true ↔ _
  rcases a with q | (_ | _) | _ <;> rcases b with r | (_ | _) | _ <;>
    simp [lt', value, EReal.coe_lt_coe_iff, EReal.coe_lt_top, EReal.bot_lt_coe]

theorem le_iff (a b : XF) : Fl.le a b = true ↔ a ≠ nan ∧ b ≠ nan ∧ a.value ≤ b.value := by
  show le' a b = true ↔ _
  rcases a with q | (_ | _) | _ <;> rcases b with r | (_ | _) | _ <;>
    simp [le', lt', value, le_iff_lt_or_eq]

/-- sums: NaN exactly from NaN and from infinities of opposite sign. -/
theorem add_spec (a b : XF) :
    (a + b = nan ↔ a = nan ∨ b = nan ∨ (a = inf true ∧ b = inf false) ∨ (a = inf false ∧ b = inf true)) ∧
    (a + b ≠ nan → (a + b).value = a.value + b.value) := by
  show (add' a b = nan ↔ _) ∧ (add' a b ≠ nan → (add' a b).value = _)
  rcases a with q | (_ | _) | _ <;> rcases b with r | (_ | _) | _ <;>
    simp [add', value, EReal.coe_add]

theorem neg_spec (a : XF) : ((-a : XF) = nan ↔ a = nan) ∧ (-a : XF).value = -a.value := by
  show (neg' a = nan ↔ _) ∧ (neg' a).value = _
  rcases a with q | (_ | _) | _ <;> simp [neg', value]

theorem sub_spec (a b : XF) : a - b = a + (-b) := rfl

/-- products: NaN exactly from NaN and from zero times infinity. -/
theorem mul_spec (a b : XF) :
    (a * b = nan ↔ a = nan ∨ b = nan ∨ (a = fin 0 ∧ ∃ s, b = inf s) ∨ ((∃ s, a = inf s) ∧ b = fin 0)) ∧
    (a * b ≠ nan → (a * b).value = a.value * b.value) := by
  show (mul' a b = nan ↔ _) ∧ (mul' a b ≠ nan → (mul' a b).value = _)
  have key : ∀ q : ℚ, q ≠ 0 → (q < 0 ∧ ((q : ℝ) : EReal) < 0 ∧ decide (q < 0) = true) ∨
      (0 < q ∧ (0 : EReal) < ((q : ℝ) : EReal) ∧ decide (q < 0) = false) := by
    intro q hq
    rcases lt_or_gt_of_ne hq with h | h
    · exact .inl ⟨h, by rw [← EReal.coe_zero, EReal.coe_lt_coe_iff]; exact_mod_cast h, by simpa using h⟩
    · exact .inr ⟨h, by rw [← EReal.coe_zero, EReal.coe_lt_coe_iff]; exact_mod_cast h, by simpa using h.le⟩
  rcases a with q | s | _ <;> rcases b with r | t | _
  · simp [mul', value, EReal.coe_mul]
  · by_cases h : q = 0
    · simp [mul', h]
    · simp only [mul', h, if_false]
      rcases key q h with ⟨h1, h2, h3⟩ | ⟨h1, h2, h3⟩ <;> rw [h3] <;> cases t <;>
        simp [value, h, EReal.mul_top_of_neg, EReal.mul_bot_of_neg, EReal.mul_top_of_pos, EReal.mul_bot_of_pos, h2]
  · simp [mul']
  · by_cases h : r = 0
    · simp [mul', h]
    · simp only [mul', h, if_false]
      rcases key r h with ⟨h1, h2, h3⟩ | ⟨h1, h2, h3⟩ <;> rw [h3] <;> cases s <;>
        simp [value, h, EReal.top_mul_of_neg, EReal.bot_mul_of_neg, EReal.top_mul_of_pos, EReal.bot_mul_of_pos, h2]
  · cases s <;> cases t <;> simp [mul', value]
  · simp [mul']
  · simp [mul']
  · simp [mul']
  · simp [mul']

/-- quotients by anything but zero; a nonzero number divided by zero is infinite, with its sign. -/
theorem div_spec (a b : XF) :
    (a / b = nan ↔ a = nan ∨ b = nan ∨ (a = fin 0 ∧ b = fin 0) ∨ ((∃ s, a = inf s) ∧ ∃ s, b = inf s)) ∧
    (a / b ≠ nan → b ≠ fin 0 → (a / b).value = a.value / b.value) ∧
    (∀ q : ℚ, q < 0 → fin q / fin 0 = inf true) ∧ (∀ q : ℚ, 0 < q → fin q / fin 0 = inf false) := by
  refine ⟨?_, ?_, fun q hq => ?_, fun q hq => ?_⟩
  · show (div' a b = nan ↔ _)
    rcases a with q | s | _ <;> rcases b with r | t | _ <;> simp only [div'] <;> try simp
    split
    · rename_i h; split <;> simp_all
    · rename_i h; simp [h]
  · show div' a b ≠ nan → _ → (div' a b).value = _
    rcases a with q | s | _ <;> rcases b with r | t | _ <;> simp only [div'] <;> try simp
    · intro _ h
      rw [if_neg h]
      simp [value, EReal.coe_div]
    · cases t <;> simp [value]
    · intro h
      rcases lt_or_gt_of_ne h with h1 | h1
      · have h2 : ((r : ℝ) : EReal) < 0 := by rw [← EReal.coe_zero, EReal.coe_lt_coe_iff]; exact_mod_cast h1
        rw [decide_eq_true h1]
        cases s
        · simp [value, EReal.top_div_of_neg_ne_bot h2 (EReal.coe_ne_bot _)]
        · simp [value, EReal.bot_div_of_neg_ne_bot h2 (EReal.coe_ne_bot _)]
      · have h2 : (0 : EReal) < ((r : ℝ) : EReal) := by rw [← EReal.coe_zero, EReal.coe_lt_coe_iff]; exact_mod_cast h1
        rw [decide_eq_false (not_lt.2 h1.le)]
        cases s
        · simp [value, EReal.top_div_of_pos_ne_top h2 (EReal.coe_ne_top _)]
        · simp [value, EReal.bot_div_of_pos_ne_top h2 (EReal.coe_ne_top _)]
  · show div' _ _ = _
    simp [div', hq.ne, hq]
  · show div' _ _ = _
    simp [div', hq.ne', hq.le]

/-- square roots of squares; of a negative number, NaN. -/
theorem sqrt_spec (q : ℚ) : (0 ≤ q → Fl.sqrt (fin (q * q)) = fin q) ∧ (q < 0 → Fl.sqrt (fin q) = nan) ∧
    Fl.sqrt (inf false) = inf false ∧ Fl.sqrt (inf true) = nan ∧ Fl.sqrt nan = nan := by
  refine ⟨fun h => ?_, fun h => ?_, rfl, rfl, rfl⟩
  · show sqrt' _ = _
    have h0 : ¬ (q * q < 0) := not_lt.2 (mul_self_nonneg q)
    have hn : (q * q).num = q.num * q.num := Rat.mul_self_num q
    have hd : (q * q).den = q.den * q.den := Rat.mul_self_den q
    have hq : 0 ≤ q.num := Rat.num_nonneg.2 h
    obtain ⟨m, hm⟩ := Int.eq_ofNat_of_zero_le hq
    have e1 : (q * q).num.toNat.sqrt = m := by
      rw [hn, hm, ← Int.natCast_mul, Int.toNat_natCast, Nat.sqrt_eq]
    have e2 : (q * q).den.sqrt = q.den := by rw [hd, Nat.sqrt_eq]
    simp only [sqrt', h0, if_false, e1, e2]
    rw [if_pos ⟨by rw [hn, hm], by rw [hd]⟩]
    congr 1
    have := Rat.num_div_den q
    rw [hm, Int.cast_natCast] at this
    exact this
  · show sqrt' _ = _
    simp [sqrt', h]

example : (inf false : XF) + fin (-3) = inf false ∧ (fin 2 : XF) / fin 0 = inf false ∧ Fl.lt (nan : XF) (fin 1) = false :=
  ⟨rfl, by rfl, rfl⟩

end XF
end Moledyn
