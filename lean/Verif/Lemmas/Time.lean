import Verif.Spec.Time
import Mathlib.Tactic.Linarith
import Mathlib.Tactic.Positivity
import Mathlib.Tactic.FieldSimp
import Mathlib.Algebra.Order.Floor.Semiring
/-
Helper lemmas on the clocks.
-/
namespace Moledyn

section Generic
variable {S O : Type} (next : S → S × O)

theorem stateAfter_succ (k : Nat) (s : S) :
    stateAfter next (k + 1) s = (next (stateAfter next k s)).1 := by
  induction k generalizing s with
  | zero => rfl
  | succ k ih => rw [stateAfter, ih]; rfl

theorem stateAfter_add (j k : Nat) (s : S) :
    stateAfter next (j + k) s = stateAfter next k (stateAfter next j s) := by
  induction j generalizing s with
  | zero => simp [stateAfter]
  | succ j ih => rw [Nat.succ_add, stateAfter, ih]; rfl

theorem output_succ (k : Nat) (s : S) : output next (k + 1) s = output next k (next s).1 := rfl

theorem output_add (j k : Nat) (s : S) :
    output next (j + k) s = output next k (stateAfter next j s) := by
  unfold output; rw [stateAfter_add]
end Generic

/-! ### constant clock, exact -/

theorem ConstStep.output_real (k : Nat) (c : ConstStep ℝ) (h : 0 ≤ c.dt) :
    output ConstStep.next k c =
      .ok (if c.current + k * c.dt ≤ c.tmax then some (c.current + k * c.dt) else none) := by
  induction k generalizing c with
  | zero =>
    simp only [output, stateAfter, ConstStep.next, fl_le, Nat.cast_zero, zero_mul, add_zero,
      decide_eq_true_eq]
    split <;> rfl
  | succ k ih =>
    rw [output_succ]
    simp only [ConstStep.next, fl_le, decide_eq_true_eq]
    by_cases hc : c.current ≤ c.tmax
    · simp only [hc, if_true]
      have h' := ih { c with current := c.current + c.dt } h
      simp only at h'
      rw [show (@HAdd.hAdd ℝ ℝ ℝ (@instHAdd ℝ Fl.toAdd) c.current c.dt) = c.current + c.dt from rfl, h']
      have e : c.current + c.dt + k * c.dt = c.current + ((k + 1 : ℕ) : ℝ) * c.dt := by
        push_cast; ring
      rw [e]
    · simp only [hc, if_false]
      rw [ih c h]
      have h1 : (0 : ℝ) ≤ k * c.dt := by positivity
      have h2 : (0 : ℝ) ≤ ((k + 1 : ℕ) : ℝ) * c.dt := by positivity
      rw [if_neg (by linarith), if_neg (by linarith)]

/-! ### reachable clocks keep representable, non-negative data -/

theorem RF.lit_nonneg {R : Rounding} {q : ℚ} (h : 0 ≤ q) : 0 ≤ (Fl.lit q : RF R).val := by
  have := R.mono 0 (q : ℝ) (by exact_mod_cast h)
  rwa [R.zero] at this

theorem RF.ofNat_nonneg {R : Rounding} (n : Nat) : 0 ≤ (Fl.ofNat n : RF R).val := by
  have := R.mono 0 (n : ℝ) (by positivity)
  rw [R.zero] at this; exact this

theorem RF.div_nonneg {R : Rounding} {a b : RF R} (ha : 0 ≤ a.val) (hb : 0 ≤ b.val) : 0 ≤ (a / b).val := by
  have := R.mono 0 (a.val / b.val) (by positivity)
  rw [R.zero] at this; exact this

theorem RF.mul_nonneg {R : Rounding} {a b : RF R} (ha : 0 ≤ a.val) (hb : 0 ≤ b.val) : 0 ≤ (a * b).val := by
  have := R.mono 0 (a.val * b.val) (by positivity)
  rw [R.zero] at this; exact this

theorem RF.le_add {R : Rounding} {a b : RF R} (ha : a.Rep) (hb : 0 ≤ b.val) : a.val ≤ (a + b).val := by
  have := R.mono a.val (a.val + b.val) (by linarith)
  rw [show R.rnd a.val = a.val from ha] at this; exact this

theorem RF.lit_zero_val {R : Rounding} : (Fl.lit 0 : RF R).val = 0 := by
  rw [RF.val_lit]; simp [R.zero]

/-- invariant of a reachable constant clock -/
theorem ConstStep.reachable_inv {R : Rounding} {c : ConstStep (RF R)} (h : c.Reachable) :
    c.current.Rep ∧ 0 ≤ c.current.val ∧ 0 ≤ c.dt.val := by
  induction h with
  | @new dt c hc =>
    unfold ConstStep.new at hc
    split at hc <;> simp at hc
    subst hc
    rename_i hlt
    simp only [RF.lt_val, decide_eq_true_eq, not_lt] at hlt
    exact ⟨RF.rep_lit 0, by rw [RF.lit_zero_val], le_trans (RF.lit_nonneg (by positivity)) hlt⟩
  | @convert dt tmax c hc =>
    unfold ConstStep.convertFrom at hc
    split at hc <;> simp at hc
    subst hc
    rename_i hlt
    simp only [RF.lt_val, Bool.or_eq_true, decide_eq_true_eq, not_or, not_lt, RF.lit_zero_val] at hlt
    exact ⟨RF.rep_lit 0, by rw [RF.lit_zero_val], hlt.2⟩
  | @next c _ ih =>
    obtain ⟨h1, h2, h3⟩ := ih
    unfold ConstStep.next
    simp only
    split
    · exact ⟨RF.rep_add _ _, le_trans h2 (RF.le_add h1 h3), h3⟩
    · exact ⟨h1, h2, h3⟩
  | renew _ ih => exact ⟨RF.rep_lit 0, by simp only [ConstStep.renew]; rw [RF.lit_zero_val], ih.2.2⟩
  | setTmax t _ ih =>
    unfold ConstStep.setTmax
    split
    · exact ih
    · split <;> exact ih

theorem ConstStep.stateAfter_inv {R : Rounding} {c : ConstStep (RF R)} (h : c.Reachable) (k : Nat) :
    (stateAfter ConstStep.next k c).Reachable := by
  induction k generalizing c with
  | zero => exact h
  | succ k ih => exact ih h.next

theorem ExpStep.bump_fields {F : Type} [Fl F] (c : ExpStep F) (m : F) (l : Nat) :
    (c.bump m l).titype = c.titype ∧ (c.bump m l).current = c.current ∧ (c.bump m l).inc = c.inc ∧
      (c.bump m l).tmax = c.tmax := by
  unfold ExpStep.bump; split <;> simp

/-- invariant of a reachable exponential clock -/
theorem ExpStep.reachable_inv {R : Rounding} {c : ExpStep (RF R)} (h : c.Reachable) :
    c.current.Rep ∧ 0 ≤ c.current.val ∧ 0 ≤ c.dt.val ∧ 0 ≤ c.inc.val ∧
      ∃ a b l, c.titype = .exponential a b l ∧ 0 ≤ a.val ∧ 0 ≤ b.val ∧ 0 < l := by
  induction h with
  | @new a b l c hc =>
    unfold ExpStep.new at hc
    split at hc <;> simp at hc
    rename_i hlt
    simp only [RF.lt_val, Bool.or_eq_true, decide_eq_true_eq, not_or, not_lt, beq_iff_eq] at hlt
    have ha : 0 ≤ a.val := le_trans (RF.lit_nonneg (by positivity)) hlt.1.1
    have hinc : 0 ≤ c.inc.val := by
      rw [← hc]
      simp only
      split
      · exact RF.lit_nonneg (by norm_num)
      · split
        · exact RF.div_nonneg (RF.ofNat_nonneg _) (RF.lit_nonneg (by norm_num))
        · exact RF.lit_nonneg (by norm_num)
    rw [← hc] at hinc ⊢
    refine ⟨RF.rep_lit 0, by rw [RF.lit_zero_val], ha, hinc, a, b, l, rfl, ha, le_trans ha hlt.1.2, by omega⟩
  | @convert a b l tmax c hc =>
    unfold ExpStep.convertFrom at hc
    split at hc <;> simp at hc
    rename_i hlt
    simp only [RF.lt_val, Bool.or_eq_true, decide_eq_true_eq, not_or, not_lt, RF.lit_zero_val] at hlt
    have ha : 0 ≤ a.val := hlt.1.1.2
    rw [← hc]
    refine ⟨RF.rep_lit 0, by rw [RF.lit_zero_val], ha, RF.lit_nonneg (by norm_num), a, b, l, rfl, ha, le_trans ha hlt.1.2, by omega⟩
  | @next c _ ih =>
    obtain ⟨h1, h2, h3, h4, a, b, l, ht, ha, hb, hl⟩ := ih
    unfold ExpStep.next
    rw [ht]
    simp only
    obtain ⟨f1, f2, f3, f4⟩ := ExpStep.bump_fields c b l
    have hdt : 0 ≤ (c.bump b l).dt.val := by
      unfold ExpStep.bump
      split
      · simp only
        split
        · exact hb
        · exact RF.mul_nonneg h3 h4
      · exact h3
    split
    · refine ⟨RF.rep_add _ _, ?_, hdt, by simpa [f3] using h4, a, b, l, by simpa [f1] using ht, ha, hb, hl⟩
      rw [f2]
      exact le_trans h2 (RF.le_add h1 hdt)
    · rw [f1, f2, f3]
      exact ⟨h1, h2, hdt, h4, a, b, l, ht, ha, hb, hl⟩
  | @renew c _ ih =>
    obtain ⟨h1, h2, h3, h4, a, b, l, ht, ha, hb, hl⟩ := ih
    unfold ExpStep.renew
    rw [ht]
    exact ⟨RF.rep_lit 0, by simp only; rw [RF.lit_zero_val], ha, h4, a, b, l, rfl, ha, hb, hl⟩
  | setTmax t _ ih =>
    unfold ExpStep.setTmax
    split
    · exact ih
    · split <;> exact ih
  | @setInc c x _ ih =>
    obtain ⟨h1, h2, h3, h4, a, b, l, ht, ha, hb, hl⟩ := ih
    unfold ExpStep.setInc
    split
    · exact ⟨h1, h2, h3, h4, a, b, l, ht, ha, hb, hl⟩
    · rename_i hx
      simp only [RF.le_val, decide_eq_true_eq, not_le] at hx
      rw [ht]
      simp only
      split
      · exact ⟨h1, h2, h3, RF.div_nonneg (RF.ofNat_nonneg _) (RF.lit_nonneg (by norm_num)), a, b, l, rfl, ha, hb, hl⟩
      · refine ⟨h1, h2, h3, ?_, a, b, l, rfl, ha, hb, hl⟩
        exact le_trans (RF.lit_nonneg (by norm_num)) hx.le

theorem ExpStep.stateAfter_inv {F : Type} [Fl F] {c : ExpStep F} (h : c.Reachable) (k : Nat) :
    (stateAfter ExpStep.next k c).Reachable := by
  induction k generalizing c with
  | zero => exact h
  | succ k ih => exact ih h.next

/-! ### exponential clock, exact schedule -/

section Schedule
variable (dtMin dtMax inc : ℝ) (len : Nat)

theorem expStepSize_mono (h0 : 0 ≤ dtMin) (h1 : 1 ≤ inc) {m n : Nat} (h : m ≤ n) :
    expStepSize dtMin dtMax inc len m ≤ expStepSize dtMin dtMax inc len n := by
  unfold expStepSize
  apply min_le_min _ le_rfl
  apply mul_le_mul_of_nonneg_left _ h0
  exact pow_le_pow_right₀ h1 (Nat.div_le_div_right h)

theorem expStepSize_ge (h0 : 0 ≤ dtMin) (h1 : 1 ≤ inc) (h2 : dtMin ≤ dtMax) (n : Nat) :
    dtMin ≤ expStepSize dtMin dtMax inc len n := by
  unfold expStepSize
  apply le_min _ h2
  have : 1 ≤ inc ^ (n / len) := one_le_pow₀ h1
  nlinarith

theorem expTime_mono (h0 : 0 ≤ dtMin) (h1 : 1 ≤ inc) (h2 : dtMin ≤ dtMax) {m n : Nat} (h : m ≤ n) :
    expTime dtMin dtMax inc len m ≤ expTime dtMin dtMax inc len n := by
  induction h with
  | refl => exact le_rfl
  | step _ ih =>
    rw [expTime]
    have := expStepSize_ge dtMin dtMax inc len h0 h1 h2
    exact le_trans ih (by have := this ‹_›; linarith)

theorem expTime_ge (h0 : 0 ≤ dtMin) (h1 : 1 ≤ inc) (h2 : dtMin ≤ dtMax) (n : Nat) :
    n * dtMin ≤ expTime dtMin dtMax inc len n := by
  induction n with
  | zero => simp [expTime]
  | succ n ih =>
    rw [expTime]
    have := expStepSize_ge dtMin dtMax inc len h0 h1 h2 n
    push_cast; linarith

/-- the clock is about to return item `n` of the schedule: its time is right and its step size is
right once the pending increase is applied -/
structure AtItem (c : ExpStep ℝ) (n : Nat) : Prop where
  titype : c.titype = .exponential dtMin dtMax len
  inc_eq : c.inc = inc
  current : c.current = expTime dtMin dtMax inc len n
  dt : (c.bump dtMax len).dt = expStepSize dtMin dtMax inc len n
  fresh : (c.bump dtMax len).dt < dtMax → (c.bump dtMax len).count = n % len

theorem atItem_step (h0 : 0 ≤ dtMin) (h1 : 1 ≤ inc) (_h2 : dtMin ≤ dtMax) (hl : 0 < len)
    {c : ExpStep ℝ} {n : Nat} (h : AtItem dtMin dtMax inc len c n) (hle : c.current ≤ c.tmax) :
    c.next.2 = .ok (some (expTime dtMin dtMax inc len n)) ∧
    c.next.1.dt = expStepSize dtMin dtMax inc len n ∧ c.next.1.tmax = c.tmax ∧
    AtItem dtMin dtMax inc len c.next.1 (n + 1) := by
  obtain ⟨f1, f2, f3, f4⟩ := ExpStep.bump_fields c dtMax len
  set b := c.bump dtMax len with hb
  have hnext : c.next = ({ b with current := b.current + b.dt, count := b.count + 1 }, .ok (some b.current)) := by
    unfold ExpStep.next
    rw [h.titype]
    simp only [← hb]
    rw [if_pos]
    simp only [fl_le, decide_eq_true_eq]
    rw [f2, f4]; exact hle
  rw [hnext]
  refine ⟨by rw [f2, h.current], h.dt, f4, ?_⟩
  refine ⟨by rw [f1, h.titype], by rw [f3, h.inc_eq], ?_, ?_, ?_⟩
  · show b.current + b.dt = _
    rw [f2, h.current, h.dt]; rfl
  · -- step size of the next item
    by_cases hlt : b.dt < dtMax
    · have hc := h.fresh hlt
      have hd := h.dt
      have hmin : expStepSize dtMin dtMax inc len n = dtMin * inc ^ (n / len) := by
        rw [hd] at hlt
        unfold expStepSize at hlt ⊢
        rcases min_choice (dtMin * inc ^ (n / len)) dtMax with e | e
        · exact e
        · rw [e] at hlt; exact absurd hlt (lt_irrefl _)
      unfold ExpStep.bump
      simp only [fl_lt, hlt, decide_true, Bool.true_and, beq_iff_eq]
      have hmod : b.count < len := by rw [hc]; exact Nat.mod_lt _ hl
      by_cases hcl : b.count + 1 = len
      · have hdiv : (n + 1) / len = n / len + 1 := by
          rw [hc] at hcl
          have := Nat.div_add_mod n len
          have e : n + 1 = len * (n / len + 1) := by rw [Nat.mul_add]; omega
          rw [e, Nat.mul_div_cancel_left _ hl]
        simp only [hcl, if_true]
        rw [hd, hmin, f3, h.inc_eq]
        unfold expStepSize
        rw [hdiv, pow_succ]
        simp only [fl_mul, decide_eq_true_eq]
        rw [show dtMin * inc ^ (n / len) * inc = dtMin * (inc ^ (n / len) * inc) by ring]
        split
        · rename_i hgt; rw [min_eq_right hgt.le]
        · rename_i hgt; rw [min_eq_left (not_lt.1 hgt)]
      · have hdiv : (n + 1) / len = n / len := by
          rw [hc] at hcl hmod
          have := Nat.div_add_mod n len
          have e : n + 1 = (n % len + 1) + len * (n / len) := by omega
          rw [e, Nat.add_mul_div_left _ _ hl, Nat.div_eq_of_lt (by omega), Nat.zero_add]
        simp only [hcl, if_false]
        rw [hd]
        unfold expStepSize
        rw [hdiv]
    · have hge : dtMax ≤ b.dt := not_lt.1 hlt
      unfold ExpStep.bump
      simp only [fl_lt, hlt, decide_false, Bool.false_and, Bool.false_eq_true, if_false]
      have hm := expStepSize_mono dtMin dtMax inc len h0 h1 (Nat.le_succ n)
      have hle2 : expStepSize dtMin dtMax inc len (n + 1) ≤ dtMax := min_le_right _ _
      rw [h.dt] at hge ⊢
      linarith
  · intro hlt
    -- the count is right whenever the step can still grow
    by_cases hbl : b.dt < dtMax
    · have hc := h.fresh hbl
      have hmod : b.count < len := by rw [hc]; exact Nat.mod_lt _ hl
      unfold ExpStep.bump
      simp only [fl_lt, hbl, decide_true, Bool.true_and, beq_iff_eq]
      by_cases hcl : b.count + 1 = len
      · simp only [hcl, if_true]
        rw [hc] at hcl
        have := Nat.div_add_mod n len
        have e : n + 1 = len * (n / len + 1) := by rw [Nat.mul_add]; omega
        rw [e, Nat.mul_mod_right]
      · simp only [hcl, if_false]
        rw [hc] at hcl hmod ⊢
        have := Nat.div_add_mod n len
        have e : n + 1 = (n % len + 1) + len * (n / len) := by omega
        conv_rhs => rw [e, Nat.add_mul_mod_self_left, Nat.mod_eq_of_lt (by omega)]
    · exfalso
      unfold ExpStep.bump at hlt
      simp only [fl_lt, hbl, decide_false, Bool.false_and, Bool.false_eq_true, if_false] at hlt

/-- a clock whose time is past its limit stays there -/
theorem ExpStep.past_limit {F : Type} [Fl F] {c : ExpStep F} {a b : F} {l : Nat}
    (ht : c.titype = .exponential a b l) (h : Fl.le c.current c.tmax = false) :
    c.next.2 = .ok none ∧ c.next.1.titype = c.titype ∧ c.next.1.current = c.current ∧
      c.next.1.tmax = c.tmax := by
  obtain ⟨f1, f2, f3, f4⟩ := ExpStep.bump_fields c b l
  unfold ExpStep.next
  rw [ht]
  simp only [f2, f4, h, Bool.false_eq_true, if_false]
  exact ⟨trivial, by rw [f1, ht], trivial, trivial⟩

theorem ExpStep.past_limit_forever {F : Type} [Fl F] (k : Nat) {c : ExpStep F} {a b : F} {l : Nat}
    (ht : c.titype = .exponential a b l) (h : Fl.le c.current c.tmax = false) :
    output ExpStep.next k c = .ok none ∧
    (stateAfter ExpStep.next k c).current = c.current ∧ (stateAfter ExpStep.next k c).tmax = c.tmax := by
  induction k generalizing c with
  | zero => exact ⟨(ExpStep.past_limit ht h).1, rfl, rfl⟩
  | succ k ih =>
    obtain ⟨_, e2, e3, e4⟩ := ExpStep.past_limit ht h
    have := ih (c := c.next.1) (by rw [e2, ht]) (by rw [e3, e4]; exact h)
    rw [output_succ]
    exact ⟨this.1, by rw [stateAfter, this.2.1, e3], by rw [stateAfter, this.2.2, e4]⟩

/-- the whole schedule -/
theorem atItem_output (h0 : 0 ≤ dtMin) (h1 : 1 ≤ inc) (h2 : dtMin ≤ dtMax) (hl : 0 < len)
    (k : Nat) {c : ExpStep ℝ} {n : Nat} (h : AtItem dtMin dtMax inc len c n) :
    output ExpStep.next k c =
      .ok (if expTime dtMin dtMax inc len (n + k) ≤ c.tmax then
        some (expTime dtMin dtMax inc len (n + k)) else none) ∧
    (expTime dtMin dtMax inc len (n + k) ≤ c.tmax →
      (stateAfter ExpStep.next (k + 1) c).dt = expStepSize dtMin dtMax inc len (n + k)) := by
  induction k generalizing c n with
  | zero =>
    by_cases hle : c.current ≤ c.tmax
    · obtain ⟨e1, e2, e3, e4⟩ := atItem_step dtMin dtMax inc len h0 h1 h2 hl h hle
      have hle' := hle
      rw [h.current] at hle'
      refine ⟨?_, fun _ => e2⟩
      show c.next.2 = _
      rw [e1, Nat.add_zero, if_pos hle']
    · have hle' := hle
      rw [h.current] at hle'
      have := (ExpStep.past_limit h.titype (by simpa using hle)).1
      refine ⟨?_, fun hc => absurd hc hle'⟩
      show c.next.2 = _
      rw [this, Nat.add_zero, if_neg hle']
  | succ k ih =>
    by_cases hle : c.current ≤ c.tmax
    · obtain ⟨e1, e2, e3, e4⟩ := atItem_step dtMin dtMax inc len h0 h1 h2 hl h hle
      have := ih e4
      rw [e3] at this
      rw [output_succ, this.1, show n + 1 + k = n + (k + 1) by ring]
      refine ⟨rfl, fun hc => ?_⟩
      rw [show n + (k + 1) = n + 1 + k by ring] at hc ⊢
      exact this.2 hc
    · have hgt : ¬ expTime dtMin dtMax inc len (n + (k + 1)) ≤ c.tmax := by
        intro hc
        apply hle
        rw [h.current]
        exact le_trans (expTime_mono dtMin dtMax inc len h0 h1 h2 (by omega)) hc
      have := (ExpStep.past_limit_forever (k + 1) h.titype (by simpa using hle)).1
      refine ⟨by rw [this, if_neg hgt], fun hc => absurd hc hgt⟩

theorem atItem_fresh (h1 : dtMin ≤ dtMax) (hl : 0 < len) {c : ExpStep ℝ}
    (ht : c.titype = .exponential dtMin dtMax len) (hi : c.inc = inc) (hc : c.current = 0)
    (hd : c.dt = dtMin) (hn : c.count = 0) : AtItem dtMin dtMax inc len c 0 := by
  have hb : c.bump dtMax len = c := by
    unfold ExpStep.bump
    have : (c.count == len) = false := by rw [hn]; simp; omega
    simp [this]
  refine ⟨ht, hi, by rw [hc]; rfl, ?_, ?_⟩
  · rw [hb, hd]; unfold expStepSize; simp [h1]
  · intro _; rw [hb, hn]; simp
end Schedule

end Moledyn
