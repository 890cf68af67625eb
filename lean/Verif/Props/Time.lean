import Verif.Lemmas.Time
/-
Property theorems C11-C18 (src/time_mod/mod.rs).  `output next k c` is what call number `k` (from 0) of
`next` returns on the clock `c`.
-/
namespace Moledyn.Props

/-! ## generic facts -/

private theorem const_next_out {F : Type} [Fl F] (c : ConstStep F) :
    c.next.2 = .ok (if Fl.le c.current c.tmax then some c.current else none) := by
  unfold ConstStep.next; simp only; split <;> rfl

private theorem const_next_tmax {F : Type} [Fl F] (c : ConstStep F) : c.next.1.tmax = c.tmax := by
  unfold ConstStep.next; simp only; split <;> rfl

private theorem const_state_tmax {F : Type} [Fl F] (k : Nat) (c : ConstStep F) :
    (stateAfter ConstStep.next k c).tmax = c.tmax := by
  induction k generalizing c with
  | zero => rfl
  | succ k ih => rw [stateAfter, ih, const_next_tmax]

private theorem const_stuck {F : Type} [Fl F] (k : Nat) (c : ConstStep F)
    (h : Fl.le c.current c.tmax = false) : stateAfter ConstStep.next k c = c := by
  induction k with
  | zero => rfl
  | succ k ih =>
    rw [stateAfter_succ, ih]
    unfold ConstStep.next; simp [h]

private theorem exp_type {F : Type} [Fl F] {c : ExpStep F} (h : c.Reachable) :
    ∃ a b l, c.titype = .exponential a b l := by
  induction h with
  | new hc => unfold ExpStep.new at hc; split at hc <;> simp at hc; exact ⟨_, _, _, by rw [← hc]⟩
  | convert hc =>
    unfold ExpStep.convertFrom at hc; split at hc <;> simp at hc; exact ⟨_, _, _, by rw [← hc]⟩
  | @next c _ ih =>
    obtain ⟨a, b, l, ht⟩ := ih
    refine ⟨a, b, l, ?_⟩
    unfold ExpStep.next
    rw [ht]; simp only
    split <;> simp [(ExpStep.bump_fields c b l).1, ht]
  | @renew c _ ih => obtain ⟨a, b, l, ht⟩ := ih; exact ⟨a, b, l, by unfold ExpStep.renew; rw [ht]⟩
  | setTmax t _ ih => unfold ExpStep.setTmax; split; · exact ih
                      split <;> exact ih
  | @setInc c x _ ih =>
    obtain ⟨a, b, l, ht⟩ := ih
    refine ⟨a, b, l, ?_⟩
    unfold ExpStep.setInc
    split
    · exact ht
    · rw [ht]; simp only; split <;> rfl

private theorem exp_next_out {F : Type} [Fl F] {c : ExpStep F} {a b : F} {l : Nat}
    (ht : c.titype = .exponential a b l) :
    c.next.2 = .ok (if Fl.le c.current c.tmax then some c.current else none) := by
  obtain ⟨_, f2, _, f4⟩ := ExpStep.bump_fields c b l
  unfold ExpStep.next
  rw [ht]; simp only [f2, f4]; split <;> rfl

private theorem exp_next_tmax {F : Type} [Fl F] {c : ExpStep F} {a b : F} {l : Nat}
    (ht : c.titype = .exponential a b l) : c.next.1.tmax = c.tmax := by
  obtain ⟨_, f2, _, f4⟩ := ExpStep.bump_fields c b l
  unfold ExpStep.next
  rw [ht]; simp only; split <;> simp [f4]

private theorem exp_next_current {F : Type} [Fl F] {c : ExpStep F} {a b : F} {l : Nat}
    (ht : c.titype = .exponential a b l) :
    c.next.1.current = if Fl.le c.current c.tmax then c.current + c.next.1.dt else c.current := by
  obtain ⟨_, f2, _, f4⟩ := ExpStep.bump_fields c b l
  unfold ExpStep.next
  rw [ht]; simp only [f2, f4]; split <;> simp [f2]

private theorem exp_state_tmax {F : Type} [Fl F] (k : Nat) {c : ExpStep F} (h : c.Reachable) :
    (stateAfter ExpStep.next k c).tmax = c.tmax := by
  induction k generalizing c with
  | zero => rfl
  | succ k ih =>
    obtain ⟨a, b, l, ht⟩ := exp_type h
    rw [stateAfter, ih h.next, exp_next_tmax ht]

theorem maxVal_ge : (1000 : ℝ) ≤ Fl.maxVal := by
  have h3 : (1 : ℝ) ≤ 2 ^ (971 : ℕ) := one_le_pow₀ (by norm_num)
  show (1000 : ℝ) ≤ (2 : ℝ) ^ (1024 : ℕ) - 2 ^ (971 : ℕ)
  rw [show (1024 : ℕ) = 971 + 53 from rfl, pow_add]
  generalize (2 : ℝ) ^ (971 : ℕ) = z at h3
  have : (2 : ℝ) ^ (53 : ℕ) ≥ 1001 := by norm_num
  nlinarith

/-! ## C11: the constant clock -/

/-- Exact arithmetic: the `k`-th call on a clock built by `new(dt)` and limited by `set_tmax(tmax)`
returns `k * dt` if that is at most the limit, and `None` otherwise. -/
theorem C11_kth_call (dt tmax : ℝ) (c : ConstStep ℝ) (hnew : ConstStep.new dt = .ok c)
    (hset : (c.setTmax tmax).2 = .ok ()) (hbig : 1 / 10 ^ 10 ≤ tmax) (k : Nat) :
    output ConstStep.next k (c.setTmax tmax).1 =
      .ok (if k * dt ≤ tmax then some (k * dt) else none) := by
  unfold ConstStep.new at hnew
  split at hnew <;> simp at hnew
  rename_i hlt
  have hdt : 0 ≤ dt := by
    simp only [fl_lt, decide_eq_true_eq, not_lt, fl_lit] at hlt
    refine le_trans ?_ hlt
    positivity
  have h0 : ¬ tmax < 0 := by
    have : (0 : ℝ) < 1 / 10 ^ 10 := by positivity
    linarith
  have h1 : ¬ tmax < ((1 / 10 ^ 10 : ℚ) : ℝ) := by push_cast; exact not_lt.2 hbig
  subst hnew
  have e : ConstStep.setTmax (⟨.constant dt, 0, dt, Fl.maxVal⟩ : ConstStep ℝ) tmax =
      (⟨.constant dt, 0, dt, tmax⟩, .ok ()) := by
    unfold ConstStep.setTmax
    simp only [fl_lt, Rat.cast_zero, h0, decide_false, Bool.false_eq_true, if_false, fl_lit, h1]
  rw [e, ConstStep.output_real k _ hdt]
  simp

/-- Exact arithmetic: that clock returns exactly `⌊tmax/dt⌋ + 1` items. -/
theorem C11_item_count (dt tmax : ℝ) (c : ConstStep ℝ) (hnew : ConstStep.new dt = .ok c)
    (hset : (c.setTmax tmax).2 = .ok ()) (hbig : 1 / 10 ^ 10 ≤ tmax) (k : Nat) :
    (∃ t, output ConstStep.next k (c.setTmax tmax).1 = .ok (some t)) ↔ k < ⌊tmax / dt⌋₊ + 1 := by
  rw [C11_kth_call dt tmax c hnew hset hbig k]
  have hdt : 0 < dt := by
    unfold ConstStep.new at hnew
    split at hnew <;> simp at hnew
    rename_i hlt
    simp only [fl_lt, decide_eq_true_eq, not_lt, fl_lit] at hlt
    refine lt_of_lt_of_le ?_ hlt
    positivity
  have h0 : 0 ≤ tmax / dt := by
    have : (0 : ℝ) < 1 / 10 ^ 10 := by positivity
    apply div_nonneg <;> linarith
  rw [Nat.lt_succ_iff, Nat.le_floor_iff h0, le_div_iff₀ hdt]
  split <;> simp_all

/-- A limit from 0 up to 1e-10 is accepted and means "no limit": the clock behaves as if limited by the largest
float. -/
theorem C11_no_limit (dt t : ℝ) (c : ConstStep ℝ) (hnew : ConstStep.new dt = .ok c) (h0 : 0 ≤ t)
    (ht : t < 1 / 10 ^ 10) (k : Nat) :
    (c.setTmax t).2 = .ok () ∧ output ConstStep.next k (c.setTmax t).1 =
      .ok (if k * dt ≤ Fl.maxVal then some (k * dt) else none) := by
  unfold ConstStep.new at hnew
  split at hnew <;> simp at hnew
  rename_i hlt
  have hdt : 0 ≤ dt := by
    simp only [fl_lt, decide_eq_true_eq, not_lt, fl_lit] at hlt
    refine le_trans ?_ hlt
    positivity
  subst hnew
  have e : ConstStep.setTmax (⟨.constant dt, 0, dt, Fl.maxVal⟩ : ConstStep ℝ) t =
      (⟨.constant dt, 0, dt, Fl.maxVal⟩, .ok ()) := by
    have h1 : t < ((1 / 10 ^ 10 : ℚ) : ℝ) := by push_cast; exact ht
    unfold ConstStep.setTmax
    rw [if_neg (by simpa using h0), if_pos (by simpa only [fl_lt, fl_lit, decide_eq_true_eq] using h1)]
  rw [e, ConstStep.output_real k _ hdt]
  simp

/-- A negative limit is refused and changes nothing. -/
theorem C11_negative_limit {F : Type} [Fl F] (c : ConstStep F) (t : F) (h : Fl.lt t Fl.zero = true) :
    c.setTmax t = (c, .err .invalidArgumentInput) := by
  unfold ConstStep.setTmax
  rw [if_pos h]

example : ∃ c : ConstStep ℝ, ConstStep.new (1 / 4) = .ok c ∧ (c.setTmax 1).2 = .ok () ∧
    (1 : ℝ) / 10 ^ 10 ≤ 1 ∧
    output ConstStep.next 3 (c.setTmax 1).1 = .ok (some (3 / 4)) ∧
    output ConstStep.next 4 (c.setTmax 1).1 = .ok (some 1) ∧
    output ConstStep.next 5 (c.setTmax 1).1 = .ok none := by
  have h1 : ConstStep.new (1 / 4 : ℝ) = .ok ⟨.constant (1/4), Fl.zero, 1/4, Fl.maxVal⟩ := by
    unfold ConstStep.new
    rw [if_neg]; simp only [fl_lt, fl_lit, decide_eq_true_eq]; push_cast; norm_num
  have h2 : ((⟨.constant (1/4), Fl.zero, 1/4, Fl.maxVal⟩ : ConstStep ℝ).setTmax 1).2 = .ok () := by
    unfold ConstStep.setTmax
    rw [if_neg (by simp)]
    split <;> rfl
  refine ⟨_, h1, h2, by norm_num, ?_, ?_, ?_⟩ <;>
    (rw [C11_kth_call _ _ _ h1 h2 (by norm_num)]; norm_num)

/-! ## C12: clocks under rounding -/

private theorem const_mono {R : Rounding} {c : ConstStep (RF R)} (h : c.Reachable) {j k : Nat}
    (hjk : j ≤ k) :
    (stateAfter ConstStep.next j c).current.val ≤ (stateAfter ConstStep.next k c).current.val := by
  induction hjk with
  | refl => exact le_rfl
  | @step m _ ih =>
    refine le_trans ih ?_
    rw [stateAfter_succ]
    obtain ⟨h1, _, h3⟩ := ConstStep.reachable_inv (ConstStep.stateAfter_inv h m)
    generalize stateAfter ConstStep.next m c = d at *
    unfold ConstStep.next; simp only
    split
    · exact RF.le_add h1 h3
    · exact le_rfl

/-- Constant clock, any monotone rounding, any history: times returned by successive calls never
decrease, start at the clock's current time, are at most `tmax`, and after the first `None` every later
call returns `None`.  `next` never fails. -/
theorem C12_const_clock (R : Rounding) (c : ConstStep (RF R)) (h : c.Reachable) :
    (∀ k, ∃ o, output ConstStep.next k c = .ok o) ∧
    (∀ t, output ConstStep.next 0 c = .ok (some t) → t = c.current) ∧
    (∀ k t, output ConstStep.next k c = .ok (some t) → t.val ≤ c.tmax.val) ∧
    (∀ j k s t, j ≤ k → output ConstStep.next j c = .ok (some s) →
      output ConstStep.next k c = .ok (some t) → s.val ≤ t.val) ∧
    (∀ j k, j ≤ k → output ConstStep.next j c = .ok none → output ConstStep.next k c = .ok none) := by
  have hout : ∀ k, output ConstStep.next k c =
      .ok (if Fl.le (stateAfter ConstStep.next k c).current c.tmax then
        some (stateAfter ConstStep.next k c).current else none) := by
    intro k
    unfold output
    rw [const_next_out, const_state_tmax]
  refine ⟨fun k => ⟨_, hout k⟩, ?_, ?_, ?_, ?_⟩
  · intro t; rw [hout]; intro hh
    change Res.ok (if Fl.le c.current c.tmax then some c.current else none) = _ at hh
    split at hh <;> simp at hh; exact hh.symm
  · intro k t; rw [hout]; split <;> simp
    intro ht; subst ht; rename_i hle; simpa using hle
  · intro j k s t hjk; rw [hout, hout]
    split <;> split <;> simp
    intro e1 e2; subst e1 e2; exact const_mono h hjk
  · intro j k hjk; rw [hout, hout]
    split <;> simp
    rename_i hle
    simp only [RF.le_val, decide_eq_true_eq, not_le] at hle
    exact lt_of_lt_of_le hle (const_mono h hjk)

private theorem exp_mono {R : Rounding} {c : ExpStep (RF R)} (h : c.Reachable) {j k : Nat}
    (hjk : j ≤ k) :
    (stateAfter ExpStep.next j c).current.val ≤ (stateAfter ExpStep.next k c).current.val := by
  induction hjk with
  | refl => exact le_rfl
  | @step m _ ih =>
    refine le_trans ih ?_
    have hr := ExpStep.stateAfter_inv h m
    have hr' := ExpStep.stateAfter_inv h (m + 1)
    rw [stateAfter_succ] at hr' ⊢
    obtain ⟨a, b, l, ht⟩ := exp_type hr
    obtain ⟨h1, _⟩ := ExpStep.reachable_inv hr
    have h3 := (ExpStep.reachable_inv hr').2.2.1
    rw [exp_next_current ht]
    split
    · exact RF.le_add h1 h3
    · exact le_rfl

/-- Exponential clock: the same, for any monotone rounding and any history (including `set_inc`). -/
theorem C12_exp_clock (R : Rounding) (c : ExpStep (RF R)) (h : c.Reachable) :
    (∀ k, ∃ o, output ExpStep.next k c = .ok o) ∧
    (∀ t, output ExpStep.next 0 c = .ok (some t) → t = c.current) ∧
    (∀ k t, output ExpStep.next k c = .ok (some t) → t.val ≤ c.tmax.val) ∧
    (∀ j k s t, j ≤ k → output ExpStep.next j c = .ok (some s) →
      output ExpStep.next k c = .ok (some t) → s.val ≤ t.val) ∧
    (∀ j k, j ≤ k → output ExpStep.next j c = .ok none → output ExpStep.next k c = .ok none) := by
  have hout : ∀ k, output ExpStep.next k c =
      .ok (if Fl.le (stateAfter ExpStep.next k c).current c.tmax then
        some (stateAfter ExpStep.next k c).current else none) := by
    intro k
    obtain ⟨a, b, l, ht⟩ := exp_type (ExpStep.stateAfter_inv h k)
    unfold output
    rw [exp_next_out ht, exp_state_tmax k h]
  refine ⟨fun k => ⟨_, hout k⟩, ?_, ?_, ?_, ?_⟩
  · intro t; rw [hout]; intro hh
    change Res.ok (if Fl.le c.current c.tmax then some c.current else none) = _ at hh
    split at hh <;> simp at hh; exact hh.symm
  · intro k t; rw [hout]; split <;> simp
    intro ht; subst ht; rename_i hle; simpa using hle
  · intro j k s t hjk; rw [hout, hout]
    split <;> split <;> simp
    intro e1 e2; subst e1 e2; exact exp_mono h hjk
  · intro j k hjk; rw [hout, hout]
    split <;> simp
    rename_i hle
    simp only [RF.le_val, decide_eq_true_eq, not_le] at hle
    exact lt_of_lt_of_le hle (exp_mono h hjk)

/-- A clock that was only built and configured, or just renewed, starts at zero. -/
theorem C12_starts_at_zero (R : Rounding) (c : ConstStep (RF R)) (d : ExpStep (RF R))
    (hc : c.Fresh) (hd : d.Fresh) : c.current.val = 0 ∧ d.current.val = 0 := by
  constructor
  · induction hc with
    | new h => unfold ConstStep.new at h; split at h <;> simp at h; rw [← h]; exact RF.lit_zero_val
    | convert h =>
      unfold ConstStep.convertFrom at h; split at h <;> simp at h; rw [← h]; exact RF.lit_zero_val
    | setTmax t _ ih =>
      unfold ConstStep.setTmax; split; · exact ih
      split <;> exact ih
  · induction hd with
    | new h => unfold ExpStep.new at h; split at h <;> simp at h; rw [← h]; exact RF.lit_zero_val
    | convert h =>
      unfold ExpStep.convertFrom at h; split at h <;> simp at h; rw [← h]; exact RF.lit_zero_val
    | setTmax t _ ih =>
      unfold ExpStep.setTmax; split; · exact ih
      split <;> exact ih
    | setInc x _ ih =>
      unfold ExpStep.setInc; split; · exact ih
      split
      · split <;> exact ih
      · exact ih

/-- a reachable clock with a non-trivial rounding: step 3/8, after one call. -/
example : ∃ c : ConstStep (RF Rounding.eighths), c.Reachable ∧ c.current.val = 3 / 8 := by
  have e8 : ∀ n : ℤ, 0 ≤ n → Rounding.eighths.rnd (n / 8) = n / 8 := by
    intro n hn
    have : (0 : ℝ) ≤ (n : ℝ) / 8 := by
      have : (0 : ℝ) ≤ n := by exact_mod_cast hn
      positivity
    simp only [Rounding.eighths, this, if_true]
    rw [show (n : ℝ) / 8 * 8 = n by ring, Int.floor_intCast]
  have hz : Rounding.eighths.rnd 0 = 0 := Rounding.eighths.zero
  have hlow : Rounding.eighths.rnd ((1 / 10 ^ 15 : ℚ) : ℝ) ≤ 3 / 8 := by
    have := Rounding.eighths.mono ((1 / 10 ^ 15 : ℚ) : ℝ) (((3 : ℤ) : ℝ) / 8) (by push_cast; norm_num)
    rw [e8 3 (by norm_num)] at this
    simpa using this
  have hnew : ConstStep.new (⟨3 / 8⟩ : RF Rounding.eighths) =
      .ok ⟨.constant ⟨3/8⟩, Fl.zero, ⟨3/8⟩, Fl.maxVal⟩ := by
    unfold ConstStep.new
    rw [if_neg]
    simp only [RF.lt_val, RF.val_lit, decide_eq_true_eq, not_lt]
    exact hlow
  refine ⟨_, (ConstStep.Reachable.new hnew).next, ?_⟩
  unfold ConstStep.next
  have hmax : (0 : ℝ) ≤ Rounding.eighths.rnd ((2 : ℝ) ^ (1024 : ℕ) - 2 ^ (971 : ℕ)) := by
    have := Rounding.eighths.mono 0 ((2 : ℝ) ^ (1024 : ℕ) - 2 ^ (971 : ℕ)) 
      (sub_nonneg.2 (pow_le_pow_right₀ (by norm_num) (by norm_num)))
    rwa [hz] at this
  simp only [RF.le_val, RF.lit_zero_val]
  rw [if_pos (by simpa [Fl.maxVal] using hmax)]
  simp only [RF.val_add, RF.lit_zero_val]
  have := e8 3 (by norm_num)
  rw [zero_add]; simpa using this

/-! ## C13: the exponential schedule -/

theorem exp_fresh_real {c : ExpStep ℝ} (h : c.Fresh) :
    ∃ a b l, c.titype = .exponential a b l ∧ 0 ≤ a ∧ a ≤ b ∧ 0 < l ∧ c.current = 0 ∧ c.dt = a ∧
      c.count = 0 := by
  induction h with
  | @new a b l c hc =>
    unfold ExpStep.new at hc; split at hc <;> simp at hc
    rename_i hlt
    simp only [fl_lt, fl_lit, Bool.or_eq_true, decide_eq_true_eq, not_or, not_lt, beq_iff_eq] at hlt
    have : (0 : ℝ) ≤ ((1 / 10 ^ 15 : ℚ) : ℝ) := by push_cast; positivity
    exact ⟨a, b, l, by rw [← hc], le_trans this hlt.1.1, hlt.1.2, by omega, by rw [← hc],
      by rw [← hc], by rw [← hc]⟩
  | @convert a b l tmax c hc =>
    unfold ExpStep.convertFrom at hc; split at hc <;> simp at hc
    rename_i hlt
    simp only [fl_lt, fl_lit, Bool.or_eq_true, decide_eq_true_eq, not_or, not_lt, Rat.cast_zero] at hlt
    exact ⟨a, b, l, by rw [← hc], hlt.1.1.2, hlt.1.2, by omega, by rw [← hc], by rw [← hc],
      by rw [← hc]⟩
  | setTmax t _ ih =>
    unfold ExpStep.setTmax; split; · exact ih
    split <;> exact ih
  | setInc x _ ih =>
    unfold ExpStep.setInc; split; · exact ih
    split
    · split <;> exact ih
    · exact ih

/-- Exact arithmetic, exponential clock with growth ratio at least 1: call `n` returns item `n` of the
schedule (`expTime`, `expStepSize`) as long as its time is within the limit, and the `into_diff`
iterator pairs it with the scheduled step. -/
theorem C13_schedule (c : ExpStep ℝ) (h : c.Fresh) (hinc : 1 ≤ c.inc) (a b : ℝ) (l : Nat)
    (ht : c.titype = .exponential a b l) (n : Nat) :
    output (TimeDiff.next ExpStep.next ExpStep.dt) n (intoDiff c) =
      .ok (if expTime a b c.inc l n ≤ c.tmax then
        some (expTime a b c.inc l n, expStepSize a b c.inc l n) else none) := by
  obtain ⟨a', b', l', ht', h1, h2, h3, h4, h5, h6⟩ := exp_fresh_real h
  rw [ht] at ht'
  obtain ⟨rfl, rfl, rfl⟩ := by simpa using ht'
  have hat := atItem_fresh a b c.inc l h2 h3 ht rfl h4 h5 h6
  obtain ⟨o1, o2⟩ := atItem_output a b c.inc l h1 hinc h2 h3 n hat
  have hst : ∀ k, stateAfter (TimeDiff.next ExpStep.next ExpStep.dt) k (intoDiff c) =
      ⟨stateAfter ExpStep.next k c⟩ := by
    intro k
    induction k with
    | zero => rfl
    | succ k ih => rw [stateAfter_succ, stateAfter_succ, ih]; rfl
  unfold output
  rw [hst]
  unfold TimeDiff.next
  simp only
  rw [← stateAfter_succ]
  have o1' : (ExpStep.next (stateAfter ExpStep.next n c)).2 = _ := o1
  rw [o1', Nat.zero_add]
  rw [Nat.zero_add] at o2
  by_cases hle : expTime a b c.inc l n ≤ c.tmax
  · simp [hle, o2 hle]
  · simp [hle]

/-- The scheduled steps never shrink, stay within `[dt_min, dt_max]`, and are constant over each block of
`length` items. -/
theorem C13_steps (a b inc : ℝ) (l : Nat) (h0 : 0 ≤ a) (hab : a ≤ b) (hinc : 1 ≤ inc) :
    (∀ m n, m ≤ n → expStepSize a b inc l m ≤ expStepSize a b inc l n) ∧
    (∀ n, a ≤ expStepSize a b inc l n ∧ expStepSize a b inc l n ≤ b) ∧
    (∀ q i j, i < l → j < l → expStepSize a b inc l (q * l + i) = expStepSize a b inc l (q * l + j)) ∧
    (∀ q, 0 < l → expStepSize a b inc l (q * l) = min (a * inc ^ q) b) := by
  refine ⟨fun m n h => expStepSize_mono a b inc l h0 hinc h,
    fun n => ⟨expStepSize_ge a b inc l h0 hinc hab n, min_le_right _ _⟩, ?_, ?_⟩
  · intro q i j hi hj
    have hl : 0 < l := by omega
    have e : ∀ i, i < l → (q * l + i) / l = q := by
      intro i hi
      rw [Nat.add_comm, Nat.add_mul_div_right _ _ hl, Nat.div_eq_of_lt hi, Nat.zero_add]
    unfold expStepSize
    rw [e i hi, e j hj]
  · intro q hl
    unfold expStepSize
    rw [Nat.mul_div_cancel _ hl]

/-- The schedule applies to every clock that `new` accepts: its ratio is at least 1. -/
theorem C13_new_ratio (a b : ℝ) (l : Nat) (c : ExpStep ℝ) (h : ExpStep.new a b l = .ok c) :
    1 ≤ c.inc ∧ c.titype = .exponential a b l ∧
    c.inc = if l = 1 then 6 / 5 else if l < 10 then (l : ℝ) / 2 else 10 := by
  unfold ExpStep.new at h
  split at h <;> simp at h
  rename_i hlt
  simp only [Bool.or_eq_true, not_or, beq_iff_eq] at hlt
  have hl : l ≠ 0 := hlt.2
  have hinc : c.inc = if l = 1 then 6 / 5 else if l < 10 then (l : ℝ) / 2 else 10 := by
    rw [← h]
    simp only [fl_lit]
    split
    · push_cast; norm_num
    · split
      · rfl
      · push_cast; norm_num
  refine ⟨?_, by rw [← h], hinc⟩
  rw [hinc]
  split
  · norm_num
  · split
    · have : (2 : ℝ) ≤ l := by exact_mod_cast (by omega : 2 ≤ l)
      linarith
    · norm_num

/-- concrete: steps 1,1,1,1 then 2 (length 4, ratio 4/2), then the cap 3. -/
example : ∃ c : ExpStep ℝ, ExpStep.new 1 3 4 = .ok c ∧ c.Fresh ∧
    output (TimeDiff.next ExpStep.next ExpStep.dt) 4 (intoDiff c) = .ok (some (4, 2)) ∧
    output (TimeDiff.next ExpStep.next ExpStep.dt) 8 (intoDiff c) = .ok (some (12, 3)) := by
  have hn : ∃ c : ExpStep ℝ, ExpStep.new 1 3 4 = .ok c ∧ c.tmax = Fl.maxVal := by
    unfold ExpStep.new
    rw [if_neg]
    · exact ⟨_, rfl, rfl⟩
    · simp only [fl_lt, fl_lit]; push_cast; norm_num
  obtain ⟨c, hc, hm⟩ := hn
  obtain ⟨h1, h2, h3⟩ := C13_new_ratio 1 3 4 c hc
  have hmax := maxVal_ge
  have h3 : c.inc = 2 := by rw [h3]; norm_num
  refine ⟨c, hc, .new hc, ?_, ?_⟩ <;>
  · rw [C13_schedule c (.new hc) h1 1 3 4 h2, h3, hm]
    have : ∀ n, expStepSize 1 3 2 4 n = min ((2 : ℝ) ^ (n / 4)) 3 := by
      intro n; simp [expStepSize]
    have e : expTime 1 3 2 4 4 = 4 ∧ expTime 1 3 2 4 8 = 12 := by
      norm_num [expTime, this]
    rw [if_pos (by first | rw [e.1]; linarith | rw [e.2]; linarith)]
    first | rw [e.1, this]; norm_num | rw [e.2, this]; norm_num

/-! ## C14: termination -/

/-- Exact arithmetic: a constant clock accepted by `new` and given any limit returns `None` from call
number `⌊tmax/dt⌋ + 1` on. -/
theorem C14_const_terminates (dt t : ℝ) (c : ConstStep ℝ) (hnew : ConstStep.new dt = .ok c) (k : Nat)
    (hk : (c.setTmax t).1.tmax / dt < k) :
    output ConstStep.next k (c.setTmax t).1 = .ok none := by
  have hd : c.dt = dt ∧ c.current = 0 ∧ 0 < dt := by
    unfold ConstStep.new at hnew
    split at hnew <;> simp at hnew
    rename_i hlt
    simp only [fl_lt, decide_eq_true_eq, not_lt, fl_lit] at hlt
    subst hnew
    refine ⟨rfl, rfl, lt_of_lt_of_le ?_ hlt⟩
    positivity
  have hs : (c.setTmax t).1.dt = dt ∧ (c.setTmax t).1.current = 0 := by
    unfold ConstStep.setTmax
    split
    · exact ⟨hd.1, hd.2.1⟩
    · split <;> exact ⟨hd.1, hd.2.1⟩
  rw [ConstStep.output_real k _ (by rw [hs.1]; exact hd.2.2.le), hs.1, hs.2]
  rw [div_lt_iff₀ hd.2.2] at hk
  rw [if_neg (by linarith)]

/-- Exact arithmetic: an exponential clock accepted by `new` (ratio left as chosen by `new`) and given any
limit returns `None` from call number `⌊tmax/dt_min⌋ + 1` on. -/
theorem C14_exp_terminates (a b t : ℝ) (l : Nat) (c : ExpStep ℝ) (hnew : ExpStep.new a b l = .ok c)
    (k : Nat) (hk : (c.setTmax t).1.tmax / a < k) :
    output ExpStep.next k (c.setTmax t).1 = .ok none := by
  have hfr : (c.setTmax t).1.Fresh := .setTmax t (.new hnew)
  obtain ⟨hi, hty, _⟩ := C13_new_ratio a b l c hnew
  have ha : 0 < a := by
    unfold ExpStep.new at hnew
    split at hnew <;> simp at hnew
    rename_i hlt
    simp only [fl_lt, fl_lit, Bool.or_eq_true, decide_eq_true_eq, not_or, not_lt] at hlt
    refine lt_of_lt_of_le ?_ hlt.1.1
    push_cast; positivity
  have hs : (c.setTmax t).1.inc = c.inc ∧ (c.setTmax t).1.titype = c.titype := by
    unfold ExpStep.setTmax
    split
    · exact ⟨rfl, rfl⟩
    · split <;> exact ⟨rfl, rfl⟩
  obtain ⟨a', b', l', ht', h1, h2, h3, h4, h5, h6⟩ := exp_fresh_real hfr
  rw [hs.2, hty] at ht'
  obtain ⟨rfl, rfl, rfl⟩ := by simpa using ht'
  have hat := atItem_fresh a b _ l h2 h3 (hs.2.trans hty) rfl h4 h5 h6
  rw [hs.1] at hat
  obtain ⟨o1, _⟩ := atItem_output a b c.inc l h1 hi h2 h3 k hat
  rw [o1, if_neg]
  rw [Nat.zero_add, not_le]
  rw [div_lt_iff₀ ha] at hk
  exact lt_of_lt_of_le hk (expTime_ge a b c.inc l h1 hi h2 k)

/-- The same with any ratio of at least 1 chosen by `set_inc`; see `C18_ratio` for when that holds. -/
theorem C14_exp_terminates_ratio (c : ExpStep ℝ) (h : c.Fresh) (hinc : 1 ≤ c.inc) (a b : ℝ) (l : Nat)
    (ht : c.titype = .exponential a b l) (ha : 0 < a) (k : Nat) (hk : c.tmax / a < k) :
    output ExpStep.next k c = .ok none := by
  obtain ⟨a', b', l', ht', h1, h2, h3, h4, h5, h6⟩ := exp_fresh_real h
  rw [ht] at ht'
  obtain ⟨rfl, rfl, rfl⟩ := by simpa using ht'
  have hat := atItem_fresh a b c.inc l h2 h3 ht rfl h4 h5 h6
  obtain ⟨o1, _⟩ := atItem_output a b c.inc l h1 hinc h2 h3 k hat
  rw [o1, if_neg]
  rw [Nat.zero_add, not_le]
  rw [div_lt_iff₀ ha] at hk
  exact lt_of_lt_of_le hk (expTime_ge a b c.inc l h1 hinc h2 k)

/-- `convert_from` accepts a zero step, and then the clock never ends: every call returns time 0. -/
theorem C14_zero_step_never_ends (tmax : ℝ) (h : 1 / 10 ^ 10 ≤ tmax) :
    ∃ c : ConstStep ℝ, ConstStep.convertFrom 0 tmax = .ok c ∧ c.tmax = tmax ∧
      ∀ k, output ConstStep.next k c = .ok (some 0) := by
  have h0 : (0 : ℝ) < 1 / 10 ^ 10 := by positivity
  have h1 : ¬ tmax < 0 := by linarith
  have h2 : ¬ tmax < ((1 / 10 ^ 10 : ℚ) : ℝ) := by push_cast; exact not_lt.2 h
  refine ⟨⟨.constant 0, 0, 0, tmax⟩, ?_, rfl, ?_⟩
  · unfold ConstStep.convertFrom
    simp only [fl_lt, Rat.cast_zero, h1, lt_irrefl, decide_false, Bool.or_self, Bool.false_eq_true,
      if_false, fl_lit, h2]
  · intro k
    rw [ConstStep.output_real k _ le_rfl]
    simp; linarith

/-- Likewise for the exponential clock: `convert_from` accepts `dt_min = 0`. -/
theorem C14_zero_exp_step_never_ends (tmax : ℝ) (h : 1 / 10 ^ 15 ≤ tmax) :
    ∃ c : ExpStep ℝ, ExpStep.convertFrom 0 1 10 tmax = .ok c ∧ c.tmax = tmax ∧
      ∀ k, output ExpStep.next k c = .ok (some 0) := by
  have h0 : (0 : ℝ) < 1 / 10 ^ 15 := by positivity
  have h1 : ¬ tmax < 0 := by linarith
  have h2 : ¬ tmax < ((1 / 10 ^ 15 : ℚ) : ℝ) := by push_cast; exact not_lt.2 h
  have hc : ∃ c : ExpStep ℝ, ExpStep.convertFrom 0 1 10 tmax = .ok c ∧ c.tmax = tmax ∧
      c.titype = .exponential 0 1 10 ∧ c.inc = 6 / 5 := by
    unfold ExpStep.convertFrom
    rw [if_neg (by simp [h1])]
    refine ⟨_, rfl, ?_, rfl, ?_⟩
    · simp only [fl_lt, fl_lit, h2]; simp
    · simp only [fl_lit]; push_cast; norm_num
  obtain ⟨c, hc, hm, ht, hi⟩ := hc
  refine ⟨c, hc, hm, fun k => ?_⟩
  obtain ⟨a', b', l', ht', e1, e2, e3, e4, e5, e6⟩ := exp_fresh_real (.convert hc)
  rw [ht] at ht'
  obtain ⟨rfl, rfl, rfl⟩ := by simpa using ht'
  have hat := atItem_fresh 0 1 (6/5) 10 e2 e3 ht hi e4 e5 e6
  obtain ⟨o1, _⟩ := atItem_output 0 1 (6/5) 10 e1 (by norm_num) e2 e3 k hat
  have hz : ∀ n, expTime 0 1 (6/5) 10 n = 0 := by
    intro n
    induction n with
    | zero => rfl
    | succ n ih => rw [expTime, ih]; simp [expStepSize]
  rw [o1, hz, hm, if_pos (by linarith)]

/-- A clock accepted by `new` can be made endless by `set_inc`: with `length = 1` the ratio becomes 1/2
and the times accumulate below 2, so a limit of 3 is never reached. -/
theorem C14_set_inc_can_make_it_endless :
    ∃ c : ExpStep ℝ, ExpStep.new 1 10 1 = .ok c ∧ (c.setInc 2).2 = .ok () ∧
      (((c.setInc 2).1).setTmax 3).2 = .ok () ∧
      ∀ k, ∃ t, output ExpStep.next k (((c.setInc 2).1).setTmax 3).1 = .ok (some t) := by
  have hn : ExpStep.new (1 : ℝ) 10 1 =
      .ok ⟨.exponential 1 10 1, 0, 1, Fl.lit (12 / 10), Fl.maxVal, 0⟩ := by
    unfold ExpStep.new
    rw [if_neg]
    · simp
    · simp only [fl_lt, fl_lit]; push_cast; norm_num
  have hi : (⟨.exponential 1 10 1, 0, 1, Fl.lit (12 / 10), Fl.maxVal, 0⟩ : ExpStep ℝ).setInc 2 =
      (⟨.exponential 1 10 1, 0, 1, 1 / 2, Fl.maxVal, 0⟩, .ok ()) := by
    unfold ExpStep.setInc
    simp
    norm_num
  have ht : (⟨.exponential 1 10 1, 0, 1, 1 / 2, Fl.maxVal, 0⟩ : ExpStep ℝ).setTmax 3 =
      (⟨.exponential 1 10 1, 0, 1, 1 / 2, 3, 0⟩, .ok ()) := by
    unfold ExpStep.setTmax
    have : ¬ (3 : ℝ) < ((1 / 10 ^ 15 : ℚ) : ℝ) := by push_cast; norm_num
    have h2 : ¬ (3 : ℝ) < 0 := by norm_num
    simp only [fl_lt, fl_lit, this, Rat.cast_zero, h2]
    simp
  refine ⟨_, hn, by rw [hi], by rw [hi, ht], ?_⟩
  rw [hi]
  simp only
  rw [ht]
  simp only
  -- after k+1 calls
  have hstep : ∀ k : Nat, stateAfter ExpStep.next (k + 1)
      (⟨.exponential 1 10 1, 0, 1, 1 / 2, 3, 0⟩ : ExpStep ℝ) =
      ⟨.exponential 1 10 1, 2 - 2 * (1 / 2) ^ (k + 1), (1 / 2) ^ k, 1 / 2, 3, 1⟩ := by
    intro k
    induction k with
    | zero =>
      simp only [stateAfter, ExpStep.next, ExpStep.bump]
      norm_num
    | succ k ih =>
      rw [stateAfter_succ, ih]
      have hp : (0 : ℝ) < (1 / 2) ^ k := by positivity
      have hp1 : ((1 : ℝ) / 2) ^ k ≤ 1 := pow_le_one₀ (by norm_num) (by norm_num)
      have c1 : ((1 : ℝ) / 2) ^ k < 10 := by linarith
      have c2 : ¬ (10 : ℝ) < (1 / 2) ^ k * (1 / 2) := by linarith
      have c3 : 2 - 2 * (1 / 2 : ℝ) ^ (k + 1) ≤ 3 := by rw [pow_succ]; linarith
      simp only [ExpStep.next, ExpStep.bump, fl_lt, fl_le, fl_mul, c1, c2, c3, decide_true,
        Bool.true_and, BEq.rfl, if_true, decide_false, Bool.false_eq_true, if_false, fl_add,
        Nat.zero_add]
      congr 1
      rw [pow_succ, pow_succ]; ring
  intro k
  cases k with
  | zero => exact ⟨0, by simp [output, stateAfter, ExpStep.next, ExpStep.bump]⟩
  | succ k =>
    have c3 : 2 - 2 * (1 / 2 : ℝ) ^ (k + 1) ≤ 3 := by
      have : (0 : ℝ) < (1 / 2) ^ (k + 1) := by positivity
      linarith
    refine ⟨2 - 2 * (1 / 2) ^ (k + 1), ?_⟩
    have : output ExpStep.next (k + 1) (⟨.exponential 1 10 1, 0, 1, 1 / 2, 3, 0⟩ : ExpStep ℝ) =
        (ExpStep.next (stateAfter ExpStep.next (k + 1)
          (⟨.exponential 1 10 1, 0, 1, 1 / 2, 3, 0⟩ : ExpStep ℝ))).2 := rfl
    rw [this, hstep, exp_next_out rfl]
    simp only [fl_le, c3, decide_true, if_true]

/-- a rounding that is exact up to 1 and drops the fraction beyond: the effect of losing low bits. -/
noncomputable def coarse : Rounding where
  rnd x := if |x| ≤ 1 then x else if 0 ≤ x then (⌊x⌋ : ℝ) else (⌈x⌉ : ℝ)
  mono x y h := by
    have fl1 : ∀ z : ℝ, 1 < z → (1 : ℝ) ≤ ⌊z⌋ := fun z hz => by
      exact_mod_cast Int.le_floor.2 (by push_cast; exact hz.le)
    have ce1 : ∀ z : ℝ, z < -1 → (⌈z⌉ : ℝ) ≤ -1 := fun z hz => by
      exact_mod_cast Int.ceil_le.2 (by push_cast; exact hz.le)
    rcases le_or_gt |x| 1 with hx | hx <;> rcases le_or_gt |y| 1 with hy | hy
    · simpa [hx, hy] using h
    · simp only [hx, if_true, not_le.2 hy, if_false]
      rw [abs_le] at hx
      rcases lt_abs.1 hy with h1 | h1
      · rw [if_pos (by linarith)]; exact le_trans hx.2 (fl1 y h1)
      · linarith
    · simp only [hy, if_true, not_le.2 hx, if_false]
      rw [abs_le] at hy
      rcases lt_abs.1 hx with h1 | h1
      · linarith
      · rw [if_neg (by linarith)]; exact le_trans (ce1 x (by linarith)) hy.1
    · simp only [not_le.2 hx, not_le.2 hy, if_false]
      rcases lt_abs.1 hx with h1 | h1
      · rw [if_pos (by linarith), if_pos (by linarith)]
        exact_mod_cast Int.floor_le_floor h
      · rw [if_neg (by linarith)]
        rcases lt_abs.1 hy with h2 | h2
        · rw [if_pos (by linarith)]
          linarith [fl1 y h2, ce1 x (by linarith)]
        · rw [if_neg (by linarith)]
          exact_mod_cast Int.ceil_le_ceil h
  idem x := by
    by_cases hx : |x| ≤ 1
    · simp [hx]
    · simp only [hx, if_false]
      by_cases h0 : 0 ≤ x
      · simp only [h0, if_true]
        split
        · rfl
        · split <;> simp
      · simp only [h0, if_false]
        split
        · rfl
        · split <;> simp
  zero := by simp
  odd x := by
    by_cases hx : |x| ≤ 1
    · simp [hx]
    · simp only [abs_neg, hx, if_false]
      rcases lt_or_gt_of_ne (show x ≠ 0 by rintro rfl; simp at hx) with h | h
      · rw [if_pos (by linarith), if_neg (by linarith), Int.floor_neg]; push_cast; ring
      · rw [if_neg (by linarith), if_pos h.le, Int.ceil_neg]; push_cast; ring

/-- Termination is not guaranteed under rounding: with a rounding for which `current + dt` rounds back to
`current`, a clock accepted by `new` and limited by `set_tmax` never returns `None`. -/
theorem C14_rounding_can_stall :
    ∃ c : ConstStep (RF coarse), ConstStep.new ⟨1 / 2⟩ = .ok c ∧ (c.setTmax ⟨2⟩).2 = .ok () ∧
      (c.setTmax ⟨2⟩).1.tmax.val = 2 ∧
      ∀ k, ∃ t, output ConstStep.next k (c.setTmax ⟨2⟩).1 = .ok (some t) := by
  have small : ∀ x : ℝ, |x| ≤ 1 → coarse.rnd x = x := fun x h => by simp [coarse, h]
  have r1 : coarse.rnd (1 + 1 / 2) = 1 := by
    have h1 : ¬ |(1 : ℝ) + 1 / 2| ≤ 1 := by rw [abs_of_pos (by norm_num)]; norm_num
    simp only [coarse, h1, if_false]
    rw [if_pos (by norm_num)]
    have : ⌊(1 : ℝ) + 1 / 2⌋ = 1 := by rw [Int.floor_eq_iff]; norm_num
    rw [this]; norm_num
  have hn : ConstStep.new (⟨1 / 2⟩ : RF coarse) = .ok ⟨.constant ⟨1/2⟩, Fl.zero, ⟨1/2⟩, Fl.maxVal⟩ := by
    unfold ConstStep.new
    rw [if_neg]
    simp only [RF.lt_val, RF.val_lit, decide_eq_true_eq, not_lt]
    rw [small _ (by push_cast; rw [abs_of_pos (by positivity)]; norm_num)]
    push_cast; norm_num
  have hs : (⟨.constant ⟨1/2⟩, Fl.zero, ⟨1/2⟩, Fl.maxVal⟩ : ConstStep (RF coarse)).setTmax ⟨2⟩ =
      (⟨.constant ⟨1/2⟩, Fl.zero, ⟨1/2⟩, ⟨2⟩⟩, .ok ()) := by
    unfold ConstStep.setTmax
    rw [if_neg (by simp only [RF.lt_val, RF.lit_zero_val]; norm_num), if_neg]
    simp only [RF.lt_val, RF.val_lit, decide_eq_true_eq, not_lt]
    rw [small _ (by push_cast; rw [abs_of_pos (by positivity)]; norm_num)]
    push_cast; norm_num
  refine ⟨_, hn, by rw [hs], by rw [hs], ?_⟩
  rw [hs]
  simp only
  have key : ∀ k, (stateAfter ConstStep.next k
      (⟨.constant ⟨1/2⟩, Fl.zero, ⟨1/2⟩, ⟨2⟩⟩ : ConstStep (RF coarse))).current.val ∈ ({0, 1/2, 1} : Set ℝ)
      ∧ (stateAfter ConstStep.next k
      (⟨.constant ⟨1/2⟩, Fl.zero, ⟨1/2⟩, ⟨2⟩⟩ : ConstStep (RF coarse))).dt.val = 1 / 2
      ∧ (stateAfter ConstStep.next k
      (⟨.constant ⟨1/2⟩, Fl.zero, ⟨1/2⟩, ⟨2⟩⟩ : ConstStep (RF coarse))).tmax.val = 2 := by
    intro k
    induction k with
    | zero => exact ⟨Or.inl RF.lit_zero_val, rfl, rfl⟩
    | succ k ih =>
      rw [stateAfter_succ]
      generalize stateAfter ConstStep.next k
        (⟨.constant ⟨1/2⟩, Fl.zero, ⟨1/2⟩, ⟨2⟩⟩ : ConstStep (RF coarse)) = d at ih
      obtain ⟨h1, h2, h3⟩ := ih
      have hle : d.current.val ≤ d.tmax.val := by
        rw [h3]; rcases h1 with h | h | h <;> rw [h] <;> norm_num
      unfold ConstStep.next
      simp only [RF.le_val]
      rw [if_pos (by simpa using hle)]
      refine ⟨?_, h2, h3⟩
      simp only [RF.val_add, h2]
      rcases h1 with h | h | h <;> rw [h]
      · right; left; rw [small]; · norm_num
        rw [abs_of_pos (by norm_num)]; norm_num
      · right; right; rw [small]; · norm_num
        rw [abs_of_pos (by norm_num)]; norm_num
      · right; right; exact r1
  intro k
  obtain ⟨h1, h2, h3⟩ := key k
  have : output ConstStep.next k (⟨.constant ⟨1/2⟩, Fl.zero, ⟨1/2⟩, ⟨2⟩⟩ : ConstStep (RF coarse)) =
    (ConstStep.next (stateAfter ConstStep.next k _)).2 := rfl
  rw [this, const_next_out]
  have hle : (stateAfter ConstStep.next k
      (⟨.constant ⟨1/2⟩, Fl.zero, ⟨1/2⟩, ⟨2⟩⟩ : ConstStep (RF coarse))).current.val ≤ 
      (stateAfter ConstStep.next k
      (⟨.constant ⟨1/2⟩, Fl.zero, ⟨1/2⟩, ⟨2⟩⟩ : ConstStep (RF coarse))).tmax.val := by
    rw [h3]; rcases h1 with h | h | h <;> rw [h] <;> norm_num
  simp only [RF.le_val, hle, decide_true, if_true]
  exact ⟨_, rfl⟩

/-! ## C15: renew -/

/-- Any arithmetic: a constant clock in any reachable state becomes, by `renew`, a clock that has only been
built and configured; and `renew` after any number of `next` calls on such a clock gives that clock back. -/
theorem C15_const_renew {F : Type} [Fl F] :
    (∀ c : ConstStep F, c.Reachable → c.renew.Fresh) ∧
    (∀ (c : ConstStep F) (k : Nat), c.Fresh → (stateAfter ConstStep.next k c).renew = c) := by
  have hnext : ∀ c : ConstStep F, c.next.1.renew = c.renew := by
    intro c; unfold ConstStep.next ConstStep.renew; simp only; split <;> rfl
  have hset : ∀ (c : ConstStep F) t, (c.setTmax t).1.renew = (c.renew.setTmax t).1 := by
    intro c t; unfold ConstStep.setTmax ConstStep.renew; split; · rfl
    split <;> rfl
  have hfresh : ∀ c : ConstStep F, c.Fresh → c.renew = c := by
    intro c h
    induction h with
    | new h => unfold ConstStep.new at h; split at h <;> simp at h; rw [← h]; rfl
    | convert h => unfold ConstStep.convertFrom at h; split at h <;> simp at h; rw [← h]; rfl
    | setTmax t _ ih => rw [hset, ih]
  constructor
  · intro c h
    induction h with
    | new h => rw [hfresh _ (.new h)]; exact .new h
    | convert h => rw [hfresh _ (.convert h)]; exact .convert h
    | next _ ih => rw [hnext]; exact ih
    | renew _ ih => exact ih
    | setTmax t _ ih => rw [hset]; exact .setTmax t ih
  · intro c k h
    induction k with
    | zero => exact hfresh c h
    | succ k ih => rw [stateAfter_succ, hnext, ih]

private theorem renew_eq {F : Type} [Fl F] {c : ExpStep F} {a b : F} {l : Nat}
    (ht : c.titype = .exponential a b l) :
    c.renew = ({ c with current := Fl.zero, count := 0, dt := a }, .ok ()) := by
  unfold ExpStep.renew; simp [ht]

/-- Any arithmetic: the same for the exponential clock (time, step size, block counter; the ratio set by
`set_inc` and the limit are kept); `renew` never panics on a reachable clock. -/
theorem C15_exp_renew {F : Type} [Fl F] :
    (∀ c : ExpStep F, c.Reachable → c.renew.1.Fresh ∧ c.renew.2 = .ok ()) ∧
    (∀ (c : ExpStep F) (k : Nat), c.Fresh → (stateAfter ExpStep.next k c).renew.1 = c) := by
  have hnext : ∀ c : ExpStep F, c.Reachable → c.next.1.renew.1 = c.renew.1 := by
    intro c h
    obtain ⟨a, b, l, ht⟩ := exp_type h
    obtain ⟨f1, f2, f3, f4⟩ := ExpStep.bump_fields c b l
    rw [renew_eq ht]
    unfold ExpStep.next
    rw [ht]
    simp only
    split <;> rw [renew_eq (a := a) (b := b) (l := l) (by simp only [f1, ht])] <;> simp only [f1, ht, f3, f4]
  have hset : ∀ (c : ExpStep F) t, c.Reachable → (c.setTmax t).1.renew.1 = (c.renew.1.setTmax t).1 := by
    intro c t h
    obtain ⟨a, b, l, ht⟩ := exp_type h
    rw [renew_eq ht]
    unfold ExpStep.setTmax
    split; · rw [renew_eq ht]
    split <;> rw [renew_eq (by simp only [ht]; rfl)]
  have hinc : ∀ (c : ExpStep F) x, c.Reachable → (c.setInc x).1.renew.1 = (c.renew.1.setInc x).1 := by
    intro c x h
    obtain ⟨a, b, l, ht⟩ := exp_type h
    rw [renew_eq ht]
    unfold ExpStep.setInc
    split; · rw [renew_eq ht]
    simp only [ht]
    split <;> rw [renew_eq rfl]
  have hre : ∀ c : ExpStep F, c.Fresh → c.Reachable := by
    intro c h
    induction h with
    | new h => exact .new h
    | convert h => exact .convert h
    | setTmax t _ ih => exact .setTmax t ih
    | setInc x _ ih => exact .setInc x ih
  have hfresh : ∀ c : ExpStep F, c.Fresh → c.renew.1 = c := by
    intro c h
    induction h with
    | new h => unfold ExpStep.new at h; split at h <;> simp at h; rw [← h]; rfl
    | convert h => unfold ExpStep.convertFrom at h; split at h <;> simp at h; rw [← h]; rfl
    | setTmax t h ih => rw [hset _ _ (hre _ h), ih]
    | setInc x h ih => rw [hinc _ _ (hre _ h), ih]
  constructor
  · intro c h
    constructor
    · induction h with
      | new h => rw [hfresh _ (.new h)]; exact .new h
      | convert h => rw [hfresh _ (.convert h)]; exact .convert h
      | next h ih => rw [hnext _ h]; exact ih
      | renew h ih =>
        rw [hfresh _ ih]; exact ih
      | setTmax t h ih => rw [hset _ _ h]; exact .setTmax t ih
      | setInc x h ih => rw [hinc _ _ h]; exact .setInc x ih
    · obtain ⟨a, b, l, ht⟩ := exp_type h
      unfold ExpStep.renew; rw [ht]
  · intro c k h
    induction k with
    | zero => exact hfresh c h
    | succ k ih => rw [stateAfter_succ, hnext _ (ExpStep.stateAfter_inv (hre c h) k), ih]

/-! ## C16: into_diff -/

private theorem diff_state {T F : Type} (tn : T → T × Res (Option F)) (td : T → F) (k : Nat) (c : T) :
    stateAfter (TimeDiff.next tn td) k (intoDiff c) = ⟨stateAfter tn k c⟩ := by
  induction k with
  | zero => rfl
  | succ k ih => rw [stateAfter_succ, stateAfter_succ, ih]; rfl

/-- Any arithmetic, any clock: the difference iterator returns the clock's own times, each paired with the
step size the clock holds after that call, and ends exactly when the clock does. -/
theorem C16_same_times {T F : Type} (tn : T → T × Res (Option F)) (td : T → F) (c : T) (k : Nat) :
    output (TimeDiff.next tn td) k (intoDiff c) =
      (output tn k c).map fun o => o.map fun t => (t, td (stateAfter tn (k + 1) c)) := by
  unfold output
  rw [diff_state, stateAfter_succ]
  rfl

/-- Any arithmetic, constant clock: consecutive pairs satisfy `t' = t + dt`. -/
theorem C16_const_increments {F : Type} [Fl F] (c : ConstStep F) (k : Nat) (t δ t' δ' : F)
    (h1 : output (TimeDiff.next ConstStep.next ConstStep.dt) k (intoDiff c) = .ok (some (t, δ)))
    (h2 : output (TimeDiff.next ConstStep.next ConstStep.dt) (k + 1) (intoDiff c) = .ok (some (t', δ'))) :
    t' = t + δ := by
  rw [C16_same_times] at h1 h2
  unfold output at h1 h2
  rw [stateAfter_succ] at h1 h2
  rw [stateAfter_succ] at h2
  generalize stateAfter ConstStep.next k c = d at h1 h2
  rw [const_next_out] at h1 h2
  split at h1 <;> simp at h1
  split at h2 <;> simp at h2
  rename_i hle _
  rw [← h2.1, ← h1.1, ← h1.2]
  unfold ConstStep.next; simp [hle]

/-- Any arithmetic, exponential clock in any reachable state: consecutive pairs satisfy `t' = t + dt`. -/
theorem C16_exp_increments {F : Type} [Fl F] (c : ExpStep F) (h : c.Reachable) (k : Nat) (t δ t' δ' : F)
    (h1 : output (TimeDiff.next ExpStep.next ExpStep.dt) k (intoDiff c) = .ok (some (t, δ)))
    (h2 : output (TimeDiff.next ExpStep.next ExpStep.dt) (k + 1) (intoDiff c) = .ok (some (t', δ'))) :
    t' = t + δ := by
  rw [C16_same_times] at h1 h2
  unfold output at h1 h2
  rw [stateAfter_succ] at h1 h2
  rw [stateAfter_succ] at h2
  have hr := ExpStep.stateAfter_inv h k
  generalize stateAfter ExpStep.next k c = d at h1 h2 hr
  obtain ⟨a, b, l, ht⟩ := exp_type hr
  obtain ⟨a', b', l', ht'⟩ := exp_type hr.next
  rw [exp_next_out ht] at h1
  rw [exp_next_out ht'] at h2
  split at h1 <;> simp at h1
  split at h2 <;> simp at h2
  rename_i hle _
  rw [← h2.1, ← h1.1, ← h1.2, exp_next_current ht, if_pos hle]

/-- The first time is the clock's current time; the increments chain from there. -/
theorem C16_first {F : Type} [Fl F] (c : ConstStep F) (d : ExpStep F) (hd : d.Reachable) (t δ : F) :
    (output (TimeDiff.next ConstStep.next ConstStep.dt) 0 (intoDiff c) = .ok (some (t, δ)) →
      t = c.current ∧ δ = c.dt) ∧
    (output (TimeDiff.next ExpStep.next ExpStep.dt) 0 (intoDiff d) = .ok (some (t, δ)) →
      t = d.current) := by
  constructor
  · rw [C16_same_times]; unfold output; simp only [stateAfter]; rw [const_next_out]
    split <;> simp
    rename_i hle
    intro e1 e2
    refine ⟨e1.symm, ?_⟩
    rw [← e2]; unfold ConstStep.next; simp [hle]
  · obtain ⟨a, b, l, ht⟩ := exp_type hd
    rw [C16_same_times]; unfold output; simp only [stateAfter]; rw [exp_next_out ht]
    split <;> simp
    exact fun e1 _ => e1.symm

example : ∃ c : ConstStep ℝ, c.Reachable ∧
    output (TimeDiff.next ConstStep.next ConstStep.dt) 1 (intoDiff c) = .ok (some (1/2, 1/2)) ∧
    output (TimeDiff.next ConstStep.next ConstStep.dt) 2 (intoDiff c) = .ok (some (1, 1/2)) ∧
    output (TimeDiff.next ConstStep.next ConstStep.dt) 3 (intoDiff c) = .ok none := by
  have hc : ConstStep.convertFrom (1/2 : ℝ) 1 = .ok ⟨.constant (1/2), 0, 1/2, 1⟩ := by
    unfold ConstStep.convertFrom
    have : ¬ (1 : ℝ) < ((1 / 10 ^ 10 : ℚ) : ℝ) := by push_cast; norm_num
    rw [if_neg (by simp)]
    simp only [fl_lt, fl_lit, this]; simp
  have hdt : ∀ k (c : ConstStep ℝ), (stateAfter ConstStep.next k c).dt = c.dt := by
    intro k
    induction k with
    | zero => intro c; rfl
    | succ k ih =>
      intro c; rw [stateAfter, ih]; unfold ConstStep.next; simp only; split <;> rfl
  refine ⟨_, .convert hc, ?_, ?_, ?_⟩ <;>
    (rw [C16_same_times, ConstStep.output_real _ _ (by norm_num), hdt]; norm_num)

/-! ## C17: parameter checks -/

/-- Any arithmetic: `new` and `convert_from` answer exactly according to the comparisons below. -/
theorem C17_constructors {F : Type} [Fl F] (dt tmax a b : F) (l : Nat) :
    (ConstStep.new dt = .err .invalidArgumentInput ↔ Fl.lt dt (Fl.lit (1 / 10 ^ 15)) = true) ∧
    ((∃ c, ConstStep.new dt = .ok c) ↔ Fl.lt dt (Fl.lit (1 / 10 ^ 15)) = false) ∧
    (ExpStep.new a b l = .err .invalidArgumentInput ↔
      Fl.lt a (Fl.lit (1 / 10 ^ 15)) = true ∨ Fl.lt b a = true ∨ l = 0) ∧
    ((∃ c, ExpStep.new a b l = .ok c) ↔
      ¬ (Fl.lt a (Fl.lit (1 / 10 ^ 15)) = true ∨ Fl.lt b a = true ∨ l = 0)) ∧
    (ConstStep.convertFrom dt tmax = .panic ↔ Fl.lt tmax Fl.zero = true ∨ Fl.lt dt Fl.zero = true) ∧
    ((∃ c, ConstStep.convertFrom dt tmax = .ok c) ↔
      ¬ (Fl.lt tmax Fl.zero = true ∨ Fl.lt dt Fl.zero = true)) ∧
    (ExpStep.convertFrom a b l tmax = .panic ↔ Fl.lt tmax Fl.zero = true ∨ Fl.lt a Fl.zero = true ∨
      Fl.lt b a = true ∨ l < 10) ∧
    ((∃ c, ExpStep.convertFrom a b l tmax = .ok c) ↔ ¬ (Fl.lt tmax Fl.zero = true ∨
      Fl.lt a Fl.zero = true ∨ Fl.lt b a = true ∨ l < 10)) := by
  unfold ConstStep.new ExpStep.new ConstStep.convertFrom ExpStep.convertFrom
  refine ⟨?_, ?_, ?_, ?_, ?_, ?_, ?_, ?_⟩ <;> split <;> simp_all [or_assoc]

/-- Any arithmetic: `set_tmax` with a negative limit and `set_inc` with a ratio of at most 1 report
InvalidArgumentInput and leave the clock exactly as it was; any other limit is accepted. -/
theorem C17_setters_reject {F : Type} [Fl F] (c : ConstStep F) (d : ExpStep F) (hd : d.Reachable) (x : F) :
    (Fl.lt x Fl.zero = true → c.setTmax x = (c, .err .invalidArgumentInput) ∧
      d.setTmax x = (d, .err .invalidArgumentInput)) ∧
    (Fl.lt x Fl.zero = false → (c.setTmax x).2 = .ok () ∧ (d.setTmax x).2 = .ok ()) ∧
    (Fl.le x Fl.one = true → d.setInc x = (d, .err .invalidArgumentInput)) ∧
    (Fl.le x Fl.one = false → (d.setInc x).2 = .ok ()) := by
  unfold ConstStep.setTmax ExpStep.setTmax ExpStep.setInc
  obtain ⟨a, b, l, ht⟩ := exp_type hd
  refine ⟨fun h => by simp [h], fun h => ?_, fun h => by simp [h], fun h => ?_⟩
  · simp only [h, Bool.false_eq_true, if_false]
    constructor <;> split <;> rfl
  · simp only [h, Bool.false_eq_true, if_false, ht]
    split <;> rfl

/-- Any arithmetic: an accepted limit below the threshold (1e-10, resp. 1e-15), such as 0, means the
largest float; any other accepted limit is stored as it is.  Nothing else changes. -/
theorem C17_set_tmax_effect {F : Type} [Fl F] (c : ConstStep F) (d : ExpStep F) (x : F)
    (h : Fl.lt x Fl.zero = false) :
    (c.setTmax x).1 = { c with tmax := if Fl.lt x (Fl.lit (1 / 10 ^ 10)) then Fl.maxVal else x } ∧
    (d.setTmax x).1 = { d with tmax := if Fl.lt x (Fl.lit (1 / 10 ^ 15)) then Fl.maxVal else x } := by
  unfold ConstStep.setTmax ExpStep.setTmax
  simp only [h, Bool.false_eq_true, if_false]
  constructor <;> split <;> simp_all

/-- NaN slips through every check: it is accepted as a step, as a limit and as a growth ratio; with a NaN
limit the clock returns nothing at all. -/
theorem C17_nan_accepted :
    (∃ c : ConstStep XF, ConstStep.new XF.nan = .ok c) ∧
    (∃ c : ExpStep XF, ExpStep.new XF.nan XF.nan 1 = .ok c ∧ (c.setInc XF.nan).2 = .ok () ∧
      (c.setInc XF.nan).1.inc = XF.nan) ∧
    (∃ c : ConstStep XF, ConstStep.new (XF.fin 1) = .ok c ∧ (c.setTmax XF.nan).2 = .ok () ∧
      ∀ k, output ConstStep.next k (c.setTmax XF.nan).1 = .ok none) := by
  refine ⟨⟨_, rfl⟩, ⟨_, rfl, rfl, rfl⟩, ?_⟩
  have hn : ConstStep.new (XF.fin 1) = .ok ⟨.constant (.fin 1), .fin 0, .fin 1, Fl.maxVal⟩ := by
    unfold ConstStep.new
    rw [if_neg]
    · rfl
    · show ¬ (decide ((1 : ℚ) < 1 / 10 ^ 15) = true)
      norm_num
  refine ⟨_, hn, rfl, fun k => ?_⟩
  unfold output
  rw [const_stuck]
  · rw [const_next_out]; rfl
  · rfl

/-! ## C18: set_inc -/

/-- Exact arithmetic, block length at least 3: a successful `set_inc(x)` makes the ratio
`min x (length/2)`, which exceeds 1. -/
theorem C18_ratio (c : ExpStep ℝ) (a b x : ℝ) (l : Nat) (ht : c.titype = .exponential a b l)
    (hl : 3 ≤ l) (hok : (c.setInc x).2 = .ok ()) :
    (c.setInc x).1 = { c with inc := min x (l / 2) } ∧ 1 < (c.setInc x).1.inc := by
  unfold ExpStep.setInc at *
  have hl' : (3 : ℝ) ≤ l := by exact_mod_cast hl
  split at hok
  · simp at hok
  · rename_i hx
    simp only [fl_le, fl_one, decide_eq_true_eq, not_le] at hx
    rw [if_neg (by simpa using hx), ht]
    simp only [fl_lt, fl_two, fl_ofNat, decide_eq_true_eq]
    split
    · rename_i h
      have h : (l : ℝ) < x * 2 := h
      rw [min_eq_right (by linarith)]
      exact ⟨rfl, by simp only; linarith⟩
    · rename_i h
      have h : ¬ (l : ℝ) < x * 2 := h
      rw [min_eq_left (by linarith)]
      exact ⟨rfl, hx⟩

/-- For block length 1 every successful `set_inc` sets the ratio to 1/2, and for block length 2 to 1: the
step then shrinks, resp. never grows. -/
theorem C18_short_blocks (c : ExpStep ℝ) (a b x : ℝ) (l : Nat) (ht : c.titype = .exponential a b l)
    (hl : l = 1 ∨ l = 2) (hx : 1 < x) :
    (c.setInc x).2 = .ok () ∧ (c.setInc x).1.inc = l / 2 ∧ (c.setInc x).1.inc ≤ 1 := by
  have hl' : (l : ℝ) ≤ 2 := by rcases hl with h | h <;> rw [h] <;> norm_num
  unfold ExpStep.setInc
  rw [if_neg (by simpa using hx), ht]
  simp only [fl_lt, fl_two, fl_ofNat, decide_eq_true_eq]
  rw [if_pos (by show (l : ℝ) < x * 2; linarith)]
  exact ⟨rfl, rfl, by simp only; linarith⟩

/-- So the claim "after a successful set_inc the ratio exceeds 1" is false. -/
theorem C18_claim_false :
    ¬ ∀ (c : ExpStep ℝ) (x : ℝ), c.Fresh → (c.setInc x).2 = .ok () → 1 < (c.setInc x).1.inc := by
  intro h
  have hn : ∃ c : ExpStep ℝ, ExpStep.new 1 10 1 = .ok c := by
    refine (C17_constructors (F := ℝ) 0 0 1 10 1).2.2.2.1.2 ?_
    simp only [fl_lt, fl_lit]; push_cast; norm_num
  obtain ⟨c, hc⟩ := hn
  have ht := (C13_new_ratio 1 10 1 c hc).2.1
  obtain ⟨h1, _, h3⟩ := C18_short_blocks c 1 10 2 1 ht (Or.inl rfl) (by norm_num)
  have := h c 2 (.new hc) h1
  linarith

example : ∃ c : ExpStep ℝ, c.titype = .exponential 1 10 8 ∧ (c.setInc 3).2 = .ok () := by
  refine ⟨⟨.exponential 1 10 8, 0, 1, 4, 100, 0⟩, rfl, ?_⟩
  unfold ExpStep.setInc
  rw [if_neg (by simp)]
  simp only
  split <;> rfl

end Moledyn.Props
