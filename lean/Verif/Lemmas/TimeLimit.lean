import Verif.Spec.TimeLimit
import Verif.Lemmas.LargerTarget
import Verif.Props.Time
/-
Helper lemmas for Props/TimeLimit.lean.
-/
open Moledyn.Props
namespace Moledyn.Limit
variable {G F S C : Type}

/-- the later clock `c'` says what `c` says until `c` ends, and after that only times beyond the limit. -/
structure Later (tick : C → C × Res (Option (F × F))) (within : F → Prop) (c c' : C) : Prop where
  follow : ∀ k, output tick k c' = output tick k c ∨ output tick k c = .ok none
  late : ∀ k k' t d, output tick k c = .ok none → k ≤ k' → output tick k' c' = .ok (some (t, d)) → ¬ within t
  inside : ∀ k t d, output tick k c = .ok (some (t, d)) → within t

theorem Later.step {tick : C → C × Res (Option (F × F))} {within : F → Prop} {c c' : C} (h : Later tick within c c') :
    Later tick within (tick c).1 (tick c').1 :=
  ⟨fun k => h.follow (k + 1), fun k k' t d h1 h2 h3 => h.late (k + 1) (k' + 1) t d h1 (by omega) h3,
    fun k t d h1 => h.inside (k + 1) t d h1⟩

variable [Fl F]

theorem loop (tick : C → C × Res (Option (F × F))) (within : F → Prop) (step : F → S → S × Option (Res Bool)) :
    ∀ n c c' s, Later tick within c c' →
      ((searchLoop tick step n c' s).2 = (searchLoop tick step n c s).2 ∧
        (searchLoop tick step n c' s).1.2 = (searchLoop tick step n c s).1.2) ∨
      ((searchLoop tick step n c s).2 = some (.ok none) ∧
        ∀ t, (searchLoop tick step n c' s).2 = some (.ok (some t)) → ¬ within t) := by
  intro n
  induction n with
  | zero => intro c c' s _; left; exact ⟨rfl, rfl⟩
  | succ n ih =>
    intro c c' s h
    rcases h.follow 0 with h0 | h0
    · have hs := h.step
      rcases htk : tick c with ⟨c1, r⟩
      rcases htk' : tick c' with ⟨c1', r'⟩
      change (tick c').2 = (tick c).2 at h0
      rw [htk, htk'] at h0 hs
      simp only at h0 hs
      subst h0
      rcases r' with o | e | _
      · rcases o with _ | ⟨time, dt⟩
        · left; simp only [searchLoop, htk, htk']; exact ⟨trivial, trivial⟩
        · rcases hst : step dt s with ⟨s1, o⟩
          rcases o with _ | (b | e | _)
          · left; simp only [searchLoop, htk, htk', hst]; exact ⟨trivial, trivial⟩
          · cases b with
            | true => left; simp only [searchLoop, htk, htk', hst]; exact ⟨trivial, trivial⟩
            | false => simp only [searchLoop, htk, htk', hst]; exact ih c1 c1' s1 hs
          · left; simp only [searchLoop, htk, htk', hst]; exact ⟨trivial, trivial⟩
          · left; simp only [searchLoop, htk, htk', hst]; exact ⟨trivial, trivial⟩
      · left; simp only [searchLoop, htk, htk']; exact ⟨trivial, trivial⟩
      · left; simp only [searchLoop, htk, htk']; exact ⟨trivial, trivial⟩
    · right
      constructor
      · rcases htk : tick c with ⟨c1, r⟩
        change (tick c).2 = _ at h0
        rw [htk] at h0
        simp only at h0
        subst h0
        simp only [searchLoop, htk]
      · intro t ht
        obtain ⟨k', d, _, hk⟩ := Larger.loop_reports tick step _ _ _ _ ht
        exact h.late 0 k' t d h0 (Nat.zero_le _) hk

theorem cut (tick : C → C × Res (Option (F × F))) (within : F → Prop) (step : F → S → S × Option (Res Bool)) (n : Nat) (c c' : C)
    (s : S) (h : Later tick within c c') :
    CutOff within (searchLoop tick step n c s).2 (searchLoop tick step n c' s).2 := by
  refine ⟨?_, ?_⟩
  · intro t ht
    obtain ⟨k, d, _, hk⟩ := Larger.loop_reports tick step _ _ _ _ ht
    exact h.inside k t d hk
  · rcases loop tick within step n c c' s h with h1 | h1
    · exact Or.inl h1.1
    · exact Or.inr h1

/-! ### clocks in step until one ends -/

omit [Fl F] in
/-- a relation of clocks that gives `Later`. -/
theorem of_relation (tick : C → C × Res (Option (F × F))) (within : F → Prop) (Rel : C → C → Prop)
    (hstep : ∀ c c', Rel c c' → (tick c).2 = .ok none ∨ ((tick c').2 = (tick c).2 ∧ Rel (tick c).1 (tick c').1))
    (hdead : ∀ c c', Rel c c' → (tick c).2 = .ok none → ∀ k, output tick k c = .ok none)
    (hlate : ∀ c c', Rel c c' → (tick c).2 = .ok none → ∀ k t d, output tick k c' = .ok (some (t, d)) → ¬ within t)
    (hin : ∀ c c' t d, Rel c c' → (tick c).2 = .ok (some (t, d)) → within t) (c c' : C) (h : Rel c c') :
    Later tick within c c' := by
  have key : ∀ k c c', Rel c c' → (output tick k c' = output tick k c ∨ output tick k c = .ok none) ∧
      (∀ k' t d, output tick k c = .ok none → k ≤ k' → output tick k' c' = .ok (some (t, d)) → ¬ within t) ∧
      (∀ t d, output tick k c = .ok (some (t, d)) → within t) := by
    intro k
    induction k with
    | zero =>
      intro c c' h
      refine ⟨?_, ?_, fun t d => hin c c' t d h⟩
      · rcases hstep c c' h with h1 | h1
        · exact Or.inr h1
        · exact Or.inl h1.1
      · intro k' t d h1 _ h3
        exact hlate c c' h h1 k' t d h3
    | succ k ih =>
      intro c c' h
      rcases hstep c c' h with h1 | ⟨h1, h2⟩
      · have hd := hdead c c' h h1
        refine ⟨Or.inr (hd _), ?_, ?_⟩
        · intro k' t d _ _ h3
          exact hlate c c' h h1 k' t d h3
        · intro t d h3
          rw [hd] at h3
          simp at h3
      · obtain ⟨i1, i2, i3⟩ := ih _ _ h2
        refine ⟨i1, ?_, i3⟩
        intro k' t d a1 a2 a3
        obtain ⟨j, rfl⟩ : ∃ j, k' = j + 1 := ⟨k' - 1, by omega⟩
        exact i2 j t d a1 (by omega) a3
  exact ⟨fun k => (key k c c' h).1, fun k => (key k c c' h).2.1, fun k => (key k c c' h).2.2⟩

/-! ### the exponential clock -/
section Exp
variable {R : Rounding}

/-- two reachable clocks that differ in the limit only. -/
def ExpRel (L : ℝ) (c c' : ExpStep (RF R)) : Prop :=
  c.Reachable ∧ c'.Reachable ∧ (∃ T, c' = { c with tmax := T } ∧ L ≤ T.val) ∧ c.tmax.val = L

theorem bump_tmax (c : ExpStep (RF R)) (T dtMax : RF R) (l : Nat) :
    ({ c with tmax := T } : ExpStep (RF R)).bump dtMax l = { c.bump dtMax l with tmax := T } := by
  simp only [ExpStep.bump]
  split <;> rfl

theorem bump_keeps (c : ExpStep (RF R)) (dtMax : RF R) (l : Nat) :
    (c.bump dtMax l).tmax = c.tmax ∧ (c.bump dtMax l).current = c.current := by
  simp only [ExpStep.bump]
  split <;> exact ⟨rfl, rfl⟩

theorem next_none (c : ExpStep (RF R)) (h : c.next.2 = .ok none) : c.tmax.val < c.current.val := by
  unfold ExpStep.next at h
  split at h
  · rename_i _ dtMax l _
    have hb := bump_keeps c dtMax l
    simp only [hb.1, hb.2] at h
    by_cases hle : Fl.le c.current c.tmax = true
    · rw [if_pos hle] at h; simp at h
    · simpa using hle
  · simp at h

theorem next_exp (c : ExpStep (RF R)) {a b : RF R} {l : Nat} (hc : c.titype = .exponential a b l) :
    c.next = if Fl.le c.current c.tmax then
      ({ c.bump b l with current := (c.bump b l).current + (c.bump b l).dt, count := (c.bump b l).count + 1 }, .ok (some c.current))
      else (c.bump b l, .ok none) := by
  unfold ExpStep.next
  rw [hc]
  simp only [(bump_keeps c b l).1, (bump_keeps c b l).2]

theorem next_panic (c : ExpStep (RF R)) {d : RF R} (hc : c.titype = .constant d) : c.next = (c, .panic) := by
  unfold ExpStep.next
  rw [hc]

theorem exp_step (L : ℝ) (c c' : ExpStep (RF R)) (h : ExpRel L c c') :
    c.next.2 = .ok none ∨ (c'.next.2 = c.next.2 ∧ c'.next.1.dt = c.next.1.dt ∧ ExpRel L c.next.1 c'.next.1) := by
  obtain ⟨h1, h2, ⟨T, hT', hT⟩, hL⟩ := h
  have r1 := h1.next
  have r2 := h2.next
  have hty : c'.titype = c.titype := by rw [hT']
  have hcur : c'.current = c.current := by rw [hT']
  have htm : c'.tmax = T := by rw [hT']
  rcases hc : c.titype with d | ⟨a, b, l⟩
  · right
    have e1 := next_panic c hc
    have e2 := next_panic c' (hty.trans hc)
    rw [e1] at r1 ⊢
    rw [e2] at r2 ⊢
    exact ⟨rfl, by simp only [hT'], r1, r2, ⟨T, hT', hT⟩, hL⟩
  · have hb := bump_keeps c b l
    have hbt : c'.bump b l = { c.bump b l with tmax := T } := by rw [hT']; exact bump_tmax c T b l
    by_cases hle : Fl.le c.current c.tmax = true
    · have hle' : Fl.le c'.current c'.tmax = true := by
        rw [hcur, htm]
        simp only [RF.le_val, decide_eq_true_eq] at hle ⊢
        linarith
      have e1 := next_exp c hc
      have e2 := next_exp c' (hty.trans hc)
      rw [if_pos hle] at e1
      rw [if_pos hle', hbt, hcur] at e2
      rw [e1] at r1 ⊢
      rw [e2] at r2 ⊢
      right
      exact ⟨rfl, rfl, r1, r2, ⟨T, rfl, hT⟩, by simp only [hb.1]; exact hL⟩
    · left
      rw [next_exp c hc, if_neg hle]

private theorem diff_out (k : Nat) (c : ExpStep (RF R)) (t d : RF R)
    (h : output (TimeDiff.next ExpStep.next (fun c => c.dt)) k ⟨c⟩ = .ok (some (t, d))) : output ExpStep.next k c = .ok (some t) := by
  have hs : ∀ k (c : ExpStep (RF R)), stateAfter (TimeDiff.next ExpStep.next (fun c => c.dt)) k ⟨c⟩ = ⟨stateAfter ExpStep.next k c⟩ := by
    intro k
    induction k with
    | zero => intro c; rfl
    | succ k ih => intro c; exact ih _
  unfold output at h
  rw [hs] at h
  unfold output
  simp only [TimeDiff.next] at h
  rcases hr : (ExpStep.next (stateAfter ExpStep.next k c)).2 with o | e | _
  · rw [hr] at h
    cases o with
    | none => simp [Res.map] at h
    | some x => simp [Res.map] at h; rw [h.1]
  · rw [hr] at h; simp [Res.map] at h
  · rw [hr] at h; simp [Res.map] at h

private theorem diff_none (k : Nat) (c : ExpStep (RF R)) :
    output (TimeDiff.next ExpStep.next (fun c => c.dt)) k ⟨c⟩ = .ok none ↔ output ExpStep.next k c = .ok none := by
  have hs : ∀ k (c : ExpStep (RF R)), stateAfter (TimeDiff.next ExpStep.next (fun c => c.dt)) k ⟨c⟩ = ⟨stateAfter ExpStep.next k c⟩ := by
    intro k
    induction k with
    | zero => intro c; rfl
    | succ k ih => intro c; exact ih _
  unfold output
  rw [hs]
  simp only [TimeDiff.next]
  rcases (ExpStep.next (stateAfter ExpStep.next k c)).2 with (_ | o) | e | _ <;> simp [Res.map]

/-- the first time of a clock bounds the later ones. -/
theorem exp_from (c : ExpStep (RF R)) (h : c.Reachable) (k : Nat) (t : RF R) (ht : output ExpStep.next k c = .ok (some t)) :
    c.current.val ≤ t.val := by
  obtain ⟨h1, h2, _, h4, h5⟩ := C12_exp_clock R c h
  obtain ⟨o, ho⟩ := h1 0
  cases o with
  | none => rw [h5 0 k (Nat.zero_le _) ho] at ht; simp at ht
  | some s =>
    have := h4 0 k s t (Nat.zero_le _) ho ht
    rw [h2 s ho] at this
    exact this

theorem exp_dead (c : ExpStep (RF R)) (h : c.Reachable)
    (h1 : (TimeDiff.next ExpStep.next (fun c => c.dt) (intoDiff c)).2 = .ok none) (k : Nat) :
    output (TimeDiff.next ExpStep.next (fun c => c.dt)) k (intoDiff c) = .ok none := by
  unfold intoDiff at *
  rw [diff_none]
  exact (C12_exp_clock R c h).2.2.2.2 0 k (Nat.zero_le _) ((diff_none 0 c).1 h1)

theorem exp_later (L : ℝ) (c c' : ExpStep (RF R)) (h : ExpRel L c c') :
    Later (TimeDiff.next ExpStep.next (fun c => c.dt)) (fun t : RF R => t.val ≤ L) (intoDiff c) (intoDiff c') := by
  refine of_relation _ _ (fun d d' => ExpRel L d.timeiter d'.timeiter) ?_ ?_ ?_ ?_ _ _ h
  · rintro ⟨d⟩ ⟨d'⟩ h
    rcases exp_step L d d' h with h1 | ⟨h1, h2, h3⟩
    · left; simp only [TimeDiff.next, h1]; rfl
    · right
      simp only [TimeDiff.next, h1, h2]
      exact ⟨trivial, h3⟩
  · rintro ⟨d⟩ ⟨d'⟩ h h1 k
    rw [diff_none]
    exact (C12_exp_clock R d h.1).2.2.2.2 0 k (Nat.zero_le _) ((diff_none 0 d).1 h1)
  · rintro ⟨d⟩ ⟨d'⟩ h h1 k t e ht
    obtain ⟨r1, r2, ⟨T, hd, hT⟩, hL⟩ := h
    have h2 := next_none d ((diff_none 0 d).1 h1)
    have h3 := exp_from d' r2 k t (diff_out k d' t e ht)
    simp only at hd hL
    rw [hd] at h3
    simp only at h3
    intro h4
    linarith
  · rintro ⟨d⟩ ⟨d'⟩ t e h h1
    have := (C12_exp_clock R d h.1).2.2.1 0 t (diff_out 0 d t e h1)
    rw [← h.2.2.2]
    exact this

end Exp

/-! ### the constant clock -/
section Const
variable {R : Rounding}

/-- two reachable clocks that differ in the limit only. -/
def ConstRel (L : ℝ) (c c' : ConstStep (RF R)) : Prop :=
  c.Reachable ∧ c'.Reachable ∧ (∃ T, c' = { c with tmax := T } ∧ L ≤ T.val) ∧ c.tmax.val = L

theorem const_none (c : ConstStep (RF R)) (h : c.next.2 = .ok none) : c.tmax.val < c.current.val := by
  unfold ConstStep.next at h
  by_cases hle : Fl.le c.current c.tmax = true
  · simp only [if_pos hle] at h; simp at h
  · simpa using hle

theorem const_step (L : ℝ) (c c' : ConstStep (RF R)) (h : ConstRel L c c') :
    c.next.2 = .ok none ∨ (c'.next.2 = c.next.2 ∧ c'.dt = c.dt ∧ ConstRel L c.next.1 c'.next.1) := by
  obtain ⟨h1, h2, ⟨T, rfl, hT⟩, hL⟩ := h
  have r1 := h1.next
  have r2 := h2.next
  unfold ConstRel
  by_cases hle : Fl.le c.current c.tmax = true
  · have hle' : Fl.le c.current T = true := by
      simp only [RF.le_val, decide_eq_true_eq] at hle ⊢
      linarith
    have e1 : c.next = ({ c with current := c.current + c.dt }, .ok (some c.current)) := by
      simp only [ConstStep.next]; rw [if_pos hle]
    have e2 : ({ c with tmax := T } : ConstStep (RF R)).next = ({ c with current := c.current + c.dt, tmax := T }, .ok (some c.current)) := by
      simp only [ConstStep.next]; rw [if_pos hle']
    rw [e1] at r1 ⊢
    rw [e2] at r2 ⊢
    right
    exact ⟨rfl, rfl, r1, r2, ⟨T, rfl, hT⟩, hL⟩
  · left
    simp only [ConstStep.next]
    rw [if_neg hle]

private theorem tick_state (k : Nat) (c : ConstStep (RF R)) : stateAfter constTick k c = stateAfter ConstStep.next k c := by
  have h1 : ∀ c : ConstStep (RF R), (constTick c).1 = c.next.1 := by
    intro c
    unfold constTick
    rcases c.next with ⟨c1, (_ | t) | e | _⟩ <;> rfl
  induction k generalizing c with
  | zero => rfl
  | succ k ih => simp only [stateAfter]; rw [h1, ih]

private theorem tick_out (k : Nat) (c : ConstStep (RF R)) (t d : RF R) (h : output constTick k c = .ok (some (t, d))) :
    output ConstStep.next k c = .ok (some t) := by
  unfold output at h ⊢
  rw [tick_state] at h
  unfold constTick at h
  rcases hn : ConstStep.next (stateAfter ConstStep.next k c) with ⟨c1, (_ | t) | e | _⟩ <;> rw [hn] at h <;> simp at h
  simp only [h.1]

private theorem tick_none (k : Nat) (c : ConstStep (RF R)) : output constTick k c = .ok none ↔ output ConstStep.next k c = .ok none := by
  unfold output
  rw [tick_state]
  unfold constTick
  rcases hn : ConstStep.next (stateAfter ConstStep.next k c) with ⟨c1, (_ | t) | e | _⟩ <;> simp

theorem const_from (c : ConstStep (RF R)) (h : c.Reachable) (k : Nat) (t : RF R) (ht : output ConstStep.next k c = .ok (some t)) :
    c.current.val ≤ t.val := by
  obtain ⟨h1, h2, _, h4, h5⟩ := C12_const_clock R c h
  obtain ⟨o, ho⟩ := h1 0
  cases o with
  | none => rw [h5 0 k (Nat.zero_le _) ho] at ht; simp at ht
  | some s =>
    have := h4 0 k s t (Nat.zero_le _) ho ht
    rw [h2 s ho] at this
    exact this

theorem const_later (L : ℝ) (c c' : ConstStep (RF R)) (h : ConstRel L c c') :
    Later constTick (fun t : RF R => t.val ≤ L) c c' := by
  refine of_relation _ _ (ConstRel L) ?_ ?_ ?_ ?_ _ _ h
  · intro d d' h
    rcases const_step L d d' h with h1 | ⟨h1, h2, h3⟩
    · left; exact (tick_none 0 d).2 h1
    · right
      unfold constTick
      rcases hd : d.next with ⟨d1, r⟩
      rcases hd' : d'.next with ⟨d1', r'⟩
      rw [hd, hd'] at h1 h3
      simp only at h1 h3
      subst h1
      rcases r' with (_ | t) | e | _
      · exact ⟨rfl, h3⟩
      · simp only [h2]; exact ⟨trivial, h3⟩
      · exact ⟨rfl, h3⟩
      · exact ⟨rfl, h3⟩
  · intro d d' h h1 k
    rw [tick_none]
    exact (C12_const_clock R d h.1).2.2.2.2 0 k (Nat.zero_le _) ((tick_none 0 d).1 h1)
  · intro d d' h h1 k t e ht
    obtain ⟨r1, r2, ⟨T, hd, hT⟩, hL⟩ := h
    have h2 := const_none d ((tick_none 0 d).1 h1)
    have h3 := const_from d' r2 k t (tick_out k d' t e ht)
    rw [hd] at h3
    simp only at h3
    intro h4
    linarith
  · intro d d' t e h h1
    have := (C12_const_clock R d h.1).2.2.1 0 t (tick_out 0 d t e h1)
    rw [← h.2.2.2]
    exact this

end Const

/-! ### `.skip(1)` -/
section Skip
variable {within : F → Prop} {tick : C → C × Res (Option (F × F))}

omit [Fl F] in
theorem skip_true (k : Nat) (c : C) : output (skipOne tick) k (true, c) = output tick k c := by
  induction k generalizing c with
  | zero => rfl
  | succ k ih => exact ih _

omit [Fl F] in
theorem skip_some (c c1 : C) (p : F × F) (h : tick c = (c1, .ok (some p))) (k : Nat) :
    output (skipOne tick) k (false, c) = output tick (k + 1) c := by
  have h1 : skipOne tick (false, c) = ((true, (tick c1).1), (tick c1).2) := by simp [skipOne, h]
  rw [output_succ, h]
  cases k with
  | zero => change (skipOne tick (false, c)).2 = (tick c1).2; rw [h1]
  | succ k => rw [output_succ, h1, skip_true, output_succ]

omit [Fl F] in
theorem skip_other (c c1 : C) (r : Res (Option (F × F))) (h : tick c = (c1, r)) (hr : ∀ p, r ≠ .ok (some p)) (k : Nat) :
    output (skipOne tick) k (false, c) = output tick k c := by
  have h1 : skipOne tick (false, c) = ((true, c1), r) := by
    rcases r with (_ | x) | e | _
    · simp [skipOne, h]
    · exact absurd rfl (hr x)
    · simp [skipOne, h]
    · simp [skipOne, h]
  cases k with
  | zero => change (skipOne tick (false, c)).2 = (tick c).2; rw [h1, h]
  | succ k => rw [output_succ, h1, skip_true, output_succ, h]

omit [Fl F] in
theorem skip_later (c c' : C) (h : Later tick within c c') (hd : (tick c).2 = .ok none → ∀ k, output tick k c = .ok none) :
    Later (skipOne tick) within (false, c) (false, c') := by
  rcases htk : tick c with ⟨c1, r⟩
  by_cases hr : ∃ p, r = .ok (some p)
  · obtain ⟨p, rfl⟩ := hr
    have h0 : (tick c').2 = .ok (some p) := by
      rcases h.follow 0 with h1 | h1
      · change (tick c').2 = (tick c).2 at h1; rw [h1, htk]
      · change (tick c).2 = _ at h1; rw [htk] at h1; simp at h1
    have htk' : tick c' = ((tick c').1, .ok (some p)) := Prod.ext rfl h0
    have e := skip_some c c1 p htk
    have e' := skip_some c' _ p htk'
    exact ⟨fun k => by rw [e, e']; exact h.follow _,
      fun k k' t d h1 h2 h3 => by rw [e] at h1; rw [e'] at h3; exact h.late _ _ t d h1 (by omega) h3,
      fun k t d h1 => by rw [e] at h1; exact h.inside _ t d h1⟩
  · have hr' : ∀ p, r ≠ .ok (some p) := fun p hp => hr ⟨p, hp⟩
    have e := skip_other c c1 r htk hr'
    by_cases hn : r = .ok none
    · subst hn
      have hdd := hd (by rw [htk])
      have hall : ∀ k t d, output (skipOne tick) k (false, c') = .ok (some (t, d)) → ¬ within t := by
        intro k t d hk
        rcases htk' : tick c' with ⟨c1', r'⟩
        by_cases hp : ∃ p, r' = .ok (some p)
        · obtain ⟨p, rfl⟩ := hp
          rw [skip_some c' c1' p htk'] at hk
          exact h.late 0 _ t d (hdd 0) (Nat.zero_le _) hk
        · rw [skip_other c' c1' r' htk' (fun p hp' => hp ⟨p, hp'⟩)] at hk
          exact h.late 0 _ t d (hdd 0) (Nat.zero_le _) hk
      exact ⟨fun k => Or.inr (by rw [e]; exact hdd k), fun k k' t d _ _ h3 => hall k' t d h3,
        fun k t d h1 => by rw [e, hdd] at h1; simp at h1⟩
    · have h0 : (tick c').2 = r := by
        rcases h.follow 0 with h1 | h1
        · change (tick c').2 = (tick c).2 at h1; rw [h1, htk]
        · change (tick c).2 = _ at h1; rw [htk] at h1; exact absurd h1 hn
      have e' := skip_other c' _ r (Prod.ext rfl h0) hr'
      exact ⟨fun k => by rw [e, e']; exact h.follow _,
        fun k k' t d h1 h2 h3 => by rw [e] at h1; rw [e'] at h3; exact h.late _ _ t d h1 h2 h3,
        fun k t d h1 => by rw [e] at h1; exact h.inside _ t d h1⟩

end Skip

end Moledyn.Limit
