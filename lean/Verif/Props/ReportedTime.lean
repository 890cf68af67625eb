import Verif.Spec.SingleSearch
import Verif.Model.Simulation
import Verif.Props.Time
import Verif.Props.Simulation
import Mathlib.Tactic.IntervalCases
/-
Property theorems C69: what a reported first-passage time says about the simulated time.
-/
namespace Moledyn.Props
open Moledyn
set_option linter.unusedSimpArgs false
variable {F S C : Type}

private theorem output_succ' {O : Type} (next : S → S × O) (k : Nat) (s : S) :
    output next (k + 1) s = output next k (next s).1 := rfl

/-! ## C69: reported and simulated time -/

/-- Any arithmetic, clock and step function: if a search reports `t`, then for some `k` it made exactly `k + 1` steps,
step number `j` with the step size of the clock's call number `j`, and `t` is the time that came with the last one. -/
theorem C69_steps_made (tick : C → C × Res (Option (F × F))) (step : F → S → S × Option (Res Bool)) (n : Nat)
    (c : C) (s : S) (t : F) (h : (searchLoop tick step n c s).2 = some (.ok (some t))) :
    ∃ k < n, searchLoop tick step (k + 1) c s = searchLoop tick step n c s ∧
      (∃ dt, output tick k c = .ok (some (t, dt))) ∧
      ∀ j ≤ k, ∃ tj dt, output tick j c = .ok (some (tj, dt)) ∧
        (searchLoop tick step (j + 1) c s).1.2 = (step dt (searchLoop tick step j c s).1.2).1 := by
  induction n generalizing c s with
  | zero => simp [searchLoop] at h
  | succ n ih =>
    rcases ht : tick c with ⟨c1, o⟩
    have h0 : output tick 0 c = o := by show (tick c).2 = o; rw [ht]
    match o with
    | .ok none => unfold searchLoop at h; simp [ht] at h
    | .err e => unfold searchLoop at h; simp [ht] at h
    | .panic => unfold searchLoop at h; simp [ht] at h
    | .ok (some (t0, dt)) =>
      have hstep : ∀ m, searchLoop tick step (m + 1) c s =
          match step dt s with
          | (s1, none) => ((c1, s1), none)
          | (s1, some (.ok true)) => ((c1, s1), some (.ok (some t0)))
          | (s1, some (.ok false)) => searchLoop tick step m c1 s1
          | (s1, some (.err e)) => ((c1, s1), some (.err e))
          | (s1, some .panic) => ((c1, s1), some .panic) := by
        intro m
        rw [searchLoop, ht]
        rfl
      rcases hs : step dt s with ⟨s1, o⟩
      match o, hs with
      | none, hs => rw [hstep, hs] at h; simp at h
      | some (.err e), hs => rw [hstep, hs] at h; simp at h
      | some .panic, hs => rw [hstep, hs] at h; simp at h
      | some (.ok true), hs =>
        have h' := h
        rw [hstep, hs] at h'
        simp only [Option.some.injEq, Res.ok.injEq] at h'
        subst h'
        refine ⟨0, by omega, by rw [hstep, hstep, hs], ⟨dt, h0⟩, fun j hj => ?_⟩
        obtain rfl : j = 0 := by omega
        refine ⟨t0, dt, h0, ?_⟩
        rw [hstep, hs]
        show s1 = (step dt s).1
        rw [hs]
      | some (.ok false), hs =>
        have hall : ∀ m, searchLoop tick step (m + 1) c s = searchLoop tick step m c1 s1 := fun m => by rw [hstep, hs]
        have hout : ∀ j, output tick (j + 1) c = output tick j c1 := fun j => by rw [output_succ', ht]
        rw [hall] at h
        obtain ⟨k, k1, k2, ⟨d, k3⟩, k4⟩ := ih c1 s1 h
        refine ⟨k + 1, by omega, by rw [hall, hall]; exact k2, ⟨d, by rw [hout]; exact k3⟩, fun j hj => ?_⟩
        cases j with
        | zero =>
          refine ⟨t0, dt, h0, ?_⟩
          rw [hall]
          show s1 = (step dt s).1
          rw [hs]
        | succ j =>
          obtain ⟨tj, dj, e1, e2⟩ := k4 j (by omega)
          exact ⟨tj, dj, by rw [hout]; exact e1, by rw [hall, hall]; exact e2⟩

private theorem counting_output (dt : ℝ) (k : Nat) (c : ℝ) :
    output (countingTick dt) k c = .ok (some (c + (k + 1) * dt, dt)) := by
  induction k generalizing c with
  | zero => show Res.ok (some (c + dt, dt)) = _; simp
  | succ k ih =>
    rw [output_succ', ih]
    show Res.ok (some (c + dt + (k + 1) * dt, dt)) = _
    congr 3
    push_cast; ring

/-- tests/merge_fpt.rs and tests/n_ptl_rts_iterator.rs (exact arithmetic): the reported time is the simulated time. -/
theorem C69_counting_clock (step : ℝ → S → S × Option (Res Bool)) (dt : ℝ) (n : Nat) (s : S) (t : ℝ)
    (h : (searchLoop (countingTick dt) step n 0 s).2 = some (.ok (some t))) :
    ∃ k < n, searchLoop (countingTick dt) step (k + 1) 0 s = searchLoop (countingTick dt) step n 0 s ∧
      t = simulatedTime (countingTick dt) 0 (k + 1) := by
  obtain ⟨k, h1, h2, ⟨d, h3⟩, -⟩ := C69_steps_made _ step n 0 s t h
  refine ⟨k, h1, h2, ?_⟩
  rw [counting_output] at h3
  simp only [Res.ok.injEq, Option.some.injEq, Prod.mk.injEq] at h3
  unfold simulatedTime stepSize
  simp only [counting_output, Finset.sum_const, Finset.card_range, nsmul_eq_mul]
  rw [← h3.1]; push_cast; ring

/-- the times of an exponential clock are the sums of the step sizes so far. -/
private theorem exp_sum (c : ExpStep ℝ) (hc : c.Reachable) (k : Nat) (t d : ℝ)
    (hall : ∀ j < k, ∃ x, output (TimeDiff.next ExpStep.next ExpStep.dt) j (intoDiff c) = .ok (some x))
    (h : output (TimeDiff.next ExpStep.next ExpStep.dt) k (intoDiff c) = .ok (some (t, d))) :
    t = c.current + simulatedTime (TimeDiff.next ExpStep.next ExpStep.dt) (intoDiff c) k := by
  induction k generalizing t d with
  | zero =>
    rw [(C16_first (F := ℝ) ⟨.constant 0, 0, 0, 0⟩ c hc t d).2 h]
    simp [simulatedTime]
  | succ k ih =>
    obtain ⟨⟨t', d'⟩, h'⟩ := hall k (by omega)
    have := ih t' d' (fun j hj => hall j (by omega)) h'
    rw [C16_exp_increments c hc k t' d' t d h' h, this]
    unfold simulatedTime
    rw [Finset.sum_range_succ]
    have : stepSize (TimeDiff.next ExpStep.next ExpStep.dt) (intoDiff c) k = d' := by
      unfold stepSize; rw [h']
    rw [this]
    simp only [fl_add]
    ring

/-- tests/large_n_simulation.rs (exact arithmetic, any reachable clock): the reported time is the time at the beginning
of the last step; the agents had been moved for the last step size longer (measured from the clock's starting time). -/
theorem C69_large_n (step : ℝ → S → S × Option (Res Bool)) (clock : ExpStep ℝ) (hc : clock.Reachable) (n : Nat)
    (s : S) (t : ℝ)
    (h : (searchLoop (TimeDiff.next ExpStep.next ExpStep.dt) step n (intoDiff clock) s).2 = some (.ok (some t))) :
    ∃ k < n, searchLoop (TimeDiff.next ExpStep.next ExpStep.dt) step (k + 1) (intoDiff clock) s =
        searchLoop (TimeDiff.next ExpStep.next ExpStep.dt) step n (intoDiff clock) s ∧
      t - clock.current = simulatedTime (TimeDiff.next ExpStep.next ExpStep.dt) (intoDiff clock) (k + 1) -
        stepSize (TimeDiff.next ExpStep.next ExpStep.dt) (intoDiff clock) k := by
  obtain ⟨k, h1, h2, ⟨d, h3⟩, h4⟩ := C69_steps_made _ step n _ s t h
  refine ⟨k, h1, h2, ?_⟩
  rw [exp_sum clock hc k t d (fun j hj => by obtain ⟨x, y, hx, -⟩ := h4 j (by omega); exact ⟨_, hx⟩) h3]
  unfold simulatedTime
  rw [Finset.sum_range_succ]
  ring

private theorem skip_state (tick : C → C × Res (Option (F × F))) (c : C) (x : F × F)
    (h : output tick 0 c = .ok (some x)) (k : Nat) :
    stateAfter (skipOne tick) (k + 1) (false, c) = (true, stateAfter tick (k + 2) c) := by
  have h1 : (skipOne tick (false, c)).1 = (true, stateAfter tick 2 c) := by
    unfold skipOne
    simp only [Bool.false_eq_true, if_false]
    have h' : (tick c).2 = .ok (some x) := h
    rcases hc : tick c with ⟨c1, r⟩
    rw [hc] at h'
    simp only at h'
    subst h'
    simp only [stateAfter, hc]
  have h2 : ∀ k c, stateAfter (skipOne tick) k (true, c) = (true, stateAfter tick k c) := by
    intro k
    induction k with
    | zero => intro c; rfl
    | succ k ih => intro c; rw [stateAfter, stateAfter]; exact ih _
  rw [stateAfter, h1, h2]
  have : ∀ a b c, stateAfter tick a (stateAfter tick b c) = stateAfter tick (a + b) c := by
    intro a b
    induction b with
    | zero => intro c; rfl
    | succ b ih => intro c; exact ih _
  rw [this]

private theorem skip_output (tick : C → C × Res (Option (F × F))) (c : C) (x : F × F)
    (h : output tick 0 c = .ok (some x)) (k : Nat) :
    output (skipOne tick) k (false, c) = output tick (k + 1) c := by
  cases k with
  | zero =>
    have h' : (tick c).2 = .ok (some x) := h
    unfold output skipOne
    simp only [stateAfter, Bool.false_eq_true, if_false]
    rcases hc : tick c with ⟨c1, r⟩
    rw [hc] at h'
    simp only at h'
    subst h'
    rfl
  | succ k =>
    unfold output
    rw [skip_state tick c x h k]
    rfl

/-- examples/mfpt_exp.rs, which drops the first pair of the clock (exact arithmetic, any reachable clock): the agents
have been moved for the reported time (from the clock's starting time), plus the last step size, minus the step size
that was dropped. -/
theorem C69_mfpt_exp (step : ℝ → S → S × Option (Res Bool)) (clock : ExpStep ℝ) (hc : clock.Reachable) (n : Nat)
    (s : S) (t : ℝ)
    (h : (searchLoop (skipOne (TimeDiff.next ExpStep.next ExpStep.dt)) step n (false, intoDiff clock) s).2 =
      some (.ok (some t))) :
    ∃ k < n, searchLoop (skipOne (TimeDiff.next ExpStep.next ExpStep.dt)) step (k + 1) (false, intoDiff clock) s =
        searchLoop (skipOne (TimeDiff.next ExpStep.next ExpStep.dt)) step n (false, intoDiff clock) s ∧
      simulatedTime (skipOne (TimeDiff.next ExpStep.next ExpStep.dt)) (false, intoDiff clock) (k + 1) =
        (t - clock.current) +
          stepSize (skipOne (TimeDiff.next ExpStep.next ExpStep.dt)) (false, intoDiff clock) k -
          stepSize (TimeDiff.next ExpStep.next ExpStep.dt) (intoDiff clock) 0 := by
  obtain ⟨k, h1, h2, ⟨d, h3⟩, h4⟩ := C69_steps_made _ step n _ s t h
  refine ⟨k, h1, h2, ?_⟩
  -- the clock handed out a first pair
  obtain ⟨t0, d0, h0, -⟩ := h4 0 (by omega)
  have hx : ∃ x, output (TimeDiff.next ExpStep.next ExpStep.dt) 0 (intoDiff clock) = .ok (some x) := by
    unfold output skipOne at h0
    simp only [stateAfter, Bool.false_eq_true, if_false] at h0
    rcases hcc : TimeDiff.next ExpStep.next ExpStep.dt (intoDiff clock) with ⟨c1, r⟩
    rw [hcc] at h0
    unfold output
    simp only [stateAfter, hcc]
    match r with
    | .ok (some x) => exact ⟨x, rfl⟩
    | .ok none => simp at h0
    | .err e => simp at h0
    | .panic => simp at h0
  obtain ⟨x, hx⟩ := hx
  have hall : ∀ j ≤ k + 1, ∃ y, output (TimeDiff.next ExpStep.next ExpStep.dt) j (intoDiff clock) = .ok (some y) := by
    intro j hj
    cases j with
    | zero => exact ⟨x, hx⟩
    | succ j =>
      obtain ⟨a, b, hab, -⟩ := h4 j (by omega)
      rw [skip_output _ _ x hx] at hab
      exact ⟨_, hab⟩
  rw [skip_output _ _ x hx] at h3
  have hsum := exp_sum clock hc (k + 1) t d (fun j hj => hall j (by omega)) h3
  have hsize : ∀ j, stepSize (skipOne (TimeDiff.next ExpStep.next ExpStep.dt)) (false, intoDiff clock) j =
      stepSize (TimeDiff.next ExpStep.next ExpStep.dt) (intoDiff clock) (j + 1) := by
    intro j; unfold stepSize; rw [skip_output _ _ x hx]
  unfold simulatedTime at hsum ⊢
  simp only [hsize]
  rw [Finset.sum_range_succ]
  rw [Finset.sum_range_succ'] at hsum
  linarith

-- a search that succeeds in its first step, with a clock of first step 2: the large-N program reports 0, mfpt_exp, which
-- drops the first pair, reports 2, the counting clock of step 2 reports 2
private def demoClock : ExpStep Z := ⟨.exponential ⟨2⟩ ⟨2⟩ 10, ⟨0⟩, ⟨2⟩, ⟨1⟩, ⟨1000⟩, 0⟩
example : (searchLoop (TimeDiff.next ExpStep.next ExpStep.dt) (fun (_ : Z) (s : Nat) => (s + 1, some (.ok true))) 5
      (intoDiff demoClock) 0).2 = some (.ok (some ⟨0⟩)) ∧
    (searchLoop (skipOne (TimeDiff.next ExpStep.next ExpStep.dt)) (fun (_ : Z) (s : Nat) => (s + 1, some (.ok true))) 5
      (false, intoDiff demoClock) 0).2 = some (.ok (some ⟨2⟩)) ∧
    (searchLoop (countingTick (⟨2⟩ : Z)) (fun (_ : Z) (s : Nat) => (s + 1, some (.ok true))) 5 ⟨0⟩ 0).2 =
      some (.ok (some ⟨2⟩)) := by
  decide +kernel

/-- a step function that finds in step number `m`, counting from the state `s`. -/
private def findsAt (m : Nat) (_ : F) (s : Nat) : Nat × Option (Res Bool) := (s + 1, some (.ok (s == m)))

private theorem findsAt_reports (tick : C → C × Res (Option (F × F))) (k s m n : Nat) (hm : m = s + k) (hn : k < n)
    (c : C) (t d : F) (hall : ∀ j < k, ∃ x, output tick j c = .ok (some x))
    (h : output tick k c = .ok (some (t, d))) :
    (searchLoop tick (findsAt m) n c s).2 = some (.ok (some t)) := by
  induction k generalizing c s n with
  | zero =>
    obtain ⟨n, rfl⟩ : ∃ j, n = j + 1 := ⟨n - 1, by omega⟩
    have h' : (tick c).2 = .ok (some (t, d)) := h
    rcases hc : tick c with ⟨c1, r⟩
    rw [hc] at h'; simp only at h'; subst h'
    have hf : findsAt m d s = (s + 1, some (.ok true)) := by simp [findsAt, hm]
    rw [searchLoop, hc]
    simp only [hf]
  | succ k ih =>
    obtain ⟨n, rfl⟩ : ∃ j, n = j + 1 := ⟨n - 1, by omega⟩
    obtain ⟨⟨t0, d0⟩, h0⟩ := hall 0 (by omega)
    have h' : (tick c).2 = .ok (some (t0, d0)) := h0
    rcases hc : tick c with ⟨c1, r⟩
    rw [hc] at h'; simp only at h'; subst h'
    have hout : ∀ j, output tick (j + 1) c = output tick j c1 := fun j => by rw [output_succ', hc]
    have hf : findsAt m d0 s = (s + 1, some (.ok false)) := by
      have : ¬ s = m := by omega
      simp [findsAt, this]
    rw [searchLoop, hc]
    simp only [hf]
    exact ih (s + 1) n (by omega) (by omega) c1 (fun j hj => by rw [← hout]; exact hall _ (by omega))
      (by rw [← hout]; exact h)

-- the hypotheses of the theorems hold of real-valued searches: the clock with steps 1, 1, 1, 1, 2, 2, … (cap 3); a search
-- that finds in its fifth step (of size 2) is reported by the large-N program with time 4, although 6 were simulated
example : ∃ c : ExpStep ℝ, c.Reachable ∧
    (searchLoop (TimeDiff.next ExpStep.next ExpStep.dt) (findsAt 4) 10 (intoDiff c) 0).2 = some (.ok (some 4)) ∧
    simulatedTime (TimeDiff.next ExpStep.next ExpStep.dt) (intoDiff c) 5 = 6 := by
  have hn : ∃ c : ExpStep ℝ, ExpStep.new 1 3 4 = .ok c ∧ c.tmax = Fl.maxVal := by
    unfold ExpStep.new
    rw [if_neg]
    · exact ⟨_, rfl, rfl⟩
    · simp only [fl_lt, fl_lit]; push_cast; norm_num
  obtain ⟨c, hc, hm⟩ := hn
  obtain ⟨h1, h2, h3⟩ := C13_new_ratio 1 3 4 c hc
  have hmax := maxVal_ge
  have h3 : c.inc = 2 := by rw [h3]; norm_num
  have hs : ∀ n, expStepSize 1 3 2 4 n = min ((2 : ℝ) ^ (n / 4)) 3 := by intro n; simp [expStepSize]
  have hout : ∀ j ≤ 4, output (TimeDiff.next ExpStep.next ExpStep.dt) j (intoDiff c) =
      .ok (some ((j : ℝ), if j = 4 then 2 else 1)) := by
    intro j hj
    rw [C13_schedule c (.new hc) h1 1 3 4 h2, h3, hm]
    have he : expTime 1 3 2 4 j = j := by
      interval_cases j <;> norm_num [expTime, hs]
    have hj' : (j : ℝ) ≤ 4 := by exact_mod_cast hj
    rw [he, if_pos (by linarith), hs]
    interval_cases j <;> norm_num
  refine ⟨c, .new hc, ?_, ?_⟩
  · refine findsAt_reports _ 4 0 4 10 rfl (by omega) _ 4 2 (fun j hj => ⟨_, hout j (by omega)⟩) ?_
    rw [hout 4 le_rfl]; norm_num
  · have hd : ∀ j ≤ 4, stepSize (TimeDiff.next ExpStep.next ExpStep.dt) (intoDiff c) j = if j = 4 then 2 else 1 := by
      intro j hj; unfold stepSize; rw [hout j hj]
    unfold simulatedTime
    simp only [Finset.sum_range_succ, Finset.sum_range_zero]
    rw [hd 0 (by omega), hd 1 (by omega), hd 2 (by omega), hd 3 (by omega), hd 4 (by omega)]
    norm_num

end Moledyn.Props
