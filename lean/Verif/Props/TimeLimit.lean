import Verif.Lemmas.TimeLimit
/-
Property theorems C124: the time limit only cuts off (src/time_mod/mod.rs, tests/large_n_simulation.rs,
tests/arguments.rs, examples/mfpt_exp.rs).
-/
namespace Moledyn.Props
open Moledyn
variable {G S : Type} {R : Rounding}

private theorem exp_rel (c : ExpStep (RF R)) (h : c.Reachable) (T : RF R) (hT : c.tmax.val ≤ (c.setTmax T).1.tmax.val) :
    Limit.ExpRel c.tmax.val c (c.setTmax T).1 := by
  refine ⟨h, h.setTmax T, ?_, rfl⟩
  refine ⟨(c.setTmax T).1.tmax, ?_, hT⟩
  unfold ExpStep.setTmax
  split_ifs <;> rfl

private theorem const_rel (c : ConstStep (RF R)) (h : c.Reachable) (T : RF R) (hT : c.tmax.val ≤ (c.setTmax T).1.tmax.val) :
    Limit.ConstRel c.tmax.val c (c.setTmax T).1 := by
  refine ⟨h, h.setTmax T, ?_, rfl⟩
  refine ⟨(c.setTmax T).1.tmax, ?_, hT⟩
  unfold ConstStep.setTmax
  split_ifs <;> rfl

/-- Any search (`step` is the body of the loop over time), any monotone rounding, any clock with any history: with a
later limit, everything the search says is the same, except that where it ended because the limit was reached it now
goes on, and a time it then reports is beyond the earlier limit.  Three loops over time: `for (time, dt) in
clock.into_diff()`, the same with `.skip(1)`, `for time in clock` of a constant clock. -/
theorem C124_search (step : RF R → S → S × Option (Res Bool)) (steps : Nat) (s : S) (T : RF R) :
    (∀ c : ExpStep (RF R), c.Reachable → c.tmax.val ≤ (c.setTmax T).1.tmax.val →
      CutOff (fun t => t.val ≤ c.tmax.val)
        (searchLoop (TimeDiff.next ExpStep.next (fun c => c.dt)) step steps (intoDiff c) s).2
        (searchLoop (TimeDiff.next ExpStep.next (fun c => c.dt)) step steps (intoDiff (c.setTmax T).1) s).2 ∧
      CutOff (fun t => t.val ≤ c.tmax.val)
        (searchLoop (skipOne (TimeDiff.next ExpStep.next (fun c => c.dt))) step steps (false, intoDiff c) s).2
        (searchLoop (skipOne (TimeDiff.next ExpStep.next (fun c => c.dt))) step steps (false, intoDiff (c.setTmax T).1) s).2) ∧
    (∀ c : ConstStep (RF R), c.Reachable → c.tmax.val ≤ (c.setTmax T).1.tmax.val →
      CutOff (fun t => t.val ≤ c.tmax.val)
        (searchLoop constTick step steps c s).2 (searchLoop constTick step steps (c.setTmax T).1 s).2) := by
  refine ⟨fun c h hT => ?_, fun c h hT => ?_⟩
  · have hl := Limit.exp_later _ _ _ (exp_rel c h T hT)
    exact ⟨Limit.cut _ _ _ _ _ _ _ hl, Limit.cut _ _ _ _ _ _ _ (Limit.skip_later _ _ hl (Limit.exp_dead c h))⟩
  · exact Limit.cut _ _ _ _ _ _ _ (Limit.const_later _ _ _ (const_rel c h T hT))

/-- The programs.  tests/large_n_simulation.rs: with a later limit the result is the same, or the error `UnexpectedEnd`
becomes something else that is not a time within the earlier limit.  examples/mfpt_exp.rs (from the placed searchers on)
and one whole ensemble of tests/arguments.rs: the same, or the 0 that was written becomes 0 or a time beyond the earlier limit
(or an error, or the search is still running); and where the result is the same because the limit was not reached, so is
everything the list program keeps for the next ensemble. -/
theorem C124_programs (rng : RngOps G (RF R)) (sys : SysOps G (RF R)) (target : TargetOps (RF R)) (inner loops fuel steps : Nat)
    (T : RF R) :
    (∀ (c : ExpStep (RF R)) (l : LList (MergeAgent (RF R))) (g : G), c.Reachable → c.tmax.val ≤ (c.setTmax T).1.tmax.val →
      let run := fun clock : ExpStep (RF R) => (largeNFpt rng sys target fuel steps clock l g).2
      (∀ t, run c = some (.ok t) → t.val ≤ c.tmax.val) ∧
      (run (c.setTmax T).1 = run c ∨
        (run c = some (.err .unexpectedEnd) ∧ ∀ t, run (c.setTmax T).1 = some (.ok t) → c.tmax.val < t.val))) ∧
    (∀ (limit : RF R) (c : ExpStep (RF R)) (st : ExpSim G (RF R)), c.Reachable → c.tmax.val ≤ (c.setTmax T).1.tmax.val →
      let run := fun clock : ExpStep (RF R) => (expFpt rng sys target limit fuel steps clock st).2
      run (c.setTmax T).1 = run c ∨
        (run c = some (.ok Fl.zero) ∧ ∀ t, run (c.setTmax T).1 = some (.ok t) → t = Fl.zero ∨ c.tmax.val < t.val)) ∧
    (∀ (c : ConstStep (RF R)) (s : ListSim G (RF R)), c.Reachable → c.tmax.val ≤ (c.setTmax T).1.tmax.val →
      let run := fun clock : ConstStep (RF R) => listRun rng sys target inner loops fuel steps clock s
      run (c.setTmax T).1 = run c ∨
        ((∃ s', run c = some (.ok Fl.zero, s')) ∧
          ∀ t s', run (c.setTmax T).1 = some (.ok t, s') → t = Fl.zero ∨ c.tmax.val < t.val)) := by
  refine ⟨?_, ?_, ?_⟩
  · intro c l g h hT
    obtain ⟨h1, h2⟩ := ((C124_search (mergeStep rng sys target (fun a => a.ptlRadius) fuel) steps ⟨l, g, []⟩ T).1 c h hT).1
    simp only [largeNFpt]
    constructor
    · intro t ht
      apply h1 t
      revert ht
      rcases (searchLoop (TimeDiff.next ExpStep.next fun c => c.dt) (mergeStep rng sys target (fun a => a.ptlRadius) fuel) steps
        (intoDiff c) ⟨l, g, []⟩).2 with _ | ((_ | x) | e | _) <;> simp [Res.bind]
    · rcases h2 with h2 | ⟨h2, h3⟩
      · left; rw [h2]
      · right
        refine ⟨by rw [h2]; rfl, ?_⟩
        intro t ht
        refine not_le.1 (h3 t ?_)
        revert ht
        rcases (searchLoop (TimeDiff.next ExpStep.next fun c => c.dt) (mergeStep rng sys target (fun a => a.ptlRadius) fuel) steps
          (intoDiff (c.setTmax T).1) ⟨l, g, []⟩).2 with _ | ((_ | x) | e | _) <;> simp [Res.bind]
  · intro limit c st h hT
    obtain ⟨h1, h2⟩ := ((C124_search (expStep rng sys target limit fuel) steps st T).1 c h hT).2
    simp only [expFpt]
    rcases h2 with h2 | ⟨h2, h3⟩
    · left; rw [h2]
    · right
      refine ⟨by rw [h2]; rfl, ?_⟩
      intro t
      revert h3
      rcases (searchLoop (skipOne (TimeDiff.next ExpStep.next fun c => c.dt)) (expStep rng sys target limit fuel) steps
        (false, intoDiff (c.setTmax T).1) st).2 with _ | ((_ | x) | e | _)
      · simp
      · intro _ ht; left; simpa [Res.map] using ht.symm
      · intro h3 ht
        right
        have : x = t := by simpa [Res.map] using ht
        subst this
        exact not_le.1 (h3 x rfl)
      · simp [Res.map]
      · simp [Res.map]
  · intro c s h hT
    simp only [listRun]
    rcases listPrepare sys target inner loops s.1 s.2.2 with _ | ⟨⟨l1, u | e | _⟩, g1⟩
    · left; rfl
    · have hl := Limit.const_later _ _ _ (const_rel c h T hT)
      simp only
      rcases Limit.loop constTick _ (listStep rng sys target fuel) steps c (c.setTmax T).1 (l1, (s.2.1, g1)) hl with ⟨h1, h2⟩ | ⟨h1, h2⟩
      · left
        revert h1 h2
        rcases searchLoop constTick (listStep rng sys target fuel) steps c (l1, (s.2.1, g1)) with ⟨⟨c1, s1⟩, o⟩
        rcases searchLoop constTick (listStep rng sys target fuel) steps (c.setTmax T).1 (l1, (s.2.1, g1)) with ⟨⟨c2, s2⟩, o2⟩
        rintro h1 h2
        simp only at h1 h2
        subst h1 h2
        cases o2 <;> rfl
      · right
        revert h1 h2
        rcases searchLoop constTick (listStep rng sys target fuel) steps c (l1, (s.2.1, g1)) with ⟨⟨c1, s1⟩, o⟩
        rcases searchLoop constTick (listStep rng sys target fuel) steps (c.setTmax T).1 (l1, (s.2.1, g1)) with ⟨⟨c2, s2⟩, o2⟩
        rintro h1 h2
        simp only at h1 h2
        subst h1
        refine ⟨⟨s1, rfl⟩, ?_⟩
        intro t s' ht
        rcases o2 with _ | ((_ | x) | e | _)
        · simp at ht
        · left; simp [Res.map] at ht; exact ht.1.symm
        · right
          have : x = t := by simp [Res.map] at ht; exact ht.1
          subst this
          exact not_le.1 (h2 x rfl)
        · simp [Res.map] at ht
        · simp [Res.map] at ht
    · left; rfl
    · left; rfl

/-- Clocks that meet the hypotheses: step 1, limit 2, then limit 5, with a constant and with a growing step. -/
example : (∃ c : ConstStep (RF Rounding.exact), c.Reachable ∧ c.tmax.val = 2 ∧ (c.setTmax ⟨5⟩).1.tmax.val = 5) ∧
    ∃ c : ExpStep (RF Rounding.exact), c.Reachable ∧ c.tmax.val = 2 ∧ (c.setTmax ⟨5⟩).1.tmax.val = 5 := by
  have hlt : Fl.lt (⟨1⟩ : RF Rounding.exact) (Fl.lit (1 / 10 ^ 15)) = false := by
    change decide ((1 : ℝ) < ((1 / 10 ^ 15 : ℚ) : ℝ)) = false
    rw [decide_eq_false_iff_not]
    push_cast
    norm_num
  have hgt : Fl.gt (⟨1⟩ : RF Rounding.exact) ⟨4⟩ = false := by
    change decide ((4 : ℝ) < 1) = false
    rw [decide_eq_false_iff_not]
    norm_num
  constructor
  · have h0 : ConstStep.new (⟨1⟩ : RF Rounding.exact) = .ok ⟨.constant ⟨1⟩, Fl.zero, ⟨1⟩, Fl.maxVal⟩ := by
      unfold ConstStep.new
      rw [hlt]
      rfl
    refine ⟨_, (ConstStep.Reachable.new h0).setTmax ⟨2⟩, ?_, ?_⟩
    · norm_num [ConstStep.setTmax, Rounding.exact]
    · norm_num [ConstStep.setTmax, Rounding.exact]
  · have h0 : ExpStep.new (⟨1⟩ : RF Rounding.exact) ⟨4⟩ 1 = .ok ⟨.exponential ⟨1⟩ ⟨4⟩ 1, Fl.zero, ⟨1⟩, Fl.lit (12 / 10), Fl.maxVal, 0⟩ := by
      unfold ExpStep.new
      rw [hlt, hgt]
      rfl
    refine ⟨_, (ExpStep.Reachable.new h0).setTmax ⟨2⟩, ?_, ?_⟩
    · norm_num [ExpStep.setTmax, Rounding.exact]
    · norm_num [ExpStep.setTmax, Rounding.exact]

end Moledyn.Props
