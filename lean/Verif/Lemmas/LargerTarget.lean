import Verif.Spec.LargerTarget
import Verif.Lemmas.Time
/-
Helper lemmas for Props/LargerTarget.lean.
-/
namespace Moledyn.Larger
variable {G F S C α : Type} [Fl F]

/-- the second sweep finds the target, or does what the first one does. -/
theorem sweep (act act' : Nat → S → α → (α × Res Bool) × S)
    (hsame : ∀ i s a, (act' i s a).1.1 = (act i s a).1.1 ∧ (act' i s a).2 = (act i s a).2)
    (hcov : ∀ i s a, (act' i s a).1.2 = .ok true ∨ (act' i s a).1.2 = (act i s a).1.2) :
    ∀ n l s, (agentSweep act' n l s).2 = some (.ok true) ∨ agentSweep act' n l s = agentSweep act n l s := by
  intro n
  induction n with
  | zero => intro l s; right; rfl
  | succ n ih =>
    intro l s
    have hf : (fun a => (act' (l.c0.getD 0) s a).1.1) = (fun a => (act (l.c0.getD 0) s a).1.1) :=
      funext fun a => (hsame _ _ _).1
    unfold agentSweep
    rw [hf]
    rcases l.enumerateMut (fun a => (act (l.c0.getD 0) s a).1.1) with ⟨l1, r⟩
    cases r with
    | err e => right; rfl
    | panic => right; rfl
    | ok o =>
      cases o with
      | none => right; rfl
      | some p =>
        obtain ⟨i, a⟩ := p
        have h2 := (hsame i s a).2
        rcases hcov i s a with h | h
        · left; simp only [h]
        · simp only [h, h2]
          cases hr : (act i s a).1.2 with
          | err e => right; rfl
          | panic => right; rfl
          | ok b =>
            cases b with
            | true => right; rfl
            | false => exact ih l1 _

omit [Fl F] in
theorem tick_zero (tick : C → C × Res (Option (F × F))) (c : C) : output tick 0 c = (tick c).2 := rfl

/-- what a search reports is the time of one of its turns. -/
theorem loop_reports (tick : C → C × Res (Option (F × F))) (step : F → S → S × Option (Res Bool)) :
    ∀ n c s t, (searchLoop tick step n c s).2 = some (.ok (some t)) →
      ∃ k d, k < n ∧ output tick k c = .ok (some (t, d)) := by
  intro n
  induction n with
  | zero => intro c s t h; simp [searchLoop] at h
  | succ n ih =>
    intro c s t h
    unfold searchLoop at h
    rcases htk : tick c with ⟨c1, r⟩
    rw [htk] at h
    cases r with
    | err e => simp at h
    | panic => simp at h
    | ok o =>
      cases o with
      | none => simp at h
      | some p =>
        obtain ⟨time, dt⟩ := p
        simp only at h
        rcases hst : step dt s with ⟨s1, o⟩
        rw [hst] at h
        rcases o with _ | (b | e | _)
        · simp at h
        · cases b with
          | true =>
            simp only [Option.some.injEq, Res.ok.injEq] at h
            subst h
            exact ⟨0, dt, Nat.succ_pos _, by rw [tick_zero, htk]⟩
          | false =>
            simp only at h
            obtain ⟨k, d, hk, ho⟩ := ih c1 s1 t h
            refine ⟨k + 1, d, Nat.succ_lt_succ hk, ?_⟩
            rw [output_succ, htk]; exact ho
        · simp at h
        · simp at h

theorem loop (tick : C → C × Res (Option (F × F))) (step step' : F → S → S × Option (Res Bool))
    (h : ∀ dt s, (step' dt s).2 = some (.ok true) ∨ step' dt s = step dt s) :
    ∀ n c s, FoundNoLater tick c (searchLoop tick step n c s).2 (searchLoop tick step' n c s).2 := by
  intro n
  induction n with
  | zero => intro c s; left; rfl
  | succ n ih =>
    intro c s
    rcases htk : tick c with ⟨c1, r⟩
    cases r with
    | err e => left; simp only [searchLoop, htk]
    | panic => left; simp only [searchLoop, htk]
    | ok o =>
      cases o with
      | none => left; simp only [searchLoop, htk]
      | some p =>
        obtain ⟨time, dt⟩ := p
        rcases h dt s with h1 | h1
        · right
          refine ⟨0, time, dt, ?_, by rw [tick_zero, htk], ?_⟩
          · rcases hst : step' dt s with ⟨s1, o⟩
            rw [hst] at h1
            simp only at h1
            subst h1
            simp only [searchLoop, htk, hst]
          · intro t ht
            obtain ⟨k, d, _, hk⟩ := loop_reports tick step (n + 1) c s t ht
            exact ⟨k, d, Nat.zero_le _, hk⟩
        · rcases hst : step dt s with ⟨s1, o⟩
          rw [hst] at h1
          rcases o with _ | (b | e | _)
          · left; simp only [searchLoop, htk, hst, h1]
          · cases b with
            | true => left; simp only [searchLoop, htk, hst, h1]
            | false =>
              rcases ih c1 s1 with he | ⟨k', t', d', ho, hk', hl⟩
              · left; simp only [searchLoop, htk, hst, h1]; exact he
              · right
                refine ⟨k' + 1, t', d', ?_, ?_, ?_⟩
                · simp only [searchLoop, htk, h1]; exact ho
                · rw [output_succ, htk]; exact hk'
                · intro t ht
                  simp only [searchLoop, htk, hst] at ht
                  obtain ⟨k, d, hk, hd⟩ := hl t ht
                  exact ⟨k + 1, d, Nat.succ_le_succ hk, by rw [output_succ, htk]; exact hd⟩
          · left; simp only [searchLoop, htk, hst, h1]
          · left; simp only [searchLoop, htk, hst, h1]

variable {big small : TargetOps F}

omit [Fl F] in
theorem walk (hc : Covers big small) (w : Walker G F α) (sys : SysOps G F) (fuel : Nat) (dt : F) (s : LList α × G) :
    (walkStep w sys big fuel dt s).2 = some (.ok true) ∨ walkStep w sys big fuel dt s = walkStep w sys small fuel dt s := by
  refine sweep _ _ ?_ ?_ _ _ _
  · intro i g a
    unfold walkAct
    rcases w.randomMove a g dt with ⟨r, g1⟩
    cases r with
    | err e => exact ⟨rfl, rfl⟩
    | panic => exact ⟨rfl, rfl⟩
    | ok v =>
      simp only
      rcases sys.checkBc (w.pos a) v with ⟨p, r⟩
      cases r <;> exact ⟨rfl, rfl⟩
  · intro i g a
    unfold walkAct
    rcases w.randomMove a g dt with ⟨r, g1⟩
    cases r with
    | err e => right; rfl
    | panic => right; rfl
    | ok v =>
      simp only
      rcases sys.checkBc (w.pos a) v with ⟨p, r⟩
      cases r with
      | err e => right; rfl
      | panic => right; rfl
      | ok u => exact hc p

theorem merge (hc : Covers big small) (rng : RngOps G F) (sys : SysOps G F) (rad : MergeAgent F → F) (fuel : Nat) (dt : F)
    (st : MergeSim G F) :
    (mergeStep rng sys big rad fuel dt st).2 = some (.ok true) ∨
      mergeStep rng sys big rad fuel dt st = mergeStep rng sys small rad fuel dt st := by
  have h := walk hc (MergeAgent.walker rng) sys fuel dt (st.list, st.rng)
  unfold walkStep at h
  simp only at h
  unfold mergeStep
  rcases h with h | h
  · left
    rcases hs : agentSweep (walkAct (MergeAgent.walker rng) sys big dt) fuel st.list.intoIter st.rng with ⟨⟨l1, g1⟩, o⟩
    rw [hs] at h
    simp only at h
    subst h
    rfl
  · right; rw [h]

theorem listTurn (hc : Covers big small) (rng : RngOps G F) (sys : SysOps G F) (fuel : Nat) (dt : F) (s : ListSim G F) :
    (listStep rng sys big fuel dt s).2 = some (.ok true) ∨
      listStep rng sys big fuel dt s = listStep rng sys small fuel dt s := by
  refine sweep _ _ ?_ ?_ _ _ _
  · intro i s a
    unfold listAct
    rcases a.randomMoveToVec rng s.2 dt (s.1.clear Fl.zero) with ⟨⟨v, r⟩, g1⟩
    cases r with
    | err e => exact ⟨rfl, rfl⟩
    | panic => exact ⟨rfl, rfl⟩
    | ok u =>
      simp only
      rcases sys.checkBc a.pos v with ⟨p, r⟩
      cases r <;> exact ⟨rfl, rfl⟩
  · intro i s a
    unfold listAct
    rcases a.randomMoveToVec rng s.2 dt (s.1.clear Fl.zero) with ⟨⟨v, r⟩, g1⟩
    cases r with
    | err e => right; rfl
    | panic => right; rfl
    | ok u =>
      simp only
      rcases sys.checkBc a.pos v with ⟨p, r⟩
      cases r with
      | err e => right; rfl
      | panic => right; rfl
      | ok u => exact hc p

theorem exp (hc : Covers big small) (rng : RngOps G F) (sys : SysOps G F) (limit : F) (fuel : Nat) (dt : F)
    (st : ExpSim G F) :
    (expStep rng sys big limit fuel dt st).2 = some (.ok true) ∨
      expStep rng sys big limit fuel dt st = expStep rng sys small limit fuel dt st := by
  have h : ∀ n l s, (agentSweep (expMoveAct rng sys big limit dt) n l s).2 = some (.ok true) ∨
      agentSweep (expMoveAct rng sys big limit dt) n l s = agentSweep (expMoveAct rng sys small limit dt) n l s := by
    refine sweep _ _ ?_ ?_
    · intro i s a
      unfold expMoveAct
      cases s.2.contents[i]? with
      | none => exact ⟨rfl, rfl⟩
      | some v0 =>
        simp only
        rcases a.randomMoveToVec rng s.1 dt v0 with ⟨⟨v, r⟩, g1⟩
        cases r with
        | err e => exact ⟨rfl, rfl⟩
        | panic => exact ⟨rfl, rfl⟩
        | ok u =>
          simp only
          rcases sys.checkBc a.pos (limitMove limit v) with ⟨p, r⟩
          cases r <;> exact ⟨rfl, rfl⟩
    · intro i s a
      unfold expMoveAct
      cases s.2.contents[i]? with
      | none => right; rfl
      | some v0 =>
        simp only
        rcases a.randomMoveToVec rng s.1 dt v0 with ⟨⟨v, r⟩, g1⟩
        cases r with
        | err e => right; rfl
        | panic => right; rfl
        | ok u =>
          simp only
          rcases sys.checkBc a.pos (limitMove limit v) with ⟨p, r⟩
          cases r with
          | err e => right; rfl
          | panic => right; rfl
          | ok u => exact hc p
  unfold expStep
  rcases st.moves.clearAll (Pos.clear Fl.zero) fuel with ⟨mv1, b⟩
  cases b with
  | false => right; rfl
  | true =>
    simp only
    rcases st.list.intoDoubleIter with ⟨l1, r⟩
    cases r with
    | err e => right; rfl
    | panic => right; rfl
    | ok u =>
      simp only
      rcases pairSweep (forceAct dt) fuel l1 (st.displacement, mv1) with ⟨⟨l2, d, mv2⟩, o⟩
      rcases o with _ | (b | e | _)
      · right; rfl
      · simp only
        rcases h fuel l2.intoIter (st.rng, mv2) with h1 | h1
        · left; exact h1
        · right; rw [h1]
      · right; rfl
      · right; rfl

/-- one searcher: the second search agrees with the first one or stops earlier, after `k' ≤ n` turns. -/
theorem whileTarget (found found' : S → Res Bool) (turn : S → S × Res Unit) (dt : F)
    (hc : ∀ s, found' s = .ok true ∨ found' s = found s) (le : F → F → Prop) (hrefl : ∀ t, le t t)
    (htr : ∀ a b c, le a b → le b c → le a c) (hadd : ∀ t, le t (t + dt)) :
    ∀ n s time, (whileSearch found' turn dt n s time = whileSearch found turn dt n s time) ∨
      ∃ t', (whileSearch found' turn dt n s time).2 = some (.ok t') ∧
        (∀ t, (whileSearch found turn dt n s time).2 = some (.ok t) → le t' t) := by
  have hlow : ∀ n s time t, (whileSearch found turn dt n s time).2 = some (.ok t) → le time t := by
    intro n
    induction n with
    | zero => intro s time t h; simp [whileSearch] at h
    | succ n ih =>
      intro s time t h
      unfold whileSearch at h
      rcases hf : found s with b | e | _
      · rw [hf] at h
        cases b with
        | true => simp at h; subst h; exact hrefl _
        | false =>
          simp only at h
          rcases ht : turn s with ⟨s1, r⟩
          rw [ht] at h
          cases r with
          | ok u => exact htr _ _ _ (hadd time) (ih _ _ _ h)
          | err e => simp at h
          | panic => simp at h
      · rw [hf] at h; simp at h
      · rw [hf] at h; simp at h
  intro n
  induction n with
  | zero => intro s time; left; rfl
  | succ n ih =>
    intro s time
    rcases hc s with h | h
    · right
      exact ⟨time, by simp only [whileSearch, h], hlow _ _ _⟩
    · rcases hf : found s with b | e | _
      · cases b with
        | true => left; simp only [whileSearch, h, hf]
        | false =>
          rcases ht : turn s with ⟨s1, r⟩
          cases r with
          | ok u =>
            simp only [whileSearch, h, hf, ht]
            exact ih s1 (time + dt)
          | err e => left; simp only [whileSearch, h, hf, ht]
          | panic => left; simp only [whileSearch, h, hf, ht]
      · left; simp only [whileSearch, h, hf]
      · left; simp only [whileSearch, h, hf]

/-- what the clock `time += dt` keeps, the reported time has. -/
theorem whileReport (found : S → Res Bool) (turn : S → S × Res Unit) (dt : F) (P : F → Prop) (hP : ∀ t, P t → P (t + dt)) :
    ∀ n s time t, P time → (whileSearch found turn dt n s time).2 = some (.ok t) → P t := by
  intro n
  induction n with
  | zero => intro s time t _ h; simp [whileSearch] at h
  | succ n ih =>
    intro s time t hp h
    unfold whileSearch at h
    rcases hf : found s with b | e | _
    · rw [hf] at h
      cases b with
      | true => simp at h; subst h; exact hp
      | false =>
        simp only at h
        rcases ht : turn s with ⟨s1, r⟩
        rw [ht] at h
        cases r with
        | ok u => exact ih _ _ _ (hP _ hp) h
        | err e => simp at h
        | panic => simp at h
    · rw [hf] at h; simp at h
    · rw [hf] at h; simp at h

end Moledyn.Larger
