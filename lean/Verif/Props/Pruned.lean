import Verif.Model.BundledPrograms
import Verif.Props.SingleSearch
/-
Property theorems C102: the program of tests/test_setup.rs, which follows every searcher only as long as it can still be the
fastest.
-/
namespace Moledyn.Props
open Moledyn
set_option linter.unusedSimpArgs false
variable {G S : Type}

/-- one searcher followed with new vectors, until it cannot be the fastest any more. -/
noncomputable def freshPruned (rng : RngOps G ℝ) (sys : SysOps G ℝ) (target : TargetOps ℝ) (dt fpt : ℝ) (steps : Nat) (a : IndepAgent ℝ) (g : G) :
    ((IndepAgent ℝ × G) × ℝ) × Option (Res ℝ) :=
  prunedSearch (fun s : IndepAgent ℝ × G => target.checkFind s.1.pos) (freshTurn rng sys dt) dt fpt steps (a, g) 0

/-- the buffer makes no difference. -/
private theorem pruned_buffer (rng : RngOps G ℝ) (sys : SysOps G ℝ) (target : TargetOps ℝ) (dt fpt : ℝ) {n : Nat} (m : Nat) :
    ∀ (a : IndepAgent ℝ) (b : Pos ℝ) (g : G) (t : ℝ), a.dim = n → b.length = n →
      ∃ b' : Pos ℝ, b'.length = n ∧
        prunedSearch (fun s : IndepAgent ℝ × Pos ℝ × G => target.checkFind s.1.pos) (bufferTurn rng sys dt) dt fpt m (a, b, g) t =
        (let r := prunedSearch (fun s : IndepAgent ℝ × G => target.checkFind s.1.pos) (freshTurn rng sys dt) dt fpt m (a, g) t
         (((r.1.1.1, b', r.1.1.2), r.1.2), r.2)) := by
  induction m with
  | zero => intro a b g t ha hb; exact ⟨b, hb, rfl⟩
  | succ m ih =>
    intro a b g t ha hb
    unfold prunedSearch
    simp only
    cases target.checkFind a.pos with
    | err e => exact ⟨b, hb, rfl⟩
    | panic => exact ⟨b, hb, rfl⟩
    | ok x =>
      cases x with
      | true => exact ⟨b, hb, rfl⟩
      | false =>
        simp only
        by_cases hlt : Fl.lt t fpt = true
        · simp only [hlt, if_true]
          obtain ⟨b1, hb1, e1, e2⟩ := bufferTurn_fresh rng sys dt a b g ha hb
          simp only [e1]
          rcases hft : freshTurn rng sys dt (a, g) with ⟨⟨a1, g1⟩, r⟩
          rw [hft] at e2
          cases r with
          | ok _ => exact ih a1 b1 g1 _ e2 hb1
          | err e => exact ⟨b1, hb1, rfl⟩
          | panic => exact ⟨b1, hb1, rfl⟩
        · simp only [hlt, if_false]
          exact ⟨b, hb, rfl⟩

/-- one searcher of the program, in terms of new vectors. -/
theorem prunedSearcher_fresh (rng : RngOps G ℝ) (sys : SysOps G ℝ) (target : TargetOps ℝ) (inner loops steps : Nat)
    (mtype : MoveType ℝ) (dt fpt : ℝ) {n : Nat} (buf : Pos ℝ) (hb : buf.length = n) (g g1 : G) (a : IndepAgent ℝ) (ha : a.dim = n)
    (hnew : IndepAgent.newUniform sys target inner loops g mtype = some (.ok a, g1)) :
    ∃ b' : Pos ℝ, b'.length = n ∧ prunedSearcher rng sys target inner loops steps mtype dt fpt (buf, g) =
      match freshPruned rng sys target dt fpt steps a g1 with
      | (_, none) => none
      | ((s, _), some r) => some (r, (b', s.2)) := by
  unfold prunedSearcher freshPruned
  simp only [hnew]
  obtain ⟨b', hb', e⟩ := pruned_buffer rng sys target dt fpt steps a buf g1 0 ha hb
  refine ⟨b', hb', ?_⟩
  rw [show (Fl.zero : ℝ) = 0 by simp [Fl.zero], e]
  rcases prunedSearch (fun s : IndepAgent ℝ × G => target.checkFind s.1.pos) (freshTurn rng sys dt) dt fpt steps (a, g1) 0
    with ⟨⟨⟨a2, g2⟩, t2⟩, o⟩
  cases o <;> rfl

/-- the search that is given up, in terms of the search that is allowed `k` tests. -/
private theorem prunedSearch_full (found : S → Res Bool) (turn : S → S × Res Unit) (dt fpt : ℝ) (k e : Nat) :
    ∀ (s : S) (time : ℝ), (∀ i : Nat, i < k → time + i * dt < fpt) → ¬ time + k * dt < fpt →
    prunedSearch found turn dt fpt (k + 1 + e) s time =
      match whileSearch found turn dt k s time with
      | (x, some o) => (x, some o)
      | (x, none) => (x, some ((found x.1).map fun _ => time + k * dt)) := by
  induction k with
  | zero =>
    intro s time _ hk
    have hk : ¬ time < fpt := by simpa using hk
    rw [show 0 + 1 + e = e + 1 by omega, prunedSearch, whileSearch]
    cases hf : found s with
    | err e => simp [hf]
    | panic => simp [hf]
    | ok b => cases b <;> simp [hf, hk]
  | succ k ih =>
    intro s time hi hk
    have h0 : time < fpt := by simpa using hi 0 (by omega)
    rw [show k + 1 + 1 + e = (k + 1 + e) + 1 by omega, prunedSearch, whileSearch]
    cases found s with
    | err e => rfl
    | panic => rfl
    | ok b =>
      cases b with
      | true => rfl
      | false =>
        simp only [fl_lt, decide_eq_true_eq, if_pos h0]
        rcases turn s with ⟨s1, r⟩
        cases r with
        | err e => rfl
        | panic => rfl
        | ok _ =>
          simp only
          rw [ih s1 (time + dt) (fun i h => by have := hi (i + 1) (by omega); push_cast at this; linarith)
            (by push_cast at hk; intro h; exact hk (by linarith))]
          have e : time + dt + k * dt = time + ((k + 1 : ℕ) : ℝ) * dt := by push_cast; ring
          simp only [fl_add, e]

/-- number of turns before the limit. -/
theorem limit_steps {dt fpt : ℝ} (hdt : 0 < dt) :
    (∀ i : Nat, i < ⌈fpt / dt⌉₊ → 0 + (i : ℝ) * dt < fpt) ∧ ¬ 0 + (⌈fpt / dt⌉₊ : ℝ) * dt < fpt := by
  constructor
  · intro i hi
    rw [zero_add, ← lt_div_iff₀ hdt]
    exact Nat.lt_ceil.1 hi
  · rw [zero_add, not_lt, ← div_le_iff₀ hdt]
    exact Nat.le_ceil _

private theorem newUniform_dim {sys : SysOps G ℝ} {n : Nat} (hd : sys.DrawsInside n) {target : TargetOps ℝ} {inner loops : Nat}
    {mtype : MoveType ℝ} {g g1 : G} {a : IndepAgent ℝ}
    (hn : IndepAgent.newUniform sys target inner loops g mtype = some (.ok a, g1)) : a.dim = n := by
  unfold IndepAgent.newUniform at hn
  simp only [Option.map_eq_some_iff] at hn
  obtain ⟨⟨⟨p, r⟩, g2⟩, hp, he⟩ := hn
  cases r with
  | err e => simp [Res.map] at he
  | panic => simp [Res.map] at he
  | ok _ =>
    simp only [Res.map_ok, Prod.mk.injEq, Res.ok.injEq] at he
    obtain ⟨rfl, rfl⟩ := he
    exact (drawOffTarget_ok hd hp).1

/-- what a complete search reports, in turns. -/
private theorem oneSearcher_iff (rng : RngOps G ℝ) (sys : SysOps G ℝ) (target : TargetOps ℝ) (inner loops steps : Nat)
    (mtype : MoveType ℝ) (dt : ℝ) (g g' : G) (T : ℝ) :
    oneSearcher rng sys target inner loops steps mtype dt g = some (.ok T, g') ↔
      ∃ a g1, IndepAgent.newUniform sys target inner loops g mtype = some (.ok a, g1) ∧
        ∃ k < steps, FoundAt (fun s : IndepAgent ℝ × G => target.checkFind s.1.pos) (freshTurn rng sys dt) k (a, g1) ∧
          T = k * dt ∧ g' = (afterTurns (freshTurn rng sys dt) k (a, g1)).2 := by
  unfold oneSearcher
  rcases hn : IndepAgent.newUniform sys target inner loops g mtype with _ | ⟨r, g1⟩
  · simp
  · cases r with
    | err e => simp
    | panic => simp
    | ok a =>
      simp only [Option.some.injEq, Prod.mk.injEq, Res.ok.injEq]
      have hw := whileSearch_iff (fun s : IndepAgent ℝ × G => target.checkFind s.1.pos) (freshTurn rng sys dt) dt steps (a, g1) Fl.zero
      have hclock : ∀ k, (fun t : ℝ => t + dt)^[k] Fl.zero = k * dt := fun k => C66_time_is_turns dt k
      simp only [fl_add, hclock] at hw
      rcases hr : whileSearch (fun s : IndepAgent ℝ × G => target.checkFind s.1.pos) (freshTurn rng sys dt) dt steps (a, g1) Fl.zero
        with ⟨⟨s', t'⟩, o⟩
      rw [hr] at hw
      constructor
      · intro h
        cases o with
        | none => simp at h
        | some o =>
          simp only [Option.some.injEq, Prod.mk.injEq] at h
          obtain ⟨rfl, rfl⟩ := h
          obtain ⟨k, k1, k2, k3, k4, k5⟩ := (hw s' t' T).1 rfl
          exact ⟨a, g1, ⟨rfl, rfl⟩, k, k1, k2, k3, by rw [k5]⟩
      · rintro ⟨a', g1', ⟨rfl, rfl⟩, k, k1, k2, k3, k4⟩
        have := (hw (afterTurns (freshTurn rng sys dt) k (a, g1)) T T).2 ⟨k, k1, k2, k3, rfl, rfl⟩
        simp only [Prod.mk.injEq] at this
        obtain ⟨⟨rfl, -⟩, rfl⟩ := this
        simp [k4]

/-! ## C102 -/

/-- Exact arithmetic, any random source, system of dimension `n` and target; a buffer of that dimension, whatever is left in
it; `fpt` the least time so far.  Let the complete search be that of tests/rts_n_searcher.rs from the same state of the
generator.
* The searcher reports `T < fpt` exactly if the complete search reports `T` (with some number of turns), and leaves the
  generator in the same state;
* it fails before the limit only as the complete search does;
* otherwise it is given up at the first multiple of `dt` not below `fpt`, unless the test at this point fails: if it can be
  placed it always comes to an end, whether or not the complete search does. -/
theorem C102_searcher (rng : RngOps G ℝ) (sys : SysOps G ℝ) (n : Nat) (hd : sys.DrawsInside n) (target : TargetOps ℝ)
    (inner loops steps : Nat) (mtype : MoveType ℝ) (dt fpt : ℝ) (hdt : 0 < dt) (hs : ⌈fpt / dt⌉₊ < steps)
    (buf : Pos ℝ) (hb : buf.length = n) (g : G) :
    let cut := prunedSearcher rng sys target inner loops steps mtype dt fpt (buf, g)
    (∀ T < fpt, ∀ g', (∃ b', cut = some (.ok T, (b', g'))) ↔
      ∃ turns, oneSearcher rng sys target inner loops turns mtype dt g = some (.ok T, g')) ∧
    (∀ T b' g', cut = some (.ok T, (b', g')) → b'.length = n ∧ (T < fpt ∨ T = ⌈fpt / dt⌉₊ * dt)) ∧
    (∀ r b' g', (∀ T, r ≠ .ok T) → cut = some (r, (b', g')) →
      oneSearcher rng sys target inner loops ⌈fpt / dt⌉₊ mtype dt g = some (r, g') ∨
      ∃ p, (target.checkFind p).map (fun _ => (0 : ℝ)) = r) ∧
    (cut = none ↔ IndepAgent.newUniform sys target inner loops g mtype = none) := by
  obtain ⟨e, rfl⟩ : ∃ e, steps = ⌈fpt / dt⌉₊ + 1 + e := ⟨steps - (⌈fpt / dt⌉₊ + 1), by omega⟩
  obtain ⟨l1, l2⟩ := limit_steps (fpt := fpt) hdt
  generalize ⌈fpt / dt⌉₊ = K at l1 l2 hs
  intro cut
  rcases hn : IndepAgent.newUniform sys target inner loops g mtype with _ | ⟨r0, g1⟩
  · have hcut : cut = none := by
      show prunedSearcher .. = _
      unfold prunedSearcher; simp only [hn]
    rw [hcut]
    simp [oneSearcher_iff, hn]
  · by_cases hr0 : ∃ a, r0 = .ok a
    · obtain ⟨a, rfl⟩ := hr0
      obtain ⟨b', hb', hcut⟩ := prunedSearcher_fresh rng sys target inner loops (K + 1 + e) mtype dt fpt buf hb g g1 a
        (newUniform_dim hd hn) hn
      have hcut : cut = _ := hcut
      have hfull : oneSearcher rng sys target inner loops K mtype dt g =
          match whileSearch (fun s : IndepAgent ℝ × G => target.checkFind s.1.pos) (freshTurn rng sys dt) dt K (a, g1) 0 with
          | (_, none) => none
          | ((s, _), some r) => some (r, s.2) := by
        unfold oneSearcher
        rw [show (Fl.zero : ℝ) = 0 by simp [Fl.zero]]
        simp only [hn]
        rcases whileSearch (fun s : IndepAgent ℝ × G => target.checkFind s.1.pos) (freshTurn rng sys dt) dt K (a, g1) 0
          with ⟨⟨s, t⟩, o⟩
        cases o <;> rfl
      unfold freshPruned at hcut
      rw [prunedSearch_full _ _ dt fpt K e (a, g1) 0 l1 l2] at hcut
      have hany : ∀ T < fpt, ∀ g', (∃ turns, oneSearcher rng sys target inner loops turns mtype dt g = some (.ok T, g')) ↔
          oneSearcher rng sys target inner loops K mtype dt g = some (.ok T, g') := by
        intro T hT g'
        refine ⟨?_, fun h => ⟨K, h⟩⟩
        rintro ⟨turns, h⟩
        rw [oneSearcher_iff] at h ⊢
        obtain ⟨a', g1', h1, k, h2, h3, h4, h5⟩ := h
        refine ⟨a', g1', h1, k, ?_, h3, h4, h5⟩
        by_contra hk
        apply l2
        have : (K : ℝ) ≤ k := by exact_mod_cast not_lt.1 hk
        nlinarith
      have hlt : ∀ T g', oneSearcher rng sys target inner loops K mtype dt g = some (.ok T, g') → T < fpt := by
        intro T g' h
        rw [oneSearcher_iff] at h
        obtain ⟨a', g1', h1, k, h2, h3, h4, h5⟩ := h
        have := l1 k h2
        rw [h4]; linarith
      rcases hw : whileSearch (fun s : IndepAgent ℝ × G => target.checkFind s.1.pos) (freshTurn rng sys dt) dt K (a, g1) 0
        with ⟨⟨s, t⟩, o⟩
      rw [hw] at hcut hfull
      cases o with
      | some o =>
        simp only at hcut hfull
        refine ⟨fun T hT g' => ?_, fun T b2 g' h => ?_, fun r b2 g' hr h => ?_, by simp [hcut]⟩
        · rw [hany T hT, hcut, hfull]
          simp only [Option.some.injEq, Prod.mk.injEq]
          constructor
          · rintro ⟨x, rfl, -, rfl⟩; exact ⟨rfl, rfl⟩
          · rintro ⟨rfl, rfl⟩; exact ⟨b', rfl, rfl, rfl⟩
        · rw [hcut] at h
          simp only [Option.some.injEq, Prod.mk.injEq] at h
          obtain ⟨rfl, rfl, rfl⟩ := h
          exact ⟨hb', .inl (hlt T _ hfull)⟩
        · rw [hcut] at h
          simp only [Option.some.injEq, Prod.mk.injEq] at h
          obtain ⟨rfl, rfl, rfl⟩ := h
          exact .inl hfull
      | none =>
        simp only [zero_add] at hcut hfull
        refine ⟨fun T hT g' => ?_, fun T b2 g' h => ?_, fun r b2 g' hr h => ?_, by simp [hcut]⟩
        · rw [hany T hT, hcut, hfull]
          simp only [Option.some.injEq, Prod.mk.injEq, reduceCtorEq, iff_false, not_exists, not_and]
          intro x h
          exfalso
          rcases hc : target.checkFind s.1.pos with e | _ | b <;> rw [hc] at h <;> simp at h
          rw [h] at l2
          exact l2 (by simpa using hT)
        · rw [hcut] at h
          simp only [Option.some.injEq, Prod.mk.injEq] at h
          obtain ⟨h, rfl, rfl⟩ := h
          refine ⟨hb', .inr ?_⟩
          rcases hc : target.checkFind s.1.pos with e | _ | b <;> rw [hc] at h <;> simp at h
          exact h.symm
        · rw [hcut] at h
          simp only [Option.some.injEq, Prod.mk.injEq] at h
          obtain ⟨h, rfl, rfl⟩ := h
          refine .inr ⟨s.1.pos, ?_⟩
          rcases hc : target.checkFind s.1.pos with e | _ | b <;> rw [hc] at h <;> simp at h
          · exact absurd h.symm (hr _)
          · rw [← h]; rfl
          · rw [← h]; rfl
    · have hcut : cut = some (r0.map (fun _ => 0), (buf, g1)) := by
        show prunedSearcher .. = _
        unfold prunedSearcher
        match r0 with
        | .err e => simp only [hn]; rfl
        | .panic => simp only [hn]; rfl
        | .ok a => exact absurd ⟨a, rfl⟩ hr0
      have hfull : oneSearcher rng sys target inner loops K mtype dt g = some (r0.map (fun _ => 0), g1) := by
        unfold oneSearcher
        match r0 with
        | .err e => simp only [hn]; rfl
        | .panic => simp only [hn]; rfl
        | .ok a => exact absurd ⟨a, rfl⟩ hr0
      have hno : ∀ T : ℝ, r0.map (fun _ => (0 : ℝ)) ≠ .ok T := by
        intro T h
        match r0 with
        | .err e => simp at h
        | .panic => simp at h
        | .ok a => exact hr0 ⟨a, rfl⟩
      refine ⟨fun T hT g' => ?_, fun T b2 g' h => ?_, fun r b2 g' hr h => ?_, by simp [hcut]⟩
      · constructor
        · rintro ⟨x, h⟩
          rw [hcut] at h
          simp only [Option.some.injEq, Prod.mk.injEq] at h
          exact absurd h.1 (hno T)
        · rintro ⟨turns, h⟩
          rw [oneSearcher_iff] at h
          obtain ⟨a', g1', h1, -⟩ := h
          rw [hn] at h1
          simp only [Option.some.injEq, Prod.mk.injEq] at h1
          exact absurd ⟨a', h1.1⟩ hr0
      · rw [hcut] at h
        simp only [Option.some.injEq, Prod.mk.injEq] at h
        exact absurd h.1 (hno T)
      · rw [hcut] at h
        simp only [Option.some.injEq, Prod.mk.injEq] at h
        obtain ⟨rfl, rfl, rfl⟩ := h
        exact .inl hfull

/-- One ensemble of `k` searchers with the least time `f0` to begin with. -/
private theorem prunedLoop_says (rng : RngOps G ℝ) (sys : SysOps G ℝ) (n : Nat) (hd : sys.DrawsInside n) (target : TargetOps ℝ)
    (inner loops steps : Nat) (mtype : MoveType ℝ) (dt : ℝ) (hdt : 0 < dt) (k : Nat) :
    ∀ (f0 : ℝ) (_ : ⌈f0 / dt⌉₊ < steps) (buf : Pos ℝ) (_ : buf.length = n) (g : G),
    (∀ m b' g', prunedLoop (prunedSearcher rng sys target inner loops steps mtype dt) k (buf, g) f0 = some (.ok m, (b', g')) →
      b'.length = n ∧ m ≤ f0 ∧ ∃ gs : List G, gs.length = k ∧ (0 < k → gs.head? = some g) ∧
        (∀ gj ∈ gs, ∀ turns T g'', oneSearcher rng sys target inner loops turns mtype dt gj = some (.ok T, g'') → m ≤ T) ∧
        (m = f0 ∨ ∃ gj ∈ gs, ∃ turns g'', oneSearcher rng sys target inner loops turns mtype dt gj = some (.ok m, g''))) ∧
    (∀ r b' g', (∀ m, r ≠ .ok m) →
      prunedLoop (prunedSearcher rng sys target inner loops steps mtype dt) k (buf, g) f0 = some (r, (b', g')) →
      ∃ gj, (∃ turns, oneSearcher rng sys target inner loops turns mtype dt gj = some (r, g')) ∨
        ∃ p, (target.checkFind p).map (fun _ => (0 : ℝ)) = r) ∧
    (prunedLoop (prunedSearcher rng sys target inner loops steps mtype dt) k (buf, g) f0 = none →
      ∃ gj, IndepAgent.newUniform sys target inner loops gj mtype = none) := by
  induction k with
  | zero =>
    intro f0 _ buf hb g
    refine ⟨?_, ?_, by simp [prunedLoop]⟩
    · intro m b' g' h
      simp only [prunedLoop, Option.some.injEq, Prod.mk.injEq, Res.ok.injEq] at h
      obtain ⟨rfl, rfl, rfl⟩ := h
      exact ⟨hb, le_rfl, [], rfl, by simp, by simp, .inl rfl⟩
    · intro r b' g' hr h
      simp only [prunedLoop, Option.some.injEq, Prod.mk.injEq] at h
      exact absurd h.1.symm (hr _)
  | succ k ih =>
    intro f0 hs buf hb g
    obtain ⟨c1, c2, c3, c4⟩ := C102_searcher rng sys n hd target inner loops steps mtype dt f0 hdt hs buf hb g
    rcases hc : prunedSearcher rng sys target inner loops steps mtype dt f0 (buf, g) with _ | ⟨r, b1, g1⟩
    · rw [prunedLoop, hc]
      simp only [reduceCtorEq, false_implies, implies_true, true_and, forall_const]
      exact ⟨g, c4.1 hc⟩
    · by_cases hr : ∃ T, r = .ok T
      · obtain ⟨T, rfl⟩ := hr
        obtain ⟨d1, d2⟩ := c2 T b1 g1 hc
        rw [prunedLoop, hc]
        simp only [fl_lt, decide_eq_true_eq]
        have hmin : (if T < f0 then T else f0) = min T f0 := by
          by_cases h : T < f0
          · rw [if_pos h, min_eq_left h.le]
          · rw [if_neg h, min_eq_right (not_lt.1 h)]
        rw [hmin]
        have hs' : ⌈min T f0 / dt⌉₊ < steps :=
          (Nat.ceil_mono (div_le_div_of_nonneg_right (min_le_right T f0) hdt.le)).trans_lt hs
        obtain ⟨i1, i2, i3⟩ := ih (min T f0) hs' b1 d1 g1
        refine ⟨fun m b' g' h => ?_, i2, i3⟩
        obtain ⟨j1, j2, gs, j3, -, j4, j5⟩ := i1 m b' g' h
        refine ⟨j1, j2.trans (min_le_right _ _), g :: gs, by simp [j3], by simp, ?_, ?_⟩
        · intro gj hgj turns T' g'' hT'
          rcases List.mem_cons.1 hgj with rfl | hgj
          · by_cases hlt : T' < f0
            · obtain ⟨b2, hb2⟩ := (c1 T' hlt g'').2 ⟨turns, hT'⟩
              rw [hc] at hb2
              simp only [Option.some.injEq, Prod.mk.injEq, Res.ok.injEq] at hb2
              rw [← hb2.1]
              exact j2.trans (min_le_left _ _)
            · exact (j2.trans (min_le_right _ _)).trans (not_lt.1 hlt)
          · exact j4 gj hgj turns T' g'' hT'
        · rcases j5 with j5 | ⟨gj, hgj, h'⟩
          · by_cases hlt : T < f0
            · right
              rw [min_eq_left hlt.le] at j5
              obtain ⟨turns, ht⟩ := (c1 T hlt g1).1 ⟨b1, hc⟩
              exact ⟨g, by simp, turns, g1, by rw [j5]; exact ht⟩
            · left; rw [j5, min_eq_right (not_lt.1 hlt)]
          · exact .inr ⟨gj, by simp [hgj], h'⟩
      · have hloop : prunedLoop (prunedSearcher rng sys target inner loops steps mtype dt) (k + 1) (buf, g) f0 =
            some (r, b1, g1) := by
          rw [prunedLoop, hc]
          match r with
          | .ok T => exact absurd ⟨T, rfl⟩ hr
          | .err e => rfl
          | .panic => rfl
        have hno : ∀ T, r ≠ .ok T := fun T h => hr ⟨T, h⟩
        refine ⟨fun m b' g' h => ?_, fun r' b' g' hr' h => ?_, fun h => ?_⟩
        · have h := hloop.symm.trans h
          simp only [Option.some.injEq, Prod.mk.injEq] at h
          exact absurd h.1 (hno m)
        · have h := hloop.symm.trans h
          simp only [Option.some.injEq, Prod.mk.injEq] at h
          obtain ⟨rfl, rfl, rfl⟩ := h
          rcases c3 r b1 g1 hno hc with h | h
          · exact ⟨g, .inl ⟨_, h⟩⟩
          · exact ⟨g, .inr h⟩
        · have h := hloop.symm.trans h
          simp at h

/-- One ensemble of `k` searchers (exact arithmetic).  If it ends with a number `m`, then there are `k` states of the
generator, one for each searcher to be placed from, the first being the one the ensemble began with, such that no complete
search from them takes less than `m`, and one of them takes just `m` (unless `m` is `f64::MAX`): the time written is that of
the fastest searcher although no slower one was followed to its end.  If it ends with a failure, this is the failure of a
complete search, or of a test for the target; and it comes to an end if all searchers can be placed. -/
theorem C102_fastest (rng : RngOps G ℝ) (sys : SysOps G ℝ) (n : Nat) (hd : sys.DrawsInside n) (target : TargetOps ℝ)
    (inner loops steps : Nat) (mtype : MoveType ℝ) (dt : ℝ) (hdt : 0 < dt) (hs : ⌈(Fl.maxVal : ℝ) / dt⌉₊ < steps) (k : Nat)
    (buf : Pos ℝ) (hb : buf.length = n) (g : G) :
    let run := prunedRun rng sys target inner loops steps mtype dt k (buf, g)
    (∀ m b' g', run = some (.ok m, (b', g')) →
      b'.length = n ∧ m ≤ Fl.maxVal ∧ ∃ gs : List G, gs.length = k ∧ (0 < k → gs.head? = some g) ∧
        (∀ gj ∈ gs, ∀ turns T g'', oneSearcher rng sys target inner loops turns mtype dt gj = some (.ok T, g'') → m ≤ T) ∧
        (m = Fl.maxVal ∨ ∃ gj ∈ gs, ∃ turns g'', oneSearcher rng sys target inner loops turns mtype dt gj = some (.ok m, g''))) ∧
    (∀ r b' g', (∀ m, r ≠ .ok m) → run = some (r, (b', g')) →
      ∃ gj, (∃ turns, oneSearcher rng sys target inner loops turns mtype dt gj = some (r, g')) ∨
        ∃ p, (target.checkFind p).map (fun _ => (0 : ℝ)) = r) ∧
    (run = none → ∃ gj, IndepAgent.newUniform sys target inner loops gj mtype = none) :=
  prunedLoop_says rng sys n hd target inner loops steps mtype dt hdt k Fl.maxVal hs buf hb g

/-! ### examples -/

private def demoSys : SysOps (List Int) Z :=
  (⟨.continuousCircular, .reflection, ⟨10⟩, 1⟩ : Circ Z).ops Z.draws
private def demoTarget : TargetOps Z := (BulkTarget.new [⟨8⟩] (⟨2⟩ : Z)).ops
private def demoRun (n : Nat) (g : List Int) := prunedRun Z.draws demoSys demoTarget 5 5 20 (.brownian ⟨1⟩) ⟨2⟩ n ([⟨7⟩], g)

example : demoSys.DrawsInside 1 := C37_systems_draw_inside.1 Z.draws _
-- both start at 10; the first needs three steps, the second two: time 4
example : demoRun 2 [1, 0, 0, -1, 1, 0, -1] = some (.ok ⟨4⟩, [⟨-2⟩], []) := by decide +kernel
-- the first needs two steps; the second starts at -10 and is given up after two steps: the last number is not drawn, the
-- buffer is left with the last step
example : demoRun 2 [1, 0, -1, 0, 1, -1, -1] = some (.ok ⟨4⟩, [⟨-2⟩], [-1]) := by decide +kernel
-- the second makes a step that is too large, before it would have been given up: the ensemble fails
example : (demoRun 2 [1, 0, -1, 0, 1, -100, 1, -1]).map (·.1) = some (.err .tooLargeTimeStep) := by decide +kernel
-- had it been given up, it would not have failed
example : (demoRun 2 [1, 0, -1, 0, 1, 0, -100]).map (·.1) = some (.ok ⟨4⟩) := by decide +kernel

/-- The hypotheses are met by a ball of radius 1 with a target of radius 1/4 in its middle, with any source of random numbers,
three searchers, `dt = 1/100` and enough turns. -/
example (rng : RngOps G ℝ) (g : G) : let s : Circ ℝ := ⟨.continuousCircular, .reflection, 1, 2⟩
    ∃ steps, ∀ m b' g', prunedRun rng (s.ops rng) (BulkTarget.new [0, 0] (1 / 4)).ops 100 100 steps (.brownian 1) (1 / 100) 3 ([0, 0], g) =
      some (.ok m, (b', g')) → b'.length = 2 ∧ m ≤ Fl.maxVal := by
  intro s
  refine ⟨⌈(Fl.maxVal : ℝ) / (1 / 100)⌉₊ + 1, fun m b' g' h => ?_⟩
  have := (C102_fastest rng (s.ops rng) 2 (C37_systems_draw_inside.1 rng s) (BulkTarget.new [0, 0] (1 / 4)).ops 100 100 _ (.brownian 1) (1 / 100)
    (by norm_num) (Nat.lt_succ_self _) 3 [0, 0] rfl g).1 m b' g' h
  exact ⟨this.1, this.2.1⟩

end Moledyn.Props
