import Verif.Lemmas.Neutral
import Verif.Lemmas.Sterbenz
import Verif.Props.ListProgram
import Verif.Props.Pruned
import Verif.Props.DoubleClock
/-
Property theorems C117: the programs of the test suite with every rounding, double precision among them.
-/
namespace Moledyn.Props
open Moledyn LList
set_option linter.unusedSimpArgs false
variable {G S F : Type}

private theorem newUniform_dim [Fl F] {sys : SysOps G F} {n : Nat} (hd : sys.DrawsInside n) {target : TargetOps F} {inner loops : Nat}
    {mtype : MoveType F} {g g1 : G} {a : IndepAgent F}
    (hn : IndepAgent.newUniform sys target inner loops g mtype = some (.ok a, g1)) : a.dim = n := by
  unfold IndepAgent.newUniform at hn
  simp only [Option.map_eq_some_iff] at hn
  obtain ⟨⟨⟨p, r⟩, g2⟩, hp, he⟩ := hn
  cases r with
  | err e => simp [Res.map] at he
  | panic => simp [Res.map] at he
  | ok _ =>
    simp only [Res.map_ok, Prod.mk.injEq, Res.ok.injEq] at he
    obtain ⟨rfl, rfl⟩ := he
    exact (drawOffTarget_ok hd hp).1

/-! ## one searcher with a buffer: tests/single_ptl_rts.rs -/

/-- The buffer of tests/single_ptl_rts.rs makes no difference whatever the rounding: if it has the dimension of the system the
run gives the same outcome, bit for bit, and leaves the generator in the same state as the run that allocates a vector in every
turn; and the buffer keeps its dimension. -/
theorem C117_buffer (R : Rounding) (rng : RngOps G (RF R)) (sys : SysOps G (RF R)) (n : Nat) (hd : sys.DrawsInside n)
    (target : TargetOps (RF R)) (inner loops steps : Nat) (mtype : MoveType (RF R)) (dt : RF R) (buf : Pos (RF R))
    (hb : buf.length = n) (g : G) :
    (oneBuffered rng sys target inner loops steps mtype dt (buf, g)).map (fun r => (r.1, r.2.2)) =
      oneSearcher rng sys target inner loops steps mtype dt g ∧
    ∀ r buf' g', oneBuffered rng sys target inner loops steps mtype dt (buf, g) = some (r, buf', g') →
      buf'.length = n := by
  have hloop : ∀ (m : Nat) (a : IndepAgent (RF R)) (b : Pos (RF R)) (g : G) (t : RF R), a.dim = n → b.length = n →
      ∃ b' : Pos (RF R), b'.length = n ∧
        whileSearch (fun s : IndepAgent (RF R) × Pos (RF R) × G => target.checkFind s.1.pos) (bufferTurn rng sys dt) dt m
          (a, b, g) t =
        (let r := whileSearch (fun s : IndepAgent (RF R) × G => target.checkFind s.1.pos) (freshTurn rng sys dt) dt m
          (a, g) t
         (((r.1.1.1, b', r.1.1.2), r.1.2), r.2)) := by
    intro m
    induction m with
    | zero => intro a b g t ha hb; exact ⟨b, hb, rfl⟩
    | succ m ih =>
      intro a b g t ha hb
      unfold whileSearch
      simp only
      cases target.checkFind a.pos with
      | err e => exact ⟨b, hb, rfl⟩
      | panic => exact ⟨b, hb, rfl⟩
      | ok x =>
        cases x with
        | true => exact ⟨b, hb, rfl⟩
        | false =>
          obtain ⟨b1, hb1, e1, e2⟩ := bufferTurn_any (neutral_rounded R) rng sys dt a b g ha hb
          simp only [e1]
          rcases hft : freshTurn rng sys dt (a, g) with ⟨⟨a1, g1⟩, r⟩
          rw [hft] at e2
          cases r with
          | ok _ => exact ih a1 b1 g1 _ e2 hb1
          | err e => exact ⟨b1, hb1, rfl⟩
          | panic => exact ⟨b1, hb1, rfl⟩
  unfold oneBuffered oneSearcher
  simp only
  rcases hn : IndepAgent.newUniform sys target inner loops g mtype with _ | ⟨r, g1⟩
  · simp
  · cases r with
    | err e => simpa using hb
    | panic => simpa using hb
    | ok a =>
      obtain ⟨b', hb', e⟩ := hloop steps a buf g1 Fl.zero (newUniform_dim hd hn) hb
      simp only [e]
      rcases hw : whileSearch (fun s : IndepAgent (RF R) × G => target.checkFind s.1.pos) (freshTurn rng sys dt) dt steps
        (a, g1) Fl.zero with ⟨⟨⟨a2, g2⟩, t2⟩, o⟩
      cases o with
      | none => simp
      | some r =>
        simp only [Option.map_some, Option.some.injEq, Prod.mk.injEq, true_and]
        rintro _ _ _ ⟨-, rfl, -⟩
        exact hb'

/-! ## the clock read from the arguments, any arithmetic -/

private theorem clock_states [Fl F] (c : ConstStep F) {M : Nat} (h : ∀ j < M, output ConstStep.next j c ≠ .ok none) :
    ∀ j ≤ M, stateAfter ConstStep.next j c = { c with current := (fun t : F => t + c.dt)^[j] c.current } := by
  induction M with
  | zero =>
    intro j hj
    obtain rfl : j = 0 := by omega
    rfl
  | succ M ih =>
    have ih := ih fun j hj => h j (by omega)
    intro j hj
    rcases Nat.lt_or_ge j (M + 1) with hj | hj'
    · exact ih j (by omega)
    · obtain rfl : j = M + 1 := by omega
      have e : stateAfter ConstStep.next (M + 1) c = (ConstStep.next (stateAfter ConstStep.next M c)).1 := stateAfter_succ ..
      have hM := h M (by omega)
      unfold output at hM
      rw [e]
      rw [ih M le_rfl] at hM ⊢
      rw [Function.iterate_succ_apply']
      unfold ConstStep.next at hM ⊢
      by_cases hle : Fl.le ((fun t : F => t + c.dt)^[M] c.current) c.tmax = true
      · simp only [hle, if_true]
      · simp [hle] at hM

/-- a clock that gives a time in each of the first `M` calls and no more. -/
private theorem ticksLeft_any [Fl F] (c : ConstStep F) {M : Nat} (h : ∀ j < M, output ConstStep.next j c ≠ .ok none)
    (hend : output ConstStep.next M c = .ok none) : TicksLeft c M := by
  have hs := clock_states c h
  constructor
  · intro j hj
    have hj' := h j hj
    unfold output at hj'
    rw [hs j hj.le] at hj'
    unfold ConstStep.next at hj'
    by_contra hle
    simp [hle] at hj'
  · unfold output at hend
    rw [hs M le_rfl] at hend
    unfold ConstStep.next at hend
    by_contra hle
    simp only [Bool.not_eq_false] at hle
    simp [hle] at hend

private theorem convert_fields [Fl F] {dt tmax : F} {c : ConstStep F} (hc : ConstStep.convertFrom dt tmax = .ok c) :
    c.dt = dt ∧ c.current = Fl.zero := by
  unfold ConstStep.convertFrom at hc
  split at hc
  · simp at hc
  · have hc := Res.ok.inj hc
    exact ⟨by rw [← hc], by rw [← hc]⟩

/-! ## the searchers in a list: tests/arguments.rs -/

/-- Any rounding.  Let the clock read from the arguments give a time in each of its first `M` calls and then no more (in double
precision there is such an `M` for every `tmax` up to `2^51 dt`: `C117_clock_ends`).  After any number of finished ensembles,
with `g` the present state of the generator, let `plain` be what the list search of tests/n_ptl_rts_iterator.rs reports from `g`
within `M` steps.  Then the next line in the file is
* the time `x` one tick before `t`, `x + dt = t` as the machine adds, if `plain` is `t`, and the generator is left in the same state;
* the same failure, instead of a line, if `plain` is a failure;
* `0` if the searchers are placed but none of them finds the target within `M` steps;
* missing (the program goes on for ever) only if placing the searchers never ends. -/
theorem C117_one_tick_before (R : Rounding) (rng : RngOps G (RF R)) (sys : SysOps G (RF R)) (n : Nat) (hd : sys.DrawsInside n)
    (ho : sys.OutsideDim n) (target : TargetOps (RF R)) (inner loops fuel steps : Nat) (agentType : AgentType)
    (mtype : MoveType (RF R)) (itype : InitType (RF R)) (N : Nat) (hf : N < fuel) (dt tmax : RF R)
    (clock : ConstStep (RF R)) (hc : ConstStep.convertFrom dt tmax = .ok clock)
    (M : Nat) (hM : ∀ j < M, output ConstStep.next j clock ≠ .ok none) (hend : output ConstStep.next M clock = .ok none) (hs : M < steps)
    (g0 : G) (ts : List (RF R)) (buf : Pos (RF R)) (l : LList (IndepAgent (RF R))) (g : G)
    (h : OneByOne (listRun rng sys target inner loops fuel steps clock)
      (listStart (IndepAgent.convertFrom agentType mtype itype N) n g0) ts (l, (buf, g))) :
    let plain := indepRun rng sys target inner loops fuel M mtype dt N g
    let next := (listRun rng sys target inner loops fuel steps clock (l, (buf, g))).map fun r => (r.1, r.2.2.2)
    (∀ t g', plain = some (.ok t, g') → ∃ x, x + dt = t ∧ next = some (.ok x, g')) ∧
    (∀ r g', (∀ t, r ≠ .ok t) → plain = some (r, g') → next = some (r, g')) ∧
    (plain = none → makeAgents (fun g => IndepAgent.newUniform sys target inner loops g mtype) N g ≠ none →
      ∃ g', next = some (.ok Fl.zero, g')) ∧
    (next = none ↔ makeAgents (fun g => IndepAgent.newUniform sys target inner loops g mtype) N g = none) := by
  have hz := neutral_rounded R
  obtain ⟨e1, e2⟩ := convert_fields hc
  have e3 := ticksLeft_any clock hM hend
  have hl := leftList_many_any hz rng hd ho target inner loops hf mtype clock M steps e2 e3 hs
    (leftList_start agentType mtype itype N n g0) h
  obtain ⟨a1, a2, a3, a4⟩ := listRun_any hz rng hd ho target inner loops hf mtype clock M steps e2 e3 hs hl
  rw [e1] at a2 a3 a4
  intro plain next
  have b3 : ∀ t g', plain = some (.ok t, g') → ∃ x, x + dt = t ∧ next = some (.ok x, g') := by
    intro t g' hp
    obtain ⟨x, st, k1, k0, -, k2⟩ := a3 t g' hp
    refine ⟨x, k0, ?_⟩
    show Option.map _ _ = _
    rw [k1, ← k2]; rfl
  have b4 : ∀ r g', (∀ t, r ≠ .ok t) → plain = some (r, g') → next = some (r, g') := by
    intro r g' hr hp
    obtain ⟨st, k1, k2⟩ := a4 r g' hr hp
    show Option.map _ _ = _
    rw [k1, ← k2]; rfl
  have b2 : plain = none → makeAgents (fun g => IndepAgent.newUniform sys target inner loops g mtype) N g ≠ none →
      ∃ g', next = some (.ok Fl.zero, g') := by
    intro hp hm
    obtain ⟨st, k1, -⟩ := a2 hm hp
    refine ⟨st.2.2, ?_⟩
    show Option.map _ _ = _
    rw [k1]; rfl
  refine ⟨b3, b4, b2, ?_, ?_⟩
  · intro hn
    by_contra hm
    rcases hp : plain with _ | ⟨r, g'⟩
    · obtain ⟨g', k⟩ := b2 hp hm
      rw [hn] at k; simp at k
    · match r with
      | .ok t => obtain ⟨x, -, hx⟩ := b3 t g' hp; rw [hx] at hn; simp at hn
      | .err e => rw [b4 (.err e) g' (by simp) hp] at hn; simp at hn
      | .panic => rw [b4 .panic g' (by simp) hp] at hn; simp at hn
  · intro hm
    show Option.map _ _ = _
    rw [a1 hm]; rfl

/-- In double precision the clock of the arguments gives finitely many times if it is not asked for more than `2^51` steps. -/
theorem C117_clock_ends (dt tmax : Double) (hdt : dt.Rep) (d0 : 0 < dt.val) (clock : ConstStep Double)
    (hc : ConstStep.convertFrom dt tmax = .ok clock) (hmax : clock.tmax.val ≤ 2 ^ 51 * dt.val) :
    ∃ M : Nat, M ≤ 2 * clock.tmax.val / dt.val + 1 ∧ (∀ j < M, output ConstStep.next j clock ≠ .ok none) ∧
      output ConstStep.next M clock = .ok none := by
  classical
  obtain ⟨e1, -⟩ := convert_fields hc
  have hk : 2 * clock.tmax.val / clock.dt.val < ((⌊2 * clock.tmax.val / clock.dt.val⌋₊ + 1 : ℕ) : ℝ) := by
    push_cast; exact Nat.lt_floor_add_one _
  have hend := C65_ends clock (.convert hc) (by rw [e1]; exact hdt) (by rw [e1]; exact d0) (by rw [e1]; exact hmax) _ hk
  have hex : ∃ k, output ConstStep.next k clock = .ok none := ⟨_, hend⟩
  refine ⟨Nat.find hex, ?_, fun j hj => Nat.find_min hex hj, Nat.find_spec hex⟩
  have h1 : Nat.find hex ≤ _ := Nat.find_min' hex hend
  have h0 : 0 ≤ 2 * clock.tmax.val / clock.dt.val := by
    have hr := (ConstStep.reachable_inv (ConstStep.Reachable.convert hc)).2.2
    have : 0 ≤ clock.tmax.val := by
      have h0 := fresh_zero (.convert hc)
      by_contra hneg
      unfold ConstStep.convertFrom at hc
      split at hc
      · simp at hc
      · next hcond =>
        have hc := Res.ok.inj hc
        simp only [Bool.or_eq_true, not_or, RF.lt_val, decide_eq_true_eq, not_lt] at hcond
        rw [← hc] at hneg hmax
        simp only [Fl.zero, RF.lit_zero_val] at hcond
        split at hneg
        · next hlt =>
          simp only [hlt, if_true] at hmax
          apply hneg
          show (0 : ℝ) ≤ Rounding.double.rnd _
          rw [← Rounding.double.zero]
          refine Rounding.double.mono _ _ ?_
          exact sub_nonneg.2 (pow_le_pow_right₀ (by norm_num) (by norm_num))
        · exact hneg hcond.1
    rw [e1]; positivity
  have h2 := Nat.floor_le h0
  rw [e1] at h2
  have : (Nat.find hex : ℝ) ≤ ((⌊2 * clock.tmax.val / clock.dt.val⌋₊ + 1 : ℕ) : ℝ) := by exact_mod_cast h1
  rw [e1] at this
  push_cast at this
  linarith

/-! ## the searchers that are given up: tests/test_setup.rs -/

theorem clockAfter_succ [Fl F] (dt : F) (k : Nat) : clockAfter dt (k + 1) = clockAfter dt k + dt :=
  Function.iterate_succ_apply' _ _ _

theorem clockAfter_rep {R : Rounding} (dt : RF R) (k : Nat) : R.rnd (clockAfter dt k).val = (clockAfter dt k).val := by
  cases k with
  | zero =>
    show R.rnd (Fl.zero : RF R).val = (Fl.zero : RF R).val
    simp [Fl.zero, R.zero]
  | succ k => rw [clockAfter_succ, RF.val_add, R.idem]

/-- whatever the rounding, the times do not decrease. -/
theorem clockAfter_mono {R : Rounding} {dt : RF R} (h0 : 0 ≤ dt.val) {i k : Nat} (hik : i ≤ k) :
    (clockAfter dt i).val ≤ (clockAfter dt k).val := by
  induction k, hik using Nat.le_induction with
  | base => exact le_rfl
  | succ k _ ih =>
    refine ih.trans ?_
    rw [clockAfter_succ, RF.val_add, ← clockAfter_rep dt k]
    exact R.mono _ _ (by rw [clockAfter_rep]; linarith)

/-- the search that may be given up is the complete one, or it was given up. -/
private theorem pruned_or [Fl F] (found : S → Res Bool) (turn : S → S × Res Unit) (dt fpt : F) (n : Nat) :
    ∀ (s : S) (time : F),
      (prunedSearch found turn dt fpt n s time = whileSearch found turn dt n s time ∧
        ∀ t, (whileSearch found turn dt n s time).2 = some (.ok t) →
          ∃ k, t = (fun t : F => t + dt)^[k] time ∧ ∀ i < k, Fl.lt ((fun t : F => t + dt)^[i] time) fpt = true) ∨
      ∃ K < n, (∀ i ≤ K, found (afterTurns turn i s) = .ok false) ∧
        (∀ i < K, Fl.lt ((fun t : F => t + dt)^[i] time) fpt = true) ∧ Fl.lt ((fun t : F => t + dt)^[K] time) fpt = false ∧
        prunedSearch found turn dt fpt n s time =
          ((afterTurns turn K s, (fun t : F => t + dt)^[K] time), some (.ok ((fun t : F => t + dt)^[K] time))) := by
  induction n with
  | zero => intro s time; exact .inl ⟨rfl, by simp [whileSearch]⟩
  | succ n ih =>
    intro s time
    unfold prunedSearch whileSearch
    cases hf : found s with
    | err e => exact .inl ⟨rfl, by simp⟩
    | panic => exact .inl ⟨rfl, by simp⟩
    | ok b =>
      cases b with
      | true =>
        refine .inl ⟨rfl, fun t ht => ⟨0, ?_, by simp⟩⟩
        simpa using ht.symm
      | false =>
        simp only
        by_cases hlt : Fl.lt time fpt = true
        · rw [if_pos hlt]
          rcases hturn : turn s with ⟨s1, r⟩
          cases r with
          | err e => exact .inl ⟨rfl, by simp⟩
          | panic => exact .inl ⟨rfl, by simp⟩
          | ok _ =>
            simp only
            have hs1 : (turn s).1 = s1 := by rw [hturn]
            rcases ih s1 (time + dt) with ⟨h1, h2⟩ | ⟨K, h1, h2, h3, h4, h5⟩
            · refine .inl ⟨h1, fun t ht => ?_⟩
              obtain ⟨k, hk1, hk2⟩ := h2 t ht
              refine ⟨k + 1, hk1, fun i hi => ?_⟩
              cases i with
              | zero => exact hlt
              | succ i => exact hk2 i (by omega)
            · refine .inr ⟨K + 1, by omega, fun i hi => ?_, fun i hi => ?_, h4, ?_⟩
              · cases i with
                | zero => exact hf
                | succ i =>
                  rw [afterTurns_succ, hs1]
                  exact h2 i (by omega)
              · cases i with
                | zero => exact hlt
                | succ i => exact h3 i (by omega)
              · rw [h5, afterTurns_succ, hs1]; rfl
        · rw [if_neg hlt]
          refine .inr ⟨0, by omega, fun i hi => ?_, by simp, by simpa using hlt, rfl⟩
          obtain rfl : i = 0 := by omega
          exact hf

/-- the buffer makes no difference. -/
private theorem pruned_buffer (R : Rounding) (rng : RngOps G (RF R)) (sys : SysOps G (RF R)) (target : TargetOps (RF R))
    (dt fpt : RF R) {n : Nat} (m : Nat) :
    ∀ (a : IndepAgent (RF R)) (b : Pos (RF R)) (g : G) (t : RF R), a.dim = n → b.length = n →
      ∃ b' : Pos (RF R), b'.length = n ∧
        prunedSearch (fun s : IndepAgent (RF R) × Pos (RF R) × G => target.checkFind s.1.pos) (bufferTurn rng sys dt) dt fpt m (a, b, g) t =
        (let r := prunedSearch (fun s : IndepAgent (RF R) × G => target.checkFind s.1.pos) (freshTurn rng sys dt) dt fpt m (a, g) t
         (((r.1.1.1, b', r.1.1.2), r.1.2), r.2)) := by
  induction m with
  | zero => intro a b g t ha hb; exact ⟨b, hb, rfl⟩
  | succ m ih =>
    intro a b g t ha hb
    unfold prunedSearch
    simp only
    cases target.checkFind a.pos with
    | err e => exact ⟨b, hb, rfl⟩
    | panic => exact ⟨b, hb, rfl⟩
    | ok x =>
      cases x with
      | true => exact ⟨b, hb, rfl⟩
      | false =>
        simp only
        by_cases hlt : Fl.lt t fpt = true
        · simp only [hlt, if_true]
          obtain ⟨b1, hb1, e1, e2⟩ := bufferTurn_any (neutral_rounded R) rng sys dt a b g ha hb
          simp only [e1]
          rcases hft : freshTurn rng sys dt (a, g) with ⟨⟨a1, g1⟩, r⟩
          rw [hft] at e2
          cases r with
          | ok _ => exact ih a1 b1 g1 _ e2 hb1
          | err e => exact ⟨b1, hb1, rfl⟩
          | panic => exact ⟨b1, hb1, rfl⟩
        · simp only [hlt, if_false]
          exact ⟨b, hb, rfl⟩

/-- what a complete search reports, in turns. -/
private theorem oneSearcher_iff (R : Rounding) (rng : RngOps G (RF R)) (sys : SysOps G (RF R)) (target : TargetOps (RF R))
    (inner loops steps : Nat) (mtype : MoveType (RF R)) (dt : RF R) (g g' : G) (T : RF R) :
    oneSearcher rng sys target inner loops steps mtype dt g = some (.ok T, g') ↔
      ∃ a g1, IndepAgent.newUniform sys target inner loops g mtype = some (.ok a, g1) ∧
        ∃ k < steps, FoundAt (fun s : IndepAgent (RF R) × G => target.checkFind s.1.pos) (freshTurn rng sys dt) k (a, g1) ∧
          T = clockAfter dt k ∧ g' = (afterTurns (freshTurn rng sys dt) k (a, g1)).2 := by
  unfold oneSearcher
  rcases hn : IndepAgent.newUniform sys target inner loops g mtype with _ | ⟨r, g1⟩
  · simp
  · cases r with
    | err e => simp
    | panic => simp
    | ok a =>
      simp only [Option.some.injEq, Prod.mk.injEq, Res.ok.injEq]
      have hw := whileSearch_iff (fun s : IndepAgent (RF R) × G => target.checkFind s.1.pos) (freshTurn rng sys dt) dt steps (a, g1) Fl.zero
      rcases hr : whileSearch (fun s : IndepAgent (RF R) × G => target.checkFind s.1.pos) (freshTurn rng sys dt) dt steps (a, g1) Fl.zero
        with ⟨⟨s', t'⟩, o⟩
      rw [hr] at hw
      constructor
      · intro h
        cases o with
        | none => simp at h
        | some o =>
          simp only [Option.some.injEq, Prod.mk.injEq] at h
          obtain ⟨rfl, rfl⟩ := h
          obtain ⟨k, k1, k2, k3, k4, k5⟩ := (hw s' t' T).1 rfl
          exact ⟨a, g1, ⟨rfl, rfl⟩, k, k1, k2, k3, by rw [k5]⟩
      · rintro ⟨a', g1', ⟨rfl, rfl⟩, k, k1, k2, k3, k4⟩
        have := (hw (afterTurns (freshTurn rng sys dt) k (a, g1)) T T).2 ⟨k, k1, k2, k3, rfl, rfl⟩
        simp only [Prod.mk.injEq] at this
        obtain ⟨⟨rfl, -⟩, rfl⟩ := this
        simp [k4]

/-- A searcher is followed as the complete search does, or given up. -/
private theorem searcher_or (R : Rounding) (rng : RngOps G (RF R)) (sys : SysOps G (RF R)) (n : Nat) (hd : sys.DrawsInside n)
    (target : TargetOps (RF R)) (inner loops steps : Nat) (mtype : MoveType (RF R)) (dt fpt : RF R)
    (buf : Pos (RF R)) (hb : buf.length = n) (g : G) :
    let cut := prunedSearcher rng sys target inner loops steps mtype dt fpt (buf, g)
    let full := oneSearcher rng sys target inner loops steps mtype dt g
    (∀ r b' g', cut = some (r, (b', g')) → b'.length = n) ∧
    ((cut.map (fun r => (r.1, r.2.2)) = full ∧
        ∀ t g', full = some (.ok t, g') → ∃ k, t = clockAfter dt k ∧ ∀ i < k, (clockAfter dt i).val < fpt.val) ∨
      ∃ K < steps, (∀ i < K, (clockAfter dt i).val < fpt.val) ∧ fpt.val ≤ (clockAfter dt K).val ∧
        (∃ g', cut.map (fun r => (r.1, r.2.2)) = some (.ok (clockAfter dt K), g')) ∧
        ∀ turns T g', oneSearcher rng sys target inner loops turns mtype dt g = some (.ok T, g') → ∃ k > K, T = clockAfter dt k) := by
  intro cut full
  have hfull : full = oneSearcher rng sys target inner loops steps mtype dt g := rfl
  have hcut : cut = prunedSearcher rng sys target inner loops steps mtype dt fpt (buf, g) := rfl
  clear_value cut full
  have hiff := fun turns T g' => oneSearcher_iff R rng sys target inner loops turns mtype dt g g' T
  unfold oneSearcher at hfull
  unfold prunedSearcher at hcut
  rcases hn : IndepAgent.newUniform sys target inner loops g mtype with _ | ⟨r, g1⟩
  · simp only [hn] at hfull hcut
    rw [hfull, hcut]
    simp
  · cases r with
    | err e =>
      simp only [hn] at hfull hcut
      rw [hfull, hcut]
      simp [hb]
    | panic =>
      simp only [hn] at hfull hcut
      rw [hfull, hcut]
      simp [hb]
    | ok a =>
      simp only [hn] at hfull hcut hiff
      obtain ⟨b', hb', e⟩ := pruned_buffer R rng sys target dt fpt steps a buf g1 Fl.zero (newUniform_dim hd hn) hb
      rw [e] at hcut
      rcases pruned_or (fun s : IndepAgent (RF R) × G => target.checkFind s.1.pos) (freshTurn rng sys dt) dt fpt steps (a, g1) Fl.zero
        with ⟨h1, h2⟩ | ⟨K, h1, h2, h3, h4, h5⟩
      · rw [h1] at hcut
        simp only at hcut
        rcases hw : whileSearch (fun s : IndepAgent (RF R) × G => target.checkFind s.1.pos) (freshTurn rng sys dt) dt steps (a, g1) Fl.zero
          with ⟨⟨s', t'⟩, o⟩
        rw [hw] at hfull hcut h2
        cases o with
        | none =>
          simp only at hfull hcut
          rw [hfull, hcut]
          simp
        | some o =>
          simp only at hfull hcut
          rw [hfull, hcut]
          refine ⟨?_, .inl ⟨rfl, ?_⟩⟩
          · rintro r b2 g' h
            simp only [Option.some.injEq, Prod.mk.injEq] at h
            rw [← h.2.1]; exact hb'
          · intro t g' h
            simp only [Option.some.injEq, Prod.mk.injEq] at h
            obtain ⟨k, k1, k2⟩ := h2 t (by rw [h.1])
            exact ⟨k, k1, fun i hi => of_decide_eq_true (k2 i hi)⟩
      · rw [h5] at hcut
        simp only at hcut
        rw [hcut]
        refine ⟨?_, .inr ⟨K, h1, fun i hi => of_decide_eq_true (h3 i hi), not_lt.1 (of_decide_eq_false h4), ⟨_, rfl⟩, ?_⟩⟩
        · rintro r b2 g' h
          simp only [Option.some.injEq, Prod.mk.injEq] at h
          rw [← h.2.1]; exact hb'
        · intro turns T g' h
          obtain ⟨a', g1', e1, k, k1, k2, k3, -⟩ := (hiff turns T g').1 h
          simp only [Option.some.injEq, Prod.mk.injEq, Res.ok.injEq] at e1
          obtain ⟨rfl, rfl⟩ := e1
          refine ⟨k, ?_, k3⟩
          by_contra hk
          have := h2 k (by omega)
          exact absurd (this.symm.trans k2.2) (by simp)

/-- two complete searches that report a time report the same. -/
private theorem complete_same (R : Rounding) (rng : RngOps G (RF R)) (sys : SysOps G (RF R)) (target : TargetOps (RF R))
    (inner loops : Nat) (mtype : MoveType (RF R)) (dt : RF R) (g : G) {m m' : Nat} {T T' : RF R} {g' g'' : G}
    (h : oneSearcher rng sys target inner loops m mtype dt g = some (.ok T, g'))
    (h' : oneSearcher rng sys target inner loops m' mtype dt g = some (.ok T', g'')) : T = T' ∧ g' = g'' := by
  rw [oneSearcher_iff] at h h'
  obtain ⟨a, g1, h1, k, -, h3, h4, h5⟩ := h
  obtain ⟨a', g1', h1', k', -, h3', h4', h5'⟩ := h'
  rw [h1] at h1'
  simp only [Option.some.injEq, Prod.mk.injEq, Res.ok.injEq] at h1'
  obtain ⟨rfl, rfl⟩ := h1'
  have : k = k' := by
    rcases Nat.lt_trichotomy k k' with h | h | h
    · have := (h3'.1 k h).1
      have h6 := h3.2
      rw [this] at h6; simp at h6
    · exact h
    · have := (h3.1 k' h).1
      have h6 := h3'.2
      rw [this] at h6; simp at h6
  subst this
  exact ⟨by rw [h4, h4'], by rw [h5, h5']⟩

/-- Any rounding, random source, system of dimension `n`, target, `dt ≥ 0`; a buffer of that dimension, whatever is left in it;
`fpt` the least time so far; `steps` turns allowed.  Let the complete search be that of tests/rts_n_searcher.rs from the same
state of the generator.
* If the complete search reports a time `T < fpt` within `steps` turns, the searcher reports it too, and leaves the generator in
  the same state;
* if the searcher reports `T`, then either `T < fpt` and the complete search reports just this, or `T` is the first time of the
  clock not below `fpt`, and no complete search is faster;
* it fails only as the complete search does;
* it does not come to an end within `steps` turns only if the complete search does not either (and then all the times are below
  `fpt`, unless the searcher cannot be placed). -/
theorem C117_searcher (R : Rounding) (rng : RngOps G (RF R)) (sys : SysOps G (RF R)) (n : Nat) (hd : sys.DrawsInside n)
    (target : TargetOps (RF R)) (inner loops steps : Nat) (mtype : MoveType (RF R)) (dt fpt : RF R) (h0 : 0 ≤ dt.val)
    (buf : Pos (RF R)) (hb : buf.length = n) (g : G) :
    let cut := prunedSearcher rng sys target inner loops steps mtype dt fpt (buf, g)
    let full := fun turns => oneSearcher rng sys target inner loops turns mtype dt g
    (∀ T g', full steps = some (.ok T, g') → T.val < fpt.val → ∃ b', cut = some (.ok T, (b', g'))) ∧
    (∀ T b' g', cut = some (.ok T, (b', g')) → b'.length = n ∧
      ((T.val < fpt.val ∧ full steps = some (.ok T, g')) ∨
        (fpt.val ≤ T.val ∧ (∃ K, T = clockAfter dt K ∧ ∀ i < K, (clockAfter dt i).val < fpt.val) ∧
          ∀ turns T' g'', full turns = some (.ok T', g'') → T.val ≤ T'.val))) ∧
    (∀ r b' g', (∀ T, r ≠ .ok T) → cut = some (r, (b', g')) → full steps = some (r, g')) ∧
    (cut = none → full steps = none) := by
  intro cut full
  obtain ⟨h1, h2⟩ := searcher_or R rng sys n hd target inner loops steps mtype dt fpt buf hb g
  rcases h2 with ⟨h2, h3⟩ | ⟨K, hK, k1, k2, ⟨g2, k3⟩, k4⟩
  · refine ⟨fun T g' hT _ => ?_, fun T b' g' hT => ⟨h1 _ _ _ hT, ?_⟩, fun r b' g' _ hr => ?_, fun hn => ?_⟩
    · have h2 := h2.trans hT
      simp only [Option.map_eq_some_iff] at h2
      obtain ⟨⟨r, b', g''⟩, h, e⟩ := h2
      simp only [Prod.mk.injEq] at e
      exact ⟨b', by rw [← e.1, ← e.2]; exact h⟩
    · have hf : full steps = some (.ok T, g') := by
        refine h2.symm.trans ?_
        rw [show prunedSearcher rng sys target inner loops steps mtype dt fpt (buf, g) = _ from hT]; rfl
      by_cases hlt : T.val < fpt.val
      · exact .inl ⟨hlt, hf⟩
      · refine .inr ⟨not_lt.1 hlt, h3 T g' hf, fun turns T' g'' h' => ?_⟩
        rw [(complete_same R rng sys target inner loops mtype dt g hf h').1]
    · refine h2.symm.trans ?_
      rw [show prunedSearcher rng sys target inner loops steps mtype dt fpt (buf, g) = _ from hr]; rfl
    · refine h2.symm.trans ?_
      rw [show prunedSearcher rng sys target inner loops steps mtype dt fpt (buf, g) = _ from hn]; rfl
  · have hcut : ∀ r b' g', cut = some (r, (b', g')) → r = .ok (clockAfter dt K) := by
      intro r b' g' h
      rw [show prunedSearcher rng sys target inner loops steps mtype dt fpt (buf, g) = _ from h] at k3
      simp only [Option.map_some, Option.some.injEq, Prod.mk.injEq] at k3
      exact k3.1
    refine ⟨fun T g' hT hlt => ?_, fun T b' g' hT => ⟨h1 _ _ _ hT, .inr ?_⟩, fun r b' g' hr h => ?_, fun hn => ?_⟩
    · obtain ⟨k, hk, rfl⟩ := k4 steps T g' hT
      exact absurd hlt (not_lt.2 (k2.trans (clockAfter_mono h0 hk.le)))
    · have := Res.ok.inj (hcut _ _ _ hT)
      subst this
      refine ⟨k2, ⟨K, rfl, k1⟩, fun turns T' g'' h' => ?_⟩
      obtain ⟨k, hk, rfl⟩ := k4 turns T' g'' h'
      exact clockAfter_mono h0 hk.le
    · exact absurd (hcut _ _ _ h) (hr _)
    · rw [show prunedSearcher rng sys target inner loops steps mtype dt fpt (buf, g) = _ from hn] at k3
      simp at k3

/-- One ensemble of `k` searchers with the least time `f0` to begin with. -/
private theorem prunedLoop_says (R : Rounding) (rng : RngOps G (RF R)) (sys : SysOps G (RF R)) (n : Nat) (hd : sys.DrawsInside n)
    (target : TargetOps (RF R)) (inner loops steps : Nat) (mtype : MoveType (RF R)) (dt : RF R) (h0 : 0 ≤ dt.val) (k : Nat) :
    ∀ (f0 : RF R) (buf : Pos (RF R)) (_ : buf.length = n) (g : G),
    (∀ m b' g', prunedLoop (prunedSearcher rng sys target inner loops steps mtype dt) k (buf, g) f0 = some (.ok m, (b', g')) →
      b'.length = n ∧ m.val ≤ f0.val ∧ ∃ gs : List G, gs.length = k ∧ (0 < k → gs.head? = some g) ∧
        (∀ gj ∈ gs, ∀ turns T g'', oneSearcher rng sys target inner loops turns mtype dt gj = some (.ok T, g'') → m.val ≤ T.val) ∧
        (m = f0 ∨ ∃ gj ∈ gs, ∃ g'', oneSearcher rng sys target inner loops steps mtype dt gj = some (.ok m, g''))) ∧
    (∀ r b' g', (∀ m, r ≠ .ok m) →
      prunedLoop (prunedSearcher rng sys target inner loops steps mtype dt) k (buf, g) f0 = some (r, (b', g')) →
      ∃ gj, oneSearcher rng sys target inner loops steps mtype dt gj = some (r, g')) ∧
    (prunedLoop (prunedSearcher rng sys target inner loops steps mtype dt) k (buf, g) f0 = none →
      ∃ gj, oneSearcher rng sys target inner loops steps mtype dt gj = none) := by
  induction k with
  | zero =>
    intro f0 buf hb g
    refine ⟨?_, ?_, by simp [prunedLoop]⟩
    · intro m b' g' h
      simp only [prunedLoop, Option.some.injEq, Prod.mk.injEq, Res.ok.injEq] at h
      obtain ⟨rfl, rfl, rfl⟩ := h
      exact ⟨hb, le_rfl, [], rfl, by simp, by simp, .inl rfl⟩
    · intro r b' g' hr h
      simp only [prunedLoop, Option.some.injEq, Prod.mk.injEq] at h
      exact absurd h.1.symm (hr _)
  | succ k ih =>
    intro f0 buf hb g
    obtain ⟨c1, c2, c3, c4⟩ := C117_searcher R rng sys n hd target inner loops steps mtype dt f0 h0 buf hb g
    rcases hc : prunedSearcher rng sys target inner loops steps mtype dt f0 (buf, g) with _ | ⟨r, b1, g1⟩
    · rw [prunedLoop, hc]
      simp only [reduceCtorEq, false_implies, implies_true, true_and, forall_const]
      exact ⟨g, c4 hc⟩
    · by_cases hr : ∃ T, r = .ok T
      · obtain ⟨T, rfl⟩ := hr
        obtain ⟨d1, d2⟩ := c2 T b1 g1 hc
        rw [prunedLoop, hc]
        simp only [RF.lt_val, decide_eq_true_eq]
        obtain ⟨f1, hf1⟩ : ∃ f1, f1 = if T.val < f0.val then T else f0 := ⟨_, rfl⟩
        rw [← hf1]
        have l1 : f1.val ≤ f0.val := by
          rw [hf1]; split
          · next h => exact h.le
          · exact le_rfl
        have l2 : f1.val ≤ T.val := by
          rw [hf1]; split
          · exact le_rfl
          · next h => exact not_lt.1 h
        obtain ⟨i1, i2, i3⟩ := ih f1 b1 d1 g1
        refine ⟨fun m b' g' h => ?_, i2, i3⟩
        obtain ⟨j1, j2, gs, j3, -, j4, j5⟩ := i1 m b' g' h
        refine ⟨j1, j2.trans l1, g :: gs, by simp [j3], by simp, ?_, ?_⟩
        · intro gj hgj turns T' g'' hT'
          rcases List.mem_cons.1 hgj with rfl | hgj
          · rcases d2 with ⟨-, d2⟩ | ⟨-, -, d2⟩
            · rw [← (complete_same R rng sys target inner loops mtype dt gj d2 hT').1]
              exact j2.trans l2
            · exact (j2.trans l2).trans (d2 turns T' g'' hT')
          · exact j4 gj hgj turns T' g'' hT'
        · rcases j5 with j5 | ⟨gj, hgj, h'⟩
          · rcases d2 with ⟨d2, d3⟩ | ⟨d2, -⟩
            · right
              rw [if_pos d2] at hf1
              exact ⟨g, by simp, g1, by rw [j5, hf1]; exact d3⟩
            · left; rw [j5, hf1, if_neg (not_lt.2 d2)]
          · exact .inr ⟨gj, by simp [hgj], h'⟩
      · have hloop : prunedLoop (prunedSearcher rng sys target inner loops steps mtype dt) (k + 1) (buf, g) f0 =
            some (r, b1, g1) := by
          rw [prunedLoop, hc]
          match r with
          | .ok T => exact absurd ⟨T, rfl⟩ hr
          | .err e => rfl
          | .panic => rfl
        have hno : ∀ T, r ≠ .ok T := fun T h => hr ⟨T, h⟩
        refine ⟨fun m b' g' h => ?_, fun r' b' g' hr' h => ?_, fun h => ?_⟩
        · have h := hloop.symm.trans h
          simp only [Option.some.injEq, Prod.mk.injEq] at h
          exact absurd h.1 (hno m)
        · have h := hloop.symm.trans h
          simp only [Option.some.injEq, Prod.mk.injEq] at h
          obtain ⟨rfl, rfl, rfl⟩ := h
          exact ⟨g, c3 r b1 g1 hno hc⟩
        · have h := hloop.symm.trans h
          simp at h

/-- One ensemble of `k` searchers, any rounding, `dt ≥ 0`.  If it ends with a number `m` there are `k` states of the generator,
one for each searcher to be placed from, the first being the one the ensemble began with, such that no complete search from them
takes less than `m`, and one of them takes just `m` (unless `m` is `f64::MAX`).  If it ends with a failure, or does not come to
an end within `steps` turns of a searcher, then so does a complete search. -/
theorem C117_fastest (R : Rounding) (rng : RngOps G (RF R)) (sys : SysOps G (RF R)) (n : Nat) (hd : sys.DrawsInside n)
    (target : TargetOps (RF R)) (inner loops steps : Nat) (mtype : MoveType (RF R)) (dt : RF R) (h0 : 0 ≤ dt.val) (k : Nat)
    (buf : Pos (RF R)) (hb : buf.length = n) (g : G) :
    let run := prunedRun rng sys target inner loops steps mtype dt k (buf, g)
    (∀ m b' g', run = some (.ok m, (b', g')) →
      b'.length = n ∧ m.val ≤ (Fl.maxVal : RF R).val ∧ ∃ gs : List G, gs.length = k ∧ (0 < k → gs.head? = some g) ∧
        (∀ gj ∈ gs, ∀ turns T g'', oneSearcher rng sys target inner loops turns mtype dt gj = some (.ok T, g'') → m.val ≤ T.val) ∧
        (m = Fl.maxVal ∨ ∃ gj ∈ gs, ∃ g'', oneSearcher rng sys target inner loops steps mtype dt gj = some (.ok m, g''))) ∧
    (∀ r b' g', (∀ m, r ≠ .ok m) → run = some (r, (b', g')) →
      ∃ gj, oneSearcher rng sys target inner loops steps mtype dt gj = some (r, g')) ∧
    (run = none → ∃ gj, oneSearcher rng sys target inner loops steps mtype dt gj = none) :=
  prunedLoop_says R rng sys n hd target inner loops steps mtype dt h0 k Fl.maxVal buf hb g

/-! ### double precision: the times stand still long before `f64::MAX` -/

private theorem rep_pow_mul {d : ℝ} (hd : Rounding.double.rnd d = d) (j : Nat) : Rounding.double.rnd (2 ^ j * d) = 2 ^ j * d := by
  induction j with
  | zero => simpa using hd
  | succ j ih =>
    rw [pow_succ, mul_comm ((2 : ℝ) ^ j), mul_assoc]
    exact rep_double ih

/-- The times of the programs that add up `dt` never go beyond `2^55 dt`. -/
theorem C117_times_stand_still (dt : Double) (hdt : dt.Rep) (d0 : 0 < dt.val) (k : Nat) : (clockAfter dt k).val ≤ 2 ^ 55 * dt.val := by
  induction k with
  | zero =>
    have : (clockAfter dt 0).val = 0 := by
      show (Fl.zero : Double).val = 0
      simp [Fl.zero, Rounding.double.zero]
    rw [this]; positivity
  | succ k ih =>
    rw [clockAfter_succ, RF.val_add]
    by_cases h : 2 ^ 54 * dt.val < (clockAfter dt k).val
    · rw [double_absorbs (clockAfter_rep dt k) d0 h]; exact ih
    · rw [← rep_pow_mul hdt 55]
      refine Rounding.double.mono _ _ ?_
      have : (2 : ℝ) ^ 55 = 2 ^ 54 + 2 ^ 54 := by norm_num
      have h1 : (1 : ℝ) ≤ 2 ^ 54 := by norm_num
      rw [this]
      nlinarith [not_lt.1 h]

/-- So in double precision, with `0 < dt` and `2^55 dt` below the least time so far (in particular for the first searcher of an
ensemble, whose limit is `f64::MAX`), no searcher is ever given up: it is followed as by the complete search, and if that never
ends, neither does it.  (With exact arithmetic, `C102_searcher`, every searcher that can be placed comes to an end.) -/
theorem C117_never_given_up (rng : RngOps G Double) (sys : SysOps G Double) (n : Nat) (hd : sys.DrawsInside n)
    (target : TargetOps Double) (inner loops steps : Nat) (mtype : MoveType Double) (dt fpt : Double) (hdt : dt.Rep) (d0 : 0 < dt.val)
    (hfpt : 2 ^ 55 * dt.val < fpt.val) (buf : Pos Double) (hb : buf.length = n) (g : G) :
    (prunedSearcher rng sys target inner loops steps mtype dt fpt (buf, g)).map (fun r => (r.1, r.2.2)) =
      oneSearcher rng sys target inner loops steps mtype dt g := by
  rcases (searcher_or _ rng sys n hd target inner loops steps mtype dt fpt buf hb g).2 with ⟨h, -⟩ | ⟨K, -, -, h, -⟩
  · exact h
  · exact absurd (h.trans (C117_times_stand_still dt hdt d0 K)) (not_le.2 hfpt)

private theorem aux {A B : ℝ} (h : B ≤ A) (h0 : 0 < A) : A ≤ A * 512 - B := by linarith

private theorem max_big : (2 : ℝ) ^ (1015 : ℕ) ≤ 2 ^ (1024 : ℕ) - 2 ^ (971 : ℕ) := by
  have e1 : (2 : ℝ) ^ (1024 : ℕ) = 2 ^ (1015 : ℕ) * 2 ^ (9 : ℕ) := by rw [← pow_add]
  have e2 : (2 : ℝ) ^ (971 : ℕ) ≤ 2 ^ (1015 : ℕ) := pow_le_pow_right₀ (by norm_num) (by omega)
  have e3 : (0 : ℝ) < 2 ^ (1015 : ℕ) := by positivity
  have e4 : (2 : ℝ) ^ (9 : ℕ) = 512 := by norm_num
  rw [e1, e4]
  exact aux e2 e3

/-- `f64::MAX` is far beyond the place where the times stand still. -/
theorem beyond_max {dt : Double} (hbig : dt.val < 2 ^ 960) : 2 ^ 55 * dt.val < (Fl.maxVal : Double).val := by
  have h1 : 2 ^ 55 * dt.val < (2 : ℝ) ^ (1015 : ℕ) := by
    rw [show (1015 : ℕ) = 55 + 960 by rfl, pow_add]
    exact mul_lt_mul_of_pos_left hbig (by positivity)
  have h2 : (2 : ℝ) ^ (1015 : ℕ) ≤ (Fl.maxVal : Double).val := by
    have h3 := double_pow2 (e := 1015) (by norm_num)
    rw [show (1015 : ℤ) = ((1015 : ℕ) : ℤ) by norm_num, zpow_natCast] at h3
    rw [← h3]
    refine Rounding.double.mono _ _ ?_
    exact max_big
  exact h1.trans_le h2

/-- `f64::MAX` is beyond all the times if `dt < 2^960`: an ensemble with a searcher or more does not come to an end if the
complete search of its first searcher does not. -/
theorem C117_first_to_its_end (rng : RngOps G Double) (sys : SysOps G Double) (n : Nat) (hd : sys.DrawsInside n)
    (target : TargetOps Double) (inner loops steps : Nat) (mtype : MoveType Double) (dt : Double) (hdt : dt.Rep) (d0 : 0 < dt.val)
    (hbig : dt.val < 2 ^ 960) (buf : Pos Double) (hb : buf.length = n) (g : G) (k : Nat)
    (h : oneSearcher rng sys target inner loops steps mtype dt g = none) :
    prunedRun rng sys target inner loops steps mtype dt (k + 1) (buf, g) = none := by
  have := C117_never_given_up rng sys n hd target inner loops steps mtype dt Fl.maxVal hdt d0 (beyond_max hbig) buf hb g
  rw [h, Option.map_eq_none_iff] at this
  unfold prunedRun
  rw [prunedLoop, this]

/-! ### examples: the hypotheses are met -/

private theorem rep_128 : (⟨1 / 128⟩ : Double).Rep := by
  have := double_pow2 (e := -7) (by norm_num)
  have e : (2 : ℝ) ^ (-7 : ℤ) = 1 / 128 := by norm_num
  rw [e] at this
  exact this

/-- A ball of radius 13 with a target of radius 2 at its rim, steps of 1/128, any source of random numbers: the buffer makes no
difference, and the first searcher of an ensemble is followed to its end. -/
example (rng : RngOps G Double) (g : G) (steps : Nat) : let s : Circ Double := ⟨.continuousCircular, .reflection, ⟨13⟩, 2⟩
    let target := (BulkTarget.new [⟨8⟩, ⟨0⟩] (⟨2⟩ : Double)).ops
    (oneBuffered rng (s.ops rng) target 100 100 steps (.brownian ⟨1⟩) ⟨1 / 128⟩ ([⟨7⟩, ⟨-7⟩], g)).map (fun r => (r.1, r.2.2)) =
      oneSearcher rng (s.ops rng) target 100 100 steps (.brownian ⟨1⟩) ⟨1 / 128⟩ g ∧
    (prunedSearcher rng (s.ops rng) target 100 100 steps (.brownian ⟨1⟩) ⟨1 / 128⟩ ⟨2 ^ 60⟩ ([⟨7⟩, ⟨-7⟩], g)).map (fun r => (r.1, r.2.2)) =
      oneSearcher rng (s.ops rng) target 100 100 steps (.brownian ⟨1⟩) ⟨1 / 128⟩ g := by
  intro s target
  refine ⟨(C117_buffer _ rng _ 2 (C37_systems_draw_inside.1 rng s) target 100 100 steps _ _ _ rfl g).1, ?_⟩
  exact C117_never_given_up rng _ 2 (C37_systems_draw_inside.1 rng s) target 100 100 steps _ _ _ rep_128 (by norm_num) (by norm_num)
    _ rfl g

/-- A clock of 1/128 up to 1000 gives times, and then no more; so the theorem about tests/arguments.rs applies. -/
example : ∃ clock : ConstStep Double, ∃ M : Nat, ConstStep.convertFrom (⟨1 / 128⟩ : Double) ⟨1000⟩ = .ok clock ∧ 1 ≤ M ∧
    (∀ j < M, output ConstStep.next j clock ≠ .ok none) ∧ output ConstStep.next M clock = .ok none := by
  have h1 : Rounding.double.rnd ((1 / 10 ^ 10 : ℚ) : ℝ) ≤ 1 := by
    have := double_nat (n := 1) (by norm_num)
    rw [Nat.cast_one] at this
    rw [← this]
    refine Rounding.double.mono _ _ ?_
    push_cast; norm_num
  have hc : ConstStep.convertFrom (⟨1 / 128⟩ : Double) ⟨1000⟩ =
      .ok ⟨.constant ⟨1 / 128⟩, Fl.zero, ⟨1 / 128⟩, ⟨1000⟩⟩ := by
    unfold ConstStep.convertFrom
    have z : (Fl.zero : Double).val = 0 := by simp [Fl.zero, Rounding.double.zero]
    have a1 : Fl.lt (⟨1000⟩ : Double) Fl.zero = false := by
      rw [RF.lt_val, z]; exact decide_eq_false (by norm_num)
    have a2 : Fl.lt (⟨1 / 128⟩ : Double) Fl.zero = false := by
      rw [RF.lt_val, z]; exact decide_eq_false (by norm_num)
    have a3 : Fl.lt (⟨1000⟩ : Double) (Fl.lit (1 / 10 ^ 10)) = false := by
      rw [RF.lt_val, RF.val_lit]; exact decide_eq_false (not_lt.2 (h1.trans (by norm_num)))
    rw [a1, a2, a3]
    rfl
  obtain ⟨M, -, m1, m2⟩ := C117_clock_ends ⟨1 / 128⟩ ⟨1000⟩ rep_128 (by norm_num) _ hc (by norm_num)
  refine ⟨_, M, hc, ?_, m1, m2⟩
  by_contra hM
  obtain rfl : M = 0 := by omega
  unfold output stateAfter ConstStep.next at m2
  have : Fl.le (Fl.zero : Double) ⟨1000⟩ = true := by
    rw [RF.le_val]
    refine decide_eq_true ?_
    simp [Fl.zero, Rounding.double.zero]
  simp only [this, if_true] at m2
  simp at m2

end Moledyn.Props
