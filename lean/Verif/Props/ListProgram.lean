import Verif.Lemmas.ListProgram
import Verif.Props.ExpEnsembles
import Verif.Props.Ensembles
import Verif.Props.Seeds
/-
Property theorems C101: the program of tests/arguments.rs.
-/
namespace Moledyn.Props
open Moledyn LList
set_option linter.unusedSimpArgs false
variable {G F : Type}

/-- an agent that can be renewed: of dimension `n`, or at a position that will be replaced. -/
def Renewable {F : Type} (n : Nat) (mtype : MoveType F) (a : IndepAgent F) : Prop :=
  a.mtype = mtype ∧ (a.dim = n ∨ a.pos.length ≠ n)

/-- what every ensemble leaves for the next. -/
structure LeftList {F : Type} (N n : Nat) (mtype : MoveType F) (st : ListSim G F) : Prop where
  links : st.1.links.length = N
  contents : st.1.contents.length = N
  c2 : st.1.c2 = none
  kind : ∀ a ∈ st.1.contents, Renewable n mtype a
  buf : st.2.1.length = n

private theorem renew_says [Fl F] {sys : SysOps G F} {n : Nat} (ho : sys.OutsideDim n) (target : TargetOps F) (inner loops : Nat)
    (g : G) (mtype : MoveType F) (a : IndepAgent F) (ha : Renewable n mtype a) :
    a.renewUniform sys target inner loops g =
      (AgentCore.drawOffTarget sys target inner loops g sys.positionOut).map fun r =>
        (({ a with dim := n, pos := r.1.1 }, r.1.2), r.2) := by
  unfold IndepAgent.renewUniform
  simp only [startPos_says ho]
  by_cases hp : a.pos.length = n
  · rcases ha.2 with hd | hd
    · simp [hp, hd]
    · exact absurd hp hd
  · have hb : decide (a.pos.length ≠ n) = true := by simp [hp]
    simp only [hb, if_true, Pos.dim, ho.1]

/-- renewing the agents of the list is making as many new ones. -/
private theorem renewIndep_says [Fl F] {sys : SysOps G F} {n : Nat} (hd : sys.DrawsInside n) (ho : sys.OutsideDim n)
    (target : TargetOps F) (inner loops : Nat) (mtype : MoveType F) (w : List (IndepAgent F))
    (hw : ∀ a ∈ w, Renewable n mtype a) (g : G) :
    match renewIndep sys target inner loops w g with
    | none => makeAgents (fun g => IndepAgent.newUniform sys target inner loops g mtype) w.length g = none
    | some ((cs, .ok ()), g1) =>
      makeAgents (fun g => IndepAgent.newUniform sys target inner loops g mtype) w.length g =
        some (.ok (cs.map IndepAgent.plain), g1) ∧ cs.length = w.length ∧ ∀ a ∈ cs, a.dim = n ∧ a.mtype = mtype
    | some ((_, .err e), g1) =>
      makeAgents (fun g => IndepAgent.newUniform sys target inner loops g mtype) w.length g = some (.err e, g1)
    | some ((_, .panic), g1) =>
      makeAgents (fun g => IndepAgent.newUniform sys target inner loops g mtype) w.length g = some (.panic, g1) := by
  induction w generalizing g with
  | nil => exact ⟨rfl, rfl, by simp⟩
  | cons a w ih =>
    have ha := hw a (by simp)
    unfold renewIndep
    rw [renew_says ho target inner loops g mtype a ha]
    rw [List.length_cons, makeAgents]
    unfold IndepAgent.newUniform
    rcases hdr : AgentCore.drawOffTarget sys target inner loops g sys.positionOut with _ | ⟨⟨x, r⟩, g1⟩
    · simp
    · cases r with
      | err e => simp
      | panic => simp
      | ok u =>
        simp only [Option.map_some, Res.map_ok]
        have hx : x.length = n := (drawOffTarget_ok hd hdr).1
        have := ih (fun b hb => hw b (by simp [hb])) g1
        rcases hr : renewIndep sys target inner loops w g1 with _ | ⟨⟨cs, r⟩, g2⟩
        · rw [hr] at this
          simp only [Option.map_none]
          show Option.map _ (makeAgents _ _ _) = none
          exact congrArg (Option.map _) this
        · rw [hr] at this
          cases r with
          | err e =>
            exact congrArg (Option.map _) this
          | panic =>
            exact congrArg (Option.map _) this
          | ok _ =>
            obtain ⟨k1, k2, k3⟩ := this
            simp only [Option.map_some]
            refine ⟨?_, by simp [k2], ?_⟩
            · refine (congrArg (Option.map _) k1).trans ?_
              simp only [Option.map_some, Res.map_ok, List.map_cons]
              have hpl : IndepAgent.plain { a with dim := n, pos := x } =
                  ⟨.continuousPassiveIndependent, mtype, .uniform, Pos.dim x, x⟩ := by
                simp only [IndepAgent.plain, Pos.dim, hx, ha.1]
              rw [hpl]
            · intro b hb
              rcases List.mem_cons.1 hb with rfl | hb
              · exact ⟨rfl, ha.1⟩
              · exact k3 b hb

/-- The whole of an ensemble: what is written, in terms of what tests/n_ptl_rts_iterator.rs would report. -/
theorem listRun_any [Fl F] (hz : NeutralZero F) (rng : RngOps G F) {sys : SysOps G F} {n : Nat} (hd : sys.DrawsInside n)
    (ho : sys.OutsideDim n) (target : TargetOps F) (inner loops : Nat) {fuel N : Nat} (hf : N < fuel) (mtype : MoveType F)
    (c : ConstStep F) (M steps : Nat) (hcur : c.current = Fl.zero) (hM : TicksLeft c M) (hs : M < steps) {st : ListSim G F} (h : LeftList N n mtype st) :
    let make := makeAgents (fun g => IndepAgent.newUniform sys target inner loops g mtype) N st.2.2
    let plain := indepRun rng sys target inner loops fuel M mtype c.dt N st.2.2
    let line := listRun rng sys target inner loops fuel steps c st
    (make = none → line = none) ∧
    (make ≠ none → plain = none → ∃ st', line = some (.ok Fl.zero, st') ∧ LeftList N n mtype st' ∧
      ∀ v g1, make = some (.ok v, g1) → st'.2.2 = (searchLoop (countingTick c.dt)
        (walkStep (IndepAgent.walker rng) sys target fuel) M Fl.zero (from' v, g1)).1.2.2) ∧
    (∀ t g', plain = some (.ok t, g') → ∃ x st', line = some (.ok x, st') ∧ x + c.dt = t ∧ LeftList N n mtype st' ∧ st'.2.2 = g') ∧
    (∀ r g', (∀ t, r ≠ .ok t) → plain = some (r, g') → ∃ st', line = some (r, st') ∧ st'.2.2 = g') := by
  have hren := renewIndep_says hd ho target inner loops mtype st.1.contents h.kind st.2.2
  rw [h.contents] at hren
  intro make plain line
  have hplain : plain = indepRun rng sys target inner loops fuel M mtype c.dt N st.2.2 := rfl
  have hline : line = listRun rng sys target inner loops fuel steps c st := rfl
  have hmake : make = makeAgents (fun g => IndepAgent.newUniform sys target inner loops g mtype) N st.2.2 := rfl
  clear_value make plain line
  unfold indepRun at hplain
  unfold listRun listPrepare at hline
  rcases hr : renewIndep sys target inner loops st.1.contents st.2.2 with _ | ⟨⟨cs, r⟩, g1⟩
  · rw [hr] at hren hline
    rw [hren] at hplain hmake
    simp only [Option.map_none] at hline hplain
    subst hline hplain hmake
    simp
  · rw [hr] at hren hline
    cases r with
    | err e =>
      simp only at hren
      rw [hren] at hplain hmake
      simp only [Option.map_some] at hline hplain
      subst hline hplain hmake
      simp
    | panic =>
      simp only at hren
      rw [hren] at hplain hmake
      simp only [Option.map_some] at hline hplain
      subst hline hplain hmake
      simp
    | ok u =>
      obtain ⟨k1, k2, k3⟩ := hren
      rw [k1] at hplain hmake
      have hcon : ({ st.1 with contents := cs } : LList (IndepAgent F)).connectAll =
          ((from' cs).withCursors st.1.c0 st.1.c1, .ok ()) :=
        connectAll_from (l := { st.1 with contents := cs }) (by show st.1.links.length = cs.length; rw [h.links, k2]) h.c2
      simp only [Option.map_some, hcon] at hline hplain
      have hsame : SameSearch N n mtype (((from' cs).withCursors st.1.c0 st.1.c1, (st.2.1, g1)) : ListSim G F)
          (from' (cs.map IndepAgent.plain), g1) := by
        refine ⟨⟨?_, rfl, ?_, ?_, rfl⟩, rfl, h.buf, k3, _, rep_from _, ?_, ?_⟩
        · simp [from', LList.withCursors]
        · simp [from', LList.withCursors]
        · simp [from', LList.withCursors]
        · simp [Slots.ofContents, k2]
        · simp [from', k2]
      obtain ⟨e, rfl⟩ : ∃ e, steps = M + 1 + e := ⟨steps - (M + 1), by omega⟩
      obtain ⟨a1, a2⟩ := listSearch_lockstep hz rng sys target hf M c hM e hsame
      rw [hcur] at a1 a2
      rcases hB : searchLoop (countingTick c.dt) (walkStep (IndepAgent.walker rng) sys target fuel) M Fl.zero
        (from' (cs.map IndepAgent.plain), g1) with ⟨⟨cB, sB⟩, oB⟩
      rcases hA : searchLoop constTick (listStep rng sys target fuel) (M + 1 + e) c
        ((from' cs).withCursors st.1.c0 st.1.c1, (st.2.1, g1)) with ⟨⟨cA, sA⟩, oA⟩
      rw [hA, hB] at a1 a2
      rw [hB] at hplain
      rw [hA] at hline
      simp only at a1 a2 hplain hline
      have hleft : LeftList N n mtype sA := by
        obtain ⟨b1, b2, b3, b4, sl, b5, b6, b7⟩ := a2
        refine ⟨?_, ?_, ?_, fun a ha => ⟨(b4 a ha).2, .inl (b4 a ha).1⟩, b3⟩
        · rw [← b1.links, b5.len, b7]
        · rw [← b7, b1.contents, List.length_map]
        · rw [← b1.c2, b5.c2]
      have hrng : sB.2 = sA.2.2 := a2.rng
      have hend0 : ∀ v g2, some (Res.ok (cs.map IndepAgent.plain), g1) = some (Res.ok v, g2) → sA.2.2 =
          (searchLoop (countingTick c.dt) (walkStep (IndepAgent.walker rng) sys target fuel) M Fl.zero (from' v, g2)).1.2.2 := by
        intro v g2 hv
        simp only [Option.some.injEq, Prod.mk.injEq, Res.ok.injEq] at hv
        obtain ⟨rfl, rfl⟩ := hv
        rw [hB]; exact hrng.symm
      match oB with
      | none =>
        simp only [OneTickBefore] at a1
        subst a1
        simp only at hline hplain
        subst hline hplain hmake
        refine ⟨by simp, fun _ _ => ⟨sA, ?_, hleft, hend0⟩, by simp, by simp⟩
        simp
      | some (.ok (some t)) =>
        obtain ⟨x, rfl, hx⟩ := a1
        simp only at hline hplain
        subst hline hplain hmake
        refine ⟨by simp, by simp, ?_, ?_⟩
        · intro t' g' ht
          simp only [Option.some.injEq, Prod.mk.injEq, Res.ok.injEq] at ht
          obtain ⟨rfl, rfl⟩ := ht
          exact ⟨x, sA, by simp, hx, hleft, hrng.symm⟩
        · intro r g' hne ht
          simp only [Option.some.injEq, Prod.mk.injEq] at ht
          exact absurd ht.1.symm (hne t)
      | some (.err er) =>
        simp only [OneTickBefore] at a1
        subst a1
        simp only at hline hplain
        subst hline hplain hmake
        refine ⟨by simp, by simp, by simp, ?_⟩
        intro r g' hne ht
        simp only [Option.some.injEq, Prod.mk.injEq] at ht
        obtain ⟨rfl, rfl⟩ := ht
        exact ⟨sA, by simp, hrng.symm⟩
      | some .panic =>
        simp only [OneTickBefore] at a1
        subst a1
        simp only at hline hplain
        subst hline hplain hmake
        refine ⟨by simp, by simp, by simp, ?_⟩
        intro r g' hne ht
        simp only [Option.some.injEq, Prod.mk.injEq] at ht
        obtain ⟨rfl, rfl⟩ := ht
        exact ⟨sA, by simp, hrng.symm⟩
      | some (.ok none) =>
        simp only [OneTickBefore] at a1
        subst a1
        simp only at hline hplain
        subst hline hplain hmake
        refine ⟨by simp, fun _ _ => ⟨sA, by simp, hleft, hend0⟩, by simp, by simp⟩


/-- exact arithmetic: the ticks of the clock. -/
theorem ticksLeft_real {c : ConstStep ℝ} {M : Nat} (hcur : c.current = 0) (hM : ∀ j : Nat, j < M → j * c.dt ≤ c.tmax)
    (hend : ¬ M * c.dt ≤ c.tmax) : TicksLeft c M := by
  have e : ∀ j : Nat, (fun t : ℝ => t + c.dt)^[j] c.current = j * c.dt := by
    intro j
    induction j with
    | zero => simp [hcur]
    | succ j ih => rw [Function.iterate_succ_apply', ih]; push_cast; ring
  unfold TicksLeft
  simp only [fl_add, e, fl_le, decide_eq_true_eq, decide_eq_false_iff_not]
  exact ⟨hM, hend⟩

/-- The same in exact arithmetic. -/
theorem listRun_says (rng : RngOps G ℝ) {sys : SysOps G ℝ} {n : Nat} (hd : sys.DrawsInside n)
    (ho : sys.OutsideDim n) (target : TargetOps ℝ) (inner loops : Nat) {fuel N : Nat} (hf : N < fuel) (mtype : MoveType ℝ)
    (c : ConstStep ℝ) (M steps : Nat) (hcur : c.current = 0) (hM : ∀ j : Nat, j < M → j * c.dt ≤ c.tmax)
    (hend : ¬ M * c.dt ≤ c.tmax) (hs : M < steps) {st : ListSim G ℝ} (h : LeftList N n mtype st) :
    let make := makeAgents (fun g => IndepAgent.newUniform sys target inner loops g mtype) N st.2.2
    let plain := indepRun rng sys target inner loops fuel M mtype c.dt N st.2.2
    let line := listRun rng sys target inner loops fuel steps c st
    (make = none → line = none) ∧
    (make ≠ none → plain = none → ∃ st', line = some (.ok 0, st') ∧ LeftList N n mtype st' ∧
      ∀ v g1, make = some (.ok v, g1) → st'.2.2 = (searchLoop (countingTick c.dt)
        (walkStep (IndepAgent.walker rng) sys target fuel) M 0 (from' v, g1)).1.2.2) ∧
    (∀ t g', plain = some (.ok t, g') → ∃ st', line = some (.ok (t - c.dt), st') ∧ LeftList N n mtype st' ∧ st'.2.2 = g') ∧
    (∀ r g', (∀ t, r ≠ .ok t) → plain = some (r, g') → ∃ st', line = some (r, st') ∧ st'.2.2 = g') := by
  have z : (Fl.zero : ℝ) = 0 := by simp
  obtain ⟨a1, a2, a3, a4⟩ := listRun_any neutral_real rng hd ho target inner loops hf mtype c M steps (by rw [hcur, z])
    (ticksLeft_real hcur hM hend) hs h
  rw [z] at a2
  refine ⟨a1, a2, fun t g' hp => ?_, a4⟩
  obtain ⟨x, st', h1, h2, h3⟩ := a3 t g' hp
  have hx : t - c.dt = x := by rw [← h2]; simp
  rw [hx]
  exact ⟨st', h1, h3⟩

/-! ## C101: tests/arguments.rs -/

/-- what can be relied on after reading the arguments of the clock. -/
theorem clock_says {dt tmax : ℝ} {c : ConstStep ℝ} (hc : ConstStep.convertFrom dt tmax = .ok c) (hdt : 0 < dt) :
    c.dt = dt ∧ c.current = 0 ∧ (∀ j : Nat, j < ⌊c.tmax / dt⌋₊ + 1 → j * c.dt ≤ c.tmax) ∧
      ¬ ((⌊c.tmax / dt⌋₊ + 1 : ℕ) : ℝ) * c.dt ≤ c.tmax := by
  unfold ConstStep.convertFrom at hc
  split at hc
  · simp at hc
  · next h =>
    have hc := Res.ok.inj hc
    have h1 : c.dt = dt := by rw [← hc]
    have h2 : c.current = 0 := by rw [← hc]; simp [Fl.zero]
    have h3 : 0 ≤ c.tmax := by
      rw [← hc]
      simp only [Bool.or_eq_true, not_or, Bool.not_eq_true] at h
      have h := h.1
      rw [fl_lt] at h
      simp only [fl_zero, decide_eq_false_iff_not, not_lt] at h
      show (0 : ℝ) ≤ ite _ _ _
      split
      · exact sub_nonneg.2 (pow_le_pow_right₀ (by norm_num) (by norm_num))
      · exact h
    rw [h1]
    refine ⟨rfl, h2, ?_, ?_⟩
    · intro j hj
      have : (j : ℝ) ≤ c.tmax / dt := (Nat.le_floor_iff (by positivity)).1 (by omega)
      rwa [le_div_iff₀ hdt] at this
    · rw [not_le, ← div_lt_iff₀ hdt]
      exact_mod_cast Nat.lt_floor_add_one (c.tmax / dt)

theorem leftList_start [Fl F] (agentType : AgentType) (mtype : MoveType F) (itype : InitType F) (N n : Nat) (g : G) :
    LeftList N n mtype (listStart (IndepAgent.convertFrom agentType mtype itype N) n g) := by
  refine ⟨?_, ?_, (rep_from _).c2, ?_, by simp [listStart, Fl.zero]⟩
  · show (from' (IndepAgent.convertFrom agentType mtype itype N)).links.length = N
    rw [(rep_from _).len]
    show (IndepAgent.convertFrom agentType mtype itype N).length = N
    simp [IndepAgent.convertFrom]
  · show (IndepAgent.convertFrom agentType mtype itype N).length = N
    simp [IndepAgent.convertFrom]
  · intro a ha
    have ha : a ∈ IndepAgent.convertFrom agentType mtype itype N := ha
    unfold IndepAgent.convertFrom at ha
    rw [List.mem_replicate] at ha
    rw [ha.2]
    refine ⟨rfl, ?_⟩
    cases itype with
    | uniform =>
      by_cases hn : n = 0
      · exact .inl hn.symm
      · exact .inr (by simpa [AgentCore.initPos] using fun h => hn h.symm)
    | specificPosition p =>
      by_cases hn : p.length = n
      · exact .inl hn
      · exact .inr hn

/-- an ensemble that gives a line leaves the list as the next one needs it. -/
theorem leftList_next_any [Fl F] (hz : NeutralZero F) (rng : RngOps G F) {sys : SysOps G F} {n : Nat} (hd : sys.DrawsInside n)
    (ho : sys.OutsideDim n) (target : TargetOps F) (inner loops : Nat) {fuel N : Nat} (hf : N < fuel) (mtype : MoveType F)
    (c : ConstStep F) (M steps : Nat) (hcur : c.current = Fl.zero) (hM : TicksLeft c M) (hs : M < steps) {st st' : ListSim G F} (h : LeftList N n mtype st) {t : F}
    (hr : listRun rng sys target inner loops fuel steps c st = some (.ok t, st')) : LeftList N n mtype st' := by
  obtain ⟨a1, a2, a3, a4⟩ := listRun_any hz rng hd ho target inner loops hf mtype c M steps hcur hM hs h
  by_cases hm : makeAgents (fun g => IndepAgent.newUniform sys target inner loops g mtype) N st.2.2 = none
  · rw [a1 hm] at hr; simp at hr
  · rcases hp : indepRun rng sys target inner loops fuel M mtype c.dt N st.2.2 with _ | ⟨r, g'⟩
    · obtain ⟨st1, k1, k2, -⟩ := a2 hm hp
      rw [k1] at hr
      simp only [Option.some.injEq, Prod.mk.injEq] at hr
      exact hr.2 ▸ k2
    · match r with
      | .ok t =>
        obtain ⟨y, st1, k1, -, k2, -⟩ := a3 t g' hp
        rw [k1] at hr
        simp only [Option.some.injEq, Prod.mk.injEq] at hr
        exact hr.2 ▸ k2
      | .err e =>
        obtain ⟨st1, k1, -⟩ := a4 (.err e) g' (by simp) hp
        rw [k1] at hr; simp at hr
      | .panic =>
        obtain ⟨st1, k1, -⟩ := a4 .panic g' (by simp) hp
        rw [k1] at hr; simp at hr

theorem leftList_many_any [Fl F] (hz : NeutralZero F) (rng : RngOps G F) {sys : SysOps G F} {n : Nat} (hd : sys.DrawsInside n)
    (ho : sys.OutsideDim n) (target : TargetOps F) (inner loops : Nat) {fuel N : Nat} (hf : N < fuel) (mtype : MoveType F)
    (c : ConstStep F) (M steps : Nat) (hcur : c.current = Fl.zero) (hM : TicksLeft c M) (hs : M < steps) {st st' : ListSim G F} (h : LeftList N n mtype st) {ts : List F}
    (hr : OneByOne (listRun rng sys target inner loops fuel steps c) st ts st') : LeftList N n mtype st' := by
  induction hr with
  | nil => exact h
  | cons h1 _ ih => exact ih (leftList_next_any hz rng hd ho target inner loops hf mtype c M steps hcur hM hs h h1)

private theorem leftList_next (rng : RngOps G ℝ) {sys : SysOps G ℝ} {n : Nat} (hd : sys.DrawsInside n)
    (ho : sys.OutsideDim n) (target : TargetOps ℝ) (inner loops : Nat) {fuel N : Nat} (hf : N < fuel) (mtype : MoveType ℝ)
    (c : ConstStep ℝ) (M steps : Nat) (hcur : c.current = 0) (hM : ∀ j : Nat, j < M → j * c.dt ≤ c.tmax)
    (hend : ¬ M * c.dt ≤ c.tmax) (hs : M < steps) {st st' : ListSim G ℝ} (h : LeftList N n mtype st) {t : ℝ}
    (hr : listRun rng sys target inner loops fuel steps c st = some (.ok t, st')) : LeftList N n mtype st' :=
  leftList_next_any neutral_real rng hd ho target inner loops hf mtype c M steps (by simp [hcur]) (ticksLeft_real hcur hM hend) hs h hr

private theorem leftList_many (rng : RngOps G ℝ) {sys : SysOps G ℝ} {n : Nat} (hd : sys.DrawsInside n)
    (ho : sys.OutsideDim n) (target : TargetOps ℝ) (inner loops : Nat) {fuel N : Nat} (hf : N < fuel) (mtype : MoveType ℝ)
    (c : ConstStep ℝ) (M steps : Nat) (hcur : c.current = 0) (hM : ∀ j : Nat, j < M → j * c.dt ≤ c.tmax)
    (hend : ¬ M * c.dt ≤ c.tmax) (hs : M < steps) {st st' : ListSim G ℝ} (h : LeftList N n mtype st) {ts : List ℝ}
    (hr : OneByOne (listRun rng sys target inner loops fuel steps c) st ts st') : LeftList N n mtype st' :=
  leftList_many_any neutral_real rng hd ho target inner loops hf mtype c M steps (by simp [hcur]) (ticksLeft_real hcur hM hend) hs h hr

/-- Exact arithmetic, any random source, system, target, number of searchers and arguments of the clock with `dt > 0`;
whatever starting position the arguments name.  After any number of finished ensembles, with `g` the present state of the
generator, let `plain` be what the list search of tests/n_ptl_rts_iterator.rs reports from `g` within
`M = ⌊tmax/dt⌋ + 1` steps.  Then the next line in the file is
* `t - dt` if `plain` is `t`, and the generator is left in the same state;
* the same failure, instead of a line, if `plain` is a failure;
* `0` if the searchers are placed but none of them finds the target within `M` steps;
* missing (the program goes on for ever) only if placing the searchers never ends. -/
theorem C101_one_step_less (rng : RngOps G ℝ) (sys : SysOps G ℝ) (n : Nat) (hd : sys.DrawsInside n)
    (ho : sys.OutsideDim n) (target : TargetOps ℝ) (inner loops fuel steps : Nat) (agentType : AgentType)
    (mtype : MoveType ℝ) (itype : InitType ℝ) (N : Nat) (hf : N < fuel) (dt tmax : ℝ) (hdt : 0 < dt)
    (clock : ConstStep ℝ) (hc : ConstStep.convertFrom dt tmax = .ok clock) (hs : ⌊clock.tmax / dt⌋₊ + 1 < steps)
    (g0 : G) (ts : List ℝ) (buf : Pos ℝ) (l : LList (IndepAgent ℝ)) (g : G)
    (h : OneByOne (listRun rng sys target inner loops fuel steps clock)
      (listStart (IndepAgent.convertFrom agentType mtype itype N) n g0) ts (l, (buf, g))) :
    let plain := indepRun rng sys target inner loops fuel (⌊clock.tmax / dt⌋₊ + 1) mtype dt N g
    let next := (listRun rng sys target inner loops fuel steps clock (l, (buf, g))).map fun r => (r.1, r.2.2.2)
    (∀ t g', plain = some (.ok t, g') → next = some (.ok (t - dt), g')) ∧
    (∀ r g', (∀ t, r ≠ .ok t) → plain = some (r, g') → next = some (r, g')) ∧
    (plain = none → makeAgents (fun g => IndepAgent.newUniform sys target inner loops g mtype) N g ≠ none →
      ∃ g', next = some (.ok 0, g')) ∧
    (next = none ↔ makeAgents (fun g => IndepAgent.newUniform sys target inner loops g mtype) N g = none) := by
  obtain ⟨e1, e2, e3, e4⟩ := clock_says hc hdt
  have hl := leftList_many rng hd ho target inner loops hf mtype clock _ steps e2 e3 e4 hs
    (leftList_start agentType mtype itype N n g0) h
  obtain ⟨a1, a2, a3, a4⟩ := listRun_says rng hd ho target inner loops hf mtype clock _ steps e2 e3 e4 hs hl
  rw [e1] at a2 a3 a4
  intro plain next
  have b3 : ∀ t g', plain = some (.ok t, g') → next = some (.ok (t - dt), g') := by
    intro t g' hp
    obtain ⟨st, k1, -, k2⟩ := a3 t g' hp
    show Option.map _ _ = _
    rw [k1, ← k2]; rfl
  have b4 : ∀ r g', (∀ t, r ≠ .ok t) → plain = some (r, g') → next = some (r, g') := by
    intro r g' hr hp
    obtain ⟨st, k1, k2⟩ := a4 r g' hr hp
    show Option.map _ _ = _
    rw [k1, ← k2]; rfl
  have b2 : plain = none → makeAgents (fun g => IndepAgent.newUniform sys target inner loops g mtype) N g ≠ none →
      ∃ g', next = some (.ok 0, g') := by
    intro hp hm
    obtain ⟨st, k1, -⟩ := a2 hm hp
    refine ⟨st.2.2, ?_⟩
    show Option.map _ _ = _
    rw [k1]; rfl
  refine ⟨b3, b4, b2, ?_, ?_⟩
  · intro hn
    by_contra hm
    rcases hp : plain with _ | ⟨r, g'⟩
    · obtain ⟨g', k⟩ := b2 hp hm
      rw [hn] at k; simp at k
    · match r with
      | .ok t => rw [b3 t g' hp] at hn; simp at hn
      | .err e => rw [b4 (.err e) g' (by simp) hp] at hn; simp at hn
      | .panic => rw [b4 .panic g' (by simp) hp] at hn; simp at hn
  · intro hm
    show Option.map _ _ = _
    rw [a1 hm]; rfl

/-- If `k` runs of the list search of tests/n_ptl_rts_iterator.rs one after the other report `ts`, each within
`⌊tmax/dt⌋ + 1` steps, then tests/arguments.rs, started with the same generator, ends normally, writes the `k` numbers of
`ts` each reduced by `dt`, and leaves the generator in the same state.  So the mean of what it writes is the mean of `ts` less `dt`. -/
theorem C101_lines (rng : RngOps G ℝ) (sys : SysOps G ℝ) (n : Nat) (hd : sys.DrawsInside n)
    (ho : sys.OutsideDim n) (target : TargetOps ℝ) (inner loops fuel steps : Nat) (agentType : AgentType)
    (mtype : MoveType ℝ) (itype : InitType ℝ) (N : Nat) (hf : N < fuel) (dt tmax : ℝ) (hdt : 0 < dt)
    (clock : ConstStep ℝ) (hc : ConstStep.convertFrom dt tmax = .ok clock) (hs : ⌊clock.tmax / dt⌋₊ + 1 < steps)
    (g0 g : G) (ts : List ℝ)
    (h : OneByOne (indepRun rng sys target inner loops fuel (⌊clock.tmax / dt⌋₊ + 1) mtype dt N) g0 ts g) :
    (∃ l buf, expLoop (listRun rng sys target inner loops fuel steps clock) ts.length
        (listStart (IndepAgent.convertFrom agentType mtype itype N) n g0) =
      some ((ts.map (· - dt), .ok ()), (l, (buf, g)))) ∧
    (ts ≠ [] → (ts.map (· - dt)).sum / ts.length = ts.sum / ts.length - dt) := by
  refine ⟨?_, fun hne => ?_⟩
  swap
  · have hsum : ∀ l : List ℝ, (l.map (· - dt)).sum = l.sum - l.length * dt := by
      intro l
      induction l with
      | nil => simp
      | cons a l ih => simp only [List.map_cons, List.sum_cons, List.length_cons, ih]; push_cast; ring
    have : (0 : ℝ) < ts.length := by exact_mod_cast List.length_pos_iff.2 hne
    rw [hsum]; field_simp
  obtain ⟨e1, e2, e3, e4⟩ := clock_says hc hdt
  have key : ∀ st : ListSim G ℝ, st.2.2 = g0 → LeftList N n mtype st → ∃ l buf,
      OneByOne (listRun rng sys target inner loops fuel steps clock) st (ts.map (· - dt)) (l, (buf, g)) := by
    induction h with
    | nil g0 => intro st hst _; exact ⟨st.1, st.2.1, by subst hst; exact .nil _⟩
    | @cons g0 t g1 ts g2 h1 _ ih =>
      intro st hst hl
      subst hst
      have hsay := (listRun_says rng hd ho target inner loops hf mtype clock _ steps e2 e3 e4 hs hl).2.2.1 t g1
      rw [e1] at hsay
      obtain ⟨st1, k1, k2, k3⟩ := hsay h1
      obtain ⟨l, buf, k4⟩ := ih st1 k3 k2
      exact ⟨l, buf, .cons k1 k4⟩
  obtain ⟨l, buf, k⟩ := key _ rfl (leftList_start agentType mtype itype N n g0)
  refine ⟨l, buf, (C70_lines _ _ _ _ _ _).2 (.inl ⟨rfl, by simp, k⟩)⟩

/-- Finding: a line `0` says either that a searcher found the target in the first step or that none found it before the
clock ran out: nothing in the file tells the two apart. -/
theorem C101_zero (rng : RngOps G ℝ) (sys : SysOps G ℝ) (n : Nat) (hd : sys.DrawsInside n)
    (ho : sys.OutsideDim n) (target : TargetOps ℝ) (inner loops fuel steps : Nat) (agentType : AgentType)
    (mtype : MoveType ℝ) (itype : InitType ℝ) (N : Nat) (hf : N < fuel) (dt tmax : ℝ) (hdt : 0 < dt)
    (clock : ConstStep ℝ) (hc : ConstStep.convertFrom dt tmax = .ok clock) (hs : ⌊clock.tmax / dt⌋₊ + 1 < steps)
    (g0 : G) (ts : List ℝ) (buf : Pos ℝ) (l : LList (IndepAgent ℝ)) (g : G)
    (h : OneByOne (listRun rng sys target inner loops fuel steps clock)
      (listStart (IndepAgent.convertFrom agentType mtype itype N) n g0) ts (l, (buf, g))) :
    let plain := indepRun rng sys target inner loops fuel (⌊clock.tmax / dt⌋₊ + 1) mtype dt N g
    (∃ s, listRun rng sys target inner loops fuel steps clock (l, (buf, g)) = some (.ok 0, s)) ↔
      (∃ g', plain = some (.ok dt, g')) ∨
      (plain = none ∧ makeAgents (fun g => IndepAgent.newUniform sys target inner loops g mtype) N g ≠ none) := by
  obtain ⟨a1, a2, a3, a4⟩ := C101_one_step_less rng sys n hd ho target inner loops fuel steps agentType mtype itype N hf
    dt tmax hdt clock hc hs g0 ts buf l g h
  intro plain
  have hz : (∃ s, listRun rng sys target inner loops fuel steps clock (l, (buf, g)) = some (.ok 0, s)) ↔
      ∃ g', (listRun rng sys target inner loops fuel steps clock (l, (buf, g))).map (fun r => (r.1, r.2.2.2)) =
        some (.ok 0, g') := by
    rcases listRun rng sys target inner loops fuel steps clock (l, (buf, g)) with _ | ⟨r, s⟩
    · simp
    · constructor
      · rintro ⟨s', h⟩
        simp only [Option.some.injEq, Prod.mk.injEq] at h
        exact ⟨s.2.2, by rw [Option.map_some, h.1]⟩
      · rintro ⟨g', h⟩
        simp only [Option.map_some, Option.some.injEq, Prod.mk.injEq] at h
        exact ⟨s, by rw [h.1]⟩
  rw [hz]
  constructor
  · rintro ⟨g', hn⟩
    by_cases hm : makeAgents (fun g => IndepAgent.newUniform sys target inner loops g mtype) N g = none
    · rw [a4.2 hm] at hn; simp at hn
    rcases hp : plain with _ | ⟨r, g1⟩
    · exact .inr ⟨rfl, hm⟩
    · match r with
      | .ok t =>
        rw [a1 t g1 hp] at hn
        simp only [Option.some.injEq, Prod.mk.injEq, Res.ok.injEq] at hn
        exact .inl ⟨g1, by rw [show t = dt by linarith [hn.1]]⟩
      | .err e => rw [a2 (.err e) g1 (by simp) hp] at hn; simp at hn
      | .panic => rw [a2 .panic g1 (by simp) hp] at hn; simp at hn
  · rintro (⟨g', hp⟩ | ⟨hp, hm⟩)
    · exact ⟨g', by simpa using a1 dt g' hp⟩
    · exact a3 hp hm

/-- two lists left by ensembles, and the same generator: the same line, or the same failure, and the same generator. -/
private theorem listRun_same (rng : RngOps G ℝ) {sys : SysOps G ℝ} {n : Nat} (hd : sys.DrawsInside n)
    (ho : sys.OutsideDim n) (target : TargetOps ℝ) (inner loops : Nat) {fuel N : Nat} (hf : N < fuel) (mtype : MoveType ℝ)
    (c : ConstStep ℝ) (M steps : Nat) (hcur : c.current = 0) (hM : ∀ j : Nat, j < M → j * c.dt ≤ c.tmax)
    (hend : ¬ M * c.dt ≤ c.tmax) (hs : M < steps) {s s' : ListSim G ℝ} (h : LeftList N n mtype s)
    (h' : LeftList N n mtype s') (hg : s.2.2 = s'.2.2) :
    (listRun rng sys target inner loops fuel steps c s).map (fun r => (r.1, r.2.2.2)) =
      (listRun rng sys target inner loops fuel steps c s').map (fun r => (r.1, r.2.2.2)) := by
  obtain ⟨a1, a2, a3, a4⟩ := listRun_says rng hd ho target inner loops hf mtype c M steps hcur hM hend hs h
  obtain ⟨b1, b2, b3, b4⟩ := listRun_says rng hd ho target inner loops hf mtype c M steps hcur hM hend hs h'
  rw [← hg] at b1 b2 b3 b4
  by_cases hm : makeAgents (fun g => IndepAgent.newUniform sys target inner loops g mtype) N s.2.2 = none
  · rw [a1 hm, b1 hm]
  · rcases hp : indepRun rng sys target inner loops fuel M mtype c.dt N s.2.2 with _ | ⟨r, g'⟩
    · obtain ⟨x, x1, -, x2⟩ := a2 hm hp
      obtain ⟨y, y1, -, y2⟩ := b2 hm hp
      rw [x1, y1]
      obtain ⟨⟨r, g1⟩, hmk⟩ := Option.ne_none_iff_exists'.1 hm
      match r with
      | .ok v => simp only [Option.map_some, x2 v g1 hmk, y2 v g1 hmk]
      | .err e => unfold indepRun at hp; rw [hmk] at hp; simp at hp
      | .panic => unfold indepRun at hp; rw [hmk] at hp; simp at hp
    · by_cases hr : ∃ t, r = .ok t
      · obtain ⟨t, rfl⟩ := hr
        obtain ⟨x, x1, -, x2⟩ := a3 t g' hp
        obtain ⟨y, y1, -, y2⟩ := b3 t g' hp
        simp only [x1, y1, Option.map_some, x2, y2]
      · obtain ⟨x, x1, x2⟩ := a4 r g' (fun t ht => hr ⟨t, ht⟩) hp
        obtain ⟨y, y1, y2⟩ := b4 r g' (fun t ht => hr ⟨t, ht⟩) hp
        simp only [x1, y1, Option.map_some, x2, y2]

/-- Finding: the program pays no attention to the kind of start in the arguments.  Whatever it is, the lines, the result
and the random numbers used are those of a run with uniform starts. -/
theorem C101_start_ignored (rng : RngOps G ℝ) (sys : SysOps G ℝ) (n : Nat) (hd : sys.DrawsInside n)
    (ho : sys.OutsideDim n) (target : TargetOps ℝ) (inner loops fuel steps : Nat) (agentType : AgentType)
    (mtype : MoveType ℝ) (itype : InitType ℝ) (N : Nat) (hf : N < fuel) (dt tmax : ℝ) (hdt : 0 < dt)
    (clock : ConstStep ℝ) (hc : ConstStep.convertFrom dt tmax = .ok clock) (hs : ⌊clock.tmax / dt⌋₊ + 1 < steps)
    (g : G) (k : Nat) :
    (expLoop (listRun rng sys target inner loops fuel steps clock) k
      (listStart (IndepAgent.convertFrom agentType mtype itype N) n g)).map (fun r => (r.1, r.2.2.2)) =
    (expLoop (listRun rng sys target inner loops fuel steps clock) k
      (listStart (IndepAgent.convertFrom agentType mtype .uniform N) n g)).map (fun r => (r.1, r.2.2.2)) := by
  obtain ⟨e1, e2, e3, e4⟩ := clock_says hc hdt
  have key : ∀ s s' : ListSim G ℝ, LeftList N n mtype s → LeftList N n mtype s' → s.2.2 = s'.2.2 →
      (expLoop (listRun rng sys target inner loops fuel steps clock) k s).map (fun r => (r.1, r.2.2.2)) =
      (expLoop (listRun rng sys target inner loops fuel steps clock) k s').map (fun r => (r.1, r.2.2.2)) := by
    induction k with
    | zero => intro s s' _ _ hg; simp only [expLoop, Option.map_some, hg]
    | succ k ih =>
      intro s s' h h' hg
      have hsame := listRun_same rng hd ho target inner loops hf mtype clock _ steps e2 e3 e4 hs h h' hg
      unfold expLoop
      rcases hx : listRun rng sys target inner loops fuel steps clock s with _ | ⟨r, x⟩ <;>
        rcases hy : listRun rng sys target inner loops fuel steps clock s' with _ | ⟨r', y⟩ <;>
        rw [hx, hy] at hsame
      · simp at hsame
      · simp at hsame
      · simp only [Option.map_some, Option.some.injEq, Prod.mk.injEq] at hsame
        obtain ⟨rfl, hxy⟩ := hsame
        match r with
        | .err e => simp only [Option.map_some, hxy]
        | .panic => simp only [Option.map_some, hxy]
        | .ok t =>
          have := ih x y (leftList_next rng hd ho target inner loops hf mtype clock _ steps e2 e3 e4 hs h hx)
            (leftList_next rng hd ho target inner loops hf mtype clock _ steps e2 e3 e4 hs h' hy) hxy
          have := congrArg (Option.map fun r : (List ℝ × Res Unit) × G => ((t :: r.1.1, r.1.2), r.2)) this
          simpa only [Option.map_map, Function.comp_def] using this
  exact key _ _ (leftList_start ..) (leftList_start ..) rfl

/-- Exact arithmetic: the seed is that of examples/mfpt_exp.rs for strength and range 0; so different sets of the same
parameters get seeds 570914867 apart per set (`C71_sets_apart`). -/
theorem C101_seed (seed : Nat) (sysSize : ℝ) (dim : Nat) (targetSize : ℝ) (numAgent i j si sj : Nat) (hij : i ≤ j)
    (h0 : 0 ≤ sysSize) (h1 : 0 ≤ targetSize)
    (hcap : 628398227 * sysSize + 431710567 * dim + 277627711 * targetSize + 719236607 * numAgent + 570914867 * j <
      (2 : ℝ) ^ 128)
    (hi : bundledSeed seed sysSize dim targetSize numAgent i = .ok si)
    (hj : bundledSeed seed sysSize dim targetSize numAgent j = .ok sj) :
    si = seed + ⌊628398227 * sysSize + 431710567 * dim + 277627711 * targetSize + 719236607 * numAgent + 570914867 * i⌋₊ ∧
      sj = si + 570914867 * (j - i) := by
  have same : ∀ i, bundledSeed seed sysSize dim targetSize numAgent i =
      expSeed seed sysSize dim targetSize numAgent 0 0 i := by
    intro i
    unfold bundledSeed expSeed bundledShift seedShift
    simp
  have sum : ∀ i, seedSum sysSize dim targetSize numAgent 0 0 i =
      628398227 * sysSize + 431710567 * dim + 277627711 * targetSize + 719236607 * numAgent + 570914867 * i := by
    intro i; unfold seedSum; ring
  rw [same] at hi hj
  have hmono : seedSum sysSize dim targetSize numAgent 0 0 i ≤ seedSum sysSize dim targetSize numAgent 0 0 j := by
    rw [sum, sum]
    have : (i : ℝ) ≤ j := by exact_mod_cast hij
    linarith
  have hpos : 0 ≤ seedSum sysSize dim targetSize numAgent 0 0 i := by rw [sum]; positivity
  have hlt : seedSum sysSize dim targetSize numAgent 0 0 j < 2 ^ 128 := by rw [sum]; exact hcap
  refine ⟨?_, C71_sets_apart seed sysSize dim targetSize numAgent 0 0 i j si sj hij hpos hlt hi hj⟩
  have := ((C71_seed_value ..).1 hi).2
  rw [this, ← sum]
  congr 1
  refine min_eq_left ?_
  have : ⌊seedSum sysSize dim targetSize numAgent 0 0 i⌋₊ < 2 ^ 128 := by
    rw [Nat.floor_lt hpos]; exact_mod_cast hmono.trans_lt hlt
  omega

/-! ### examples -/

private def demoSys : SysOps (List Int) Z :=
  (⟨.continuousCircular, .reflection, ⟨10⟩, 1⟩ : Circ Z).ops Z.draws
private def demoTarget : TargetOps Z := (BulkTarget.new [⟨8⟩] (⟨2⟩ : Z)).ops
private def demoAgents : List (IndepAgent Z) :=
  IndepAgent.convertFrom .continuousPassiveIndependent (.brownian ⟨1⟩) (.specificPosition [⟨3⟩]) 2
private def demoClock : ConstStep Z := ⟨.constant ⟨2⟩, ⟨0⟩, ⟨2⟩, ⟨5⟩⟩

private def demoLines (g : List Int) : Option (List Z × Res Unit) :=
  (expLoop (listRun Z.draws demoSys demoTarget 5 5 20 20 demoClock) 2 (listStart demoAgents 1 g)).map (·.1)

-- the system, target and clock of the examples are as the theorems ask, the clock is the one the arguments give; two
-- searchers are told to start at 3
example : demoSys.DrawsInside 1 ∧ demoSys.OutsideDim 1 ∧ ConstStep.convertFrom (⟨2⟩ : Z) ⟨5⟩ = .ok demoClock :=
  ⟨C37_systems_draw_inside.1 Z.draws _, (C37_systems_outside_dim Z.draws).2.1 _, by decide +kernel⟩
-- they start at -10 and 10; the second finds the target in the second step (time 4 in tests/n_ptl_rts_iterator.rs):
-- line 2; in the next ensemble both start at -10, and nobody finds it: line 0
example : demoLines [0, 1, 0, 0, 0, -1] = some ([⟨2⟩, ⟨0⟩], .ok ()) ∧
    (indepRun Z.draws demoSys demoTarget 5 5 20 3 (.brownian ⟨1⟩) ⟨2⟩ 2 [0, 1, 0, 0, 0, -1]).map (·.1) = some (.ok ⟨4⟩) ∧
    indepRun Z.draws demoSys demoTarget 5 5 20 3 (.brownian ⟨1⟩) ⟨2⟩ 2 [] = none := by
  decide +kernel
-- if the second searcher finds the target in the first step the first line is 0 as well
example : demoLines [0, 1, 0, -1] = some ([⟨0⟩, ⟨0⟩], .ok ()) ∧
    (indepRun Z.draws demoSys demoTarget 5 5 20 3 (.brownian ⟨1⟩) ⟨2⟩ 2 [0, 1, 0, -1]).map (·.1) = some (.ok ⟨2⟩) := by
  decide +kernel

end Moledyn.Props
