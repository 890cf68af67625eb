import Verif.Lemmas.FreshExp
import Verif.Props.InteractingRun
import Verif.Props.FreshEnsembles
/-
Property theorems C70: the ensembles of examples/mfpt_exp.rs.
-/
namespace Moledyn.Props
open Moledyn LList
set_option linter.unusedSimpArgs false
variable {G F S : Type} [Fl F]

/-- what every ensemble leaves for the next: agents that differ from `a0` only in their position, and buffers of the
right dimension. -/
private structure LeftBy (a0 : ExpAgent F) (N n : Nat) (st : ExpSim G F) : Prop where
  links : st.list.links.length = N
  contents : st.list.contents.length = N
  c2 : st.list.c2 = none
  kind : ∀ a ∈ st.list.contents, ∃ p, a = { a0 with pos := p }
  disp : st.displacement.length = n
  moves : Shape (List.replicate N n) st.moves

private theorem renew_kind {sys : SysOps G F} {n : Nat} (ho : sys.OutsideDim n) (target : TargetOps F) (inner loops : Nat)
    (g : G) (a0 : ExpAgent F) (h1 : a0.expDim = n) (h2 : a0.coeffPot = (ExpAgent.coeff a0.gamma a0.strength).1)
    (h3 : a0.coeffForce = (ExpAgent.coeff a0.gamma a0.strength).2) (p : Pos F) :
    ExpAgent.renewUniform sys target inner loops g { a0 with pos := p } =
      (AgentCore.drawOffTarget sys target inner loops g sys.positionOut).map fun r =>
        (({ a0 with pos := r.1.1 }, r.1.2), r.2) := by
  obtain ⟨t, i, m, it, d, p0, ga, str, cp, cf⟩ := a0
  simp only at h1 h2 h3
  subst h1 h2 h3
  unfold ExpAgent.renewUniform
  simp only [startPos_says ho]
  by_cases hp : p.length = d
  · simp [hp]
  · have hb : decide (p.length ≠ d) = true := by simp [hp]
    simp only [hb, if_true, Pos.dim, ho.1]
    rfl

private theorem renewContents_same {sys : SysOps G F} {n : Nat} (ho : sys.OutsideDim n) (target : TargetOps F)
    (inner loops : Nat) (a0 : ExpAgent F) (h1 : a0.expDim = n)
    (h2 : a0.coeffPot = (ExpAgent.coeff a0.gamma a0.strength).1)
    (h3 : a0.coeffForce = (ExpAgent.coeff a0.gamma a0.strength).2) (w w' : List (ExpAgent F))
    (hl : w.length = w'.length) (hw : ∀ a ∈ w, ∃ p, a = { a0 with pos := p })
    (hw' : ∀ a ∈ w', ∃ p, a = { a0 with pos := p }) (g : G) :
    SameOutcome (renewContents sys target inner loops w g) (renewContents sys target inner loops w' g) := by
  induction w generalizing w' g with
  | nil =>
    cases w' with
    | nil => exact .inl rfl
    | cons b w' => simp at hl
  | cons a w ih =>
    cases w' with
    | nil => simp at hl
    | cons b w' =>
      obtain ⟨p, rfl⟩ := hw a (by simp)
      obtain ⟨q, rfl⟩ := hw' b (by simp)
      unfold renewContents
      rw [renew_kind ho target inner loops g a0 h1 h2 h3 p, renew_kind ho target inner loops g a0 h1 h2 h3 q]
      rcases AgentCore.drawOffTarget sys target inner loops g sys.positionOut with _ | ⟨⟨x, r⟩, g1⟩
      · exact .inl rfl
      · simp only [Option.map_some]
        cases r with
        | ok u =>
          simp only
          rcases ih w' (by simpa using hl) (fun a ha => hw a (by simp [ha])) (fun a ha => hw' a (by simp [ha])) g1
            with h | ⟨y, z, e, g2, he, e1, e2⟩
          · rw [h]; exact .inl rfl
          · rw [e1, e2]
            exact .inr ⟨_, _, _, _, he, rfl, rfl⟩
        | err e => exact .inr ⟨_, _, _, _, by simp, rfl, rfl⟩
        | panic => exact .inr ⟨_, _, _, _, by simp, rfl, rfl⟩

private theorem renewContents_kind {sys : SysOps G F} {n : Nat} (ho : sys.OutsideDim n) (target : TargetOps F)
    (inner loops : Nat) (a0 : ExpAgent F) (h1 : a0.expDim = n)
    (h2 : a0.coeffPot = (ExpAgent.coeff a0.gamma a0.strength).1)
    (h3 : a0.coeffForce = (ExpAgent.coeff a0.gamma a0.strength).2) (w : List (ExpAgent F))
    (hw : ∀ a ∈ w, ∃ p, a = { a0 with pos := p }) (g g1 : G) (cs : List (ExpAgent F)) (r : Res Unit)
    (h : renewContents sys target inner loops w g = some ((cs, r), g1)) :
    cs.length = w.length ∧ ∀ a ∈ cs, ∃ p, a = { a0 with pos := p } := by
  induction w generalizing g cs with
  | nil =>
    simp only [renewContents, Option.some.injEq, Prod.mk.injEq] at h
    obtain ⟨⟨rfl, -⟩, -⟩ := h
    simp
  | cons a w ih =>
    obtain ⟨p, rfl⟩ := hw a (by simp)
    unfold renewContents at h
    rw [renew_kind ho target inner loops g a0 h1 h2 h3 p] at h
    rcases hd : AgentCore.drawOffTarget sys target inner loops g sys.positionOut with _ | ⟨⟨x, r'⟩, g2⟩
    · rw [hd] at h; simp at h
    · rw [hd] at h
      simp only [Option.map_some] at h
      have hrest : ∀ b ∈ w, ∃ p, b = { a0 with pos := p } := fun b hb => hw b (by simp [hb])
      cases r' with
      | ok u =>
        simp only [Option.map_eq_some_iff] at h
        obtain ⟨⟨⟨cs', r''⟩, g3⟩, e1, e2⟩ := h
        simp only [Prod.mk.injEq] at e2
        obtain ⟨⟨rfl, rfl⟩, rfl⟩ := e2
        obtain ⟨i1, i2⟩ := ih hrest _ _ e1
        refine ⟨by simp [i1], fun b hb => ?_⟩
        rcases List.mem_cons.1 hb with rfl | hb
        · exact ⟨_, rfl⟩
        · exact i2 b hb
      | err e =>
        simp only [Option.some.injEq, Prod.mk.injEq] at h
        obtain ⟨⟨rfl, rfl⟩, rfl⟩ := h
        refine ⟨by simp, fun b hb => ?_⟩
        rcases List.mem_cons.1 hb with rfl | hb
        · exact ⟨_, rfl⟩
        · exact hrest b hb
      | panic =>
        simp only [Option.some.injEq, Prod.mk.injEq] at h
        obtain ⟨⟨rfl, rfl⟩, rfl⟩ := h
        refine ⟨by simp, fun b hb => ?_⟩
        rcases List.mem_cons.1 hb with rfl | hb
        · exact ⟨_, rfl⟩
        · exact hrest b hb

/-- what happens in an ensemble, on any state the program can be in. -/
private theorem expRun_open {sys : SysOps G F} (rng : RngOps G F) (target : TargetOps F) (limit : F)
    (inner loops fuel steps : Nat) (clock : ExpStep F) {a0 : ExpAgent F} {N n : Nat} {st : ExpSim G F}
    (h : LeftBy a0 N n st) (hlen : ∀ cs r g1, renewContents sys target inner loops st.list.contents st.rng = some ((cs, r), g1) →
      cs.length = N) :
    expRun rng sys target limit inner loops fuel steps clock st =
      match renewContents sys target inner loops st.list.contents st.rng with
      | none => none
      | some ((cs, .err e), g1) => some (.err e, { st with list := { st.list with contents := cs }, rng := g1 })
      | some ((cs, .panic), g1) => some (.panic, { st with list := { st.list with contents := cs }, rng := g1 })
      | some ((cs, .ok ()), g1) =>
        match expFpt rng sys target limit fuel steps clock
            { st with list := (from' cs).withCursors st.list.c0 st.list.c1, rng := g1 } with
        | (_, none) => none
        | (r, some o) => some (o, r.2) := by
  unfold expRun expPrepare
  rcases hr : renewContents sys target inner loops st.list.contents st.rng with _ | ⟨⟨cs, r⟩, g1⟩
  · rfl
  · have hl := hlen cs r g1 hr
    simp only [Option.map_some]
    cases r with
    | err e => rfl
    | panic => rfl
    | ok u =>
      simp only
      rw [connectAll_from (l := { st.list with contents := cs }) (by simp only; rw [h.links, hl]) h.c2]
      rfl

private def shownExp (r : Option (Res F × ExpSim G F)) : Option (Res F × G) := r.map fun r => (r.1, r.2.rng)

private theorem expRun_same {rng : RngOps G F} {sys : SysOps G F} {n : Nat} (ho : sys.OutsideDim n)
    (target : TargetOps F) (limit : F) (inner loops fuel steps : Nat) (clock : ExpStep F) {a0 : ExpAgent F}
    (h1 : a0.expDim = n) (h2 : a0.coeffPot = (ExpAgent.coeff a0.gamma a0.strength).1)
    (h3 : a0.coeffForce = (ExpAgent.coeff a0.gamma a0.strength).2) {N : Nat} (hf : N < fuel) {st st' : ExpSim G F}
    (h : LeftBy a0 N n st) (h' : LeftBy a0 N n st') (hg : st'.rng = st.rng) :
    shownExp (expRun rng sys target limit inner loops fuel steps clock st') =
      shownExp (expRun rng sys target limit inner loops fuel steps clock st) := by
  rw [expRun_open rng target limit inner loops fuel steps clock h (fun cs r g1 hr => by
      rw [(renewContents_kind ho target inner loops a0 h1 h2 h3 _ h.kind _ _ _ _ hr).1, h.contents]),
    expRun_open rng target limit inner loops fuel steps clock h' (fun cs r g1 hr => by
      rw [(renewContents_kind ho target inner loops a0 h1 h2 h3 _ h'.kind _ _ _ _ hr).1, h'.contents]), hg]
  rcases renewContents_same ho target inner loops a0 h1 h2 h3 st.list.contents st'.list.contents
    (by rw [h.contents, h'.contents]) h.kind h'.kind st.rng with hs | ⟨b, b', e, g1, he, e1, e2⟩
  · rw [hs]
    rcases renewContents sys target inner loops st'.list.contents st.rng with _ | ⟨⟨cs, r⟩, g1⟩
    · rfl
    · cases r with
      | err e => rfl
      | panic => rfl
      | ok u =>
        simp only
        have hal : Alike (List.replicate N n) n
            { st with list := (from' cs).withCursors st.list.c0 st.list.c1, rng := g1 }
            { st' with list := (from' cs).withCursors st'.list.c0 st'.list.c1, rng := g1 } :=
          ⟨⟨st'.list.c0, st'.list.c1, rfl⟩, rfl, h.disp, h'.disp, h.moves, h'.moves⟩
        obtain ⟨k1, k2⟩ := searchLoop_alike rng sys target limit (by simpa using hf)
          (skipOne (TimeDiff.next ExpStep.next (fun c => c.dt))) steps (false, intoDiff clock) hal
        have k3 := k2.rng
        unfold expFpt
        simp only [k1]
        generalize hx : (searchLoop (skipOne (TimeDiff.next ExpStep.next (fun c => c.dt)))
          (expStep rng sys target limit fuel) steps (false, intoDiff clock)
          { st with list := (from' cs).withCursors st.list.c0 st.list.c1, rng := g1 }) = x at k3 ⊢
        obtain ⟨x1, o⟩ := x
        cases o with
        | none => rfl
        | some o =>
          show some (_, _) = some (_, _)
          simp only [Option.some.injEq, Prod.mk.injEq, true_and]
          exact k3
  · rw [e1, e2]
    cases e with
    | ok u => exact absurd rfl he
    | err e => rfl
    | panic => rfl

private theorem leftBy_next {rng : RngOps G F} {sys : SysOps G F} {n : Nat} (ho : sys.OutsideDim n)
    (target : TargetOps F) (limit : F) (inner loops fuel steps : Nat) (clock : ExpStep F) {a0 : ExpAgent F}
    (h1 : a0.expDim = n) (h2 : a0.coeffPot = (ExpAgent.coeff a0.gamma a0.strength).1)
    (h3 : a0.coeffForce = (ExpAgent.coeff a0.gamma a0.strength).2) {N : Nat} (hf : N < fuel) {st st' : ExpSim G F}
    (h : LeftBy a0 N n st) {t : F}
    (hr : expRun rng sys target limit inner loops fuel steps clock st = some (.ok t, st')) : LeftBy a0 N n st' := by
  rw [expRun_open rng target limit inner loops fuel steps clock h (fun cs r g1 hr => by
      rw [(renewContents_kind ho target inner loops a0 h1 h2 h3 _ h.kind _ _ _ _ hr).1, h.contents])] at hr
  rcases hc : renewContents sys target inner loops st.list.contents st.rng with _ | ⟨⟨cs, r⟩, g1⟩
  · rw [hc] at hr; simp at hr
  · rw [hc] at hr
    obtain ⟨l1, l2⟩ := renewContents_kind ho target inner loops a0 h1 h2 h3 _ h.kind _ _ _ _ hc
    rw [h.contents] at l1
    cases r with
    | err e => simp at hr
    | panic => simp at hr
    | ok u =>
      simp only at hr
      have hal : Alike (List.replicate N n) n
          { st with list := (from' cs).withCursors st.list.c0 st.list.c1, rng := g1 }
          { st with list := (from' cs).withCursors st.list.c0 st.list.c1, rng := g1 } :=
        ⟨⟨st.list.c0, st.list.c1, rfl⟩, rfl, h.disp, h.disp, h.moves, h.moves⟩
      obtain ⟨-, k2⟩ := searchLoop_alike rng sys target limit (by simpa using hf)
        (skipOne (TimeDiff.next ExpStep.next (fun c => c.dt))) steps (false, intoDiff clock) hal
      have k3 := searchLoop_Keeps rng sys target limit fuel
        (skipOne (TimeDiff.next ExpStep.next (fun c => c.dt))) a0 steps (false, intoDiff clock)
        { st with list := (from' cs).withCursors st.list.c0 st.list.c1, rng := g1 }
      have hst : st' = (expFpt rng sys target limit fuel steps clock
            { st with list := (from' cs).withCursors st.list.c0 st.list.c1, rng := g1 }).1.2 := by
        rcases hx : expFpt rng sys target limit fuel steps clock
            { st with list := (from' cs).withCursors st.list.c0 st.list.c1, rng := g1 } with ⟨x, o⟩
        rw [hx] at hr
        cases o with
        | none => simp at hr
        | some o =>
          simp only [Option.some.injEq, Prod.mk.injEq] at hr
          exact hr.2.symm
      subst hst
      refine ⟨?_, ?_, ?_, ?_, k2.disp, k2.moves⟩
      · exact (congrArg List.length k3.links).trans ((rep_from cs).len.trans l1)
      · exact k3.len.trans l1
      · exact k3.c2.trans (rep_from cs).c2
      · exact k3.kind l2

private theorem leftBy_many {rng : RngOps G F} {sys : SysOps G F} {n : Nat} (ho : sys.OutsideDim n)
    (target : TargetOps F) (limit : F) (inner loops fuel steps : Nat) (clock : ExpStep F) {a0 : ExpAgent F}
    (h1 : a0.expDim = n) (h2 : a0.coeffPot = (ExpAgent.coeff a0.gamma a0.strength).1)
    (h3 : a0.coeffForce = (ExpAgent.coeff a0.gamma a0.strength).2) {N : Nat} (hf : N < fuel) {st st' : ExpSim G F}
    {ts : List F} (h : LeftBy a0 N n st)
    (hr : OneByOne (expRun rng sys target limit inner loops fuel steps clock) st ts st') : LeftBy a0 N n st' := by
  induction hr with
  | nil => exact h
  | cons h1' _ ih => exact ih (leftBy_next ho target limit inner loops fuel steps clock h1 h2 h3 hf h h1')

/-- the agents `convert_from` makes are all alike. -/
private theorem converted {mtype : MoveType F} {itype : InitType F} {gamma strength : F} {n N : Nat}
    {v : List (ExpAgent F)} (hv : ExpAgent.convertFrom mtype itype gamma n strength N = .ok v) :
    ∃ a0 : ExpAgent F, v = List.replicate N a0 ∧ a0.expDim = n ∧
      a0.coeffPot = (ExpAgent.coeff a0.gamma a0.strength).1 ∧
      a0.coeffForce = (ExpAgent.coeff a0.gamma a0.strength).2 ∧
      a0.mtype = mtype ∧ a0.gamma = gamma ∧ a0.strength = strength := by
  unfold ExpAgent.convertFrom at hv
  simp only at hv
  split at hv
  · simp at hv
  · simp only [Res.ok.injEq] at hv
    exact ⟨_, hv.symm, rfl, rfl, rfl, rfl, rfl, rfl⟩

private theorem leftBy_start {a0 : ExpAgent F} {N : Nat} (n : Nat) (g : G) :
    LeftBy a0 N n (expStart (List.replicate N a0) n g) := by
  refine ⟨?_, ?_, (rep_from _).c2, ?_, by simp [expStart], ?_⟩
  · show (from' (List.replicate N a0)).links.length = N
    rw [(rep_from _).len]; show (List.replicate N a0).length = N; simp
  · show (List.replicate N a0).length = N; simp
  · intro a ha
    have ha : a ∈ List.replicate N a0 := ha
    rw [List.mem_replicate] at ha
    exact ⟨a0.pos, by rw [ha.2]⟩
  · exact ⟨_, _, _, rfl, by simp⟩

/-! ## C70: every ensemble of examples/mfpt_exp.rs starts afresh -/

/-- Any arithmetic, random source, target, limit and clock, any system of the dimension of the interaction: after any
number of finished ensembles the next one gives the same number and leaves the generator in the same state as the very
first ensemble of a program just started with that generator: positions, list cursors, the displacement buffer, the
buffers of the moves and the clock leave no trace. -/
theorem C70_no_memory (rng : RngOps G F) (sys : SysOps G F) (n : Nat) (ho : sys.OutsideDim n) (target : TargetOps F)
    (limit : F) (inner loops fuel steps : Nat) (clock : ExpStep F) (mtype : MoveType F) (itype : InitType F)
    (gamma strength : F) (N : Nat) (v : List (ExpAgent F))
    (hv : ExpAgent.convertFrom mtype itype gamma n strength N = .ok v) (hf : N < fuel) (g : G) (ts : List F)
    (st : ExpSim G F)
    (h : OneByOne (expRun rng sys target limit inner loops fuel steps clock) (expStart v n g) ts st) :
    (expRun rng sys target limit inner loops fuel steps clock st).map (fun r => (r.1, r.2.rng)) =
      (expRun rng sys target limit inner loops fuel steps clock (expStart v n st.rng)).map
        (fun r => (r.1, r.2.rng)) := by
  obtain ⟨a0, rfl, h1, h2, h3, -⟩ := converted hv
  exact expRun_same ho target limit inner loops fuel steps clock h1 h2 h3 hf (leftBy_start n st.rng)
    (leftBy_many ho target limit inner loops fuel steps clock h1 h2 h3 hf (leftBy_start n g) h) rfl

omit [Fl F] in
private theorem expLoop_iff (run : S → Option (Res F × S)) (k : Nat) (s s' : S) (ts : List F) :
    expLoop run k s = some ((ts, .ok ()), s') ↔ ts.length = k ∧ OneByOne run s ts s' := by
  induction k generalizing s ts with
  | zero =>
    simp only [expLoop, Option.some.injEq, Prod.mk.injEq, and_true, List.length_eq_zero_iff]
    constructor
    · rintro ⟨rfl, rfl⟩; exact ⟨rfl, .nil _⟩
    · rintro ⟨rfl, h⟩; cases h; exact ⟨rfl, rfl⟩
  | succ k ih =>
    unfold expLoop
    constructor
    · intro h
      rcases hr : run s with _ | ⟨r, s1⟩
      · rw [hr] at h; simp at h
      · rw [hr] at h
        cases r with
        | err e => simp at h
        | panic => simp at h
        | ok t =>
          simp only [Option.map_eq_some_iff] at h
          obtain ⟨⟨⟨ts', r'⟩, s2⟩, h1, h2⟩ := h
          simp only [Prod.mk.injEq] at h2
          obtain ⟨⟨rfl, rfl⟩, rfl⟩ := h2
          obtain ⟨i1, i2⟩ := (ih _ _).1 h1
          exact ⟨by simp [i1], .cons hr i2⟩
    · rintro ⟨h1, h2⟩
      cases h2 with
      | nil => simp at h1
      | @cons _ t s1 ts _ hr h2 =>
        rw [hr]
        simp only [Option.map_eq_some_iff]
        exact ⟨_, (ih _ _).2 ⟨by simpa using h1, h2⟩, rfl⟩

omit [Fl F] in
/-- Any program of this shape: the lines in the file are the results of the runs made so far, one after the other.  All
`k` lines are there exactly if all `k` runs give a number; if the program ends with a failure, the lines before it are
there, in order, the failure is that of the next run, and no later run takes place. -/
theorem C70_lines (run : S → Option (Res F × S)) (k : Nat) (s s' : S) (ts : List F) (r : Res Unit) :
    expLoop run k s = some ((ts, r), s') ↔
      (r = .ok () ∧ ts.length = k ∧ OneByOne run s ts s') ∨
      (ts.length < k ∧ ∃ s1, OneByOne run s ts s1 ∧
        ((∃ e, r = .err e ∧ run s1 = some (.err e, s')) ∨ (r = .panic ∧ run s1 = some (.panic, s')))) := by
  constructor
  · intro h
    induction k generalizing s ts with
    | zero =>
      simp only [expLoop, Option.some.injEq, Prod.mk.injEq] at h
      obtain ⟨⟨rfl, rfl⟩, rfl⟩ := h
      exact .inl ⟨rfl, rfl, .nil _⟩
    | succ k ih =>
      unfold expLoop at h
      rcases hr : run s with _ | ⟨r0, s1⟩
      · rw [hr] at h; simp at h
      · rw [hr] at h
        cases r0 with
        | err e =>
          simp only [Option.some.injEq, Prod.mk.injEq] at h
          obtain ⟨⟨rfl, rfl⟩, rfl⟩ := h
          exact .inr ⟨by simp, s, .nil _, .inl ⟨e, rfl, hr⟩⟩
        | panic =>
          simp only [Option.some.injEq, Prod.mk.injEq] at h
          obtain ⟨⟨rfl, rfl⟩, rfl⟩ := h
          exact .inr ⟨by simp, s, .nil _, .inr ⟨rfl, hr⟩⟩
        | ok t =>
          simp only [Option.map_eq_some_iff] at h
          obtain ⟨⟨⟨ts', r'⟩, s2⟩, h1, h2⟩ := h
          simp only [Prod.mk.injEq] at h2
          obtain ⟨⟨rfl, rfl⟩, rfl⟩ := h2
          rcases ih _ _ h1 with ⟨i1, i2, i3⟩ | ⟨i1, s3, i2, i3⟩
          · exact .inl ⟨i1, by simp [i2], .cons hr i3⟩
          · exact .inr ⟨by simpa using i1, s3, .cons hr i2, i3⟩
  · rintro (⟨rfl, h1, h2⟩ | ⟨h1, s1, h2, h3⟩)
    · exact (expLoop_iff run k s s' ts).2 ⟨h1, h2⟩
    · induction h2 generalizing k with
      | nil s =>
        obtain ⟨k, rfl⟩ : ∃ j, k = j + 1 := ⟨k - 1, by simp at h1; omega⟩
        unfold expLoop
        rcases h3 with ⟨e, rfl, h3⟩ | ⟨rfl, h3⟩
        · rw [h3]
        · rw [h3]
      | cons hr _ ih =>
        obtain ⟨k, rfl⟩ : ∃ j, k = j + 1 := ⟨k - 1, by simp at h1; omega⟩
        unfold expLoop
        rw [hr]
        simp only [Option.map_eq_some_iff]
        exact ⟨_, ih k (by simpa using h1) h3, rfl⟩

/-- The whole program: the numbers it writes, how it ends and where it leaves the generator are those of independent
programs of one ensemble each, every one started from scratch with the generator of the one before. -/
theorem C70_program (rng : RngOps G F) (sys : SysOps G F) (n : Nat) (ho : sys.OutsideDim n) (target : TargetOps F)
    (limit : F) (inner loops fuel steps : Nat) (clock : ExpStep F) (mtype : MoveType F) (itype : InitType F)
    (gamma strength : F) (N : Nat) (v : List (ExpAgent F))
    (hv : ExpAgent.convertFrom mtype itype gamma n strength N = .ok v) (hf : N < fuel) (k : Nat) (g : G) :
    (expLoop (expRun rng sys target limit inner loops fuel steps clock) k (expStart v n g)).map
        (fun r => (r.1, r.2.rng)) =
      expLoop (fun g => (expRun rng sys target limit inner loops fuel steps clock (expStart v n g)).map
        (fun r => (r.1, r.2.rng))) k g := by
  obtain ⟨a0, rfl, h1, h2, h3, -⟩ := converted hv
  have key : ∀ (k : Nat) (st : ExpSim G F), LeftBy a0 N n st →
      (expLoop (expRun rng sys target limit inner loops fuel steps clock) k st).map (fun r => (r.1, r.2.rng)) =
      expLoop (fun g => (expRun rng sys target limit inner loops fuel steps clock
        (expStart (List.replicate N a0) n g)).map (fun r => (r.1, r.2.rng))) k st.rng := by
    intro k
    induction k with
    | zero => intro st _; rfl
    | succ k ih =>
      intro st hst
      have hs := expRun_same (rng := rng) ho target limit inner loops fuel steps clock h1 h2 h3 hf
        (leftBy_start (a0 := a0) (N := N) n st.rng) hst rfl
      unfold shownExp at hs
      unfold expLoop
      simp only [← hs]
      rcases hr : expRun rng sys target limit inner loops fuel steps clock st with _ | ⟨r, st1⟩
      · rfl
      · cases r with
        | err e => rfl
        | panic => rfl
        | ok t =>
          have hn := leftBy_next ho target limit inner loops fuel steps clock h1 h2 h3 hf hst hr
          simp only [Option.map_some, Option.map_map]
          rw [← ih st1 hn]
          simp only [Option.map_map]
          rfl
  exact key k (expStart _ n g) (leftBy_start n g)

/-- an ensemble of a program just started: place the agents, then search. -/
private theorem expRun_fresh {sys : SysOps G F} {n : Nat} (ho : sys.OutsideDim n) (rng : RngOps G F)
    (target : TargetOps F) (limit : F) (inner loops fuel steps : Nat) (clock : ExpStep F) {a0 : ExpAgent F} {N : Nat}
    (h1 : a0.expDim = n) (h2 : a0.coeffPot = (ExpAgent.coeff a0.gamma a0.strength).1)
    (h3 : a0.coeffForce = (ExpAgent.coeff a0.gamma a0.strength).2) (g : G) :
    expRun rng sys target limit inner loops fuel steps clock (expStart (List.replicate N a0) n g) =
      match renewContents sys target inner loops (List.replicate N a0) g with
      | none => none
      | some ((cs, .err e), g1) => some (.err e, { expStart (List.replicate N a0) n g with
          list := { from' (List.replicate N a0) with contents := cs }, rng := g1 })
      | some ((cs, .panic), g1) => some (.panic, { expStart (List.replicate N a0) n g with
          list := { from' (List.replicate N a0) with contents := cs }, rng := g1 })
      | some ((cs, .ok ()), g1) =>
        match expFpt rng sys target limit fuel steps clock (expStart cs n g1) with
        | (_, none) => none
        | (r, some o) => some (o, r.2) := by
  have hl : ∀ cs r g1, renewContents sys target inner loops (List.replicate N a0) g = some ((cs, r), g1) →
      cs.length = N := by
    intro cs r g1 hr
    have := (renewContents_kind ho target inner loops a0 h1 h2 h3 _ (fun a ha => by
      rw [List.mem_replicate] at ha; exact ⟨a0.pos, by rw [ha.2]⟩) _ _ _ _ hr).1
    simpa using this
  rw [expRun_open rng target limit inner loops fuel steps clock (leftBy_start (a0 := a0) (N := N) n g) hl]
  show (match renewContents sys target inner loops (List.replicate N a0) g with
      | none => none
      | some ((cs, .err e), g1) => _
      | some ((cs, .panic), g1) => _
      | some ((cs, .ok ()), g1) => _) = _
  rcases hr : renewContents sys target inner loops (List.replicate N a0) g with _ | ⟨⟨cs, r⟩, g1⟩
  · rfl
  · cases r with
    | err e => rfl
    | panic => rfl
    | ok u =>
      have e : ({ expStart (List.replicate N a0) n g with
          list := (from' cs).withCursors (expStart (List.replicate N a0) n g).list.c0
            (expStart (List.replicate N a0) n g).list.c1, rng := g1 } : ExpSim G F) = expStart cs n g1 := by
        unfold expStart
        rw [hl cs _ g1 hr]
        simp only [List.length_replicate]
        rfl
      simp only [e]

private theorem renewContents_good {sys : SysOps G F} {n : Nat} (hd : sys.DrawsInside n) (ho : sys.OutsideDim n)
    (target : TargetOps F) (inner loops : Nat) (a0 : ExpAgent F) (h1 : a0.expDim = n)
    (h2 : a0.coeffPot = (ExpAgent.coeff a0.gamma a0.strength).1)
    (h3 : a0.coeffForce = (ExpAgent.coeff a0.gamma a0.strength).2) (N : Nat) (g g1 : G) (cs : List (ExpAgent F))
    (h : renewContents sys target inner loops (List.replicate N a0) g = some ((cs, .ok ()), g1)) :
    cs.length = N ∧ ∀ a ∈ cs, a = { a0 with pos := a.pos } ∧ a.pos.length = n ∧
      sys.checkInclusion a.pos = .ok true ∧ target.checkFind a.pos = .ok false := by
  induction N generalizing g cs with
  | zero =>
    simp only [List.replicate, renewContents, Option.some.injEq, Prod.mk.injEq] at h
    obtain ⟨⟨rfl, -⟩, -⟩ := h
    simp
  | succ N ih =>
    rw [List.replicate_succ] at h
    unfold renewContents at h
    have hk := renew_kind ho target inner loops g a0 h1 h2 h3 a0.pos
    have ea : ({ a0 with pos := a0.pos } : ExpAgent F) = a0 := rfl
    rw [ea] at hk
    rw [hk] at h
    rcases hdr : AgentCore.drawOffTarget sys target inner loops g sys.positionOut with _ | ⟨⟨x, r'⟩, g2⟩
    · rw [hdr] at h; simp at h
    · rw [hdr] at h
      simp only [Option.map_some] at h
      cases r' with
      | err e => simp at h
      | panic => simp at h
      | ok u =>
        simp only [Option.map_eq_some_iff] at h
        obtain ⟨⟨⟨cs', r''⟩, g3⟩, e1, e2⟩ := h
        simp only [Prod.mk.injEq] at e2
        obtain ⟨⟨rfl, rfl⟩, rfl⟩ := e2
        obtain ⟨i1, i2⟩ := ih _ _ e1
        obtain ⟨k1, k2, k3⟩ := drawOffTarget_ok hd hdr
        refine ⟨by simp [i1], fun b hb => ?_⟩
        rcases List.mem_cons.1 hb with rfl | hb
        · exact ⟨rfl, k1, k2, k3⟩
        · exact i2 b hb

/-- And it is a proper run (any arithmetic, any library system whose draws are inside): if an ensemble writes `t`, all
`N` agents have been placed anew, in order and with one generator, inside the system and off the target, with the
movement and interaction they were configured with; from there the search made its steps.  Either the clock ended
first, and `t` is 0; or `t` is the clock's time of the last step, after which an agent is on the target, and at no time
before, the start included, was one there. -/
theorem C70_every_ensemble (rng : RngOps G F) (sys : SysOps G F) (hsys : LibrarySystem rng sys) (n : Nat)
    (hd : sys.DrawsInside n) (ho : sys.OutsideDim n) (target : TargetOps F)
    (limit : F) (inner loops fuel steps : Nat) (clock : ExpStep F) (mtype : MoveType F) (itype : InitType F)
    (gamma strength : F) (N : Nat) (v : List (ExpAgent F))
    (hv : ExpAgent.convertFrom mtype itype gamma n strength N = .ok v) (hf : N * N + N + N < fuel) (g : G) (t : F)
    (st : ExpSim G F)
    (h : expRun rng sys target limit inner loops fuel steps clock (expStart v n g) = some (.ok t, st)) :
    ∃ (cs : List (ExpAgent F)) (g' : G),
      renewContents sys target inner loops v g = some ((cs, .ok ()), g') ∧ cs.length = N ∧
      (∀ a ∈ cs, a.expDim = n ∧ a.pos.length = n ∧ a.mtype = mtype ∧ a.gamma = gamma ∧ a.strength = strength ∧
        sys.checkInclusion a.pos = .ok true ∧ target.checkFind a.pos = .ok false) ∧
      let run := fun m => searchLoop (skipOne (TimeDiff.next ExpStep.next (fun c => c.dt)))
        (expStep rng sys target limit fuel) m (false, intoDiff clock) (expStart cs n g')
      st = (run steps).1.2 ∧ (liveAgents st.list).length = N ∧
      (∀ a ∈ liveAgents st.list, sys.checkInclusion a.pos = .ok true) ∧
      (((run steps).2 = some (.ok none) ∧ t = Fl.zero) ∨
       ((run steps).2 = some (.ok (some t)) ∧ (∃ a ∈ liveAgents st.list, target.checkFind a.pos = .ok true) ∧
        ∃ k < steps, run (k + 1) = run steps ∧
          (∃ dt, (skipOne (TimeDiff.next ExpStep.next (fun c => c.dt)) (run k).1.1).2 = .ok (some (t, dt))) ∧
          ∀ m ≤ k, (run m).2 = none ∧ ∀ a ∈ liveAgents (run m).1.2.list, target.checkFind a.pos = .ok false)) := by
  obtain ⟨a0, rfl, h1, h2, h3, h4, h5, h6⟩ := converted hv
  rw [expRun_fresh ho rng target limit inner loops fuel steps clock h1 h2 h3 g] at h
  rcases hc : renewContents sys target inner loops (List.replicate N a0) g with _ | ⟨⟨cs, r⟩, g1⟩
  · rw [hc] at h; simp at h
  · rw [hc] at h
    cases r with
    | err e => simp at h
    | panic => simp at h
    | ok u =>
      simp only at h
      obtain ⟨l1, l2⟩ := renewContents_good hd ho target inner loops a0 h1 h2 h3 N g g1 cs hc
      refine ⟨cs, g1, rfl, l1, fun a ha => ?_, ?_⟩
      · obtain ⟨e, e1, e2, e3⟩ := l2 a ha
        refine ⟨by rw [e]; exact h1, e1, by rw [e]; exact h4, by rw [e]; exact h5, by rw [e]; exact h6, e2, e3⟩
      intro run
      have hC := C58_interacting rng sys hsys target limit cs
        (List.replicate cs.length (List.replicate n (Fl.zero : F))) (List.replicate n Fl.zero)
        (fun a ha => (l2 a ha).2.2.1) (skipOne (TimeDiff.next ExpStep.next (fun c => c.dt)))
        (false, intoDiff clock) g1 fuel (by simpa [l1] using hf) steps
      simp only at hC
      obtain ⟨c1, c2, -⟩ := hC
      have hrun : ∀ m, run m = searchLoop (skipOne (TimeDiff.next ExpStep.next (fun c => c.dt)))
        (expStep rng sys target limit fuel) m (false, intoDiff clock) ⟨from' cs, g1, List.replicate n Fl.zero,
          from' (List.replicate cs.length (List.replicate n Fl.zero))⟩ := fun m => rfl
      simp only [← hrun] at c1 c2
      have hx : expFpt rng sys target limit fuel steps clock (expStart cs n g1) =
          ((run steps).1, (run steps).2.map fun x => x.map fun o => o.getD Fl.zero) := rfl
      rw [hx] at h
      have hst : st = (run steps).1.2 ∧ ((run steps).2.map fun x => x.map fun o => o.getD Fl.zero) = some (.ok t) := by
        rcases hr : ((run steps).2.map fun x => x.map fun o => o.getD Fl.zero) with _ | o
        · rw [hr] at h; simp at h
        · rw [hr] at h
          simp only [Option.some.injEq, Prod.mk.injEq] at h
          exact ⟨h.2.symm, by rw [hr, h.1]⟩
      obtain ⟨rfl, ht⟩ := hst
      have hno : NoFailure (run steps).2 := by
        rcases hr : (run steps).2 with _ | (_ | x) | e | _
        · exact .inl rfl
        · exact .inr ⟨_, rfl⟩
        · exact .inr ⟨_, rfl⟩
        · rw [hr] at ht; simp at ht
        · rw [hr] at ht; simp at ht
      obtain ⟨d1, d2⟩ := c1 hno
      refine ⟨rfl, by rw [d1, l1], d2, ?_⟩
      rcases hr : (run steps).2 with _ | (_ | x) | e | _
      · rw [hr] at ht; simp at ht
      · rw [hr] at ht
        simp only [Option.map_some, Res.map_ok, Option.getD_none, Option.some.injEq, Res.ok.injEq] at ht
        exact .inl ⟨rfl, ht.symm⟩
      · rw [hr] at ht
        simp only [Option.map_some, Res.map_ok, Option.getD_some, Option.some.injEq, Res.ok.injEq] at ht
        subst ht
        obtain ⟨f1, k, f2, f3, f4, f5⟩ := c2 x hr
        refine .inr ⟨rfl, f1, k, f2, f3, f4, fun m hm => ?_⟩
        cases m with
        | succ m => exact f5 (m + 1) (by omega) hm
        | zero =>
          refine ⟨rfl, fun a ha => (l2 a ?_).2.2.2⟩
          have e : (run 0).1.2.list = from' cs := rfl
          rw [e, from_live] at ha
          exact ha
      · rw [hr] at ht; simp at ht
      · rw [hr] at ht; simp at ht

/-! ### exact arithmetic, in a ball -/

private theorem draw_ball {G F : Type} [Fl F] (rng : RngOps G F) (s : Circ F) (centre : Pos F) (r : F)
    (hc : centre.length = s.dim) (inner loops : Nat) (g : G) (p : Pos F) (hp : p.length = s.dim) :
    AgentCore.drawOffTarget (s.ops rng) (BulkTarget.new centre r).ops inner loops g p = none ∨
    ∃ q g', AgentCore.drawOffTarget (s.ops rng) (BulkTarget.new centre r).ops inner loops g p = some ((q, .ok ()), g') := by
  induction loops generalizing g p with
  | zero => exact .inl rfl
  | succ loops ih =>
    unfold AgentCore.drawOffTarget
    have e : (s.ops rng).randomPosToVec inner g p = wroteVec p (s.randomPosToVec rng inner g p) := rfl
    rw [e]
    rcases hr : s.randomPosToVec rng inner g p with _ | ⟨x, g1⟩
    · exact .inl rfl
    · obtain ⟨q, rfl, hq⟩ := C26_sphere_to_vec rng s inner g p hp x g1 hr
      have hql : q.length = s.dim := by
        unfold Circ.checkInclusion at hq
        by_contra hne
        rw [if_pos (Ne.symm hne)] at hq
        simp at hq
      obtain ⟨b, hb⟩ := (C33_dimension .continuousInBulk centre q r).2.1 (by rw [hc, hql])
      have hb : (BulkTarget.new centre r).ops.checkFind q = .ok b := hb
      simp only [wroteVec, hb]
      cases b with
      | false => exact .inr ⟨_, _, rfl⟩
      | true => exact ih g1 q hql

private theorem renew_ball {G F : Type} [Fl F] (rng : RngOps G F) (s : Circ F) (centre : Pos F) (r : F)
    (hc : centre.length = s.dim) (inner loops : Nat) (a0 : ExpAgent F) (h1 : a0.expDim = s.dim)
    (h2 : a0.coeffPot = (ExpAgent.coeff a0.gamma a0.strength).1)
    (h3 : a0.coeffForce = (ExpAgent.coeff a0.gamma a0.strength).2) (N : Nat) (g : G) :
    renewContents (s.ops rng) (BulkTarget.new centre r).ops inner loops (List.replicate N a0) g = none ∨
    ∃ cs g1, renewContents (s.ops rng) (BulkTarget.new centre r).ops inner loops (List.replicate N a0) g =
      some ((cs, .ok ()), g1) := by
  have ho := (C37_systems_outside_dim rng).2.1 s
  induction N generalizing g with
  | zero => exact .inr ⟨[], g, rfl⟩
  | succ N ih =>
    rw [List.replicate_succ]
    unfold renewContents
    have hk := renew_kind ho (BulkTarget.new centre r).ops inner loops g a0 h1 h2 h3 a0.pos
    have ea : ({ a0 with pos := a0.pos } : ExpAgent F) = a0 := rfl
    rw [ea] at hk
    rw [hk]
    rcases draw_ball rng s centre r hc inner loops g (s.ops rng).positionOut ho.1 with hn | ⟨q, g', hq⟩
    · rw [hn]; exact .inl rfl
    · rw [hq]
      simp only [Option.map_some]
      rcases ih g' with hn | ⟨cs, g1, hq⟩
      · rw [hn]; exact .inl rfl
      · rw [hq]; exact .inr ⟨_, _, rfl⟩

/-- The whole of examples/mfpt_exp.rs in a ball, exact arithmetic: whatever the random numbers, the strength and range
of the interaction, the target and the numbers of agents and ensembles, the program never fails.  Unless it is still
drawing positions (only possible if the draws keep falling outside or into the target), it writes exactly `k` numbers,
one per ensemble, all between 0 and the clock's limit. -/
theorem C70_ball_all_lines (rng : RngOps G ℝ) (R : ℝ) (d : Nat) (s : Circ ℝ) (hnew : Circ.new R d = .ok s)
    (centre : Pos ℝ) (hc : centre.length = d) (r limit : ℝ) (h0 : 0 < limit) (hl2 : limit ≤ 2 * R)
    (D gamma strength : ℝ) (itype : InitType ℝ) (N : Nat) (v : List (ExpAgent ℝ))
    (hv : ExpAgent.convertFrom (.brownian D) itype gamma d strength N = .ok v)
    (clock : ExpStep ℝ) (hfresh : clock.Fresh) (hinc : 1 ≤ clock.inc) (dtMin dtMax : ℝ) (len : Nat)
    (hty : clock.titype = .exponential dtMin dtMax len) (hmin : 0 < dtMin) (htm : 0 ≤ clock.tmax)
    (inner loops fuel : Nat) (hf : N * N + N + N < fuel) (steps : Nat) (hsteps : clock.tmax / dtMin < steps)
    (k : Nat) (g : G) :
    let out := expLoop (expRun rng (s.ops rng) (BulkTarget.new centre r).ops limit inner loops fuel steps clock) k
      (expStart v d g)
    out = none ∨ ∃ ts st, out = some ((ts, .ok ()), st) ∧ ts.length = k ∧ ∀ t ∈ ts, 0 ≤ t ∧ t ≤ clock.tmax := by
  intro out
  have hsd : s.sysSize = R ∧ s.dim = d := by
    unfold Circ.new at hnew
    split at hnew
    · simp at hnew
    · simp only [Res.ok.injEq] at hnew; subst hnew; exact ⟨rfl, rfl⟩
  have ho : (s.ops rng).OutsideDim d := hsd.2 ▸ (C37_systems_outside_dim rng).2.1 s
  have hdr : (s.ops rng).DrawsInside d := hsd.2 ▸ C37_systems_draw_inside.1 rng s
  have hP := C70_program rng (s.ops rng) d ho (BulkTarget.new centre r).ops limit inner loops fuel steps clock
    (.brownian D) itype gamma strength N v hv (by omega) k g
  obtain ⟨a0, rfl, h1, h2, h3, h4, h5, h6⟩ := converted hv
  -- one ensemble
  have hone : ∀ g, expRun rng (s.ops rng) (BulkTarget.new centre r).ops limit inner loops fuel steps clock
        (expStart (List.replicate N a0) d g) = none ∨
      ∃ t st, expRun rng (s.ops rng) (BulkTarget.new centre r).ops limit inner loops fuel steps clock
        (expStart (List.replicate N a0) d g) = some (.ok t, st) ∧ 0 ≤ t ∧ t ≤ clock.tmax := by
    intro g
    rw [expRun_fresh ho rng _ limit inner loops fuel steps clock h1 h2 h3 g]
    rcases renew_ball rng s centre r (by rw [hc, hsd.2]) inner loops a0 (by rw [h1, hsd.2]) h2 h3 N g with
      hn | ⟨cs, g1, hcs⟩
    · rw [hn]; exact .inl rfl
    · rw [hcs]
      simp only
      obtain ⟨l1, l2⟩ := renewContents_good hdr ho _ inner loops a0 h1 h2 h3 N g g1 cs hcs
      obtain ⟨x, x1, x2, x3, -⟩ := C58_ball_exports rng R d s hnew centre hc r limit h0 hl2 cs
        (List.replicate cs.length (List.replicate d (0 : ℝ))) (List.replicate d 0)
        (fun a ha => by
          obtain ⟨e, e1, e2, -⟩ := l2 a ha
          refine ⟨by rw [e]; exact h1, e1, ?_, ⟨D, by rw [e]; exact h4⟩⟩
          have e2 : s.checkInclusion a.pos = .ok true := e2
          unfold Circ.checkInclusion at e2
          rw [if_neg (by rw [hsd.2, e1]; simp), norm_eq_radius, hsd.1] at e2
          by_contra hgt
          push Not at hgt
          rw [if_pos (by simpa using hgt)] at e2
          simp at e2)
        (fun a ha => (l2 a ha).2.2.2)
        (fun p hp => by rw [List.mem_replicate] at hp; rw [hp.2]; simp) (by simp) (by simp) g1 clock hfresh hinc
        dtMin dtMax len hty hmin htm fuel (by rw [l1]; exact hf) steps hsteps
      have e : expStart cs d g1 = ⟨from' cs, g1, List.replicate d (0 : ℝ),
          from' (List.replicate cs.length (List.replicate d (0 : ℝ)))⟩ := by
        unfold expStart; simp only [fl_zero]
      rw [e]
      rcases hx : expFpt rng (s.ops rng) (BulkTarget.new centre r).ops limit fuel steps clock
        ⟨from' cs, g1, List.replicate d (0 : ℝ), from' (List.replicate cs.length (List.replicate d (0 : ℝ)))⟩ with ⟨q, o⟩
      rw [hx] at x1
      simp only at x1
      subst x1
      exact .inr ⟨x, _, rfl, x2, x3⟩
  -- all of them
  have hall : ∀ (k : Nat) (g : G), let o := expLoop (fun g => (expRun rng (s.ops rng) (BulkTarget.new centre r).ops limit
        inner loops fuel steps clock (expStart (List.replicate N a0) d g)).map (fun r => (r.1, r.2.rng))) k g
      o = none ∨ ∃ ts g', o = some ((ts, .ok ()), g') ∧ ts.length = k ∧ ∀ t ∈ ts, 0 ≤ t ∧ t ≤ clock.tmax := by
    intro k
    induction k with
    | zero => intro g; exact .inr ⟨[], g, rfl, rfl, by simp⟩
    | succ k ih =>
      intro g
      simp only
      unfold expLoop
      rcases hone g with hn | ⟨t, st, hst, ht⟩
      · rw [hn]; exact .inl rfl
      · rw [hst]
        simp only [Option.map_some]
        rcases ih st.rng with hn | ⟨ts, g', hts, hl, hb⟩
        · rw [hn]; exact .inl rfl
        · rw [hts]
          refine .inr ⟨t :: ts, g', rfl, by simp [hl], fun x hx => ?_⟩
          rcases List.mem_cons.1 hx with rfl | hx
          · exact ht
          · exact hb x hx
  rcases hall k g with hn | ⟨ts, g', hts, hl, hb⟩
  · rw [hn] at hP
    left
    simpa using hP
  · rw [hts] at hP
    right
    rw [Option.map_eq_some_iff] at hP
    obtain ⟨⟨a, st⟩, e1, e2⟩ := hP
    simp only [Prod.mk.injEq] at e2
    obtain ⟨rfl, -⟩ := e2
    exact ⟨ts, st, e1, hl, hb⟩

/-! ### a concrete program -/

private def demoSys : SysOps (List Int) Z :=
  (⟨.continuousCircular, .reflection, ⟨10⟩, 1⟩ : Circ Z).ops Z.draws
private def demoTarget : TargetOps Z := (BulkTarget.new [⟨8⟩] (⟨2⟩ : Z)).ops
private def demoClock : ExpStep Z := ⟨.exponential ⟨2⟩ ⟨2⟩ 10, ⟨0⟩, ⟨2⟩, ⟨1⟩, ⟨1000⟩, 0⟩
private def demoV : List (ExpAgent Z) :=
  match ExpAgent.convertFrom (.brownian ⟨1⟩) .uniform (⟨1⟩ : Z) 1 ⟨1⟩ 2 with
  | .ok v => v
  | _ => []

-- two interacting agents, two ensembles: the first of them finds the target in the first step, in the second ensemble
-- both start at -10 again and the first agent finds the target in the third step
example : LibrarySystem Z.draws demoSys ∧ demoSys.DrawsInside 1 ∧ demoSys.OutsideDim 1 ∧
    ExpAgent.convertFrom (.brownian ⟨1⟩) .uniform (⟨1⟩ : Z) 1 ⟨1⟩ 2 = .ok demoV ∧
    ((expLoop (expRun Z.draws demoSys demoTarget ⟨19⟩ 5 5 40 20 demoClock) 2
        (expStart demoV 1 [0, 0, 9, 0, 0, 0, 0, 0, 0, 9, 7])).map fun r => (r.1.1, r.2.rng)) =
      some ([⟨2⟩, ⟨6⟩], [7]) := by
  refine ⟨.inr (.inl ⟨_, rfl⟩), C37_systems_draw_inside.1 Z.draws _, (C37_systems_outside_dim Z.draws).2.1 _, rfl,
    by decide +kernel⟩

/-- The same with the limit that `main` computes (examples/mfpt_exp.rs:38): the smaller of the range of the interaction and a tenth
of the target's radius. -/
theorem C70_main_limit (r gamma : ℝ) :
    moveLimit r gamma = min (r / 10) gamma ∧
    ∀ (rng : RngOps G ℝ) (R : ℝ) (d : Nat) (s : Circ ℝ), Circ.new R d = .ok s → ∀ centre : Pos ℝ, centre.length = d →
      0 < r → r ≤ 20 * R → 0 < gamma →
      ∀ (D strength : ℝ) (itype : InitType ℝ) (N : Nat) (v : List (ExpAgent ℝ)),
        ExpAgent.convertFrom (.brownian D) itype gamma d strength N = .ok v →
      ∀ clock : ExpStep ℝ, clock.Fresh → 1 ≤ clock.inc → ∀ (dtMin dtMax : ℝ) (len : Nat),
        clock.titype = .exponential dtMin dtMax len → 0 < dtMin → 0 ≤ clock.tmax →
      ∀ inner loops fuel : Nat, N * N + N + N < fuel → ∀ steps : Nat, clock.tmax / dtMin < steps → ∀ (k : Nat) (g : G),
        let out := expLoop (expRun rng (s.ops rng) (BulkTarget.new centre r).ops (moveLimit r gamma) inner loops fuel steps clock) k
          (expStart v d g)
        out = none ∨ ∃ ts st, out = some ((ts, .ok ()), st) ∧ ts.length = k ∧ ∀ t ∈ ts, 0 ≤ t ∧ t ≤ clock.tmax := by
  have hm : moveLimit r gamma = min (r / 10) gamma := by
    unfold moveLimit
    simp only [fl_lt, fl_mul, fl_lit, decide_eq_true_eq]
    push_cast
    split
    · rename_i h; rw [min_eq_right (by linarith)]
    · rename_i h; rw [min_eq_left (by linarith)]; ring
  refine ⟨hm, fun rng R d s hs centre hc hr hrR hg D strength itype N v hv clock hf hinc dtMin dtMax len hty hmin htm inner loops fuel
    hfu steps hst k g => ?_⟩
  exact C70_ball_all_lines rng R d s hs centre hc r _ (by rw [hm]; positivity) (by rw [hm]; exact (min_le_left _ _).trans (by linarith))
    D gamma strength itype N v hv clock hf hinc dtMin dtMax len hty hmin htm inner loops fuel hfu steps hst k g

-- the hypotheses about the ball can be met: radius 2, two agents, a clock with first step 1/10 and limit 3
example : ∃ (s : Circ ℝ) (v : List (ExpAgent ℝ)) (clock : ExpStep ℝ),
    Circ.new 2 1 = .ok s ∧ ExpAgent.convertFrom (.brownian 1) .uniform (1 : ℝ) 1 (-1) 2 = .ok v ∧
    clock.Fresh ∧ 1 ≤ clock.inc ∧ clock.titype = .exponential (1 / 10) 1 10 ∧ clock.tmax = 3 := by
  obtain ⟨c, hcl⟩ : ∃ c : ExpStep ℝ, ExpStep.new (1 / 10) 1 10 = .ok c :=
    (C17_constructors (F := ℝ) 0 0 (1 / 10) 1 10).2.2.2.1.2 (by simp only [fl_lt, fl_lit]; push_cast; norm_num)
  obtain ⟨h1, h2, -⟩ := C13_new_ratio _ _ _ c hcl
  have hset : (c.setTmax 3).1 = { c with tmax := 3 } := by
    rw [(C17_set_tmax_effect (⟨.constant 0, 0, 0, 0⟩ : ConstStep ℝ) c 3 (by simp)).2, if_neg]
    simp only [fl_lt, fl_lit, decide_eq_true_eq, not_lt]; push_cast; norm_num
  exact ⟨⟨.continuousCircular, .reflection, 2, 1⟩, _, (c.setTmax 3).1, by simp [Circ.new], rfl, .setTmax 3 (.new hcl),
    by rw [hset]; exact h1, by rw [hset]; exact h2, by rw [hset]⟩

end Moledyn.Props
