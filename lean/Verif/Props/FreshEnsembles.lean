import Verif.Lemmas.FreshEnsembles
import Verif.Props.Simulation
import Verif.Spec.WholeNumbers
/-
Property theorems C68: the ensembles of tests/large_n_simulation.rs do not depend on the earlier ones.
-/
namespace Moledyn.Props
open Moledyn LList
set_option linter.unusedSimpArgs false
variable {G F : Type} [Fl F]

/-- the search of one ensemble on given agents. -/
private def search (rng : RngOps G F) (sys : SysOps G F) (target : TargetOps F) (fuel steps : Nat)
    (clock : ExpStep F) (cs : List (MergeAgent F)) (g : G) :=
  searchLoop (TimeDiff.next ExpStep.next (fun c => c.dt)) (mergeStep rng sys target (fun a => a.ptlRadius) fuel)
    steps (intoDiff clock) (⟨from' cs, g, []⟩ : MergeSim G F)

private def verdict {X : Type} (r : X × Option (Res (Option F))) : Option (Res F) :=
  r.2.map fun x => x.bind fun o => match o with
    | some t => .ok t
    | none => .err .unexpectedEnd

/-- what a run shows: its outcome and the generator. -/
private def shown (r : Option (Res F × (LList (MergeAgent F) × ExpStep F × G))) : Option (Res F × G) :=
  r.map fun r => (r.1, r.2.2.2)

private def outcome (rng : RngOps G F) (sys : SysOps G F) (target : TargetOps F) (fuel steps : Nat)
    (c1 : ExpStep F) (o : Option ((List (MergeAgent F) × Res Unit) × G)) : Option (Res F × G) :=
  match o with
  | none => none
  | some ((_, .err e), g1) => some (.err e, g1)
  | some ((_, .panic), g1) => some (.panic, g1)
  | some ((cs, .ok ()), g1) =>
    (verdict (search rng sys target fuel steps c1 cs g1)).map fun t =>
      (t, (search rng sys target fuel steps c1 cs g1).1.2.rng)

private theorem outcome_same {rng : RngOps G F} {sys : SysOps G F} {target : TargetOps F} {fuel steps : Nat}
    {c1 : ExpStep F} {x y : Option ((List (MergeAgent F) × Res Unit) × G)} (h : SameOutcome x y) :
    outcome rng sys target fuel steps c1 x = outcome rng sys target fuel steps c1 y := by
  rcases h with rfl | ⟨b, b', e, g, he, rfl, rfl⟩
  · rfl
  · cases e with
    | ok _ => exact absurd rfl he
    | err e => rfl
    | panic => rfl

private theorem run_says (rng : RngOps G F) (sys : SysOps G F) (target : TargetOps F)
    (inner loops fuel steps : Nat) {l : LList (MergeAgent F)} (hlen : l.links.length = l.contents.length)
    (hc2 : l.c2 = none) (hf : l.contents.length < fuel) (c : ExpStep F) (g : G) :
    (c.renew.2 = .ok () →
      shown (largeNRun rng sys target inner loops fuel steps (l, c, g)) =
        outcome rng sys target fuel steps c.renew.1
          (renewEach (fun a g => a.renewUniform sys target inner loops g) l.contents g) ∧
      ∀ t l2 c2 g2, largeNRun rng sys target inner loops fuel steps (l, c, g) = some (.ok t, (l2, c2, g2)) →
        c2 = c.renew.1 ∧ ∃ cs g1,
          renewEach (fun a g => a.renewUniform sys target inner loops g) l.contents g = some ((cs, .ok ()), g1) ∧
          (search rng sys target fuel steps c.renew.1 cs g1).2 = some (.ok (some t)) ∧
          g2 = (search rng sys target fuel steps c.renew.1 cs g1).1.2.rng ∧
          ∃ x y, l2 = (search rng sys target fuel steps c.renew.1 cs g1).1.2.list.withCursors x y) ∧
    (∀ r, c.renew.2 = r → r ≠ .ok () →
      ∀ t s2, largeNRun rng sys target inner loops fuel steps (l, c, g) ≠ some (.ok t, s2)) := by
  obtain ⟨p1, p2, p3⟩ := largeNPrepare_says sys target inner loops fuel hlen hc2 hf g
  unfold largeNRun
  rcases hc : c.renew with ⟨c1, r⟩
  cases r with
  | err e => simp [hc]
  | panic => simp [hc]
  | ok _ =>
    simp only [hc, true_implies]
    refine ⟨?_, fun r hr hne => absurd hr.symm hne⟩
    rcases ho : renewEach (fun a g => a.renewUniform sys target inner loops g) l.contents g with _ | ⟨⟨cs, r⟩, g1⟩
    · have h1 := p1 ho
      simp only [ho]
      rcases hp : largeNPrepare sys target inner loops fuel l g with ⟨⟨l1, g2⟩, o⟩
      rw [hp] at h1
      simp only at h1
      subst h1
      exact ⟨rfl, by simp⟩
    · cases r with
      | err e =>
        obtain ⟨h1, h2⟩ := p3 _ _ _ ho (by simp)
        simp only [ho]
        rcases hp : largeNPrepare sys target inner loops fuel l g with ⟨⟨l1, g2⟩, o⟩
        rw [hp] at h1 h2
        simp only at h1 h2
        subst h1 h2
        exact ⟨rfl, by simp⟩
      | panic =>
        obtain ⟨h1, h2⟩ := p3 _ _ _ ho (by simp)
        simp only [ho]
        rcases hp : largeNPrepare sys target inner loops fuel l g with ⟨⟨l1, g2⟩, o⟩
        rw [hp] at h1 h2
        simp only at h1 h2
        subst h1 h2
        exact ⟨rfl, by simp⟩
      | ok _ =>
        rw [p2 cs g1 ho]
        simp only
        obtain ⟨x', y', e⟩ := searchLoop_cursors rng sys target (fun a => a.ptlRadius) fuel
          (TimeDiff.next ExpStep.next (fun c => c.dt)) steps (intoDiff c1) (from' cs) none l.c1 g1 []
        have e' : largeNFpt rng sys target fuel steps c1 ((from' cs).withCursors none l.c1) g1 =
            (((search rng sys target fuel steps c1 cs g1).1.1,
              ⟨(search rng sys target fuel steps c1 cs g1).1.2.list.withCursors x' y',
                (search rng sys target fuel steps c1 cs g1).1.2.rng,
                (search rng sys target fuel steps c1 cs g1).1.2.merges⟩),
              verdict (search rng sys target fuel steps c1 cs g1)) := by
          unfold largeNFpt
          simp only [e]
          rfl
        rw [e', ho]
        unfold outcome shown verdict
        simp only
        rcases hsr : (search rng sys target fuel steps c1 cs g1).2 with _ | (_ | t) | e | _
        · exact ⟨rfl, by simp⟩
        · exact ⟨rfl, by simp⟩
        · refine ⟨rfl, fun t' l2 c2 g2 hh => ?_⟩
          simp only [Option.map_some, Res.bind_ok, Option.some.injEq, Prod.mk.injEq, Res.ok.injEq] at hh
          obtain ⟨rfl, rfl, rfl, rfl⟩ := hh
          exact ⟨rfl, cs, g1, rfl, hsr, rfl, x', y', rfl⟩
        · exact ⟨rfl, by simp⟩
        · exact ⟨rfl, by simp⟩

private theorem renew_renew {c c1 : ExpStep F} (h : c.renew = (c1, .ok ())) : c1.renew = (c1, .ok ()) := by
  unfold ExpStep.renew at h ⊢
  cases ht : c.titype with
  | constant dt => simp [ht] at h
  | exponential a b d =>
    simp only [ht, Prod.mk.injEq, and_true] at h
    subst h
    simp only [ht]

private theorem forall2_trans_kind {n : Nat} {sys : SysOps G F} {target : TargetOps F} {v w : List (MergeAgent F)}
    (h : List.Forall₂ SameKind v w) {cs : List (MergeAgent F)} (h2 : List.Forall₂ (Renewed sys target n) w cs) :
    List.Forall₂ (KindDim n) v cs := by
  induction h generalizing cs with
  | nil => cases h2; exact .nil
  | cons hab _ ih =>
    cases h2 with
    | cons hbc h2 =>
      refine .cons ⟨?_, hbc.dim⟩ (ih h2)
      obtain ⟨a1, a2, a3, a4, a5, a6⟩ := hab
      obtain ⟨b1, b2, b3, b4, b5, b6⟩ := hbc.kind
      refine ⟨b1.trans a1, b2.trans a2, b3.trans a3, b4.trans a4, ?_, b6⟩
      rcases a5 with ⟨a5, a5'⟩ | ⟨a5, a5'⟩
      · rcases b5 with ⟨-, b5⟩ | ⟨⟨D, b5⟩, -⟩
        · exact .inl ⟨a5, b5⟩
        · rw [a5'] at b5; simp at b5
      · rcases b5 with ⟨b5, -⟩ | ⟨-, b5⟩
        · obtain ⟨D, a5'⟩ := a5'; rw [b5] at a5'; simp at a5'
        · exact .inr ⟨a5, b5⟩

/-- what every finished ensemble leaves for the next. -/
private structure Left (v : List (MergeAgent F)) (clock : ExpStep F) (l : LList (MergeAgent F)) (c : ExpStep F) :
    Prop where
  len : l.links.length = l.contents.length
  c2 : l.c2 = none
  kind : List.Forall₂ SameKind v l.contents
  clock : c.renew = clock.renew

private theorem left_next {rng : RngOps G F} {sys : SysOps G F} (hsys : LibrarySystem rng sys) {n : Nat}
    (hd : sys.DrawsInside n) (ho : sys.OutsideDim n) (target : TargetOps F) (inner loops fuel steps : Nat)
    {v : List (MergeAgent F)} (hf : v.length * v.length < fuel) (hf' : v.length < fuel) {clock : ExpStep F}
    {l : LList (MergeAgent F)} {c : ExpStep F} (h : Left v clock l c) {g : G} {t : F} {l2 c2 g2}
    (hr : largeNRun rng sys target inner loops fuel steps (l, c, g) = some (.ok t, (l2, c2, g2))) :
    Left v clock l2 c2 := by
  have hlen := h.kind.length_eq
  obtain ⟨r1, r2⟩ := run_says rng sys target inner loops fuel steps h.len h.c2 (by omega) c g
  rcases hcr : c.renew with ⟨c1, r⟩
  by_cases hrok : r = .ok ()
  · subst hrok
    obtain ⟨-, r1⟩ := r1 (by rw [hcr])
    obtain ⟨rfl, cs, g1, k1, k2, k3, x, y, rfl⟩ := r1 t l2 c2 g2 hr
    have hren := renewEach_ok hd ho (fun a ha => by
      obtain ⟨i, hi, rfl⟩ := List.mem_iff_getElem.1 ha
      exact ((List.forall₂_iff_get.1 h.kind).2 i (by omega) hi).dim) k1
    have hcs : cs.length = v.length := by rw [← hren.length_eq]; omega
    have hin : ∀ a ∈ cs, sys.checkInclusion a.pos = .ok true := by
      intro a ha
      obtain ⟨i, hi, rfl⟩ := List.mem_iff_getElem.1 ha
      exact ((List.forall₂_iff_get.1 hren).2 i (by omega) hi).inside
    obtain ⟨s, hs⟩ := merging_rep hsys target (rad := fun a => a.ptlRadius) (.inr rfl) cs hin
      (TimeDiff.next ExpStep.next (fun c => c.dt)) (intoDiff c.renew.1) g1 fuel (by rw [hcs]; exact hf) steps
      (.inr ⟨_, k2⟩)
    have hk := forall2_trans_kind h.kind hren
    have hkeep := searchLoop_keeps hsys ho target (fun a => a.ptlRadius) fuel
      (TimeDiff.next ExpStep.next (fun c => c.dt)) steps (intoDiff c.renew.1) (⟨from' cs, g1, []⟩ : MergeSim G F)
      hk (some t) k2
    refine ⟨hs.len, hs.c2, hkeep.imp fun _ _ h => h.1, ?_⟩
    rw [← h.clock, hcr]
    exact renew_renew hcr
  · exact absurd hr (r2 r (by rw [hcr]) hrok t _)

private theorem left_start {v : List (MergeAgent F)} (hv : ∀ a ∈ v, a.dim = a.pos.length) (clock : ExpStep F) :
    Left v clock (from' v) clock := by
  refine ⟨(rep_from v).len, (rep_from v).c2, ?_, rfl⟩
  show List.Forall₂ SameKind v v
  rw [List.forall₂_same]
  intro a ha
  refine ⟨rfl, rfl, rfl, rfl, ?_, hv a ha⟩
  cases h : a.mtype with
  | levy => exact .inl ⟨rfl, rfl⟩
  | brownian D => exact .inr ⟨⟨D, rfl⟩, D, rfl⟩

private theorem left_many {rng : RngOps G F} {sys : SysOps G F} (hsys : LibrarySystem rng sys) {n : Nat}
    (hd : sys.DrawsInside n) (ho : sys.OutsideDim n) (target : TargetOps F) (inner loops fuel steps : Nat)
    {v : List (MergeAgent F)} (hf : v.length * v.length < fuel) (hf' : v.length < fuel) {clock : ExpStep F}
    {s s' : LList (MergeAgent F) × ExpStep F × G} {ts : List F} (h : Left v clock s.1 s.2.1)
    (hr : OneByOne (largeNRun rng sys target inner loops fuel steps) s ts s') : Left v clock s'.1 s'.2.1 := by
  induction hr with
  | nil => exact h
  | @cons s t s1 ts s2 h1 _ ih =>
    obtain ⟨l1, c1, g1⟩ := s1
    exact ih (left_next hsys hd ho target inner loops fuel steps hf hf' h h1)

/-! ## C68: every ensemble starts afresh -/

/-- Any arithmetic, any library system whose draws are inside: after any number of finished ensembles of
tests/large_n_simulation.rs, started with the agents `v` and the clock `clock`, the next ensemble gives the same
outcome and leaves the generator in the same state as the very first ensemble would, had it been given the generator
as it is now: merged agents, their grown sizes, where they died, and the time shown by the clock leave no trace. -/
theorem C68_no_memory (rng : RngOps G F) (sys : SysOps G F) (hsys : LibrarySystem rng sys) (n : Nat)
    (hd : sys.DrawsInside n) (ho : sys.OutsideDim n) (target : TargetOps F) (inner loops fuel steps : Nat)
    (v : List (MergeAgent F)) (hv : ∀ a ∈ v, a.dim = a.pos.length) (hf : v.length * v.length < fuel)
    (hf' : v.length < fuel) (clock : ExpStep F) (g : G) (ts : List F) (l : LList (MergeAgent F)) (c : ExpStep F)
    (g1 : G) (h : OneByOne (largeNRun rng sys target inner loops fuel steps) (from' v, clock, g) ts (l, c, g1)) :
    (largeNRun rng sys target inner loops fuel steps (l, c, g1)).map (fun r => (r.1, r.2.2.2)) =
      (largeNRun rng sys target inner loops fuel steps (from' v, clock, g1)).map (fun r => (r.1, r.2.2.2)) := by
  have hl := left_many hsys hd ho target inner loops fuel steps hf hf' (left_start hv clock) h
  simp only at hl
  have hlen := hl.kind.length_eq
  have hc := hl.clock
  rcases hcr : clock.renew with ⟨c1, r⟩
  cases r with
  | ok _ =>
    have e1 := ((run_says rng sys target inner loops fuel steps hl.len hl.c2 (by omega) c g1).1
      (by rw [hc, hcr])).1
    have e2 := ((run_says rng sys target inner loops fuel steps (rep_from v).len (rep_from v).c2
      (by exact hf') clock g1).1 (by rw [hcr])).1
    show shown _ = shown _
    rw [e1, e2, hc]
    exact (outcome_same (renewEach_same ho inner loops hl.kind hv g1)).symm
  | err e => unfold largeNRun; simp [hc, hcr]
  | panic => unfold largeNRun; simp [hc, hcr]

/-- And it is a proper run: if it reports `t`, every agent has been revived and placed anew, in order and with one
generator: alive, inside the system, off the target, of size 1, with the diffusion coefficient `1^(-alpha)` and its
own radius and exponent; the clock has been set back, and `t` is the time it shows at the first step after which a
live agent is on the target. -/
theorem C68_every_ensemble (rng : RngOps G F) (sys : SysOps G F) (hsys : LibrarySystem rng sys) (n : Nat)
    (hd : sys.DrawsInside n) (ho : sys.OutsideDim n) (target : TargetOps F) (inner loops fuel steps : Nat)
    (v : List (MergeAgent F)) (hv : ∀ a ∈ v, a.dim = a.pos.length) (hf : v.length * v.length < fuel)
    (hf' : v.length < fuel) (clock : ExpStep F) (g : G) (ts : List F) (l : LList (MergeAgent F)) (c : ExpStep F)
    (g1 : G) (h : OneByOne (largeNRun rng sys target inner loops fuel steps) (from' v, clock, g) ts (l, c, g1))
    (t : F) (l2 : LList (MergeAgent F)) (c2 : ExpStep F) (g2 : G)
    (hr : largeNRun rng sys target inner loops fuel steps (l, c, g1) = some (.ok t, (l2, c2, g2))) :
    ∃ (cs : List (MergeAgent F)) (g' : G),
      renewEach (fun a g => a.renewUniform sys target inner loops g) v g1 = some ((cs, .ok ()), g') ∧
      List.Forall₂ (fun a b => b.dim = n ∧ b.pos.length = n ∧ sys.checkInclusion b.pos = .ok true ∧
        target.checkFind b.pos = .ok false ∧ b.size = 1 ∧ b.mtype = .brownian (Fl.powf (Fl.ofNat 1) (-a.alpha)) ∧
        b.ptlRadius = a.ptlRadius ∧ b.alpha = a.alpha) v cs ∧
      let run := fun m => searchLoop (TimeDiff.next ExpStep.next (fun c => c.dt))
        (mergeStep rng sys target (fun a => a.ptlRadius) fuel) m (intoDiff clock.renew.1) ⟨from' cs, g', []⟩
      (run steps).2 = some (.ok (some t)) ∧ g2 = (run steps).1.2.rng ∧ liveAgents l2 = liveAgents (run steps).1.2.list ∧
      (∃ a ∈ liveAgents l2, target.checkFind a.pos = .ok true) ∧
      ∃ k < steps, run (k + 1) = run steps ∧
        (∃ dt, (TimeDiff.next ExpStep.next (fun c => c.dt) (run k).1.1).2 = .ok (some (t, dt))) ∧
        ∀ m ≤ k, (run m).2 = none ∧ ∀ a ∈ liveAgents (run m).1.2.list, target.checkFind a.pos = .ok false := by
  have hl := left_many hsys hd ho target inner loops fuel steps hf hf' (left_start hv clock) h
  simp only at hl
  have hlen := hl.kind.length_eq
  have hc := hl.clock
  obtain ⟨r1, r2⟩ := run_says rng sys target inner loops fuel steps hl.len hl.c2 (by omega) c g1
  rw [hc] at r1 r2
  rcases hcr : clock.renew with ⟨c1, r⟩
  rw [hcr] at r1 r2
  by_cases hrok : r = .ok ()
  · subst hrok
    obtain ⟨-, r1⟩ := r1 rfl
    obtain ⟨rfl, cs, g', k1, k2, k3, x, y, rfl⟩ := r1 t l2 c2 g2 hr
    have hk1 : renewEach (fun a g => a.renewUniform sys target inner loops g) v g1 = some ((cs, .ok ()), g') := by
      rcases renewEach_same (target := target) ho inner loops hl.kind hv g1 with e | ⟨b, b', e, g, he, -, h2⟩
      · rw [e]; exact k1
      · rw [k1] at h2
        simp only [Option.some.injEq, Prod.mk.injEq] at h2
        exact absurd h2.1.2.symm he
    have hren := renewEach_ok hd ho hv hk1
    have hcs : cs.length = v.length := hren.length_eq.symm
    have hall : ∀ a ∈ cs, sys.checkInclusion a.pos = .ok true ∧ target.checkFind a.pos = .ok false := by
      intro a ha
      obtain ⟨i, hi, rfl⟩ := List.mem_iff_getElem.1 ha
      have := (List.forall₂_iff_get.1 hren).2 i (by omega) hi
      exact ⟨this.inside, this.off⟩
    refine ⟨cs, g', hk1, hren.imp fun a b hab => ⟨hab.dim, by rw [← hab.kind.dim, hab.dim], hab.inside, hab.off, hab.size, hab.move,
      hab.kind.radius, hab.kind.alpha⟩, ?_⟩
    intro run
    have hC := C57_merging rng sys hsys target (fun a => a.ptlRadius) (.inr rfl) cs (fun a ha => (hall a ha).1)
      (TimeDiff.next ExpStep.next (fun c => c.dt)) (intoDiff c2) g' fuel (by rw [hcs]; exact hf) steps t k2
    simp only at hC
    obtain ⟨f1, k, f2, f3, f4, f5⟩ := hC
    have hlv : liveAgents ((search rng sys target fuel steps c2 cs g').1.2.list.withCursors x y) =
        liveAgents (run steps).1.2.list := liveAgents_cursors _ _ _
    refine ⟨k2, k3, hlv, ?_, k, f2, f3, f4, fun m hm => ?_⟩
    · rw [hlv]; exact f1
    · cases m with
      | succ m => exact f5 (m + 1) (by omega) hm
      | zero =>
        refine ⟨rfl, fun a ha => (hall a ?_).2⟩
        have e : (run 0).1.2.list = from' cs := rfl
        rw [e, from_live] at ha
        exact ha
  · exact absurd hr (r2 r rfl hrok t _)

/-! ### examples -/

private def demoSys : SysOps (List Int) Z :=
  (⟨.continuousCircular, .reflection, ⟨10⟩, 1⟩ : Circ Z).ops Z.draws
private def demoTarget : TargetOps Z := (BulkTarget.new [⟨8⟩] (⟨2⟩ : Z)).ops
private def demoAgent : MergeAgent Z := MergeAgent.new (.brownian ⟨1⟩) [⟨0⟩] ⟨1⟩ ⟨0⟩
private def demoClock : ExpStep Z := ⟨.exponential ⟨2⟩ ⟨2⟩ 10, ⟨0⟩, ⟨2⟩, ⟨1⟩, ⟨1000⟩, 0⟩

-- three agents, two ensembles: in the first two of them merge before the third finds the target in the second step;
-- in the second ensemble all three are there again and the first one finds the target at once
example : LibrarySystem Z.draws demoSys ∧ demoSys.DrawsInside 1 ∧ demoSys.OutsideDim 1 ∧
    demoAgent.dim = demoAgent.pos.length ∧
    ∃ s1 s2, largeNRun Z.draws demoSys demoTarget 5 5 20 20
        (from' [demoAgent, demoAgent, demoAgent], demoClock, [0, 0, 0, 0, 0, 1, 0, 8, 0, 0, 0, 9, 7]) =
        some (.ok ⟨2⟩, s1) ∧ (liveAgents s1.1).map (·.size) = [2, 1] ∧
      largeNRun Z.draws demoSys demoTarget 5 5 20 20 s1 = some (.ok ⟨0⟩, s2) ∧
      (liveAgents s2.1).map (·.size) = [1, 1, 1] ∧ s2.2.2 = [7] := by
  refine ⟨.inr (.inl ⟨_, rfl⟩), C37_systems_draw_inside.1 Z.draws _, (C37_systems_outside_dim Z.draws).2.1 _, rfl,
    _, _, rfl, by decide +kernel, rfl, by decide +kernel, by decide +kernel⟩

end Moledyn.Props
