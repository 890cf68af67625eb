import Verif.Spec.SingleSearch
import Verif.Props.Simulation
import Verif.Props.Agents
/-
Property theorems C67: averages over ensembles.
-/
namespace Moledyn.Props
open Moledyn LList
set_option linter.unusedSimpArgs false
variable {G F S α : Type}

private theorem ensembleSum_iff [Fl F] (run : S → Option (Res F × S)) (n : Nat) (s : S) (d m : F) (s' : S) :
    ensembleSum run n s d = some (.ok m, s') ↔
      ∃ ts : List F, ts.length = n ∧ OneByOne run s ts s' ∧ m = ts.foldl (fun x t => x + t) d := by
  induction n generalizing s d with
  | zero =>
    simp only [ensembleSum, Option.some.injEq, Prod.mk.injEq, Res.ok.injEq, List.length_eq_zero_iff, exists_eq_left,
      List.foldl_nil]
    constructor
    · rintro ⟨rfl, rfl⟩; exact ⟨.nil _, rfl⟩
    · rintro ⟨h, rfl⟩; cases h; exact ⟨rfl, rfl⟩
  | succ n ih =>
    unfold ensembleSum
    constructor
    · intro h
      rcases hr : run s with _ | ⟨r, s1⟩
      · rw [hr] at h; simp at h
      · rw [hr] at h
        cases r with
        | err e => simp at h
        | panic => simp at h
        | ok t =>
          simp only at h
          obtain ⟨ts, h1, h2, h3⟩ := (ih _ _).1 h
          exact ⟨t :: ts, by simp [h1], .cons hr h2, by rw [List.foldl_cons, h3]⟩
    · rintro ⟨ts, h1, h2, h3⟩
      cases h2 with
      | nil => simp at h1
      | @cons _ t s1 ts _ hr h2 =>
        rw [hr]
        simp only
        rw [ih]
        exact ⟨ts, by simpa using h1, h2, by rw [h3, List.foldl_cons]⟩

private theorem ensembleSum_fails [Fl F] (run : S → Option (Res F × S)) (n : Nat) (s : S) (d : F) (r : Res F) (s' : S)
    (hr : ∀ m, r ≠ .ok m) :
    ensembleSum run n s d = some (r, s') ↔
      ∃ (ts : List F) (s1 : S), ts.length < n ∧ OneByOne run s ts s1 ∧ run s1 = some (r, s') := by
  induction n generalizing s d with
  | zero =>
    constructor
    · intro h
      simp only [ensembleSum, Option.some.injEq, Prod.mk.injEq] at h
      exact absurd h.1.symm (hr d)
    · rintro ⟨ts, s1, h, -⟩; omega
  | succ n ih =>
    unfold ensembleSum
    constructor
    · intro h
      rcases hrun : run s with _ | ⟨r1, s1⟩
      · rw [hrun] at h; simp at h
      · rw [hrun] at h
        cases r1 with
        | err e =>
          simp only [Option.some.injEq, Prod.mk.injEq] at h
          obtain ⟨rfl, rfl⟩ := h
          exact ⟨[], s, by simp, .nil _, hrun⟩
        | panic =>
          simp only [Option.some.injEq, Prod.mk.injEq] at h
          obtain ⟨rfl, rfl⟩ := h
          exact ⟨[], s, by simp, .nil _, hrun⟩
        | ok t =>
          simp only at h
          obtain ⟨ts, s2, h1, h2, h3⟩ := (ih _ _).1 h
          exact ⟨t :: ts, s2, by simpa using h1, .cons hrun h2, h3⟩
    · rintro ⟨ts, s2, h1, h2, h3⟩
      cases h2 with
      | nil =>
        rw [h3]
        cases r with
        | ok m => exact absurd rfl (hr m)
        | err e => rfl
        | panic => rfl
      | @cons _ t s1 ts _ hrun h2 =>
        rw [hrun]
        simp only
        rw [ih]
        exact ⟨ts, s2, by simpa using h1, h2, h3⟩

/-! ## C67: averages over ensembles -/

/-- Any simulation, any arithmetic: the programs report the mean `m` after `n` ensembles exactly if the `n` runs, each
from the state the previous one left, all give a time, and `m` is the sum of these times in their order, starting
from 0, divided by `n`. -/
theorem C67_mean [Fl F] (run : S → Option (Res F × S)) (n : Nat) (s s' : S) (m : F) :
    ensembleMean run n s = some (.ok m, s') ↔
      ∃ ts : List F, ts.length = n ∧ OneByOne run s ts s' ∧
        m = ts.foldl (fun x t => x + t) Fl.zero / Fl.ofNat n := by
  unfold ensembleMean
  rw [Option.map_eq_some_iff]
  constructor
  · rintro ⟨⟨r, s1⟩, h1, h2⟩
    simp only [Prod.mk.injEq] at h2
    obtain ⟨h2, rfl⟩ := h2
    cases r with
    | err e => simp at h2
    | panic => simp at h2
    | ok d =>
      obtain ⟨ts, k1, k2, rfl⟩ := (ensembleSum_iff _ _ _ _ _ _).1 h1
      exact ⟨ts, k1, k2, by simpa using h2.symm⟩
  · rintro ⟨ts, k1, k2, rfl⟩
    exact ⟨_, (ensembleSum_iff _ _ _ _ _ _).2 ⟨ts, k1, k2, rfl⟩, rfl⟩

/-- In exact arithmetic that is the average of the times. -/
theorem C67_mean_is_average (run : S → Option (Res ℝ × S)) (n : Nat) (s s' : S) (m : ℝ) :
    ensembleMean run n s = some (.ok m, s') ↔
      ∃ ts : List ℝ, ts.length = n ∧ OneByOne run s ts s' ∧ m = ts.sum / n := by
  rw [C67_mean]
  have : ∀ ts : List ℝ, ts.foldl (fun x t => x + t) (Fl.zero : ℝ) = ts.sum := by
    intro ts
    simp only [fl_zero, List.sum_eq_foldl]
  simp only [this, fl_div, fl_ofNat]

/-- A failure is reported exactly if one of the `n` runs fails after successful ones; it is that run's failure, and
no later run takes place. -/
theorem C67_first_failure [Fl F] (run : S → Option (Res F × S)) (n : Nat) (s s' : S) (r : Res F)
    (hr : ∀ m, r ≠ .ok m) :
    ensembleMean run n s = some (r, s') ↔
      ∃ (ts : List F) (s1 : S), ts.length < n ∧ OneByOne run s ts s1 ∧ run s1 = some (r, s') := by
  rw [← ensembleSum_fails run n s Fl.zero r s' hr]
  unfold ensembleMean
  rw [Option.map_eq_some_iff]
  constructor
  · rintro ⟨⟨r1, s1⟩, h1, h2⟩
    simp only [Prod.mk.injEq] at h2
    obtain ⟨h2, rfl⟩ := h2
    cases r1 with
    | err e => rw [h1]; simp only [Res.map_err] at h2; rw [h2]
    | panic => rw [h1]; simp only [Res.map_panic] at h2; rw [h2]
    | ok d => exact absurd h2.symm (hr _)
  · intro h
    refine ⟨_, h, ?_⟩
    cases r with
    | ok m => exact absurd rfl (hr m)
    | err e => rfl
    | panic => rfl

/-! ### the runs -/

theorem makeAgents_iff (make : S → Option (Res α × S)) (n : Nat) (s : S) (v : List α) (s' : S) :
    makeAgents make n s = some (.ok v, s') ↔ v.length = n ∧ OneByOne make s v s' := by
  induction n generalizing s v with
  | zero =>
    simp only [makeAgents, Option.some.injEq, Prod.mk.injEq, Res.ok.injEq, List.length_eq_zero_iff]
    constructor
    · rintro ⟨rfl, rfl⟩; exact ⟨rfl, .nil _⟩
    · rintro ⟨rfl, h⟩; cases h; exact ⟨rfl, rfl⟩
  | succ n ih =>
    unfold makeAgents
    constructor
    · intro h
      rcases hr : make s with _ | ⟨r, s1⟩
      · rw [hr] at h; simp at h
      · rw [hr] at h
        cases r with
        | err e => simp at h
        | panic => simp at h
        | ok a =>
          simp only [Option.map_eq_some_iff] at h
          obtain ⟨⟨r2, s2⟩, h1, h2⟩ := h
          cases r2 with
          | err e => simp at h2
          | panic => simp at h2
          | ok w =>
            simp only [Res.map_ok, Prod.mk.injEq, Res.ok.injEq] at h2
            obtain ⟨rfl, rfl⟩ := h2
            obtain ⟨k1, k2⟩ := (ih _ _).1 h1
            exact ⟨by simp [k1], .cons hr k2⟩
    · rintro ⟨h1, h2⟩
      cases h2 with
      | nil => simp at h1
      | @cons _ a s1 w _ hr h2 =>
        rw [hr]
        simp only [Option.map_eq_some_iff]
        exact ⟨_, (ih _ _).2 ⟨by simpa using h1, h2⟩, rfl⟩

theorem OneByOne.all {run : S → Option (Res F × S)} {P : F → Prop} (hP : ∀ s t s', run s = some (.ok t, s') → P t)
    {s s' : S} {ts : List F} (h : OneByOne run s ts s') : ∀ t ∈ ts, P t := by
  induction h with
  | nil => simp
  | cons hr _ ih =>
    intro t ht
    rcases List.mem_cons.1 ht with rfl | ht
    · exact hP _ _ _ hr
    · exact ih t ht

/-- the counting clock shows how many steps were made. -/
private theorem counting_found [Fl F] (dt : F) (step : F → S → S × Option (Res Bool)) (n : Nat) (c : F) (s : S) (t : F)
    (h : (searchLoop (countingTick dt) step n c s).2 = some (.ok (some t))) :
    ∃ k < n, t = (fun t => t + dt)^[k + 1] c ∧
      (∀ m ≤ k, (searchLoop (countingTick dt) step m c s).2 = none) ∧
      searchLoop (countingTick dt) step (k + 1) c s = searchLoop (countingTick dt) step n c s := by
  induction n generalizing c s with
  | zero => simp [searchLoop] at h
  | succ n ih =>
    have hstep : ∀ m, searchLoop (countingTick dt) step (m + 1) c s =
        match step dt s with
        | (s1, none) => ((c + dt, s1), none)
        | (s1, some (.ok true)) => ((c + dt, s1), some (.ok (some (c + dt))))
        | (s1, some (.ok false)) => searchLoop (countingTick dt) step m (c + dt) s1
        | (s1, some (.err e)) => ((c + dt, s1), some (.err e))
        | (s1, some .panic) => ((c + dt, s1), some .panic) := fun m => rfl
    rcases hs : step dt s with ⟨s1, o⟩
    match o, hs with
    | none, hs => rw [hstep, hs] at h; simp at h
    | some (.err e), hs => rw [hstep, hs] at h; simp at h
    | some .panic, hs => rw [hstep, hs] at h; simp at h
    | some (.ok true), hs =>
      have h' := h
      rw [hstep, hs] at h'
      simp only [Option.some.injEq, Res.ok.injEq] at h'
      refine ⟨0, by omega, h'.symm, fun m hm => ?_, ?_⟩
      · obtain rfl : m = 0 := by omega
        rfl
      · rw [hstep, hstep, hs]
    | some (.ok false), hs =>
      have hall : ∀ m, searchLoop (countingTick dt) step (m + 1) c s =
          searchLoop (countingTick dt) step m (c + dt) s1 := fun m => by rw [hstep, hs]
      rw [hall] at h
      obtain ⟨k, h1, h2, h3, h4⟩ := ih _ _ h
      refine ⟨k + 1, by omega, h2, fun m hm => ?_, ?_⟩
      · cases m with
        | zero => rfl
        | succ m => rw [hall]; exact h3 m (by omega)
      · rw [hall, hall]; exact h4

/-- One run of tests/n_ptl_rts_iterator.rs (any arithmetic, any library system whose draws are inside): if it reports
`t`, it has made `n` walkers, one after the other with the same generator, all inside the system and off the target;
`t` is `dt` added up `k + 1` times; after `k + 1` steps some walker is on the target, and at no earlier time, the
start included, was one there. -/
theorem C67_independent_run [Fl F] (rng : RngOps G F) (sys : SysOps G F) (hsys : LibrarySystem rng sys) (d : Nat)
    (hd : sys.DrawsInside d) (ho : sys.OutsideDim d) (target : TargetOps F) (inner loops fuel steps : Nat)
    (mtype : MoveType F) (dt : F) (n : Nat) (hf : n < fuel) (g g' : G) (t : F)
    (h : indepRun rng sys target inner loops fuel steps mtype dt n g = some (.ok t, g')) :
    ∃ (v : List (IndepAgent F)) (g1 : G), v.length = n ∧
      OneByOne (fun g => IndepAgent.newUniform sys target inner loops g mtype) g v g1 ∧
      (∀ a ∈ v, GoodStart sys target d a.dim a.pos ∧ a.mtype = mtype) ∧
      let after := fun m => (searchLoop (countingTick dt) (walkStep (IndepAgent.walker rng) sys target fuel) m Fl.zero
        (from' v, g1)).1.2
      ∃ k < steps, t = clockAfter dt (k + 1) ∧ g' = (after (k + 1)).2 ∧
        (∃ a ∈ liveAgents (after (k + 1)).1, target.checkFind a.pos = .ok true) ∧
        ∀ m ≤ k, (liveAgents (after m).1).length = n ∧
          ∀ a ∈ liveAgents (after m).1, target.checkFind a.pos = .ok false := by
  unfold indepRun at h
  rcases hm : makeAgents (fun g => IndepAgent.newUniform sys target inner loops g mtype) n g with _ | ⟨r, g1⟩
  · rw [hm] at h; simp at h
  rw [hm] at h
  cases r with
  | err e => simp at h
  | panic => simp at h
  | ok v =>
    obtain ⟨hl, hv⟩ := (makeAgents_iff _ _ _ _ _).1 hm
    have hgood : ∀ a ∈ v, GoodStart sys target d a.dim a.pos ∧ a.mtype = mtype := by
      refine OneByOne.all (fun g a g' hh => ⟨(C37_new_uniform sys target d hd ho inner loops g g').1 _ _ hh, ?_⟩) hv
      unfold IndepAgent.newUniform at hh
      simp only [Option.map_eq_some_iff, Prod.mk.injEq] at hh
      obtain ⟨⟨⟨p, r⟩, g2⟩, -, h2, -⟩ := hh
      cases r with
      | ok _ => simp only [Res.map_ok, Res.ok.injEq] at h2; rw [← h2]
      | err e => simp at h2
      | panic => simp at h2
    refine ⟨v, g1, hl, hv, hgood, ?_⟩
    have hin : ∀ a ∈ v, sys.checkInclusion a.pos = .ok true := fun a ha => (hgood a ha).1.2.2.1
    have hC := fun m => C57_independent rng sys hsys target v hin (countingTick dt) Fl.zero g1 fuel (by omega) m
    simp only at h hC ⊢
    rcases hr : searchLoop (countingTick dt) (walkStep (IndepAgent.walker rng) sys target fuel) steps Fl.zero
      (from' v, g1) with ⟨r, o⟩
    rw [hr] at h
    match o, hr with
    | none, hr => simp at h
    | some (.err e), hr => simp at h
    | some .panic, hr => simp at h
    | some (.ok none), hr => simp at h
    | some (.ok (some t')), hr =>
      simp only [Option.some.injEq, Prod.mk.injEq, Res.ok.injEq] at h
      obtain ⟨rfl, rfl⟩ := h
      obtain ⟨k, h1, h2, h3, h4⟩ := counting_found dt _ steps Fl.zero (from' v, g1) t' (by rw [hr])
      obtain ⟨c1, k2, d1, d2, -, d4⟩ := (hC steps).2 t' (by rw [hr])
      have hk : k = k2 := by
        rcases lt_trichotomy k k2 with hlt | heq | hgt
        · have := (d4 (k + 1) (by omega) (by omega)).1
          rw [h4, hr] at this; simp at this
        · exact heq
        · have := h3 (k2 + 1) (by omega)
          rw [d2, hr] at this; simp at this
      subst hk
      refine ⟨k, h1, h2, by rw [h4, hr], by rw [h4]; exact c1, fun m hm => ⟨?_, ?_⟩⟩
      · rw [← hl]; exact ((hC m).1 (.inl (h3 m hm))).1
      · cases m with
        | succ m => exact (d4 (m + 1) (by omega) hm).2
        | zero =>
          intro a ha
          exact (hgood a (by rw [← from_live v]; exact ha)).1.2.2.2

/-- One run of tests/merge_fpt.rs: as above; until the target is found live agents plus merges are `n` and the sizes
of the live agents add up to `n`. -/
theorem C67_merging_run [Fl F] (rng : RngOps G F) (sys : SysOps G F) (hsys : LibrarySystem rng sys) (d : Nat)
    (hd : sys.DrawsInside d) (ho : sys.OutsideDim d) (target : TargetOps F) (inner loops fuel steps : Nat)
    (mtype : MoveType F) (radius alpha dt : F) (n : Nat) (hf : n * n < fuel) (g g' : G) (t : F)
    (h : mergeRun rng sys target inner loops fuel steps mtype radius alpha dt n g = some (.ok t, g')) :
    ∃ (v : List (MergeAgent F)) (g1 : G), v.length = n ∧
      OneByOne (fun g => MergeAgent.newUniform sys target inner loops g mtype radius alpha) g v g1 ∧
      (∀ a ∈ v, GoodStart sys target d a.dim a.pos ∧ a.size = 1 ∧ a.mtype = mtype) ∧
      let after := fun m => (searchLoop (countingTick dt) (mergeStep rng sys target (fun _ => radius) fuel) m Fl.zero
        ⟨from' v, g1, []⟩).1.2
      ∃ k < steps, t = clockAfter dt (k + 1) ∧ g' = (after (k + 1)).rng ∧
        (∃ a ∈ liveAgents (after (k + 1)).list, target.checkFind a.pos = .ok true) ∧
        ∀ m ≤ k, (liveAgents (after m).list).length + (after m).merges.length = n ∧
          ((liveAgents (after m).list).map (·.size)).sum = n ∧
          ∀ a ∈ liveAgents (after m).list, target.checkFind a.pos = .ok false := by
  unfold mergeRun mergeFpt at h
  rcases hm : makeAgents (fun g => MergeAgent.newUniform sys target inner loops g mtype radius alpha) n g with
    _ | ⟨r, g1⟩
  · rw [hm] at h; simp at h
  rw [hm] at h
  cases r with
  | err e => simp at h
  | panic => simp at h
  | ok v =>
    obtain ⟨hl, hv⟩ := (makeAgents_iff _ _ _ _ _).1 hm
    have hgood : ∀ a ∈ v, GoodStart sys target d a.dim a.pos ∧ a.size = 1 ∧ a.mtype = mtype := by
      refine OneByOne.all (fun g a g' hh => ?_) hv
      obtain ⟨k1, k2⟩ := (C37_new_uniform sys target d hd ho inner loops g g').2.1 _ _ _ _ hh
      refine ⟨k1, k2, ?_⟩
      unfold MergeAgent.newUniform at hh
      simp only [Option.map_eq_some_iff, Prod.mk.injEq] at hh
      obtain ⟨⟨⟨p, r⟩, g2⟩, -, h2, -⟩ := hh
      cases r with
      | ok _ => simp only [Res.map_ok, Res.ok.injEq] at h2; rw [← h2]
      | err e => simp at h2
      | panic => simp at h2
    refine ⟨v, g1, hl, hv, hgood, ?_⟩
    have hin : ∀ a ∈ v, sys.checkInclusion a.pos = .ok true := fun a ha => (hgood a ha).1.2.2.1
    have hsum : (v.map (·.size)).sum = n := by
      rw [List.map_congr_left (fun a ha => (hgood a ha).2.1)]
      simp [hl]
    have hC := fun m t' => C57_merging rng sys hsys target (fun _ => radius) (.inl ⟨radius, rfl⟩) v hin
      (countingTick dt) Fl.zero g1 fuel (by rw [hl]; exact hf) m t'
    have hE := fun m => C52_every_step rng sys hsys target (fun _ => radius) (.inl ⟨radius, rfl⟩) v hin
      (countingTick dt) Fl.zero g1 fuel (by rw [hl]; exact hf) m
    simp only at h hC hE ⊢
    rcases hr : searchLoop (countingTick dt) (mergeStep rng sys target (fun _ => radius) fuel) steps Fl.zero
      ⟨from' v, g1, []⟩ with ⟨r, o⟩
    rw [hr] at h
    match o, hr with
    | none, hr => simp at h
    | some (.err e), hr => simp at h
    | some .panic, hr => simp at h
    | some (.ok none), hr => simp at h
    | some (.ok (some t')), hr =>
      simp only [Option.some.injEq, Prod.mk.injEq, Res.ok.injEq] at h
      obtain ⟨rfl, rfl⟩ := h
      obtain ⟨k, h1, h2, h3, h4⟩ := counting_found dt _ steps Fl.zero _ t' (by rw [hr])
      obtain ⟨c1, k2, d1, d2, -, d4⟩ := hC steps t' (by rw [hr])
      have hk : k = k2 := by
        rcases lt_trichotomy k k2 with hlt | heq | hgt
        · have := (d4 (k + 1) (by omega) (by omega)).1
          rw [h4, hr] at this; simp at this
        · exact heq
        · have := h3 (k2 + 1) (by omega)
          rw [d2, hr] at this; simp at this
      subst hk
      refine ⟨k, h1, h2, by rw [h4, hr], by rw [h4]; exact c1, fun m hm => ?_⟩
      obtain ⟨-, e2, e3, -⟩ := hE m (.inl (h3 m hm))
      refine ⟨by rw [e3, hl], by rw [e2, hsum], ?_⟩
      cases m with
      | succ m => exact (d4 (m + 1) (by omega) hm).2
      | zero =>
        intro a ha
        exact (hgood a (by rw [← from_live v]; exact ha)).1.2.2.2

/-! ### examples -/

private def demoSys : SysOps (List Int) Z :=
  (⟨.continuousCircular, .reflection, ⟨10⟩, 1⟩ : Circ Z).ops Z.draws
private def demoTarget : TargetOps Z := (BulkTarget.new [⟨8⟩] (⟨2⟩ : Z)).ops

-- two walkers made at -10 and, after a rejected draw on the target, at -10; the second reaches 8 in step two
example : indepRun Z.draws demoSys demoTarget 5 5 10 10 (.brownian ⟨1⟩) ⟨2⟩ 2 [0, 1, 0, 2, 3, 4, 5, 6, 7] =
      some (.ok ⟨4⟩, [5, 6, 7]) ∧
    mergeRun Z.draws demoSys demoTarget 5 5 10 10 (.brownian ⟨1⟩) ⟨1⟩ ⟨1⟩ ⟨2⟩ 2 [0, 1, 0, 2, 3, 4, 5, 6, 7] =
      some (.ok ⟨4⟩, [5, 6, 7]) ∧
    LibrarySystem Z.draws demoSys ∧ demoSys.DrawsInside 1 ∧ demoSys.OutsideDim 1 :=
  ⟨by decide +kernel, by decide +kernel, .inr (.inl ⟨_, rfl⟩), C37_systems_draw_inside.1 Z.draws _,
    (C37_systems_outside_dim Z.draws).2.1 _⟩

-- three runs that report 1, 2 and 6: the mean is 3; and a failing second run ends everything
example : ensembleMean (fun s : List ℝ => match s with | [] => none | t :: s => some (.ok t, s)) 3
      ([1, 2, 6, 100] : List ℝ) = some (.ok (3 : ℝ), [100]) := by
  rw [C67_mean_is_average]
  exact ⟨[1, 2, 6], rfl, .cons rfl (.cons rfl (.cons rfl (.nil _))), by norm_num⟩
example : ensembleMean (fun s : Nat => if s = 1 then some (.err .unexpectedEnd, 7) else some (.ok (⟨5⟩ : Z), s + 1)) 3 0 =
    some (.err .unexpectedEnd, 7) := by
  rw [C67_first_failure _ _ _ _ _ (by simp)]
  exact ⟨[⟨5⟩], 1, by simp, .cons rfl (.nil _), rfl⟩

end Moledyn.Props
