import Verif.Lemmas.ExpSphere
import Verif.Props.Time
import Verif.Props.Simulation
/-
Property theorem C58: the whole run of examples/mfpt_exp.rs.
-/
namespace Moledyn.Props
open Moledyn LList
set_option linter.unusedSimpArgs false
variable {G F C : Type} [Fl F]

private def Inside (sys : SysOps G F) (n m : Nat) (st : ExpSim G F) : Prop :=
  ∃ s : Slots (ExpAgent F), Rep st.list s ∧ s.live.length = n ∧ BufList m st.moves ∧
    ∀ i ∈ s.live, ∀ a, s.contents[i]? = some a → sys.checkInclusion a.pos = .ok true

private theorem expStep_says {rng : RngOps G F} {sys : SysOps G F} (hsys : LibrarySystem rng sys)
    (target : TargetOps F) (limit : F) (fuel : Nat) (dt : F) (n m : Nat) (hf : n * n + n + m < fuel)
    (st : ExpSim G F) (h : Inside sys n m st) :
    let r := expStep rng sys target limit fuel dt st
    (r.2 = some (.ok false) → Inside sys n m r.1 ∧
      ∀ a ∈ liveAgents r.1.list, target.checkFind a.pos = .ok false) ∧
    (r.2 = some (.ok true) → Inside sys n m r.1 ∧
      ∃ a ∈ liveAgents r.1.list, target.checkFind a.pos = .ok true) ∧
    r.2 ≠ none := by
  obtain ⟨s, hr, hl, hb, hin⟩ := h
  obtain ⟨s', k1, k2, k3, k4, k5⟩ := expStep_rep hsys target limit dt fuel st hr hb (by rw [hl]; exact hf)
  intro r
  refine ⟨fun ho => ?_, fun ho => ?_, k3⟩
  · obtain ⟨hb', hq⟩ := k4 ho
    have hall : ∀ i ∈ s'.live, ∀ a, s'.contents[i]? = some a → sys.checkInclusion a.pos = .ok true ∧
        target.checkFind a.pos = .ok false := by
      intro i hi' x hx
      rw [k2] at hi'
      obtain ⟨y, y', hy, hy', ⟨q, rfl, hq1, hq2⟩⟩ := hq i hi'
      rw [hy'] at hx
      simp only [Option.some.injEq] at hx
      subst hx
      exact ⟨hq1, hq2⟩
    refine ⟨⟨s', k1, by rw [k2, hl], hb', fun i hi' a ha => (hall i hi' a ha).1⟩, ?_⟩
    intro a ha
    rw [mem_liveAgents k1] at ha
    obtain ⟨i, hi', hia⟩ := ha
    exact (hall i hi' a hia).2
  · obtain ⟨hb', k, hk, ⟨a, a', hka, hka', ⟨p, rfl, hp1, hp2⟩⟩, hrest⟩ := k5 ho
    refine ⟨⟨s', k1, by rw [k2, hl], hb', ?_⟩, { a with pos := p }, ?_, hp2⟩
    · intro i hi' x hx
      by_cases hik : i = k
      · subst hik
        rw [hka'] at hx
        simp only [Option.some.injEq] at hx
        subst hx
        exact hp1
      · rcases hrest i hik with e | ⟨_, y, y', hy, hy', ⟨q, rfl, hq, _⟩⟩
        · rw [e] at hx
          rw [k2] at hi'
          exact hin i hi' x hx
        · rw [hy'] at hx
          simp only [Option.some.injEq] at hx
          subst hx
          exact hq
    · rw [mem_liveAgents k1]
      exact ⟨k, by rw [k2]; exact hk, hka'⟩

/-! ## C58: the interacting simulation -/

/-- Any arithmetic, random source, library system, target, limit and clock: while the simulation of
examples/mfpt_exp.rs started on agents inside has not failed, no agent is lost and all are inside after every
number of steps; a reported time is the clock's time of the last step, an agent is in the target then, and after
every earlier step the search was on and none was in the target. -/
theorem C58_interacting (rng : RngOps G F) (sys : SysOps G F) (hsys : LibrarySystem rng sys)
    (target : TargetOps F) (limit : F) (v : List (ExpAgent F)) (w : List (Pos F)) (disp : Pos F)
    (hin : ∀ a ∈ v, sys.checkInclusion a.pos = .ok true) (tick : C → C × Res (Option (F × F))) (c : C) (g : G)
    (fuel : Nat) (hf : v.length * v.length + v.length + w.length < fuel) (steps : Nat) :
    let run := fun m => searchLoop tick (expStep rng sys target limit fuel) m c ⟨from' v, g, disp, from' w⟩
    (NoFailure (run steps).2 → (liveAgents (run steps).1.2.list).length = v.length ∧
      ∀ a ∈ liveAgents (run steps).1.2.list, sys.checkInclusion a.pos = .ok true) ∧
    (∀ t, (run steps).2 = some (.ok (some t)) →
      (∃ a ∈ liveAgents (run steps).1.2.list, target.checkFind a.pos = .ok true) ∧
      ∃ k, k < steps ∧ run (k + 1) = run steps ∧ (∃ dt, (tick (run k).1.1).2 = .ok (some (t, dt))) ∧
        ∀ m, 1 ≤ m → m ≤ k → (run m).2 = none ∧
          ∀ a ∈ liveAgents (run m).1.2.list, target.checkFind a.pos = .ok false) ∧
    ((run steps).2 = none → ∀ dt, (expStep rng sys target limit fuel dt (run steps).1.2).2 ≠ none) := by
  intro run
  have hstart : Inside sys v.length w.length ⟨from' v, g, disp, from' w⟩ :=
    ⟨_, rep_from v, by simp [Slots.ofContents], ⟨_, rep_from w, by simp [Slots.ofContents]⟩,
      fun i _ a ha => hin a (List.mem_of_getElem? ha)⟩
  have hinv := fun m => searchLoop_inv tick (expStep rng sys target limit fuel)
    (Inside sys v.length w.length)
    (fun st => ∀ a ∈ liveAgents st.list, target.checkFind a.pos = .ok false)
    (fun st => Inside sys v.length w.length st ∧ ∃ a ∈ liveAgents st.list, target.checkFind a.pos = .ok true)
    (fun dt st h => (expStep_says hsys target limit fuel dt _ _ hf st h).1)
    (fun dt st h => (expStep_says hsys target limit fuel dt _ _ hf st h).2.1)
    (fun dt st h => (expStep_says hsys target limit fuel dt _ _ hf st h).2.2) m c ⟨from' v, g, disp, from' w⟩ hstart
  refine ⟨?_, fun t ht => ⟨((hinv steps).2.2 t ht).2, ?_⟩, ?_⟩
  · intro hok
    have hk : Inside sys v.length w.length (run steps).1.2 := by
      rcases hok with hn | ⟨b, hb⟩
      · exact ((hinv steps).1 hn).1
      · cases b with
        | none => exact (hinv steps).2.1 hb
        | some t => exact ((hinv steps).2.2 t hb).1
    obtain ⟨s, hr, hl, _, h1⟩ := hk
    refine ⟨by rw [length_liveAgents hr, hl], ?_⟩
    intro a ha
    rw [mem_liveAgents hr] at ha
    obtain ⟨i, hi, hia⟩ := ha
    exact h1 i hi a hia
  · obtain ⟨k, dt, h1, h2, h3, _, h5⟩ := searchLoop_found tick _ steps c _ t ht
    refine ⟨k, h1, h5, ⟨dt, by show (tick _).2 = _; rw [h3]⟩, ?_⟩
    intro m hm hmk
    have hn := h2 m hmk
    exact ⟨hn, ((hinv m).1 hn).2 hm⟩
  · intro hn dt
    exact (expStep_says hsys target limit fuel dt _ _ hf _ ((hinv steps).1 hn).1).2.2

/-- And if the clock ends before anything is found, after `k` steps: the search was on after every number of steps up to `k`, and after
none of them an agent was in the target. -/
theorem C58_ended (rng : RngOps G F) (sys : SysOps G F) (hsys : LibrarySystem rng sys)
    (target : TargetOps F) (limit : F) (v : List (ExpAgent F)) (w : List (Pos F)) (disp : Pos F)
    (hin : ∀ a ∈ v, sys.checkInclusion a.pos = .ok true) (hoff : ∀ a ∈ v, target.checkFind a.pos = .ok false)
    (tick : C → C × Res (Option (F × F))) (c : C) (g : G)
    (fuel : Nat) (hf : v.length * v.length + v.length + w.length < fuel) (steps : Nat) :
    let run := fun m => searchLoop tick (expStep rng sys target limit fuel) m c ⟨from' v, g, disp, from' w⟩
    (run steps).2 = some (.ok none) → ∃ k < steps, (tick (run k).1.1).2 = .ok none ∧ (run k).1.2 = (run steps).1.2 ∧
      ∀ m ≤ k, (run m).2 = none ∧ ∀ a ∈ liveAgents (run m).1.2.list, target.checkFind a.pos = .ok false := by
  intro run hn
  have hstart : Inside sys v.length w.length ⟨from' v, g, disp, from' w⟩ :=
    ⟨_, rep_from v, by simp [Slots.ofContents], ⟨_, rep_from w, by simp [Slots.ofContents]⟩,
      fun i _ a ha => hin a (List.mem_of_getElem? ha)⟩
  have hinv := fun m => searchLoop_inv tick (expStep rng sys target limit fuel)
    (Inside sys v.length w.length)
    (fun st => ∀ a ∈ liveAgents st.list, target.checkFind a.pos = .ok false)
    (fun _ => True)
    (fun dt st h => (expStep_says hsys target limit fuel dt _ _ hf st h).1)
    (fun _ _ _ _ => trivial)
    (fun dt st h => (expStep_says hsys target limit fuel dt _ _ hf st h).2.2) m c ⟨from' v, g, disp, from' w⟩ hstart
  obtain ⟨k, k1, k2, k3, k4⟩ := searchLoop_ended tick _ steps c _ hn
  refine ⟨k, k1, by show (tick _).2 = _; rw [k3], k4, fun m hm => ⟨k2 m hm, ?_⟩⟩
  cases m with
  | succ m => exact ((hinv (m + 1)).1 (k2 _ hm)).2 (Nat.succ_pos m)
  | zero =>
    intro a ha
    have ha : a ∈ liveAgents (from' v) := ha
    rw [mem_liveAgents (rep_from v)] at ha
    obtain ⟨i, -, hia⟩ := ha
    exact hoff a (List.mem_of_getElem? hia)

/-- the example: a cube of half width 10, target of radius 2 at 8, two agents at 2 and 3; in the first step they
only push each other apart, in the third step the second is in the target. -/
private def demoExp (p : Int) : ExpAgent Z :=
  ⟨.continuousPassiveInteracting, .exponential 1 ⟨1⟩, .brownian ⟨1⟩, .uniform, 1, [⟨p⟩], ⟨1⟩, ⟨1⟩, ⟨1⟩, ⟨1⟩⟩
private def demoExpSys : SysOps (List Int) Z :=
  (⟨.continuousRectangular, .reflection, ⟨10⟩, 1⟩ : Cubic Z).ops Z.draws
private def demoExpRun (steps : Nat) :=
  searchLoop (countingTick ⟨2⟩) (expStep Z.draws demoExpSys (BulkTarget.new [⟨8⟩] (⟨2⟩ : Z)).ops
    ⟨5⟩ 20) steps ⟨0⟩ ⟨from' [demoExp 2, demoExp 3], [0, 0, -1, 0, -2, 1], [⟨0⟩], from' [[⟨0⟩], [⟨0⟩]]⟩
example : (∀ a ∈ [demoExp 2, demoExp 3], demoExpSys.checkInclusion a.pos = .ok true) ∧
    (demoExpRun 1).2 = none ∧ (liveAgents (demoExpRun 1).1.2.list).map (·.pos) = [[⟨0⟩], [⟨5⟩]] ∧
    (demoExpRun 2).2 = none ∧ (demoExpRun 3).2 = some (.ok (some ⟨6⟩)) ∧
    (liveAgents (demoExpRun 3).1.2.list).map (·.pos) = [[⟨-6⟩], [⟨7⟩]] := by
  decide +kernel

/-! ### exact arithmetic, in a ball -/

private theorem ball_start (R : ℝ) (d : Nat) (v : List (ExpAgent ℝ)) (w : List (Pos ℝ)) (disp : Pos ℝ)
    (hv : ∀ a ∈ v, a.expDim = d ∧ a.pos.length = d ∧ radius a.pos ≤ R ∧ ∃ D, a.mtype = .brownian D)
    (hw : ∀ p ∈ w, p.length = d) (hlen : w.length = v.length) (hd : disp.length = d) (g : G) :
    BallRun R d v.length ⟨from' v, g, disp, from' w⟩ := by
  refine ⟨hd, _, rep_from v, by simp [Slots.ofContents], ⟨_, rep_from w, by simp [Slots.ofContents, hlen]⟩, ?_, ?_⟩
  · intro i hi
    have hi' : i < v.length := by simpa [Slots.ofContents] using hi
    have hp : w[i]? = some (w[i]'(by omega)) := List.getElem?_eq_getElem _
    exact ⟨w[i]'(by omega), by show w[i]? = _; exact hp, hw _ (List.getElem_mem _)⟩
  · intro i hi
    have hi' : i < v.length := by simpa [Slots.ofContents] using hi
    exact ⟨v[i], by show v[i]? = _; exact List.getElem?_eq_getElem _, hv _ (List.getElem_mem _)⟩

/-- Any arithmetic: what the preparation of an ensemble leaves behind when it fails.  If the agents `as` get their
new positions and then agent `a` fails, the error (or panic) of `a` is the result, the agents `as` keep their new
positions, `a` has whatever its failed renewal wrote, and the agents `bs` behind it have not moved. -/
theorem C58_prepare_failure (sys : SysOps G F) (target : TargetOps F) (inner loops : Nat) (as bs as' : List (ExpAgent F))
    (a b : ExpAgent F) (r : Res Unit) (g g1 g2 : G)
    (h1 : renewContents sys target inner loops as g = some ((as', .ok ()), g1))
    (h2 : a.renewUniform sys target inner loops g1 = some ((b, r), g2)) (hr : r ≠ .ok ()) :
    renewContents sys target inner loops (as ++ a :: bs) g = some ((as' ++ b :: bs, r), g2) ∧
    ∀ l : LList (ExpAgent F), l.contents = as ++ a :: bs →
      expPrepare sys target inner loops l g = some (({ l with contents := as' ++ b :: bs }, r), g2) := by
  have key : renewContents sys target inner loops (as ++ a :: bs) g = some ((as' ++ b :: bs, r), g2) := by
    induction as generalizing as' g with
    | nil =>
      simp only [renewContents, Option.some.injEq, Prod.mk.injEq] at h1
      obtain ⟨⟨rfl, -⟩, rfl⟩ := h1
      simp only [List.nil_append, renewContents]
      rw [h2]
      rcases r with u | e | _
      · exact absurd rfl hr
      · rfl
      · rfl
    | cons x as ih =>
      simp only [List.cons_append, renewContents] at h1 ⊢
      rcases hx : x.renewUniform sys target inner loops g with _ | ⟨⟨y, q⟩, g'⟩
      · rw [hx] at h1; simp at h1
      · rw [hx] at h1
        rcases q with u | e | _
        · simp only at h1 ⊢
          rcases hy : renewContents sys target inner loops as g' with _ | ⟨⟨as1, q1⟩, g''⟩
          · rw [hy] at h1; simp at h1
          · rw [hy] at h1
            simp only [Option.map_some, Option.some.injEq, Prod.mk.injEq] at h1
            obtain ⟨⟨e1, e2⟩, e3⟩ := h1
            rw [ih as1 g' (by rw [hy, e2, e3])]
            simp [← e1]
        · simp at h1
        · simp at h1
  refine ⟨key, fun l hl => ?_⟩
  unfold expPrepare
  rw [hl, key]
  rcases r with u | e | _
  · exact absurd rfl hr
  · rfl
  · rfl

/-- the hypotheses can be met: a target of another dimension fails the first agent already. -/
example (a : ExpAgent F) (bs : List (ExpAgent F)) (g : G) (p : Pos F) :
    ∃ b, renewContents (⟨fun _ => .ok true, fun q _ => (q, .ok ()), p, fun q => (q, .ok ()),
      fun _ g q => some ((q, .ok ()), g)⟩ : SysOps G F) ⟨fun _ => .err .invalidDimension⟩ 1 1 (a :: bs) g =
      some ((b :: bs, .err .invalidDimension), g) :=
  ⟨_, (C58_prepare_failure _ _ 1 1 [] bs [] a _ _ g g g rfl rfl (by simp)).1⟩

/-- Exact arithmetic, a ball built by `new`, the target's centre and all agents of its dimension, Brownian agents
inside, a positive limit of at most the diameter, a clock that does not fail: the simulation never fails, and in
every step no agent moves further than the limit. -/
theorem C58_ball_never_fails (rng : RngOps G ℝ) (R : ℝ) (d : Nat) (s : Circ ℝ) (hnew : Circ.new R d = .ok s)
    (centre : Pos ℝ) (hc : centre.length = d) (r limit : ℝ) (h0 : 0 < limit) (h2 : limit ≤ 2 * R)
    (v : List (ExpAgent ℝ)) (w : List (Pos ℝ)) (disp : Pos ℝ)
    (hv : ∀ a ∈ v, a.expDim = d ∧ a.pos.length = d ∧ radius a.pos ≤ R ∧ ∃ D, a.mtype = .brownian D)
    (hw : ∀ p ∈ w, p.length = d) (hlen : w.length = v.length) (hd : disp.length = d) (g : G)
    (tick : C → C × Res (Option (ℝ × ℝ))) (htick : ∀ c, ∃ o, (tick c).2 = .ok o) (c : C)
    (fuel : Nat) (hf : v.length * v.length + v.length + v.length < fuel) (steps : Nat) :
    let run := fun m => searchLoop tick (expStep rng (s.ops rng) (BulkTarget.new centre r).ops limit fuel) m c
      ⟨from' v, g, disp, from' w⟩
    NoFailure (run steps).2 ∧
    ∀ (i : Nat) (a a' : ExpAgent ℝ), (run steps).1.2.list.contents[i]? = some a →
      (run (steps + 1)).1.2.list.contents[i]? = some a' → radius (List.zipWith (· - ·) a'.pos a.pos) ≤ limit := by
  intro run
  have hself : ∀ a : ExpAgent ℝ, radius (List.zipWith (· - ·) a.pos a.pos) ≤ limit := by
    intro a
    have : radius (List.zipWith (· - ·) a.pos a.pos) = 0 := by
      unfold radius
      have : (List.map (fun x : ℝ => x ^ 2) (List.zipWith (· - ·) a.pos a.pos)).sum = 0 :=
        (Pos.sumSq_diff_eq_zero a.pos a.pos rfl).2 rfl
      rw [this, Real.sqrt_zero]
    rw [this]; exact h0.le
  obtain ⟨k1, -, k3⟩ := searchLoop_safe tick
    (expStep rng (s.ops rng) (BulkTarget.new centre r).ops limit fuel) (BallRun R d v.length)
    (fun st st' => ∀ (i : Nat) (a a' : ExpAgent ℝ), st.list.contents[i]? = some a →
      st'.list.contents[i]? = some a' → radius (List.zipWith (· - ·) a'.pos a.pos) ≤ limit)
    (fun st i a a' ha ha' => by
      rw [ha] at ha'
      simp only [Option.some.injEq] at ha'
      subst ha'
      exact hself a)
    (fun dt st h => expStep_ball rng R d s hnew centre hc r limit dt h0 h2 v.length fuel hf st h) htick steps c
    ⟨from' v, g, disp, from' w⟩ (ball_start R d v w disp hv hw hlen hd g)
  exact ⟨k1, k3⟩

private theorem fresh_sorted {clock : ExpStep ℝ} (hfresh : clock.Fresh) {dtMin dtMax : ℝ} {len : Nat}
    (hty : clock.titype = .exponential dtMin dtMax len) : dtMin ≤ dtMax ∧ 0 < len := by
  induction hfresh with
  | @new a b l c hc =>
    unfold ExpStep.new at hc; split at hc <;> simp at hc
    rename_i hlt
    simp only [fl_lt, Bool.or_eq_true, decide_eq_true_eq, not_or, not_lt, beq_iff_eq] at hlt
    rw [← hc] at hty
    simp only [TimeType.exponential.injEq] at hty
    obtain ⟨rfl, rfl, rfl⟩ := hty
    exact ⟨hlt.1.2, by omega⟩
  | @convert a b l tmax c hc =>
    unfold ExpStep.convertFrom at hc; split at hc <;> simp at hc
    rename_i hlt
    simp only [fl_lt, Bool.or_eq_true, decide_eq_true_eq, not_or, not_lt] at hlt
    rw [← hc] at hty
    simp only [TimeType.exponential.injEq] at hty
    obtain ⟨rfl, rfl, rfl⟩ := hty
    exact ⟨hlt.1.2, by omega⟩
  | setTmax t _ ih =>
    apply ih
    unfold ExpStep.setTmax at hty; split at hty; · exact hty
    split at hty <;> exact hty
  | setInc x _ ih =>
    apply ih
    unfold ExpStep.setInc at hty; split at hty; · exact hty
    split at hty
    · split at hty <;> exact hty
    · exact hty

/-- The whole search of examples/mfpt_exp.rs for one ensemble, with the library's exponential clock (any clock
with positive first step, growth ratio at least 1 and limit `tmax ≥ 0`), exact arithmetic: it always ends with a
number `x` in `[0, tmax]`; `x` is positive exactly if the target was found.  So the exported 0 means that the
clock ended before anything was found. -/
theorem C58_ball_exports (rng : RngOps G ℝ) (R : ℝ) (d : Nat) (s : Circ ℝ) (hnew : Circ.new R d = .ok s)
    (centre : Pos ℝ) (hc : centre.length = d) (r limit : ℝ) (h0 : 0 < limit) (h2 : limit ≤ 2 * R)
    (v : List (ExpAgent ℝ)) (w : List (Pos ℝ)) (disp : Pos ℝ)
    (hv : ∀ a ∈ v, a.expDim = d ∧ a.pos.length = d ∧ radius a.pos ≤ R ∧ ∃ D, a.mtype = .brownian D)
    (hoff : ∀ a ∈ v, (BulkTarget.new centre r).checkFind a.pos = .ok false)
    (hw : ∀ p ∈ w, p.length = d) (hlen : w.length = v.length) (hd : disp.length = d) (g : G)
    (clock : ExpStep ℝ) (hfresh : clock.Fresh) (hinc : 1 ≤ clock.inc) (dtMin dtMax : ℝ) (len : Nat)
    (hty : clock.titype = .exponential dtMin dtMax len) (hmin : 0 < dtMin) (htm : 0 ≤ clock.tmax)
    (fuel : Nat) (hf : v.length * v.length + v.length + v.length < fuel) (steps : Nat)
    (hsteps : clock.tmax / dtMin < steps) :
    let out := expFpt rng (s.ops rng) (BulkTarget.new centre r).ops limit fuel steps clock
      ⟨from' v, g, disp, from' w⟩
    ∃ x, out.2 = some (.ok x) ∧ 0 ≤ x ∧ x ≤ clock.tmax ∧
      (0 < x → ∃ a ∈ liveAgents out.1.2.list, (BulkTarget.new centre r).checkFind a.pos = .ok true) ∧
      (x = 0 → ∀ a ∈ liveAgents out.1.2.list, (BulkTarget.new centre r).checkFind a.pos = .ok false) := by
  intro out
  set tk := TimeDiff.next (F := ℝ) ExpStep.next (fun c => c.dt) with htk
  set stp := expStep rng (s.ops rng) (BulkTarget.new centre r).ops limit fuel with hstp
  set st0 : ExpSim G ℝ := ⟨from' v, g, disp, from' w⟩ with hst0
  set run := searchLoop (skipOne tk) stp steps (false, intoDiff clock) st0 with hrun
  have hsch := C13_schedule clock hfresh hinc dtMin dtMax len hty
  have hab := fresh_sorted hfresh hty
  have hge : ∀ n, n * dtMin ≤ expTime dtMin dtMax clock.inc len n :=
    fun n => expTime_ge dtMin dtMax clock.inc len hmin.le hinc hab.1 n
  have hfirst : output tk 0 (intoDiff clock) = .ok (some (expTime dtMin dtMax clock.inc len 0,
      expStepSize dtMin dtMax clock.inc len 0)) := by
    have := hsch 0
    rw [if_pos (by simpa [expTime] using htm)] at this
    exact this
  have hout : ∀ k, output (skipOne tk) k (false, intoDiff clock) =
      .ok (if expTime dtMin dtMax clock.inc len (k + 1) ≤ clock.tmax then
        some (expTime dtMin dtMax clock.inc len (k + 1), expStepSize dtMin dtMax clock.inc len (k + 1)) else none) := by
    intro k
    rw [skipOne_output tk (intoDiff clock) k _ hfirst]
    exact hsch (k + 1)
  have hstart : BallRun R d v.length st0 := ball_start R d v w disp hv hw hlen hd g
  have hsafe := fun dt st h => expStep_ball rng R d s hnew centre hc r limit dt h0 h2 v.length fuel hf st h
  -- the clock of the program, restricted to the states it goes through
  have hclk := fun n => searchLoop_clock (skipOne tk) stp (BallRun R d v.length)
    (fun dt st h => ⟨(hsafe dt st h).1, (hsafe dt st h).2.1⟩) n (false, intoDiff clock) st0 hstart
  -- the loop ends
  have hne : run.2 ≠ none := by
    intro hn
    obtain ⟨-, hk⟩ := hclk steps hn
    have hpos : 0 < steps := by
      rcases Nat.eq_zero_or_pos steps with h | h
      · rw [h] at hsteps
        have : 0 ≤ clock.tmax / dtMin := div_nonneg htm hmin.le
        simp at hsteps; linarith
      · exact h
    obtain ⟨x, hx⟩ := hk (steps - 1) (by omega)
    rw [hout, if_neg] at hx
    · simp at hx
    · rw [not_le]
      rw [div_lt_iff₀ hmin] at hsteps
      have := hge (steps - 1 + 1)
      rw [Nat.sub_add_cancel hpos] at this ⊢
      linarith
  -- the ticks it uses do not fail, so it does not fail
  have hnf : ∃ o, run.2 = some (.ok o) := by
    have gen : ∀ n (c : Bool × TimeDiff (ExpStep ℝ)) (st : ExpSim G ℝ), BallRun R d v.length st →
        (∀ k, ∃ o, output (skipOne tk) k c = .ok o) →
        (searchLoop (skipOne tk) stp n c st).2 = none ∨ ∃ o, (searchLoop (skipOne tk) stp n c st).2 = some (.ok o) := by
      intro n
      induction n with
      | zero => intro c st _ _; exact .inl rfl
      | succ n ih =>
        intro c st hI ho
        rw [searchLoop]
        obtain ⟨o, ho0⟩ := ho 0
        have ho0' : (skipOne tk c).2 = .ok o := ho0
        rcases hcc : skipOne tk c with ⟨c1, rr⟩
        rw [hcc] at ho0'
        simp only at ho0'
        subst ho0'
        rcases o with _ | ⟨t, dt⟩
        · exact .inr ⟨none, rfl⟩
        · simp only
          obtain ⟨⟨b, hb⟩, hI', -⟩ := hsafe dt st hI
          rcases hs : stp dt st with ⟨s1, o⟩
          rw [← hstp, hs] at hb hI'
          simp only at hb hI'
          subst hb
          cases b with
          | true => exact .inr ⟨some t, rfl⟩
          | false =>
            refine ih c1 s1 hI' ?_
            intro k
            obtain ⟨o, ho1⟩ := ho (k + 1)
            refine ⟨o, ?_⟩
            unfold output at ho1 ⊢
            rwa [stateAfter, hcc] at ho1
    rcases gen steps (false, intoDiff clock) st0 hstart (fun k => ⟨_, hout k⟩) with h | h
    · exact absurd h hne
    · exact h
  obtain ⟨o, ho⟩ := hnf
  have hsays := C58_interacting rng (s.ops rng) (.inr (.inl ⟨s, rfl⟩)) (BulkTarget.new centre r).ops limit v w disp
    (by
      intro a ha
      obtain ⟨-, e2, e3, -⟩ := hv a ha
      show s.checkInclusion a.pos = .ok true
      unfold Circ.new at hnew
      split at hnew
      · simp at hnew
      · simp only [Res.ok.injEq] at hnew
        subst hnew
        rcases Circ.checkInclusion_cases (⟨.continuousCircular, .reflection, R, d⟩ : Circ ℝ) a.pos with ⟨h, _⟩ | ⟨_, e⟩
        · exact absurd e2.symm h
        · rw [e, norm_eq_radius]; simp [e3])
    (skipOne tk) (false, intoDiff clock) g fuel (by rw [hlen]; exact hf)
  have hoe : out.2 = some (.ok (o.getD 0)) := by
    show (run.2.map fun x => x.map fun o => o.getD Fl.zero) = _
    rw [ho]
    simp [Res.map]
  cases o with
  | none =>
    refine ⟨0, by rw [hoe]; rfl, le_refl _, htm, fun h => absurd h (lt_irrefl _), fun _ => ?_⟩
    -- after the last step nothing was found
    have gen : ∀ n (c : Bool × TimeDiff (ExpStep ℝ)) (st : ExpSim G ℝ), BallRun R d v.length st →
        (∀ a ∈ liveAgents st.list, (BulkTarget.new centre r).checkFind a.pos = .ok false) →
        (searchLoop (skipOne tk) stp n c st).2 = some (.ok none) →
        ∀ a ∈ liveAgents (searchLoop (skipOne tk) stp n c st).1.2.list,
          (BulkTarget.new centre r).checkFind a.pos = .ok false := by
      intro n
      induction n with
      | zero => intro c st _ _ h; simp [searchLoop] at h
      | succ n ih =>
        intro c st hI hq h
        rw [searchLoop] at h ⊢
        rcases hcc : skipOne tk c with ⟨c1, (_ | ⟨t, dt⟩) | e | _⟩
        · simp only; exact hq
        · rw [hcc] at h
          simp only at h ⊢
          obtain ⟨⟨b, hb⟩, hI', -⟩ := hsafe dt st hI
          have hfalse : (stp dt st).2 = some (.ok false) →
              ∀ a ∈ liveAgents (stp dt st).1.list, (BulkTarget.new centre r).checkFind a.pos = .ok false := by
            intro hsf
            obtain ⟨-, ss, hr', hl', hb', hbo', hag'⟩ := hI
            exact ((expStep_says (.inr (.inl ⟨s, rfl⟩)) (BulkTarget.new centre r).ops limit fuel dt v.length v.length
              hf st ⟨ss, hr', hl', hb', by
                intro i hi a ha
                obtain ⟨a', ha', -, e2, e3, -⟩ := hag' i hi
                rw [ha'] at ha
                simp only [Option.some.injEq] at ha
                subst ha
                show s.checkInclusion a'.pos = .ok true
                unfold Circ.new at hnew
                split at hnew
                · simp at hnew
                · simp only [Res.ok.injEq] at hnew
                  subst hnew
                  rcases Circ.checkInclusion_cases (⟨.continuousCircular, .reflection, R, d⟩ : Circ ℝ) a'.pos with
                    ⟨h, _⟩ | ⟨_, e⟩
                  · exact absurd e2.symm h
                  · rw [e, norm_eq_radius]; simp [e3]⟩).1 hsf).2
          rcases hs : stp dt st with ⟨s1, o⟩
          rw [hs] at h hfalse
          rw [← hstp, hs] at hb hI'
          simp only at hb hI' h hfalse ⊢
          subst hb
          cases b with
          | true => simp at h
          | false => exact ih c1 s1 hI' (hfalse rfl) h
        · rw [hcc] at h; simp at h
        · rw [hcc] at h; simp at h
    refine gen steps _ st0 hstart ?_ ho
    intro a ha
    rw [mem_liveAgents (rep_from v)] at ha
    obtain ⟨i, -, hia⟩ := ha
    exact hoff a (List.mem_of_getElem? hia)
  | some t =>
    obtain ⟨k, dt, k1, k2, k3, -, -⟩ := searchLoop_found (skipOne tk) stp steps _ _ t ho
    have hst := (hclk k (k2 k (le_refl k))).1
    have hk := hout k
    unfold output at hk
    rw [← hst, k3] at hk
    simp only [Res.ok.injEq] at hk
    by_cases hle : expTime dtMin dtMax clock.inc len (k + 1) ≤ clock.tmax
    · rw [if_pos hle] at hk
      simp only [Option.some.injEq, Prod.mk.injEq] at hk
      have hpos : 0 < t := by
        rw [hk.1]
        refine lt_of_lt_of_le ?_ (hge (k + 1))
        positivity
      refine ⟨t, by rw [hoe]; rfl, hpos.le, by rw [hk.1]; exact hle, fun _ => ?_, fun h => absurd h hpos.ne'⟩
      exact ((hsays steps).2.1 t ho).1
    · rw [if_neg hle] at hk
      simp at hk

/-- the hypotheses of the two theorems about the ball can be met: a ball of radius 2, two agents at 1 and -1, a
target of radius 1/2 around 0, limit 1/20, a clock with first step 1/10 and limit 3. -/
example : ∃ (s : Circ ℝ) (v : List (ExpAgent ℝ)) (clock : ExpStep ℝ),
    Circ.new 2 1 = .ok s ∧ v.length = 2 ∧
    (∀ a ∈ v, a.expDim = 1 ∧ a.pos.length = 1 ∧ radius a.pos ≤ 2 ∧ ∃ D, a.mtype = .brownian D) ∧
    (∀ a ∈ v, (BulkTarget.new [0] (1 / 2 : ℝ)).checkFind a.pos = .ok false) ∧
    clock.Fresh ∧ 1 ≤ clock.inc ∧ clock.titype = .exponential (1 / 10) 1 10 ∧ clock.tmax = 3 := by
  have hr : ∀ x : ℝ, radius [x] = |x| := by intro x; simp [radius, Real.sqrt_sq_eq_abs]
  have hfind : ∀ x : ℝ, 1 / 2 ≤ |x| → (BulkTarget.new [0] (1 / 2 : ℝ)).checkFind [x] = .ok false := by
    intro x hx
    obtain ⟨b, hb, hi⟩ := C33_open_ball [0] [x] (1 / 2) rfl
    rw [hb]
    cases b with
    | false => rfl
    | true =>
      have := hi.1 rfl
      simp only [List.zipWith, sub_zero, hr] at this
      linarith
  obtain ⟨c, hcl⟩ : ∃ c : ExpStep ℝ, ExpStep.new (1 / 10) 1 10 = .ok c :=
    (C17_constructors (F := ℝ) 0 0 (1 / 10) 1 10).2.2.2.1.2 (by simp only [fl_lt, fl_lit]; push_cast; norm_num)
  obtain ⟨h1, h2, -⟩ := C13_new_ratio _ _ _ c hcl
  have hset : (c.setTmax 3).1 = { c with tmax := 3 } := by
    rw [(C17_set_tmax_effect (⟨.constant 0, 0, 0, 0⟩ : ConstStep ℝ) c 3 (by simp)).2, if_neg]
    simp only [fl_lt, fl_lit, decide_eq_true_eq, not_lt]; push_cast; norm_num
  refine ⟨⟨.continuousCircular, .reflection, 2, 1⟩,
    [⟨.continuousPassiveInteracting, .exponential 1 1, .brownian 1, .uniform, 1, [1], 1, 1, 1, 1⟩,
     ⟨.continuousPassiveInteracting, .exponential 1 1, .brownian 1, .uniform, 1, [-1], 1, 1, 1, 1⟩],
    (c.setTmax 3).1, by simp [Circ.new], rfl, ?_, ?_, .setTmax 3 (.new hcl), by rw [hset]; exact h1,
    by rw [hset]; exact h2, by rw [hset]⟩
  · intro a ha
    simp only [List.mem_cons, List.not_mem_nil, or_false] at ha
    rcases ha with rfl | rfl
    · exact ⟨rfl, rfl, by simp only [hr]; norm_num, 1, rfl⟩
    · exact ⟨rfl, rfl, by simp only [hr]; norm_num, 1, rfl⟩
  · intro a ha
    simp only [List.mem_cons, List.not_mem_nil, or_false] at ha
    rcases ha with rfl | rfl
    · exact hfind 1 (by norm_num)
    · exact hfind (-1) (by norm_num)

end Moledyn.Props
