import Verif.Lemmas.BallWord
import Verif.Lemmas.CylWord
import Verif.Lemmas.MergeTurns
import Verif.Props.Walls
/-
Merging searchers find the target when the numbers drawn push them in the right directions: in a ball up, down and up along the
right axis, in a cube into the corner and from there along a line that comes near every point, in a cylinder to the wall and back.
-/
namespace Moledyn
open LList MeasureTheory
open Props (ballSet cubeSet cylSet)
set_option linter.unusedSectionVars false

section
variable {S α : Type}

theorem agentSweep_more (act : Nat → S → α → (α × Res Bool) × S) (n : Nat) : ∀ (l : LList α) (s : S) {r},
    (agentSweep act n l s).2 = some r → agentSweep act (n + 1) l s = agentSweep act n l s := by
  induction n with
  | zero => intro l s r h; simp [agentSweep] at h
  | succ n ih =>
    intro l s r h
    unfold agentSweep at h ⊢
    generalize l.enumerateMut (fun a => (act (l.c0.getD 0) s a).1.1) = x at h ⊢
    rcases x with ⟨l1, (_ | ⟨i, a⟩) | e | _⟩
    · rfl
    · simp only at h ⊢
      cases hb : (act i s a).1.2 with
      | err e => rfl
      | panic => rfl
      | ok b =>
        cases b with
        | true => rfl
        | false =>
          rw [hb] at h
          exact ih _ _ h
    · rfl
    · rfl

theorem pairSweep_more (act : Nat → α → Nat → α → LList α → S → (LList α × S) × Res Unit) (n : Nat) : ∀ (l : LList α) (s : S) {r},
    (pairSweep act n l s).2 = some r → pairSweep act (n + 1) l s = pairSweep act n l s := by
  induction n with
  | zero => intro l s r h; simp [pairSweep] at h
  | succ n ih =>
    intro l s r h
    unfold pairSweep at h ⊢
    generalize l.enumerateDouble = x at h ⊢
    rcases x with ⟨l1, (_ | ⟨i, a, j, b⟩) | e | _⟩
    · rfl
    · simp only at h ⊢
      rcases hb : act i a j b l1 s with ⟨q, _ | e | _⟩
      · rw [hb] at h
        exact ih _ _ h
      · rfl
      · rfl
    · rfl
    · rfl
end

theorem mergeStep_more {G F : Type} [Fl F] (rng : RngOps G F) (sys : SysOps G F) (target : TargetOps F) (rad : MergeAgent F → F) (fuel : Nat)
    (dt : F) (st : MergeSim G F) {r} (h : (mergeStep rng sys target rad fuel dt st).2 = some r) :
    mergeStep rng sys target rad (fuel + 1) dt st = mergeStep rng sys target rad fuel dt st := by
  have h1 := fun r => agentSweep_more (r := r) (walkAct (MergeAgent.walker rng) sys target dt) fuel st.list.intoIter st.rng
  unfold mergeStep at h ⊢
  rcases hs : agentSweep (walkAct (MergeAgent.walker rng) sys target dt) fuel st.list.intoIter st.rng with ⟨⟨l1, g1⟩, _ | (_ | _) | e | _⟩
  · rw [hs] at h; simp at h
  · rw [hs] at h1 h
    rw [h1 _ rfl]
    simp only at h ⊢
    generalize l1.intoDoubleIter = x at h ⊢
    rcases x with ⟨l2, _ | e | _⟩
    · simp only at h ⊢
      have h2 := fun r => pairSweep_more (r := r) (mergeAct rad) fuel l2 st.merges
      rcases hp : pairSweep (mergeAct rad) fuel l2 st.merges with ⟨⟨l3, ms⟩, _ | _ | e | _⟩
      · rw [hp] at h; simp at h
      all_goals
        rw [hp] at h2
        rw [h2 _ rfl]
    · rfl
    · rfl
  all_goals
    rw [hs] at h1
    rw [h1 _ rfl]

theorem mergeStep_le {G F : Type} [Fl F] (rng : RngOps G F) (sys : SysOps G F) (target : TargetOps F) (rad : MergeAgent F → F) {fuel : Nat}
    (dt : F) (st : MergeSim G F) {r} (h : (mergeStep rng sys target rad fuel dt st).2 = some r) {fuel' : Nat} (hf : fuel ≤ fuel') :
    mergeStep rng sys target rad fuel' dt st = mergeStep rng sys target rad fuel dt st := by
  induction fuel', hf using Nat.le_induction with
  | base => rfl
  | succ k _ ih => rw [mergeStep_more (r := r) _ _ _ _ _ _ _ (by rw [ih]; exact h), ih]

/-- a search whose step says at the first `m` turns that nothing was found, and then that the target was found. -/
theorem searchLoop_turns {C S : Type} (tick : C → C × Res (Option (ℝ × ℝ))) (step : ℝ → S → S × Option (Res Bool)) (m : ℕ) :
    ∀ (c : C) (time dt : ℕ → ℝ) (st : ℕ → S) (steps : ℕ), m < steps → (∀ j ≤ m, output tick j c = .ok (some (time j, dt j))) →
    (∀ j < m, step (dt j) (st j) = (st (j + 1), some (.ok false))) → (step (dt m) (st m)).2 = some (.ok true) →
    searchLoop tick step steps c (st 0) = ((stateAfter tick (m + 1) c, (step (dt m) (st m)).1), some (.ok (some (time m)))) := by
  induction m with
  | zero =>
    intro c time dt st steps hs ho _ h
    obtain ⟨k, rfl⟩ : ∃ k, steps = k + 1 := ⟨steps - 1, by omega⟩
    have h0 : (tick c).2 = _ := ho 0 le_rfl
    have e1 : tick c = ((tick c).1, .ok (some (time 0, dt 0))) := Prod.ext rfl h0
    have e2 : step (dt 0) (st 0) = ((step (dt 0) (st 0)).1, some (.ok true)) := Prod.ext rfl h
    rw [searchLoop, e1]
    simp only
    rw [e2]
    simp only [stateAfter]
  | succ m ih =>
    intro c time dt st steps hs ho h0 h
    obtain ⟨k, rfl⟩ : ∃ k, steps = k + 1 := ⟨steps - 1, by omega⟩
    have hc : (tick c).2 = _ := ho 0 (by omega)
    have e1 : tick c = ((tick c).1, .ok (some (time 0, dt 0))) := Prod.ext rfl hc
    have := ih (tick c).1 (fun j => time (j + 1)) (fun j => dt (j + 1)) (fun j => st (j + 1)) k (by omega)
      (fun j hj => ho (j + 1) (by omega)) (fun j hj => h0 (j + 1) (by omega)) h
    rw [searchLoop, e1]
    simp only
    rw [h0 0 (by omega)]
    simp only
    exact this

theorem countingTick_output (dt : ℝ) (j : ℕ) : ∀ c : ℝ, output (countingTick dt) j c = .ok (some (c + ((j + 1 : ℕ) : ℝ) * dt, dt)) := by
  induction j with
  | zero => intro c; simp [output, stateAfter, countingTick]
  | succ j ih =>
    intro c
    have e : output (countingTick dt) (j + 1) c = output (countingTick dt) j (c + dt) := rfl
    rw [e, ih]
    congr 3
    push_cast
    ring

variable {G : Type} [MeasurableSpace G] {rng : RngOps G ℝ} {d : Nat}

/-- the sets of draws that are near the numbers `m 0, m 1, …`. -/
def nearWord (m : ℕ → Fin d → ℝ) (ρ : ℝ) (k : ℕ) : Set (Fin d → ℝ) := {z | ∀ i, |z i - m k i| < ρ}

theorem slowed_bounds {D alpha Dmax : ℝ} (hD : 0 < D) {n : ℕ} (hn : 0 < n) (h1 : D ≤ Dmax) (h2 : ∀ m : ℕ, 1 ≤ m → m ≤ n → (m : ℝ) ^ (-alpha) ≤ Dmax) :
    ∃ Dmin > 0, ∀ c, Slowed D alpha n c → Dmin ≤ c ∧ c ≤ Dmax := by
  have hn' : (1 : ℝ) ≤ n := by exact_mod_cast hn
  refine ⟨min D (min 1 ((n : ℝ) ^ (-alpha))), by positivity, ?_⟩
  rintro c (rfl | ⟨m, hm1, hmn, rfl⟩)
  · exact ⟨min_le_left _ _, h1⟩
  · refine ⟨?_, h2 m hm1 hmn⟩
    have hm1' : (1 : ℝ) ≤ m := by exact_mod_cast hm1
    have hmn' : (m : ℝ) ≤ n := by exact_mod_cast hmn
    rcases le_total 0 alpha with ha | ha
    · refine (min_le_right _ _).trans ((min_le_right _ _).trans ?_)
      exact Real.rpow_le_rpow_of_nonpos (by linarith) hmn' (by linarith)
    · refine (min_le_right _ _).trans ((min_le_left _ _).trans ?_)
      exact Real.one_le_rpow hm1' (by linarith)

/-- There is a sequence of draws such that every walker in the room which uses numbers near some of them, not too far apart,
comes near the point `c`, whatever the lengths of its steps. -/
def Guides (S : Set (Fin d → ℝ)) (put : (Fin d → ℝ) → Fin d → ℝ) (c : Fin d → ℝ) (ε : ℝ) : Prop :=
  ∀ σ0 σ1 A : ℝ, 0 < σ0 → σ0 ≤ σ1 → 0 < A → ∀ N : ℕ, 0 < N →
    ∃ (L : ℕ) (m : ℕ → Fin d → ℝ) (ρ : ℝ), 0 < L ∧ 0 < ρ ∧ (∀ k i, |m k i| ≤ A) ∧
      ∀ (x z : ℕ → Fin d → ℝ) (σ : ℕ → ℝ) (k : ℕ → ℕ), x 0 ∈ S → k 0 ≤ N → (∀ t, k t < k (t + 1) ∧ k (t + 1) ≤ k t + N) →
        (∀ t < L, σ0 ≤ σ t ∧ σ t ≤ σ1 ∧ x (t + 1) = put (x t + fun i => z t i * σ t)) →
        (∀ t, k t < L → ∀ i, |z t i - m (k t) i| < ρ) → ∃ t < L, x (t + 1) ∈ nearSet c ε

/-- a room `S` in which merging searchers, who start in `Q`, find the target `T`: steps of at most `step` in every direction are
never too large, and a place in the target can be reached from everywhere. -/
structure MergeRoom (rng : RngOps G ℝ) (sys : SysOps G ℝ) (Q S : Set (Fin d → ℝ)) (put : (Fin d → ℝ) → Fin d → ℝ) (T : Set (Fin d → ℝ)) (step : ℝ) :
    Prop where
  library : LibrarySystem rng sys
  walls : Walls sys S put
  within : S ⊆ Q
  safe : ∀ x ∈ Q, ∀ z : Fin d → ℝ, (∀ i, |z i| ≤ step) → put (x + z) ∈ S
  leads : ∃ c ε, nearSet c ε ⊆ T ∧ Guides Q put c ε

theorem ball_mergeRoom {s : Circ ℝ} {R : ℝ} (hR : 0 < R) (hd : 0 < d) (w : Walls (s.ops rng) (ballSet d R) (ballPut R)) {T : Set (Fin d → ℝ)}
    (hin : ∃ c ε, 0 < ε ∧ nearSet c ε ⊆ ballSet d R ∩ T) {step : ℝ} (hstep : step ≤ 2 * R / Real.sqrt d) :
    MergeRoom rng (s.ops rng) (ballSet d R) (ballSet d R) (ballPut R) T step where
  library := .inr (.inl ⟨s, rfl⟩)
  walls := w
  within := subset_rfl
  safe x hx z hz := (Props.C77_safe_steps d x z).2.1 R hR hd (.inl hx) fun i => (hz i).trans hstep
  leads := by
    obtain ⟨c, ε, hε, hin⟩ := hin
    exact ⟨c, ε, fun x hx => (hin hx).2, fun σ0 σ1 A h0 h1 hA N hN => BallSweep.ball_word hd hR hε (fun x hx => (hin hx).1) h0 h1 hA hN⟩

theorem cube_mergeRoom {s : Cubic ℝ} {bc : BoundaryCond} {L : ℝ} (hL : 0 < L) (w : Walls (s.ops rng) (cubeSet d L) (cubePut bc L)) {T : Set (Fin d → ℝ)}
    (hin : ∃ c ε, 0 < ε ∧ nearSet c ε ⊆ cubeSet d L ∩ T) {step : ℝ} (hstep : step ≤ 2 * L) :
    MergeRoom rng (s.ops rng) (cubeSet d L) (cubeSet d L) (cubePut bc L) T step where
  library := .inl ⟨s, rfl⟩
  walls := w
  within := subset_rfl
  safe x hx z hz := (Props.C77_safe_steps d x z).1 bc L hL (.inl hx) fun i => (hz i).trans hstep
  leads := by
    obtain ⟨c, ε, hε, hin⟩ := hin
    exact ⟨c, ε, fun x hx => (hin hx).2, fun σ0 σ1 A h0 h1 hA N hN => CubeSweep.cube_word bc hL hε (fun x hx => (hin hx).1) h0 h1 hA hN⟩

theorem cyl_mergeRoom {s : Cyl ℝ} {k : Nat} {R L : ℝ} (hR : 0 < R) (hL : 0 < L) (hk : k ≤ d) (w : Walls (s.ops rng) (cylSet d k R L) (cylPut k R L))
    {T : Set (Fin d → ℝ)} (hin : ∃ c ε, 0 < ε ∧ nearSet c ε ⊆ cylSet d k R L ∩ T) {step : ℝ} (hstep0 : 0 ≤ step) (hstep : step ≤ L)
    (hstep' : step * Real.sqrt k ≤ 2 * R) :
    MergeRoom rng (s.ops rng) (cylSet d k R (2 * L)) (cylSet d k R L) (cylPut k R L) T step where
  library := .inr (.inr ⟨s, rfl⟩)
  walls := w
  within x hx := ⟨hx.1, fun i hi => (hx.2 i hi).trans (by linarith)⟩
  safe x hx z hz := (Props.C77_safe_steps d x z).2.2 k R L step hR hL hstep0 hstep hstep' (.inl hx) hz
  leads := by
    obtain ⟨c, ε, hε, hin⟩ := hin
    exact ⟨c, ε, fun x hx => (hin hx).2, fun σ0 σ1 A h0 h1 hA N hN => CylSweep.cyl_word hk hR hL hε (fun x hx => (hin hx).1) h0 h1 hA hN⟩

/-- Whatever the state of the searchers: if the numbers drawn are bounded, and a block of them follows the word, the target is
found before the block ends.  The time steps may differ, between `dt0` and `dt1`. -/
theorem merge_finds {sys : SysOps G ℝ} {Q S : Set (Fin d → ℝ)} {put : (Fin d → ℝ) → Fin d → ℝ} (c : Fin d → ℝ)
    (t : BulkTarget ℝ) (ht : t.targetPos = List.ofFn c)
    {n : ℕ} (hn : 0 < n) {D Dmax alpha dt0 dt1 b : ℝ} (hD : 0 < D) (hdt0 : 0 < dt0) (hdt01 : dt0 ≤ dt1) (h1 : D ≤ Dmax)
    (h2 : ∀ m : ℕ, 1 ≤ m → m ≤ n → (m : ℝ) ^ (-alpha) ≤ Dmax) (hroom : MergeRoom rng sys Q S put (nearSet c t.targetSize) (b * Real.sqrt (2 * Dmax * dt1)))
    (hb0 : 0 ≤ b) {A : ℝ} (hA : 0 < A) :
    ∃ (L : ℕ) (m : ℕ → Fin d → ℝ) (ρ : ℝ), 0 < L ∧ 0 < ρ ∧ (∀ k i, |m k i| ≤ A) ∧
      ∀ {rad : MergeAgent ℝ → ℝ}, LibraryRadius rad → ∀ {fuel : ℕ}, n * n < fuel → ∀ {dt : ℕ → ℝ}, (∀ m, dt0 ≤ dt m ∧ dt m ≤ dt1) →
      ∀ {st : ℕ → MergeSim G ℝ}, (∀ m, st (m + 1) = (mergeStep rng sys t.ops rad fuel (dt m) (st m)).1) →
      Merging Q D alpha n (st 0) →
      (∀ k i, |(drawsN rng.gaussian d (later (drawsN rng.gaussian d) k (st 0).rng)).1 i| ≤ b) →
      ∀ B, FollowsWord (drawsN rng.gaussian d) (nearWord m ρ) L (later (drawsN rng.gaussian d) (B * L) (st 0).rng) →
      ∃ m < (B + 1) * L,
        (∀ j < m, (mergeStep rng sys t.ops rad fuel (dt j) (st j)).2 = some (.ok false)) ∧
        (mergeStep rng sys t.ops rad fuel (dt m) (st m)).2 = some (.ok true) ∧
        ∃ j, (mergeStep rng sys t.ops rad fuel (dt m) (st m)).1.rng = later (drawsN rng.gaussian d) j (st 0).rng := by
  obtain ⟨Dmin, hmin, hslow⟩ := slowed_bounds (alpha := alpha) hD hn h1 h2
  have hDm : Dmin ≤ Dmax := (hslow D (.inl rfl)).1.trans h1
  have hDm0 : 0 < Dmax := hD.trans_le h1
  have hdt1 := hdt0.trans_le hdt01
  have hsq : ∀ {c x : ℝ}, Slowed D alpha n c → dt0 ≤ x → x ≤ dt1 → Real.sqrt (2 * Dmin * dt0) ≤ Real.sqrt (2 * c * x) ∧
      Real.sqrt (2 * c * x) ≤ Real.sqrt (2 * Dmax * dt1) := by
    intro c x hc hx hx'
    obtain ⟨c1, c2⟩ := hslow c hc
    have hc0 : 0 < c := hmin.trans_le c1
    have hx0 : 0 < x := hdt0.trans_le hx
    exact ⟨Real.sqrt_le_sqrt (by gcongr), Real.sqrt_le_sqrt (by gcongr)⟩
  obtain ⟨cg, ε, hin, hguide⟩ := hroom.leads
  obtain ⟨L, m, ρ, hL, hρ, hm, hword⟩ := hguide (Real.sqrt (2 * Dmin * dt0)) (Real.sqrt (2 * Dmax * dt1)) A (Real.sqrt_pos.2 (by positivity))
    (Real.sqrt_le_sqrt (by gcongr)) hA (2 * n) (by omega)
  refine ⟨L, m, ρ, hL, hρ, hm, ?_⟩
  intro rad hrad fuel hfuel dt hdt st hsucc hst hZ B hfol
  set q := drawsN rng.gaussian d with hq
  have hsafe : ∀ m, ∀ x ∈ Q, ∀ z ∈ {z : Fin d → ℝ | ∀ i, |z i| ≤ b}, ∀ c, Slowed D alpha n c →
      put (x + fun i => z i * Real.sqrt (2 * c * dt m)) ∈ S := by
    intro m x hx z hz c hc
    refine hroom.safe x hx _ fun i => ?_
    rw [abs_mul, abs_of_nonneg (Real.sqrt_nonneg _)]
    exact mul_le_mul (hz i) (hsq hc (hdt m).1 (hdt m).2).2 (Real.sqrt_nonneg _) hb0
  rcases merge_track hroom.library hroom.walls hroom.within c t ht hrad hfuel hn hsucc hst _ hsafe hZ ((B + 1) * L) with h | ⟨x, c'', k, hx0, hk0, hk, hx⟩
  · exact h
  · exfalso
    have hT : (B + 1) * L = B * L + L := by ring
    obtain ⟨t₀, -, b2, b3, b4⟩ := BallSweep.first_past hk0 hk (B * L)
    obtain ⟨u, hu, hnear⟩ := hword (fun u => x (t₀ + u)) (fun u => (q (later q (k (t₀ + u)) (st 0).rng)).1)
      (fun u => Real.sqrt (2 * c'' (t₀ + u) * dt (t₀ + u))) (fun u => k (t₀ + u) - B * L) (hx t₀ (by omega)).2.1 (by simp only [Nat.add_zero]; omega)
      (fun u => by
        have e1 := b2 (t₀ + u) (by omega)
        have e2 := hk (t₀ + u)
        simp only [← Nat.add_assoc]
        omega)
      (fun u hu => by
        obtain ⟨e1, -, e3, -⟩ := hx (t₀ + u) (by omega)
        obtain ⟨e4, e5⟩ := hsq e1 (hdt (t₀ + u)).1 (hdt (t₀ + u)).2
        exact ⟨e4, e5, e3⟩)
      (fun u hu => by
        have h := hfol _ hu
        rw [← later_add, Nat.add_sub_cancel' (b2 (t₀ + u) (by omega))] at h
        exact h)
    exact (hx (t₀ + u) (by omega)).2.2.2 (hin hnear)

/-- `n` new merging searchers. -/
theorem merging_start {S : Set (Fin d → ℝ)} {D alpha : ℝ} {v : List (MergeAgent ℝ)} {n : ℕ} (hn : v.length = n)
    (hv : ∀ a ∈ v, Merger S D alpha a ∧ a.size = 1) (g : G) (ms : List (Nat × Nat)) : Merging S D alpha n ⟨LList.from' v, g, ms⟩ := by
  have hrep := rep_from v
  refine ⟨⟨⟨_, hrep⟩, fun a ha => (hv a ha).1⟩, hn, ?_⟩
  show totalSize MergeAgent.mergeOps (from' v) (liveSlots (from' v)) = n
  rw [liveSlots_rep hrep]
  have e : ∀ i ∈ (Slots.ofContents v).live, (fun i => ((from' v).contents[i]?.map MergeAgent.mergeOps.size).getD 0) i = 1 := by
    intro i hi
    have hi' : i < v.length := by simpa [Slots.ofContents] using hi
    have e1 : (from' v).contents[i]? = some v[i] := by simp [from', List.getElem?_eq_getElem hi']
    simp only [e1, Option.map_some, Option.getD_some]
    exact (hv _ (List.getElem_mem hi')).2
  unfold totalSize
  rw [List.map_congr_left e]
  simp [Slots.ofContents, hn]
end Moledyn
