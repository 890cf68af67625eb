import Verif.Spec.SafeRoom
import Verif.Lemmas.SimulationRuns
import Verif.Lemmas.LinkedListMerge
import Verif.Lemmas.FreshEnsembles
/-
Helper lemmas: searches with safe steps do not fail.
-/
namespace Moledyn
open LList
variable {G F : Type} [Fl F] {rng : RngOps G F} {sys : SysOps G F} {d : Nat} {I : Pos F → Prop} {small : F → Prop}

omit [Fl F] in
theorem sweep_forall (draw : G → F × G) (f : F → F → F) (P Q : F → Prop) (hf : ∀ x g, Q x → P (f x (draw g).1)) :
    ∀ (v : Pos F) (g : G), (∀ x ∈ v, Q x) → (Random.sweep draw f v g).1.length = v.length ∧ ∀ x ∈ (Random.sweep draw f v g).1, P x := by
  intro v
  induction v with
  | nil => intro g _; exact ⟨rfl, by simp [Random.sweep]⟩
  | cons x v ih =>
    intro g hq
    obtain ⟨h1, h2⟩ := ih (draw g).2 (fun y hy => hq y (List.mem_cons_of_mem _ hy))
    constructor
    · simp only [Random.sweep, List.length_cons, h1]
    · intro y hy
      simp only [Random.sweep, List.mem_cons] at hy
      rcases hy with rfl | hy
      · exact hf x g (hq x List.mem_cons_self)
      · exact h2 y hy

/-- the displacements of a Brownian walker with coefficient `D` in a step `dt` are small, written to a fresh vector or added to zeros. -/
def SmallMoves (rng : RngOps G F) (small : F → Prop) (D dt : F) : Prop :=
  ∀ g, small ((rng.gaussian g).1 * Fl.sqrt (Fl.two * D * dt)) ∧
    small (Fl.zero + (rng.gaussian g).1 * Fl.sqrt (Fl.two * D * dt) + Fl.zero)

theorem move_safe {D dt : F} (hs : SmallMoves rng small D dt) (g : G) :
    ∃ z g1, AgentCore.randomMove rng d (.brownian D) g dt = (.ok z, g1) ∧ z.length = d ∧ ∀ x ∈ z, small x := by
  refine ⟨_, _, rfl, ?_, ?_⟩
  · simp only [Pos.mutScalarMul, List.length_map, Random.getGaussianVec]
    rw [(sweep_forall rng.gaussian (fun _ r => r) (fun _ => True) (fun _ => True) (fun _ _ _ => trivial) _ g (fun _ _ => trivial)).1]
    simp
  · intro x hx
    simp only [Pos.mutScalarMul, List.mem_map, Random.getGaussianVec] at hx
    obtain ⟨y, hy, rfl⟩ := hx
    exact (sweep_forall rng.gaussian (fun _ r => r) (fun x => small (x * Fl.sqrt (Fl.two * D * dt))) (fun _ => True) (fun _ g _ => (hs g).1) _ g
      (fun _ _ => trivial)).2 y hy

theorem moveToVec_safe {D dt : F} (hs : SmallMoves rng small D dt) (g : G) (v : Pos F)
    (hv : v.length = d) :
    ∃ z g1, AgentCore.randomMoveToVec rng d (.brownian D) g dt (v.clear Fl.zero) = ((z, .ok ()), g1) ∧ z.length = d ∧
      ∀ x ∈ z, small x := by
  have hl : (v.clear (Fl.zero : F)).length = d := by simp [Pos.clear, hv]
  have h0 : ∀ x ∈ v.clear (Fl.zero : F), x = Fl.zero := by
    intro x hx
    simp only [Pos.clear, List.mem_map] at hx
    obtain ⟨_, _, rfl⟩ := hx
    rfl
  unfold AgentCore.randomMoveToVec
  rw [if_neg (by simp only [Pos.dim, ne_eq, not_not]; exact hl.symm)]
  have h := sweep_forall rng.gaussian (fun x r => x + r * Fl.sqrt (Fl.two * D * dt) + Fl.zero) small (fun x => x = Fl.zero)
    (fun x g hx => by subst hx; exact (hs g).2) (v.clear Fl.zero) g h0
  refine ⟨_, _, rfl, ?_, h.2⟩
  rw [← hl]; exact h.1

/-! ### placing -/

theorem checkFind_ok (t : BulkTarget F) (p : Pos F) (h : t.targetPos.length = p.length) : ∃ b, t.ops.checkFind p = .ok b := by
  show ∃ b, t.checkFind p = .ok b
  unfold BulkTarget.checkFind BulkTarget.distance Pos.distance Pos.dim
  rw [if_neg (by simpa using h)]
  simp only [Res.bind_ok]
  split
  · exact ⟨_, rfl⟩
  · exact ⟨_, rfl⟩

theorem drawOff_safe (hr : SafeRoom sys d I small) (t : BulkTarget F) (ht : t.targetPos.length = d) (inner fuel : Nat) (g : G) (p : Pos F)
    (hp : p.length = d) (x) (h : AgentCore.drawOffTarget sys t.ops inner fuel g p = some x) : x.1.2 = .ok () ∧ I x.1.1 := by
  induction fuel generalizing g p with
  | zero => simp [AgentCore.drawOffTarget] at h
  | succ n ih =>
    rw [AgentCore.drawOffTarget] at h
    rcases hd : sys.randomPosToVec inner g p with _ | ⟨⟨p1, r⟩, g1⟩
    · rw [hd] at h; simp at h
    · obtain ⟨h1, h2⟩ := hr.place inner g p _ hp hd
      simp only at h1 h2
      subst h1
      rw [hd] at h
      simp only at h
      obtain ⟨b, hb⟩ := checkFind_ok t p1 (by rw [ht, hr.dim _ h2])
      rw [hb] at h
      cases b with
      | false => simp only [Option.some.injEq] at h; subst h; exact ⟨rfl, h2⟩
      | true => exact ih g1 p1 (hr.dim _ h2) h

/-! ### one walker at a time -/

/-- an independent walker that makes safe steps. -/
def SafeWalker (I : Pos F → Prop) (d : Nat) (D : F) (x : IndepAgent F) : Prop := I x.pos ∧ x.dim = d ∧ x.mtype = .brownian D

theorem newUniform_safe (hr : SafeRoom sys d I small) (t : BulkTarget F) (ht : t.targetPos.length = d) (inner fuel : Nat) (g : G) (D : F) (x)
    (h : IndepAgent.newUniform sys t.ops inner fuel g (.brownian D) = some x) : ∃ w, x.1 = .ok w ∧ SafeWalker I d D w := by
  unfold IndepAgent.newUniform at h
  rw [Option.map_eq_some_iff] at h
  obtain ⟨y, hy, rfl⟩ := h
  obtain ⟨h1, h2⟩ := drawOff_safe hr t ht inner fuel g _ hr.outside.1 y hy
  refine ⟨⟨.continuousPassiveIndependent, .brownian D, .uniform, y.1.1.dim, y.1.1⟩, ?_, h2, hr.dim _ h2, rfl⟩
  simp only [h1, Res.map]

theorem whileSearch_safe {S : Type} (J : S → Prop) (found : S → Res Bool) (turn : S → S × Res Unit) (dt : F)
    (hf : ∀ s, J s → ∃ b, found s = .ok b) (ht : ∀ s, J s → (turn s).2 = .ok () ∧ J (turn s).1) (n : Nat) (s : S) (hs : J s) (time : F) :
    J (whileSearch found turn dt n s time).1.1 ∧
      ∀ r, (whileSearch found turn dt n s time).2 = some r → ∃ v, r = .ok v := by
  induction n generalizing s time with
  | zero => exact ⟨hs, by simp [whileSearch]⟩
  | succ n ih =>
    obtain ⟨b, hb⟩ := hf s hs
    rw [whileSearch, hb]
    cases b with
    | true => exact ⟨hs, fun r h => ⟨time, by simpa using h.symm⟩⟩
    | false =>
      obtain ⟨h1, h2⟩ := ht s hs
      rcases hx : turn s with ⟨s1, r⟩
      rw [hx] at h1 h2
      simp only at h1 h2
      subst h1
      exact ih s1 h2 _

theorem freshTurn_safe (hr : SafeRoom sys d I small) {D dt : F} (hs : SmallMoves rng small D dt)
    (s : IndepAgent F × G) (h : SafeWalker I d D s.1) :
    (freshTurn rng sys dt s).2 = .ok () ∧ SafeWalker I d D (freshTurn rng sys dt s).1.1 := by
  obtain ⟨h1, h2, h3⟩ := h
  obtain ⟨z, g1, e, hz, hb⟩ := move_safe (d := d) hs s.2
  obtain ⟨k1, k2⟩ := hr.step s.1.pos z h1 hz hb
  have em : s.1.randomMove rng s.2 dt = (.ok z, g1) := by unfold IndepAgent.randomMove; rw [h2, h3, e]
  unfold freshTurn
  rw [em]
  exact ⟨k1, k2, h2, h3⟩

theorem bufferTurn_safe (hr : SafeRoom sys d I small) {D dt : F} (hs : SmallMoves rng small D dt)
    (s : IndepAgent F × Pos F × G) (h : SafeWalker I d D s.1 ∧ s.2.1.length = d) :
    (bufferTurn rng sys dt s).2 = .ok () ∧ SafeWalker I d D (bufferTurn rng sys dt s).1.1 ∧ (bufferTurn rng sys dt s).1.2.1.length = d := by
  obtain ⟨⟨h1, h2, h3⟩, h4⟩ := h
  obtain ⟨z, g1, e, hz, hb⟩ := moveToVec_safe (d := d) hs s.2.2 s.2.1 h4
  obtain ⟨k1, k2⟩ := hr.step s.1.pos z h1 hz hb
  have em : s.1.randomMoveToVec rng s.2.2 dt (s.2.1.clear Fl.zero) = ((z, .ok ()), g1) := by
    unfold IndepAgent.randomMoveToVec; rw [h2, h3, e]
  unfold bufferTurn
  rw [em]
  exact ⟨k1, ⟨k2, h2, h3⟩, hz⟩

theorem oneSearcher_safe (hr : SafeRoom sys d I small) {D dt : F} (hs : SmallMoves rng small D dt)
    (t : BulkTarget F) (ht : t.targetPos.length = d) (inner loops steps : Nat) (g : G) :
    Succeeds (oneSearcher rng sys t.ops inner loops steps (.brownian D) dt g) := by
  intro x hx
  unfold oneSearcher at hx
  rcases hn : IndepAgent.newUniform sys t.ops inner loops g (.brownian D) with _ | ⟨r, g1⟩
  · rw [hn] at hx; simp at hx
  · obtain ⟨w, hw, hk⟩ := newUniform_safe hr t ht inner loops g D _ hn
    simp only at hw
    subst hw
    rw [hn] at hx
    simp only at hx
    obtain ⟨-, h2⟩ := whileSearch_safe (fun s : IndepAgent F × G => SafeWalker I d D s.1) (fun s => t.ops.checkFind s.1.pos)
      (freshTurn rng sys dt) dt (fun s hs => checkFind_ok t _ (by rw [ht, hr.dim _ hs.1])) (freshTurn_safe hr hs) steps (w, g1) hk Fl.zero
    rcases hw : whileSearch (fun s : IndepAgent F × G => t.ops.checkFind s.1.pos) (freshTurn rng sys dt) dt steps (w, g1) Fl.zero
      with ⟨⟨s, tm⟩, o⟩
    rw [hw] at hx h2
    cases o with
    | none => simp at hx
    | some r =>
      simp only [Option.some.injEq] at hx
      subst hx
      exact h2 r rfl

theorem oneBuffered_safe (hr : SafeRoom sys d I small) {D dt : F} (hs : SmallMoves rng small D dt)
    (t : BulkTarget F) (ht : t.targetPos.length = d) (inner loops steps : Nat) (s : Pos F × G) (hl : s.1.length = d) (x)
    (hx : oneBuffered rng sys t.ops inner loops steps (.brownian D) dt s = some x) : (∃ v, x.1 = .ok v) ∧ x.2.1.length = d := by
  unfold oneBuffered at hx
  rcases hn : IndepAgent.newUniform sys t.ops inner loops s.2 (.brownian D) with _ | ⟨r, g1⟩
  · rw [hn] at hx; simp at hx
  · obtain ⟨w, hw, hk⟩ := newUniform_safe hr t ht inner loops s.2 D _ hn
    simp only at hw
    subst hw
    rw [hn] at hx
    simp only at hx
    obtain ⟨h1, h2⟩ := whileSearch_safe (fun s : IndepAgent F × Pos F × G => SafeWalker I d D s.1 ∧ s.2.1.length = d)
      (fun s => t.ops.checkFind s.1.pos) (bufferTurn rng sys dt) dt (fun s hs => checkFind_ok t _ (by rw [ht, hr.dim _ hs.1.1]))
      (bufferTurn_safe hr hs) steps (w, s.1, g1) ⟨hk, hl⟩ Fl.zero
    rcases hw : whileSearch (fun s : IndepAgent F × Pos F × G => t.ops.checkFind s.1.pos) (bufferTurn rng sys dt) dt steps (w, s.1, g1)
      Fl.zero with ⟨⟨s', tm⟩, o⟩
    rw [hw] at hx h1 h2
    cases o with
    | none => simp at hx
    | some r =>
      simp only [Option.some.injEq] at hx
      subst hx
      exact ⟨h2 r rfl, h1.2⟩

/-! ### ensembles -/

theorem minLoop_safe {S : Type} (run : S → Option (Res F × S)) (h : ∀ s, Succeeds (run s)) (n : Nat) (s : S) (m : F) :
    Succeeds (minLoop run n s m) := by
  induction n generalizing s m with
  | zero => intro x hx; rw [minLoop] at hx; exact ⟨m, by rw [← Option.some.inj hx]⟩
  | succ n ih =>
    rw [minLoop]
    rcases hr : run s with _ | ⟨r, s1⟩
    · intro x hx; simp at hx
    · obtain ⟨v, hv⟩ := h s _ hr
      simp only at hv
      subst hv
      exact ih s1 _

theorem ensembleSum_safe {S : Type} (J : S → Prop) (run : S → Option (Res F × S))
    (h : ∀ s, J s → ∀ x, run s = some x → (∃ v, x.1 = .ok v) ∧ J x.2) (n : Nat) (s : S) (hs : J s) (m : F) :
    Succeeds (ensembleSum run n s m) := by
  induction n generalizing s m with
  | zero => intro x hx; rw [ensembleSum] at hx; exact ⟨m, by rw [← Option.some.inj hx]⟩
  | succ n ih =>
    rw [ensembleSum]
    rcases hr : run s with _ | ⟨r, s1⟩
    · intro x hx; simp at hx
    · obtain ⟨⟨v, hv⟩, h2⟩ := h s hs _ hr
      simp only at hv
      subst hv
      exact ih s1 h2 _

theorem ensembleMean_safe {S : Type} (J : S → Prop) (run : S → Option (Res F × S))
    (h : ∀ s, J s → ∀ x, run s = some x → (∃ v, x.1 = .ok v) ∧ J x.2) (n : Nat) (s : S) (hs : J s) :
    Succeeds (ensembleMean run n s) := by
  intro x hx
  unfold ensembleMean at hx
  rw [Option.map_eq_some_iff] at hx
  obtain ⟨y, hy, rfl⟩ := hx
  obtain ⟨v, hv⟩ := ensembleSum_safe J run h n s hs Fl.zero y hy
  exact ⟨v / Fl.ofNat n, by rw [hv]; rfl⟩

theorem makeAgents_safe {S α : Type} (J : S → Prop) (K : α → Prop) (make : S → Option (Res α × S))
    (h : ∀ s, J s → ∀ x, make s = some x → (∃ v, x.1 = .ok v ∧ K v) ∧ J x.2) (n : Nat) (s : S) (hs : J s) (x)
    (hx : makeAgents make n s = some x) : (∃ v : List α, x.1 = .ok v ∧ v.length = n ∧ ∀ a ∈ v, K a) ∧ J x.2 := by
  induction n generalizing s x with
  | zero =>
    rw [makeAgents] at hx
    have e := Option.some.inj hx
    subst e
    exact ⟨⟨[], rfl, rfl, by simp⟩, hs⟩
  | succ n ih =>
    rw [makeAgents] at hx
    rcases hr : make s with _ | ⟨r, s1⟩
    · rw [hr] at hx; simp at hx
    · obtain ⟨⟨v, hv, hk⟩, h2⟩ := h s hs _ hr
      simp only at hv
      subst hv
      rw [hr] at hx
      simp only at hx
      rw [Option.map_eq_some_iff] at hx
      obtain ⟨y, hy, rfl⟩ := hx
      obtain ⟨⟨l, hl, hn, hall⟩, hj⟩ := ih s1 h2 y hy
      refine ⟨⟨v :: l, by rw [hl]; rfl, by simp [hn], ?_⟩, hj⟩
      intro b hb
      rcases List.mem_cons.1 hb with rfl | hb
      · exact hk
      · exact hall b hb

/-! ### lists of walkers -/

/-- a list in a good state with all agents in `K`. -/
def AllIn {α : Type} (K : α → Prop) (l : LList α) : Prop := (∃ s, Rep l s) ∧ ∀ x ∈ l.contents, K x

theorem agentSweep_safe {S α : Type} (K : α → Prop) (act : Nat → S → α → (α × Res Bool) × S)
    (h : ∀ i st x, K x → ∃ b, (act i st x).1.2 = .ok b ∧ K (act i st x).1.1) (n : Nat) (l : LList α) (hl : AllIn K l) (st : S) :
    ∀ r, (agentSweep act n l st).2 = some r → (∃ b, r = .ok b) ∧ AllIn K (agentSweep act n l st).1.1 := by
  obtain ⟨⟨s, hrep⟩, hk⟩ := hl
  have hkc : ∀ (i : Nat) (x : α), s.contents[i]? = some x → K x := fun i x hx => hk x (by rw [hrep.contents_eq]; exact List.mem_of_getElem? hx)
  obtain ⟨s', b1, -, -, -, -, b6, b7, b8⟩ := agentSweep_rep act (fun _ _ _ x' => K x') (fun _ => True) n st hrep trivial
    (fun i st x b _ hx _ _ => by
      obtain ⟨b', h1, h2⟩ := h i st x (hkc i x hx)
      exact ⟨h2, trivial⟩)
  intro r hr
  have hok : ∃ b, r = .ok b := by
    by_contra hne
    push Not at hne
    obtain ⟨i, -, x, st', hx, -, hact⟩ := b8 r ⟨hr, hne⟩
    obtain ⟨b, h1, -⟩ := h i st' x (hkc i x hx)
    exact hne b (by rw [← hact, h1])
  refine ⟨hok, ⟨s', b1⟩, ?_⟩
  intro x hx
  rw [b1.contents_eq] at hx
  obtain ⟨i, hi⟩ := List.getElem?_of_mem hx
  obtain ⟨b, rfl⟩ := hok
  cases b with
  | false =>
    obtain ⟨-, c1, c2⟩ := b6 hr
    by_cases hq : i ∈ s.q0
    · obtain ⟨y, y', -, hy', hK⟩ := c1 i hq
      rw [hy'] at hi
      rw [← Option.some.inj hi]; exact hK
    · rw [c2 i hq] at hi; exact hkc i x hi
  | true =>
    obtain ⟨-, k, -, ⟨y, y', -, hy', hK⟩, c2⟩ := b7 hr
    by_cases hik : i = k
    · subst hik
      rw [hy'] at hi
      rw [← Option.some.inj hi]; exact hK
    · rcases c2 i hik with e | ⟨-, z, z', -, hz', hK'⟩
      · rw [e] at hi; exact hkc i x hi
      · rw [hz'] at hi
        rw [← Option.some.inj hi]; exact hK'

theorem walkAct_safe {α : Type} {w : Walker G F α} {K : α → Prop} (hr : SafeRoom sys d I small) (t : BulkTarget F)
    (ht : t.targetPos.length = d) {dt : F} (h1 : ∀ x, K x → I (w.pos x))
    (h2 : ∀ x g, K x → ∃ z g1, w.randomMove x g dt = (.ok z, g1) ∧ z.length = d ∧ ∀ y ∈ z, small y)
    (h3 : ∀ x p, K x → I p → K (w.setPos x p)) (i : Nat) (g : G) (x : α) (hx : K x) :
    ∃ b, (walkAct w sys t.ops dt i g x).1.2 = .ok b ∧ K (walkAct w sys t.ops dt i g x).1.1 := by
  obtain ⟨z, g1, e, hz, hb⟩ := h2 x g hx
  obtain ⟨k1, k2⟩ := hr.step (w.pos x) z (h1 x hx) hz hb
  unfold walkAct
  rw [e]
  simp only
  rcases hc : sys.checkBc (w.pos x) z with ⟨p, r⟩
  rw [hc] at k1 k2
  simp only at k1 k2
  subst k1
  obtain ⟨b, hb⟩ := checkFind_ok t p (by rw [ht, hr.dim _ k2])
  exact ⟨b, hb, h3 x p hx k2⟩

omit [Fl F] in
theorem searchLoop_succeeds {C S : Type} (P : C → Prop) (J : S → Prop) (Q : F → Prop) (tick : C → C × Res (Option (F × F)))
    (step : F → S → S × Option (Res Bool))
    (htick : ∀ c, P c → ∃ o, (tick c).2 = .ok o ∧ P (tick c).1 ∧ ∀ x, o = some x → Q x.2)
    (hstep : ∀ dt s, Q dt → J s → ∀ r, (step dt s).2 = some r → (∃ b, r = .ok b) ∧ J (step dt s).1) (n : Nat) (c : C) (s : S)
    (hc : P c) (hs : J s) :
    ∀ r, (searchLoop tick step n c s).2 = some r → (∃ o, r = .ok o) ∧ J (searchLoop tick step n c s).1.2 := by
  induction n generalizing c s with
  | zero => intro r hr; simp [searchLoop] at hr
  | succ n ih =>
    intro r hr
    obtain ⟨o, h1, h2, h3⟩ := htick c hc
    rcases ht : tick c with ⟨c1, r1⟩
    rw [ht] at h1 h2
    simp only at h1 h2
    subst h1
    rw [searchLoop, ht] at hr ⊢
    cases o with
    | none => exact ⟨⟨none, by simpa using hr.symm⟩, hs⟩
    | some x =>
      obtain ⟨time, dt⟩ := x
      simp only at hr ⊢
      have hq := hstep dt s (h3 _ rfl) hs
      rcases hst : step dt s with ⟨s1, o1⟩
      rw [hst] at hr hq
      cases o1 with
      | none => simp at hr
      | some r1 =>
        obtain ⟨⟨b, rfl⟩, hj⟩ := hq r1 rfl
        cases b with
        | true => exact ⟨⟨some time, by simpa using hr.symm⟩, hj⟩
        | false => exact ih c1 s1 h2 hj r hr

/-! ### merging walkers -/

/-- a merging walker that makes safe steps: its exponent is in `okA`, its diffusion coefficient in `okD`. -/
def SafeMerger (I : Pos F → Prop) (d : Nat) (okA okD : F → Prop) (x : MergeAgent F) : Prop :=
  I x.pos ∧ x.dim = d ∧ okA x.alpha ∧ 1 ≤ x.size ∧ ∃ c, okD c ∧ x.mtype = .brownian c

/-- the coefficients of merged walkers are in `okD`. -/
def ScalesIn (okA okD : F → Prop) : Prop := ∀ α (n : Nat), okA α → 1 ≤ n → okD (Fl.powf (Fl.ofNat n) (-α))

theorem rescale_safe {okA okD : F → Prop} (hD : ScalesIn okA okD) {x : MergeAgent F} (h : SafeMerger I d okA okD x) :
    x.rescale.2 = .ok () ∧ SafeMerger I d okA okD x.rescale.1 := by
  obtain ⟨h1, h2, h3, h4, c, h5, h6⟩ := h
  unfold MergeAgent.rescale
  rw [h6]
  exact ⟨rfl, h1, h2, h3, h4, _, hD _ _ h3 h4, rfl⟩

theorem addSize_safe {okA okD : F → Prop} (hD : ScalesIn okA okD) {x : MergeAgent F} (h : SafeMerger I d okA okD x) (k : Nat) :
    (x.addSize k).2 = .ok () ∧ SafeMerger I d okA okD (x.addSize k).1 := by
  unfold MergeAgent.addSize
  refine rescale_safe hD ?_
  obtain ⟨h1, h2, h3, h4, h5⟩ := h
  exact ⟨h1, h2, h3, by simp only; omega, h5⟩

/-- the pair loop does not fail and keeps what merging keeps. -/
theorem mergePass_all (K : MergeAgent F → Prop) (hdist : ∀ x y, K x → K y → ∃ z, x.pos.distance y.pos = .ok z)
    (hadds : ∀ x y, K x → K y → (x.addSize y.size).2 = .ok () ∧ K (x.addSize y.size).1) (rad : MergeAgent F → F) (n : Nat)
    (l : LList (MergeAgent F)) (hl : AllIn K l) (ms : List (Nat × Nat)) :
    ∀ r, (pairSweep (mergeAct rad) n l ms).2 = some r → r = .ok () ∧ AllIn K (pairSweep (mergeAct rad) n l ms).1.1 := by
  induction n generalizing l ms with
  | zero => intro r hr; simp [pairSweep] at hr
  | succ n ih =>
    intro r hr
    obtain ⟨⟨s, h⟩, hk⟩ := hl
    by_cases hnil : s.q0 = [] ∨ s.q1 = []
    · have e : pairSweep (mergeAct rad) (n + 1) l ms = ((l, ms), some (.ok ())) := by
        simp only [pairSweep, h.enumDouble_none hnil]
      rw [e] at hr ⊢
      exact ⟨(Option.some.inj hr).symm, ⟨s, h⟩, hk⟩
    · rw [not_or] at hnil
      obtain ⟨i, t, hq⟩ := List.exists_cons_of_ne_nil hnil.1
      obtain ⟨j, u, hq1⟩ := List.exists_cons_of_ne_nil hnil.2
      have hi : i ∈ s.live := h.q0suf.subset (by rw [hq]; simp)
      have hj : j ∈ s.live := h.q1suf.subset (by rw [hq1]; simp)
      obtain ⟨x, hx⟩ := h.content hi
      obtain ⟨y, hy⟩ := h.content hj
      have hkx := hk x (by rw [h.contents_eq]; exact List.mem_of_getElem? hx)
      have hky := hk y (by rw [h.contents_eq]; exact List.mem_of_getElem? hy)
      obtain ⟨he, hrep⟩ := h.enumDouble_some hq hq1 hx hy
      have he : l.enumerateDouble = (l.enumerateDouble.1, .ok (some (i, x, j, y))) := Prod.ext rfl he
      set l1 := l.enumerateDouble.1 with hl1
      change Rep l1 (afterPair s t u) at hrep
      have hlv : (afterPair s t u).live = s.live := by unfold afterPair; split <;> rfl
      have hct : (afterPair s t u).contents = s.contents := by unfold afterPair; split <;> rfl
      have hcl : l1.contents = l.contents := by rw [hrep.contents_eq, hct, h.contents_eq]
      obtain ⟨z, hd⟩ := hdist x y hkx hky
      by_cases hlt : Fl.lt z (Fl.two * rad x) = true
      · have hx1 : l1.contents[i]? = some x := by rw [hrep.contents_eq, hct, hx]
        have hy1 : l1.contents[j]? = some y := by rw [hrep.contents_eq, hct, hy]
        obtain ⟨hadd, hsafe⟩ := hadds x y hkx hky
        obtain ⟨hrm, hrok⟩ := hrep.merge MergeAgent.mergeOps hx1 hy1 hadd (by rw [hlv]; exact hj)
        have hm : l1.merge MergeAgent.mergeOps i j = ((l1.merge MergeAgent.mergeOps i j).1, .ok ()) := Prod.ext rfl hrok
        have e' : pairSweep (mergeAct rad) (n + 1) l ms =
            pairSweep (mergeAct rad) n (l1.merge MergeAgent.mergeOps i j).1 (ms ++ [(i, j)]) := by
          simp only [pairSweep, he, mergeAct, hd, hlt, if_true]
          rw [hm]
        rw [e'] at hr ⊢
        refine ih _ ⟨⟨_, hrm⟩, ?_⟩ _ r hr
        intro b hb
        rw [hrm.contents_eq] at hb
        have hb' : b ∈ (afterPair s t u).contents.set i (x.addSize y.size).1 := hb
        rw [hct, ← h.contents_eq] at hb'
        rcases List.mem_or_eq_of_mem_set hb' with hb' | rfl
        · exact hk b hb'
        · exact hsafe
      · have e' : pairSweep (mergeAct rad) (n + 1) l ms = pairSweep (mergeAct rad) n l1 ms := by
          simp only [pairSweep, he, mergeAct, hd, hlt]
          simp
        rw [e'] at hr ⊢
        exact ih l1 ⟨⟨_, hrep⟩, by rw [hcl]; exact hk⟩ ms r hr

theorem mergePass_safe (hdim : ∀ p, I p → p.length = d) {okA okD : F → Prop} (hD : ScalesIn okA okD) (rad : MergeAgent F → F) (n : Nat)
    (l : LList (MergeAgent F)) (hl : AllIn (SafeMerger I d okA okD) l) (ms : List (Nat × Nat)) :
    ∀ r, (pairSweep (mergeAct rad) n l ms).2 = some r → r = .ok () ∧ AllIn (SafeMerger I d okA okD) (pairSweep (mergeAct rad) n l ms).1.1 :=
  mergePass_all _ (fun x y hx hy => by
    unfold Pos.distance Pos.dim
    rw [if_neg (by rw [hdim _ hx.1, hdim _ hy.1]; simp)]
    exact ⟨_, rfl⟩) (fun x y hx _ => addSize_safe hD hx y.size) rad n l hl ms

theorem intoIter_allIn {α : Type} {K : α → Prop} {l : LList α} (h : AllIn K l) : AllIn K l.intoIter := by
  obtain ⟨⟨s, hs⟩, hk⟩ := h
  exact ⟨⟨_, hs.intoIter⟩, hk⟩

theorem mergeMove_safe {okA okD : F → Prop} {dt : F} (hs : ∀ c, okD c → SmallMoves rng small c dt)
    (x : MergeAgent F) (g : G) (hx : SafeMerger I d okA okD x) :
    ∃ z g1, (MergeAgent.walker rng).randomMove x g dt = (.ok z, g1) ∧ z.length = d ∧ ∀ y ∈ z, small y := by
  obtain ⟨-, h2, -, -, c, hc, h6⟩ := hx
  obtain ⟨z, g1, e, h⟩ := move_safe (d := d) (hs c hc) g
  refine ⟨z, g1, ?_, h⟩
  show x.randomMove rng g dt = _
  unfold MergeAgent.randomMove
  rw [h2, h6, e]

theorem mergeStep_safe (hr : SafeRoom sys d I small) (t : BulkTarget F)
    (ht : t.targetPos.length = d) {okA okD : F → Prop} (hD : ScalesIn okA okD) {dt : F} (hs : ∀ c, okD c → SmallMoves rng small c dt)
    (rad : MergeAgent F → F) (fuel : Nat) (st : MergeSim G F) (hst : AllIn (SafeMerger I d okA okD) st.list) :
    ∀ r, (mergeStep rng sys t.ops rad fuel dt st).2 = some r →
      (∃ b, r = .ok b) ∧ AllIn (SafeMerger I d okA okD) (mergeStep rng sys t.ops rad fuel dt st).1.list := by
  have hsw := agentSweep_safe (SafeMerger I d okA okD) (walkAct (MergeAgent.walker rng) sys t.ops dt)
    (walkAct_safe hr t ht (fun x hx => hx.1) (fun x g hx => mergeMove_safe hs x g hx) (fun x p hx hp => ⟨hp, hx.2⟩))
    fuel st.list.intoIter (intoIter_allIn hst) st.rng
  intro r hr'
  unfold mergeStep at hr' ⊢
  rcases hsweep : agentSweep (walkAct (MergeAgent.walker rng) sys t.ops dt) fuel st.list.intoIter st.rng with ⟨⟨l1, g1⟩, o⟩
  rw [hsweep] at hr' hsw
  cases o with
  | none => simp at hr'
  | some r1 =>
    obtain ⟨⟨b, rfl⟩, hall⟩ := hsw r1 rfl
    simp only at hall
    cases b with
    | true => exact ⟨⟨true, by simpa using hr'.symm⟩, hall⟩
    | false =>
      obtain ⟨⟨s1, h1⟩, hk1⟩ := hall
      have hd := h1.intoDoubleIter
      have hdo : l1.intoDoubleIter.2 = .ok () := by
        have := hd.2
        simpa [LList.step, Slots.step] using this
      have hdi : l1.intoDoubleIter = (l1.intoDoubleIter.1, .ok ()) := Prod.ext rfl hdo
      have hall2 : AllIn (SafeMerger I d okA okD) l1.intoDoubleIter.1 := by
        refine ⟨⟨_, hd.1⟩, ?_⟩
        intro x hx
        rw [hd.1.contents_eq] at hx
        exact hk1 x (by rw [h1.contents_eq]; exact hx)
      generalize l1.intoDoubleIter.1 = l2 at hdi hall2
      simp only [hdi] at hr' ⊢
      have hmp := mergePass_safe hr.dim hD rad fuel l2 hall2 st.merges
      rcases hps : pairSweep (mergeAct rad) fuel l2 st.merges with ⟨⟨l3, ms⟩, o3⟩
      rw [hps] at hr' hmp
      cases o3 with
      | none => simp at hr'
      | some r3 =>
        obtain ⟨rfl, hall3⟩ := hmp r3 rfl
        exact ⟨⟨false, by simpa using hr'.symm⟩, hall3⟩

theorem from_allIn {α : Type} {K : α → Prop} (v : List α) (h : ∀ x ∈ v, K x) : AllIn K (LList.from' v) :=
  ⟨⟨_, rep_from v⟩, by
    intro x hx
    rw [(rep_from v).contents_eq] at hx
    exact h x hx⟩

theorem mergeNew_safe (hr : SafeRoom sys d I small) (t : BulkTarget F) (ht : t.targetPos.length = d) (inner fuel : Nat) (g : G)
    {okA okD : F → Prop} {D0 radius alpha : F} (hD : okD D0) (hal : okA alpha) (x)
    (h : MergeAgent.newUniform sys t.ops inner fuel g (.brownian D0) radius alpha = some x) : ∃ w, x.1 = .ok w ∧ SafeMerger I d okA okD w := by
  unfold MergeAgent.newUniform at h
  rw [Option.map_eq_some_iff] at h
  obtain ⟨y, hy, rfl⟩ := h
  obtain ⟨h1, h2⟩ := drawOff_safe hr t ht inner fuel g _ hr.outside.1 y hy
  refine ⟨⟨.continuousPassiveInteracting, .brownian D0, .uniform, y.1.1.dim, y.1.1, radius, 1, alpha⟩, ?_, h2, hr.dim _ h2, hal,
    le_rfl, D0, hD, rfl⟩
  simp only [h1, Res.map]

/-! ### renewed walkers -/

theorem mergeRenew_safe (hr : SafeRoom sys d I small) (t : BulkTarget F) (ht : t.targetPos.length = d) (inner fuel : Nat) (g : G)
    {okA okD : F → Prop} (hD : ScalesIn okA okD) {x : MergeAgent F} (hx : SafeMerger I d okA okD x) (y)
    (h : x.renewUniform sys t.ops inner fuel g = some y) : y.1.2 = .ok () ∧ SafeMerger I d okA okD y.1.1 := by
  obtain ⟨h1, h2, h3, h4, h5⟩ := hx
  unfold MergeAgent.renewUniform at h
  rw [startPos_says hr.outside] at h
  simp only [hr.dim _ h1, ne_eq, not_true, decide_false, Bool.false_eq_true, if_false, Option.map_eq_some_iff] at h
  obtain ⟨⟨⟨p, r⟩, g1⟩, hd, rfl⟩ := h
  obtain ⟨k1, k2⟩ := drawOff_safe hr t ht inner fuel g _ hr.outside.1 _ hd
  simp only at k1 k2
  subst k1
  exact rescale_safe hD ⟨k2, h2, h3, le_rfl, h5⟩

theorem renewSweep_succ (sys : SysOps G F) (target : TargetOps F) (inner loops n : Nat) (l : LList (MergeAgent F)) (g : G) :
    ∃ f : MergeAgent F → MergeAgent F, (∀ x, f x = ((x.renewUniform sys target inner loops g).map fun r => r.1.1).getD x) ∧
      renewSweep sys target inner loops (n + 1) l g =
        match l.enumerateMut f with
        | (l1, .ok none) => ((l1, g), some (.ok ()))
        | (l1, .err e) => ((l1, g), some (.err e))
        | (l1, .panic) => ((l1, g), some .panic)
        | (l1, .ok (some (_, a))) =>
          match a.renewUniform sys target inner loops g with
          | none => ((l1, g), none)
          | some ((_, .ok ()), g1) => renewSweep sys target inner loops n l1 g1
          | some ((_, .err e), g1) => ((l1, g1), some (.err e))
          | some ((_, .panic), g1) => ((l1, g1), some .panic) := by
  refine ⟨fun a => match a.renewUniform sys target inner loops g with | none => a | some r => r.1.1, fun x => ?_, ?_⟩
  · simp only
    rcases x.renewUniform sys target inner loops g with _ | y <;> rfl
  · rw [renewSweep]
    rfl

theorem renewSweep_safe (hr : SafeRoom sys d I small) (t : BulkTarget F) (ht : t.targetPos.length = d) (inner loops : Nat)
    {okA okD : F → Prop} (hD : ScalesIn okA okD) (n : Nat) (l : LList (MergeAgent F)) (hl : AllIn (SafeMerger I d okA okD) l) (g : G) :
    ∀ r, (renewSweep sys t.ops inner loops n l g).2 = some r →
      r = .ok () ∧ AllIn (SafeMerger I d okA okD) (renewSweep sys t.ops inner loops n l g).1.1 := by
  induction n generalizing l g with
  | zero => intro r h; simp [renewSweep] at h
  | succ n ih =>
    intro r h
    obtain ⟨f, hfe, hun⟩ := renewSweep_succ sys t.ops inner loops n l g
    have hf : ∀ x, SafeMerger I d okA okD x → SafeMerger I d okA okD (f x) := by
      intro x hx
      rw [hfe]
      rcases hn : x.renewUniform sys t.ops inner loops g with _ | y
      · exact hx
      · exact (mergeRenew_safe hr t ht inner loops g hD hx y hn).2
    rw [hun] at h ⊢
    obtain ⟨⟨s, hs⟩, hk⟩ := hl
    obtain ⟨m1, m2⟩ := hs.enumerateMut f
    have hct : (l.step (.nextMut f)).1 = (l.enumerateMut f).1 := rfl
    have hout : (l.step (.nextMut f)).2 = .item (l.enumerateMut f).2 := rfl
    rw [hct] at m1
    rw [hout] at m2
    simp only [Slots.step] at m1 m2
    cases hq : s.q0 with
    | nil =>
      rw [hq] at m1 m2
      simp only at m1 m2
      rcases he : l.enumerateMut f with ⟨l1, o⟩
      rw [he] at m1 m2 h
      simp only [Out.item.injEq] at m2
      subst m2
      refine ⟨by simpa using h.symm, ⟨_, m1⟩, ?_⟩
      intro x hx
      rw [m1.contents_eq] at hx
      exact hk x (by rw [hs.contents_eq]; exact hx)
    | cons i q =>
      obtain ⟨x, hx⟩ := hs.content (i := i) (hs.q0suf.subset (by rw [hq]; simp))
      rw [hq] at m1 m2
      simp only [hx] at m1 m2
      have hkx := hk x (by rw [hs.contents_eq]; exact List.mem_of_getElem? hx)
      rcases he : l.enumerateMut f with ⟨l1, o⟩
      rw [he] at m1 m2 h
      simp only [Out.item.injEq] at m2
      subst m2
      have hall : AllIn (SafeMerger I d okA okD) l1 := by
        refine ⟨⟨_, m1⟩, ?_⟩
        intro y hy
        rw [m1.contents_eq] at hy
        simp only at hy
        obtain ⟨j, hj⟩ := List.getElem?_of_mem hy
        rw [List.getElem?_modify] at hj
        by_cases hij : i = j
        · subst hij
          simp only [if_true, hx, Option.map_eq_map, Option.map_some, Option.some.injEq] at hj
          rw [← hj]; exact hf x hkx
        · have hj' : s.contents[j]? = some y := by simpa [hij] using hj
          exact hk y (by rw [hs.contents_eq]; exact List.mem_of_getElem? hj')
      simp only [Option.map_some] at h ⊢
      rcases hn : x.renewUniform sys t.ops inner loops g with _ | ⟨⟨y, r'⟩, g1⟩
      · rw [hn] at h; simp at h
      · obtain ⟨k1, -⟩ := mergeRenew_safe hr t ht inner loops g hD hkx _ hn
        simp only at k1
        subst k1
        simp only [hn] at h ⊢
        exact ih l1 hall g1 r h

/-! ### the exponential clock, and ensembles of renewed walkers -/

/-- a property of clocks that ticking and renewing preserve and that bounds the steps. -/
structure ClockIn (okC : ExpStep F → Prop) (okT : F → Prop) : Prop where
  next : ∀ c, okC c → (∃ o, c.next.2 = .ok o) ∧ okC c.next.1 ∧ okT c.next.1.dt
  renew : ∀ c, okC c → c.renew.2 = .ok () ∧ okC c.renew.1

theorem largeNRun_safe (hr : SafeRoom sys d I small) (t : BulkTarget F)
    (ht : t.targetPos.length = d) {okA okD : F → Prop} (hD : ScalesIn okA okD) {okC : ExpStep F → Prop} {okT : F → Prop} (hok : ClockIn okC okT)
    (hs : ∀ dt, okT dt → ∀ c, okD c → SmallMoves rng small c dt) (inner loops fuel steps : Nat)
    (s : LList (MergeAgent F) × ExpStep F × G) (hl : AllIn (SafeMerger I d okA okD) s.1) (hc : okC s.2.1) (x)
    (h : largeNRun rng sys t.ops inner loops fuel steps s = some x) :
    ((∃ v, x.1 = .ok v) ∨ x.1 = .err .unexpectedEnd) ∧ AllIn (SafeMerger I d okA okD) x.2.1 ∧ okC x.2.2.1 := by
  unfold largeNRun at h
  obtain ⟨k1, k2⟩ := hok.renew s.2.1 hc
  rcases hrn : s.2.1.renew with ⟨c1, r1⟩
  rw [hrn] at h k1 k2
  simp only at k1 k2
  subst k1
  simp only at h
  have hprep : ∀ r, (largeNPrepare sys t.ops inner loops fuel s.1 s.2.2).2 = some r →
      r = .ok () ∧ AllIn (SafeMerger I d okA okD) (largeNPrepare sys t.ops inner loops fuel s.1 s.2.2).1.1 := by
    intro r hr'
    obtain ⟨⟨sl, hsl⟩, hk⟩ := hl
    obtain ⟨m1, m2⟩ := hsl.connectAll
    have e1 : (s.1.step .connectAll).1 = s.1.connectAll.1 := rfl
    have e2 : (s.1.step .connectAll).2 = .done s.1.connectAll.2 := rfl
    rw [e1] at m1
    rw [e2] at m2
    unfold largeNPrepare at hr' ⊢
    rcases hca : s.1.connectAll with ⟨l1, r1⟩
    rw [hca] at m1 m2 hr'
    have hr1 : r1 = .ok () := by simpa [Slots.step] using m2
    subst hr1
    refine renewSweep_safe hr t ht inner loops hD fuel l1.intoIter (intoIter_allIn ⟨⟨_, m1⟩, ?_⟩) s.2.2 r hr'
    intro y hy
    rw [m1.contents_eq] at hy
    exact hk y (by rw [hsl.contents_eq]; exact hy)
  rcases hp : largeNPrepare sys t.ops inner loops fuel s.1 s.2.2 with ⟨⟨l1, g1⟩, o⟩
  rw [hp] at h hprep
  cases o with
  | none => simp at h
  | some r =>
    obtain ⟨rfl, hall⟩ := hprep r rfl
    simp only at h hall
    have hsl := searchLoop_succeeds (fun c : TimeDiff (ExpStep F) => okC c.timeiter)
      (fun s : MergeSim G F => AllIn (SafeMerger I d okA okD) s.list) okT
      (TimeDiff.next ExpStep.next (fun c => c.dt)) (mergeStep rng sys t.ops (fun a => a.ptlRadius) fuel)
      (fun c hc => by
        obtain ⟨⟨o, ho⟩, h2, h3⟩ := hok.next c.timeiter hc
        refine ⟨_, by unfold TimeDiff.next; simp only [ho]; rfl, h2, ?_⟩
        intro y hy
        rw [Option.map_eq_some_iff] at hy
        obtain ⟨tm, -, rfl⟩ := hy
        exact h3)
      (fun dt s hq hj r hr' => by
        exact mergeStep_safe hr t ht hD (hs dt hq) _ fuel s hj r hr')
      steps (intoDiff c1) ⟨l1, g1, []⟩ k2 hall
    unfold largeNFpt at h
    rcases hx : searchLoop (TimeDiff.next ExpStep.next (fun c : ExpStep F => c.dt))
      (mergeStep rng sys t.ops (fun a => a.ptlRadius) fuel) steps (intoDiff c1) (⟨l1, g1, []⟩ : MergeSim G F) with ⟨st, o⟩
    rw [hx] at h hsl
    cases o with
    | none => simp at h
    | some r =>
      obtain ⟨⟨o, rfl⟩, hj⟩ := hsl r rfl
      simp only [Option.map_some, Option.some.injEq] at h
      subst h
      refine ⟨?_, hj, k2⟩
      cases o with
      | none => exact .inr rfl
      | some v => exact .inl ⟨v, rfl⟩

theorem ensembleMean_or {S : Type} (J : S → Prop) (e : ErrorCode) (run : S → Option (Res F × S))
    (h : ∀ s, J s → ∀ x, run s = some x → ((∃ v, x.1 = .ok v) ∨ x.1 = .err e) ∧ J x.2) (n : Nat) (s : S) (hs : J s) (x)
    (hx : ensembleMean run n s = some x) : (∃ v, x.1 = .ok v) ∨ x.1 = .err e := by
  have key : ∀ (n : Nat) (s : S) (m : F), J s → ∀ x, ensembleSum run n s m = some x → (∃ v, x.1 = .ok v) ∨ x.1 = .err e := by
    intro n
    induction n with
    | zero => intro s m _ x hx; rw [ensembleSum] at hx; exact .inl ⟨m, by rw [← Option.some.inj hx]⟩
    | succ n ih =>
      intro s m hs x hx
      rw [ensembleSum] at hx
      rcases hr : run s with _ | ⟨r, s1⟩
      · rw [hr] at hx; simp at hx
      · obtain ⟨h1, h2⟩ := h s hs _ hr
        rw [hr] at hx
        rcases h1 with ⟨v, hv⟩ | hv
        · simp only at hv
          subst hv
          exact ih s1 _ h2 x hx
        · simp only at hv
          subst hv
          simp only [Option.some.injEq] at hx
          subst hx
          exact .inr rfl
  unfold ensembleMean at hx
  rw [Option.map_eq_some_iff] at hx
  obtain ⟨y, hy, rfl⟩ := hx
  rcases key n s Fl.zero hs y hy with ⟨v, hv⟩ | hv
  · exact .inl ⟨v / Fl.ofNat n, by rw [hv]; rfl⟩
  · exact .inr (by rw [hv]; rfl)

/-! ### real numbers -/

theorem scaled_le {a B D dt x : ℝ} (hs : Real.sqrt (2 * D * dt) * B ≤ a) (hx : |x| ≤ B) : |x * Real.sqrt (2 * D * dt)| ≤ a := by
  rw [abs_mul, abs_of_nonneg (Real.sqrt_nonneg _)]
  calc |x| * Real.sqrt (2 * D * dt) ≤ B * Real.sqrt (2 * D * dt) := mul_le_mul_of_nonneg_right hx (Real.sqrt_nonneg _)
    _ ≤ a := by rw [mul_comm]; exact hs

theorem smallMoves_real {rng : RngOps G ℝ} {a B D dt : ℝ} (hB : BoundedNormals rng B) (hs : Real.sqrt (2 * D * dt) * B ≤ a) :
    SmallMoves rng (fun x => |x| ≤ a) D dt := fun g =>
  ⟨by simpa using scaled_le hs (hB g), by simpa using scaled_le hs (hB g)⟩

theorem scalesIn_real {D : ℝ} (hD : 1 ≤ D) : ScalesIn (fun α : ℝ => 0 ≤ α) (fun c => c ≤ D) := by
  intro α n hα hn
  simp only [fl_powf, fl_ofNat, fl_neg]
  have : (1 : ℝ) ≤ (n : ℝ) := by exact_mod_cast hn
  exact (Real.rpow_le_one_of_one_le_of_nonpos this (by linarith)).trans hD

theorem smallMerges_real {rng : RngOps G ℝ} {a B D b dt : ℝ} (hB : BoundedNormals rng B) (hB0 : 0 ≤ B) (hD : 0 ≤ D) (h0 : 0 ≤ dt) (hb : dt ≤ b)
    (hs : Real.sqrt (2 * D * b) * B ≤ a) (c : ℝ) (hc : c ≤ D) : SmallMoves rng (fun x => |x| ≤ a) c dt := by
  refine smallMoves_real hB (le_trans (mul_le_mul_of_nonneg_right (Real.sqrt_le_sqrt ?_) hB0) hs)
  nlinarith

/-- the clock's steps are at most `b`. -/
def StepsUpTo (b : ℝ) (c : ExpStep ℝ) : Prop := (∃ x l, c.titype = .exponential x b l ∧ 0 ≤ x ∧ x ≤ b) ∧ 0 ≤ c.inc ∧ 0 ≤ c.dt ∧ c.dt ≤ b

theorem expNext_steps {b : ℝ} (c : ExpStep ℝ) (h : StepsUpTo b c) : (∃ o, c.next.2 = .ok o) ∧ StepsUpTo b c.next.1 := by
  obtain ⟨⟨x, l, h1, hx0, hxb⟩, h2, h3, h4⟩ := h
  have hb : StepsUpTo b (c.bump b l) := by
    unfold ExpStep.bump
    split
    · refine ⟨⟨x, l, h1, hx0, hxb⟩, h2, ?_, ?_⟩
      · simp only [fl_lt, fl_mul]
        split
        · linarith
        · exact mul_nonneg h3 h2
      · simp only [fl_lt, fl_mul, decide_eq_true_eq]
        split
        · exact le_rfl
        · rename_i hn; exact not_lt.1 hn
    · exact ⟨⟨x, l, h1, hx0, hxb⟩, h2, h3, h4⟩
  unfold ExpStep.next
  rw [h1]
  simp only
  split
  · exact ⟨⟨_, rfl⟩, hb⟩
  · exact ⟨⟨_, rfl⟩, hb⟩

theorem expRenew_steps {b : ℝ} (c : ExpStep ℝ) (h : StepsUpTo b c) : c.renew.2 = .ok () ∧ StepsUpTo b c.renew.1 := by
  obtain ⟨⟨x, l, h1, hx0, hxb⟩, h2, h3, h4⟩ := h
  have e : c.renew = ({ c with dt := x, current := Fl.zero, count := 0 }, .ok ()) := by
    unfold ExpStep.renew
    rw [h1]
  rw [e]
  exact ⟨rfl, ⟨x, l, h1, hx0, hxb⟩, h2, hx0, hxb⟩

theorem clockIn_real (b : ℝ) : ClockIn (StepsUpTo b) (fun y => 0 ≤ y ∧ y ≤ b) :=
  ⟨fun c hc => by
    obtain ⟨h1, h2⟩ := expNext_steps c hc
    exact ⟨h1, h2, h2.2.2.1, h2.2.2.2⟩, fun c hc => expRenew_steps c hc⟩

end Moledyn
