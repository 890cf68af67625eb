import Verif.Lemmas.SafeSearches
import Verif.Model.BundledPrograms
/-
Helper lemmas: the programs of tests/arguments.rs and tests/test_setup.rs do not fail when all displacements are small.
-/
namespace Moledyn
open LList
variable {G F : Type} [Fl F] {rng : RngOps G F} {sys : SysOps G F} {d : Nat} {I : Pos F → Prop} {small : F → Prop}

omit [Fl F] in
theorem expLoop_safe {S : Type} (J : S → Prop) (run : S → Option (Res F × S))
    (h : ∀ s, J s → ∀ x, run s = some x → (∃ v, x.1 = .ok v) ∧ J x.2) (n : Nat) (s : S) (hs : J s) : WritesAll n (expLoop run n s) := by
  induction n generalizing s with
  | zero =>
    intro x hx
    rw [expLoop] at hx
    rw [← Option.some.inj hx]
    exact ⟨rfl, rfl⟩
  | succ n ih =>
    intro x hx
    rw [expLoop] at hx
    rcases hr : run s with _ | ⟨r, s1⟩
    · rw [hr] at hx; simp at hx
    · obtain ⟨⟨v, hv⟩, h2⟩ := h s hs _ hr
      rw [hr] at hx
      simp only at hv h2
      subst hv
      simp only [Option.map_eq_some_iff] at hx
      obtain ⟨y, hy, rfl⟩ := hx
      obtain ⟨k1, k2⟩ := ih s1 h2 y hy
      exact ⟨k1, by simp [k2]⟩

/-! ### searchers that are given up -/

theorem prunedSearch_safe {S : Type} (J : S → Prop) (found : S → Res Bool) (turn : S → S × Res Unit) (dt fpt : F)
    (hf : ∀ s, J s → ∃ b, found s = .ok b) (ht : ∀ s, J s → (turn s).2 = .ok () ∧ J (turn s).1) (n : Nat) (s : S) (hs : J s) (time : F) :
    J (prunedSearch found turn dt fpt n s time).1.1 ∧
      ∀ r, (prunedSearch found turn dt fpt n s time).2 = some r → ∃ v, r = .ok v := by
  induction n generalizing s time with
  | zero => exact ⟨hs, by simp [prunedSearch]⟩
  | succ n ih =>
    obtain ⟨b, hb⟩ := hf s hs
    rw [prunedSearch, hb]
    cases b with
    | true => exact ⟨hs, fun r h => ⟨time, by simpa using h.symm⟩⟩
    | false =>
      simp only
      by_cases hlt : Fl.lt time fpt = true
      · rw [if_pos hlt]
        obtain ⟨h1, h2⟩ := ht s hs
        rcases hx : turn s with ⟨s1, r⟩
        rw [hx] at h1 h2
        simp only at h1 h2
        subst h1
        exact ih s1 h2 _
      · rw [if_neg hlt]
        exact ⟨hs, fun r h => ⟨time, by simpa using h.symm⟩⟩

theorem prunedLoop_safe {S : Type} (J : S → Prop) (run : F → S → Option (Res F × S))
    (h : ∀ fpt s, J s → ∀ x, run fpt s = some x → (∃ v, x.1 = .ok v) ∧ J x.2) (n : Nat) (s : S) (hs : J s) (fpt : F) (x)
    (hx : prunedLoop run n s fpt = some x) : (∃ v, x.1 = .ok v) ∧ J x.2 := by
  induction n generalizing s fpt with
  | zero =>
    rw [prunedLoop] at hx
    rw [← Option.some.inj hx]
    exact ⟨⟨fpt, rfl⟩, hs⟩
  | succ n ih =>
    rw [prunedLoop] at hx
    rcases hr : run fpt s with _ | ⟨r, s1⟩
    · rw [hr] at hx; simp at hx
    · obtain ⟨⟨v, hv⟩, h2⟩ := h fpt s hs _ hr
      rw [hr] at hx
      simp only at hv h2
      subst hv
      exact ih s1 h2 _ hx

section
variable (hr : SafeRoom sys d I small) (t : BulkTarget F) (ht : t.targetPos.length = d)
include hr ht

theorem prunedRun_safe {D dt : F} (hs : SmallMoves rng small D dt) (inner loops steps n : Nat) (s : Pos F × G) (hl : s.1.length = d) (x)
    (hx : prunedRun rng sys t.ops inner loops steps (.brownian D) dt n s = some x) : (∃ v, x.1 = .ok v) ∧ x.2.1.length = d := by
  refine prunedLoop_safe (fun s : Pos F × G => s.1.length = d) _ (fun fpt s hl x hx => ?_) n s hl _ x hx
  unfold prunedSearcher at hx
  rcases hn : IndepAgent.newUniform sys t.ops inner loops s.2 (.brownian D) with _ | ⟨r, g1⟩
  · rw [hn] at hx; simp at hx
  · obtain ⟨w, hw, hk⟩ := newUniform_safe hr t ht inner loops s.2 D _ hn
    simp only at hw
    subst hw
    rw [hn] at hx
    simp only at hx
    obtain ⟨h1, h2⟩ := prunedSearch_safe (fun s : IndepAgent F × Pos F × G => SafeWalker I d D s.1 ∧ s.2.1.length = d)
      (fun s => t.ops.checkFind s.1.pos) (bufferTurn rng sys dt) dt fpt (fun s hs => checkFind_ok t _ (by rw [ht, hr.dim _ hs.1.1]))
      (bufferTurn_safe hr hs) steps (w, s.1, g1) ⟨hk, hl⟩ Fl.zero
    rcases hw : prunedSearch (fun s : IndepAgent F × Pos F × G => t.ops.checkFind s.1.pos) (bufferTurn rng sys dt) dt fpt steps (w, s.1, g1)
      Fl.zero with ⟨⟨s', tm⟩, o⟩
    rw [hw] at hx h1 h2
    cases o with
    | none => simp at hx
    | some r =>
      simp only [Option.some.injEq] at hx
      subst hx
      exact ⟨h2 r rfl, h1.2⟩

/-! ### the list of searchers -/

/-- a searcher that can be renewed: of dimension `d`, or at a position that will be replaced. -/
def FreshLater (d : Nat) (D : F) (a : IndepAgent F) : Prop := a.mtype = .brownian D ∧ (a.dim = d ∨ a.pos.length ≠ d)

theorem indepRenew_safe {D : F} (inner loops : Nat) (g : G) (a : IndepAgent F) (ha : FreshLater d D a) (y)
    (h : a.renewUniform sys t.ops inner loops g = some y) : y.1.2 = .ok () ∧ SafeWalker I d D y.1.1 := by
  unfold IndepAgent.renewUniform at h
  rw [startPos_says hr.outside] at h
  simp only [Option.map_eq_some_iff] at h
  obtain ⟨⟨⟨p, r⟩, g1⟩, hd, rfl⟩ := h
  obtain ⟨k1, k2⟩ := drawOff_safe hr t ht inner loops g _ hr.outside.1 _ hd
  refine ⟨k1, k2, ?_, ha.1⟩
  by_cases hp : a.pos.length = d
  · rcases ha.2 with h | h
    · simp [hp, h]
    · exact absurd hp h
  · simp only [ne_eq, hp, not_false_eq_true, decide_true, if_true]
    exact hr.outside.1

theorem renewIndep_safe {D : F} (inner loops : Nat) (w : List (IndepAgent F)) (hw : ∀ a ∈ w, FreshLater d D a) (g : G) (y)
    (h : renewIndep sys t.ops inner loops w g = some y) :
    y.1.2 = .ok () ∧ y.1.1.length = w.length ∧ ∀ a ∈ y.1.1, SafeWalker I d D a := by
  induction w generalizing g y with
  | nil =>
    rw [renewIndep] at h
    rw [← Option.some.inj h]
    exact ⟨rfl, rfl, by simp⟩
  | cons a w ih =>
    rw [renewIndep] at h
    rcases hn : a.renewUniform sys t.ops inner loops g with _ | ⟨⟨b, r⟩, g1⟩
    · rw [hn] at h; simp at h
    · obtain ⟨k1, k2⟩ := indepRenew_safe hr t ht inner loops g a (hw a (by simp)) _ hn
      rw [hn] at h
      simp only at k1 k2
      subst k1
      simp only [Option.map_eq_some_iff] at h
      obtain ⟨z, hz, rfl⟩ := h
      obtain ⟨m1, m2, m3⟩ := ih (fun a ha => hw a (by simp [ha])) g1 z hz
      refine ⟨m1, by simp [m2], fun b hb => ?_⟩
      rcases List.mem_cons.1 hb with rfl | hb
      · exact k2
      · exact m3 b hb

omit hr ht in
theorem rep_setContents {α : Type} {l : LList α} {s : Slots α} (h : Rep l s) (v : List α) (hv : v.length = l.contents.length) :
    Rep { l with contents := v } { s with contents := v } :=
  ⟨rfl, by rw [hv]; exact h.len, h.sorted, h.bound, h.head, h.tail, h.chain, h.dead, h.q0suf, h.q1suf, h.c0, h.c1, h.c2⟩

omit hr ht in
theorem connectAll_allIn {α : Type} {K : α → Prop} {l : LList α} (h : AllIn K l) : l.connectAll.2 = .ok () ∧ AllIn K l.connectAll.1 := by
  obtain ⟨⟨s, hs⟩, hk⟩ := h
  obtain ⟨m1, m2⟩ := hs.connectAll
  have e1 : (l.step .connectAll).1 = l.connectAll.1 := rfl
  have e2 : (l.step .connectAll).2 = .done l.connectAll.2 := rfl
  rw [e1] at m1
  rw [e2] at m2
  refine ⟨by simpa [Slots.step] using m2, ⟨_, m1⟩, fun y hy => ?_⟩
  rw [m1.contents_eq] at hy
  exact hk y (by rw [hs.contents_eq]; exact hy)

omit hr ht in
/-- the loop over the agents, when the body never fails as long as the surroundings are in `Q`, which it keeps. -/
theorem agentSweep_safe_in {S α : Type} (K : α → Prop) (Q : S → Prop) (act : Nat → S → α → (α × Res Bool) × S)
    (h : ∀ i st x, Q st → K x → (∃ b, (act i st x).1.2 = .ok b) ∧ K (act i st x).1.1 ∧ Q (act i st x).2) (n : Nat) (l : LList α)
    (hl : AllIn K l) (st : S) (hst : Q st) :
    ∀ r, (agentSweep act n l st).2 = some r →
      (∃ b, r = .ok b) ∧ AllIn K (agentSweep act n l st).1.1 ∧ Q (agentSweep act n l st).1.2 := by
  obtain ⟨⟨s, hrep⟩, hk⟩ := hl
  have hkc : ∀ (i : Nat) (x : α), s.contents[i]? = some x → K x := fun i x hx => hk x (by rw [hrep.contents_eq]; exact List.mem_of_getElem? hx)
  obtain ⟨s', b1, -, -, -, -, b6, b7, b8⟩ := agentSweep_rep act (fun _ _ _ x' => K x') Q n st hrep hst
    (fun i st x b _ hx hq _ => (h i st x hq (hkc i x hx)).2)
  intro r hr
  have hok : ∃ b, r = .ok b := by
    by_contra hne
    push Not at hne
    obtain ⟨i, -, x, st', hx, hq, hact⟩ := b8 r ⟨hr, hne⟩
    obtain ⟨b, h1⟩ := (h i st' x hq (hkc i x hx)).1
    exact hne b (by rw [← hact, h1])
  obtain ⟨b, rfl⟩ := hok
  refine ⟨⟨b, rfl⟩, ⟨⟨s', b1⟩, ?_⟩, ?_⟩
  · intro x hx
    rw [b1.contents_eq] at hx
    obtain ⟨i, hi⟩ := List.getElem?_of_mem hx
    cases b with
    | false =>
      obtain ⟨-, c1, c2⟩ := b6 hr
      by_cases hq : i ∈ s.q0
      · obtain ⟨y, y', -, hy', hK⟩ := c1 i hq
        rw [hy'] at hi
        rw [← Option.some.inj hi]; exact hK
      · rw [c2 i hq] at hi; exact hkc i x hi
    | true =>
      obtain ⟨-, k, -, ⟨y, y', -, hy', hK⟩, c2⟩ := b7 hr
      by_cases hik : i = k
      · subst hik
        rw [hy'] at hi
        rw [← Option.some.inj hi]; exact hK
      · rcases c2 i hik with e | ⟨-, z, z', -, hz', hK'⟩
        · rw [e] at hi; exact hkc i x hi
        · rw [hz'] at hi
          rw [← Option.some.inj hi]; exact hK'
  · cases b with
    | false => exact (b6 hr).1
    | true => exact (b7 hr).1

theorem listAct_safe {D dt : F} (hs : SmallMoves rng small D dt) (i : Nat) (s : Pos F × G) (a : IndepAgent F) (hl : s.1.length = d)
    (ha : SafeWalker I d D a) :
    (∃ b, (listAct rng sys t.ops dt i s a).1.2 = .ok b) ∧ SafeWalker I d D (listAct rng sys t.ops dt i s a).1.1 ∧
      (listAct rng sys t.ops dt i s a).2.1.length = d := by
  obtain ⟨h1, h2, h3⟩ := ha
  obtain ⟨z, g1, e, hz, hb⟩ := moveToVec_safe (d := d) hs s.2 s.1 hl
  obtain ⟨k1, k2⟩ := hr.step a.pos z h1 hz hb
  have em : a.randomMoveToVec rng s.2 dt (s.1.clear Fl.zero) = ((z, .ok ()), g1) := by
    unfold IndepAgent.randomMoveToVec; rw [h2, h3, e]
  unfold listAct
  rw [em]
  simp only
  rcases hc : sys.checkBc a.pos z with ⟨p, r⟩
  rw [hc] at k1 k2
  simp only at k1 k2
  subst k1
  obtain ⟨b, hb⟩ := checkFind_ok t p (by rw [ht, hr.dim _ k2])
  exact ⟨⟨b, hb⟩, ⟨k2, h2, h3⟩, hz⟩

/-- what every ensemble finds and leaves for the next. -/
def ListReady (d : Nat) (D : F) (st : ListSim G F) : Prop := AllIn (FreshLater d D) st.1 ∧ st.2.1.length = d

omit hr ht in
theorem listStart_ready {D : F} (v : List (IndepAgent F)) (hv : ∀ a ∈ v, FreshLater d D a) (g : G) : ListReady d D (listStart v d g) :=
  ⟨from_allIn v hv, by simp [listStart]⟩

theorem listRun_safe {D : F} (inner loops fuel steps : Nat) (clock : ConstStep F) (hs : SmallMoves rng small D clock.dt)
    (st : ListSim G F) (h : ListReady d D st) (x) (hx : listRun rng sys t.ops inner loops fuel steps clock st = some x) :
    (∃ v, x.1 = .ok v) ∧ ListReady d D x.2 := by
  obtain ⟨⟨⟨sl, hsl⟩, hk⟩, hb⟩ := h
  unfold listRun listPrepare at hx
  rcases hn : renewIndep sys t.ops inner loops st.1.contents st.2.2 with _ | ⟨⟨cs, r⟩, g1⟩
  · rw [hn] at hx; simp at hx
  · obtain ⟨k1, k2, k3⟩ := renewIndep_safe hr t ht inner loops _ hk st.2.2 _ hn
    simp only at k1 k2 k3
    subst k1
    rw [hn] at hx
    obtain ⟨m1, m2⟩ := connectAll_allIn (K := SafeWalker I d D) (l := { st.1 with contents := cs }) ⟨⟨_, rep_setContents hsl cs k2⟩, k3⟩
    rcases hca : ({ st.1 with contents := cs } : LList (IndepAgent F)).connectAll with ⟨l1, r1⟩
    rw [hca] at m1 m2
    simp only at m1 m2
    subst m1
    simp only [Option.map_some, hca] at hx
    have hl := searchLoop_succeeds (fun c : ConstStep F => c.dt = clock.dt)
      (fun s : ListSim G F => AllIn (SafeWalker I d D) s.1 ∧ s.2.1.length = d) (fun y => y = clock.dt) constTick (listStep rng sys t.ops fuel)
      (fun c hc => by
        unfold constTick ConstStep.next
        simp only
        by_cases hle : Fl.le c.current c.tmax = true
        · rw [if_pos hle]
          exact ⟨_, rfl, hc, fun x hx => by rw [← Option.some.inj hx]; exact hc⟩
        · rw [if_neg hle]
          exact ⟨none, rfl, hc, fun x hx => by simp at hx⟩)
      (fun dt s hq hj r hr' => by
        subst hq
        exact agentSweep_safe_in (SafeWalker I d D) (fun s : Pos F × G => s.1.length = d) _
          (fun i s x hq hx => listAct_safe hr t ht hs i s x hq hx) fuel _ (intoIter_allIn hj.1) s.2 hj.2 r hr')
      steps clock (l1, (st.2.1, g1)) rfl ⟨m2, hb⟩
    rcases hse : searchLoop constTick (listStep rng sys t.ops fuel) steps clock (l1, (st.2.1, g1)) with ⟨⟨c1, s1⟩, o⟩
    rw [hse] at hx hl
    cases o with
    | none => simp at hx
    | some r =>
      obtain ⟨⟨o, rfl⟩, hj⟩ := hl r rfl
      simp only [Option.some.injEq] at hx
      subst hx
      refine ⟨⟨_, rfl⟩, ⟨hj.1.1, fun a ha => ?_⟩, hj.2⟩
      obtain ⟨h1, h2, h3⟩ := hj.1.2 a ha
      exact ⟨h3, .inl h2⟩

/-- the two programs. -/
theorem bundled_safe (D : F) (inner loops fuel steps : Nat) :
    (∀ dt, SmallMoves rng small D dt → ∀ k n buf g, buf.length = d →
      WritesAll n (expLoop (prunedRun rng sys t.ops inner loops steps (.brownian D) dt k) n (buf, g))) ∧
    (∀ clock : ConstStep F, SmallMoves rng small D clock.dt → ∀ v : List (IndepAgent F), (∀ a ∈ v, FreshLater d D a) → ∀ n g,
      WritesAll n (expLoop (listRun rng sys t.ops inner loops fuel steps clock) n (listStart v d g))) :=
  ⟨fun _ hs k n _ _ hb => expLoop_safe (fun s : Pos F × G => s.1.length = d) _
      (fun s hl x hx => prunedRun_safe hr t ht hs inner loops steps k s hl x hx) n _ hb,
    fun clock hs v hv n g => expLoop_safe (ListReady d D) _
      (fun s hl x hx => listRun_safe hr t ht inner loops fuel steps clock hs s hl x hx) n _ (listStart_ready v hv g)⟩
end
end Moledyn
