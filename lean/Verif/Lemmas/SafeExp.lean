import Verif.Lemmas.SafeBundled
import Verif.Lemmas.ExpRun
/-
Helper lemmas: the program of examples/mfpt_exp.rs does not fail when the limited displacements are small, whatever the numbers are.
-/
namespace Moledyn
open LList
variable {G F : Type} [Fl F] {rng : RngOps G F} {sys : SysOps G F} {d : Nat} {I : Pos F → Prop} {small : F → Prop}

/-- slot `i` of the buffers holds a vector of dimension `d`. -/
def ExpHolds (d : Nat) (c : List (Pos F)) (i : Nat) : Prop := ∃ p, c[i]? = some p ∧ p.length = d

omit [Fl F] in
theorem mutZip_safe (op : F → F → F) (p v : Pos F) (h : p.length = v.length) :
    (Pos.mutZip op p v).2 = .ok () ∧ (Pos.mutZip op p v).1.length = p.length := by
  induction p generalizing v with
  | nil => exact ⟨rfl, rfl⟩
  | cons x p ih =>
    cases v with
    | nil => simp at h
    | cons y v =>
      obtain ⟨h1, h2⟩ := ih v (by simpa using h)
      exact ⟨h1, by simp only [Pos.mutZip, List.length_cons, h2]⟩

omit [Fl F] in
theorem bufMod_safe (op : F → F → F) {buf : LList (Pos F)} {i : Nat} {v : Pos F} (hv : v.length = d) (hi : ExpHolds d buf.contents i) :
    (bufMod buf i (fun p => Pos.mutZip op p v)).2 = .ok () ∧
      ∀ k, ExpHolds d buf.contents k → ExpHolds d (bufMod buf i (fun p => Pos.mutZip op p v)).1.contents k := by
  obtain ⟨p, hp, hl⟩ := hi
  obtain ⟨h1, h2⟩ := mutZip_safe op p v (by rw [hl, hv])
  unfold bufMod
  rw [hp]
  refine ⟨h1, ?_⟩
  rintro k ⟨q, hq, hql⟩
  have hlt := (List.getElem?_eq_some_iff.1 hp).1
  by_cases hk : i = k
  · subst hk
    exact ⟨_, by simp only; rw [List.getElem?_set_self hlt], by rw [h2, hl]⟩
  · exact ⟨q, by simp only; rw [List.getElem?_set_ne hk]; exact hq, hql⟩

theorem dispLoop_safe (n : Nat) (p q v : Pos F) (hp : p.length = n) (hq : q.length = n) (hv : v.length = n) (s : F) :
    (∃ r, (AgentCore.dispLoop n p q v s).2 = .ok r) ∧ (AgentCore.dispLoop n p q v s).1.length = n := by
  induction n generalizing p q v s with
  | zero => exact ⟨⟨s, rfl⟩, hv⟩
  | succ n ih =>
    cases p with
    | nil => simp at hp
    | cons x p =>
      cases q with
      | nil => simp at hq
      | cons y q =>
        cases v with
        | nil => simp at hv
        | cons z v =>
          obtain ⟨⟨r, h1⟩, h2⟩ := ih p q v (by simpa using hp) (by simpa using hq) (by simpa using hv) (s + Fl.powi (y - x) 2)
          refine ⟨⟨r, h1⟩, ?_⟩
          show (_ :: (AgentCore.dispLoop n p q v (s + Fl.powi (y - x) 2)).1).length = n + 1
          simp [h2]

theorem toVec_safe {a b : ExpAgent F} (ha : a.expDim = d) (hb : b.expDim = d) (hpa : a.pos.length = d) (hpb : b.pos.length = d) {v : Pos F}
    (hv : v.length = d) : ∃ z x, a.mutualDisplacementToVec b v = (z, .ok x) ∧ z.length = d := by
  unfold ExpAgent.mutualDisplacementToVec AgentCore.mutualDisplacementToVec
  rw [if_neg (by simp only [ha, hb, Pos.dim, hv]; simp)]
  obtain ⟨⟨r, h1⟩, h2⟩ := dispLoop_safe a.expDim a.pos b.pos v (by rw [hpa, ha]) (by rw [hpb, ha]) (by rw [hv, ha]) (Fl.zero : F)
  rcases h : AgentCore.dispLoop a.expDim a.pos b.pos v (Fl.zero : F) with ⟨z, o⟩
  rw [h] at h1 h2
  simp only at h1 h2
  subst h1
  exact ⟨_, _, rfl, by simp [Pos.mutScalarMul, h2, ha]⟩

/-- an agent that pushes the others and makes safe steps. -/
def SafePusher (I : Pos F → Prop) (d : Nat) (D : F) (x : ExpAgent F) : Prop := I x.pos ∧ x.expDim = d ∧ x.mtype = .brownian D

theorem forceBody_safe (hdim : ∀ p, I p → p.length = d) {D : F} (dt : F) {i j : Nat} {a b : ExpAgent F} (ha : SafePusher I d D a)
    (hb : SafePusher I d D b) (s : Pos F × LList (Pos F)) (hs : s.1.length = d) (hi : ExpHolds d s.2.contents i) (hj : ExpHolds d s.2.contents j) :
    (forceBody dt i a j b s).2 = .ok () ∧ (forceBody dt i a j b s).1.1.length = d ∧
      ∀ k, ExpHolds d s.2.contents k → ExpHolds d (forceBody dt i a j b s).1.2.contents k := by
  obtain ⟨z, x, hz, hl⟩ := toVec_safe ha.2.1 hb.2.1 (hdim _ ha.1) (hdim _ hb.1) hs
  have hl2 : (z.mutScalarMul (a.force x * dt)).length = d := by simp [Pos.mutScalarMul, hl]
  unfold forceBody forceAct
  rw [hz]
  simp only
  obtain ⟨h1, h2⟩ := bufMod_safe (· - ·) hl2 hi
  rcases hb1 : bufMod s.2 i (fun p => Pos.mutZip (· - ·) p (z.mutScalarMul (a.force x * dt))) with ⟨b1, r1⟩
  rw [hb1] at h1 h2
  simp only at h1 h2
  subst h1
  have e1 : bufMod s.2 i (fun p => p.mutSub (z.mutScalarMul (a.force x * dt))) = (b1, .ok ()) := hb1
  rw [e1]
  simp only
  obtain ⟨h3, h4⟩ := bufMod_safe (· + ·) hl2 (h2 j hj)
  rcases hb2 : bufMod b1 j (fun p => Pos.mutZip (· + ·) p (z.mutScalarMul (a.force x * dt))) with ⟨b2, r2⟩
  rw [hb2] at h3 h4
  simp only at h3 h4
  subst h3
  have e2 : bufMod b1 j (fun p => p.mutAdd (z.mutScalarMul (a.force x * dt))) = (b2, .ok ()) := hb2
  rw [e2]
  exact ⟨rfl, hl2, fun k hk => h4 k (h2 k hk)⟩

theorem forceFold_safe (hdim : ∀ p, I p → p.length = d) {D : F} (dt : F) (c : List (ExpAgent F)) (N : Nat) (ps : List (Nat × Nat))
    (hps : ∀ p ∈ ps, (p.1 < N ∧ ∃ a, c[p.1]? = some a ∧ SafePusher I d D a) ∧ (p.2 < N ∧ ∃ b, c[p.2]? = some b ∧ SafePusher I d D b))
    (s : Pos F × LList (Pos F)) (hs : s.1.length = d) (hh : ∀ i < N, ExpHolds d s.2.contents i) :
    (pairFold (forceBody dt) c ps s).2 = .ok () ∧ (pairFold (forceBody dt) c ps s).1.1.length = d ∧
      ∀ i < N, ExpHolds d (pairFold (forceBody dt) c ps s).1.2.contents i := by
  induction ps generalizing s with
  | nil => exact ⟨rfl, hs, hh⟩
  | cons p ps ih =>
    obtain ⟨⟨hi, a, ha, hka⟩, ⟨hj, b, hb, hkb⟩⟩ := hps p (by simp)
    obtain ⟨h1, h2, h3⟩ := forceBody_safe hdim dt (i := p.1) (j := p.2) hka hkb s hs (hh _ hi) (hh _ hj)
    unfold pairFold
    rw [ha, hb]
    simp only
    rcases he : forceBody dt p.1 a p.2 b s with ⟨s1, r⟩
    rw [he] at h1 h2 h3
    simp only at h1 h2 h3
    subst h1
    exact ih (fun q hq => hps q (by simp [hq])) s1 h2 (fun i hi => h3 i (hh i hi))

theorem clear_holds {n : Nat} {mv : LList (Pos F)} (h : BufList n mv) (fuel : Nat) (hf : n < fuel) (i : Nat)
    (hi : ExpHolds d mv.contents i) : ExpHolds d (mv.clearAll (Pos.clear Fl.zero) fuel).1.contents i := by
  obtain ⟨sm, hr, hl⟩ := h
  obtain ⟨-, h2⟩ := mapSweep_rep (Pos.clear (Fl.zero : F)) fuel hr.intoIter (by simpa [hl] using hf)
  have e : (mv.clearAll (Pos.clear Fl.zero) fuel).1.contents =
      sm.live.foldl (fun c i => c.modify i (Pos.clear (Fl.zero : F))) sm.contents := h2.contents_eq
  rw [e]
  rw [hr.contents_eq] at hi
  generalize sm.contents = c at hi
  generalize sm.live = live
  induction live generalizing c with
  | nil => exact hi
  | cons j t ih =>
    apply ih
    obtain ⟨p, hp, hpl⟩ := hi
    by_cases hj : j = i
    · subst hj
      exact ⟨p.clear Fl.zero, by rw [List.getElem?_modify]; simp [hp], by simp [Pos.clear, hpl]⟩
    · exact ⟨p, by rw [List.getElem?_modify]; simp [hj, hp], hpl⟩

/-- the loop over the agents, with the number of slots. -/
theorem agentSweep_safe_at {S α : Type} (K : α → Prop) (Q : S → Prop) (act : Nat → S → α → (α × Res Bool) × S) (N : Nat)
    (h : ∀ i st x, i < N → Q st → K x → (∃ b, (act i st x).1.2 = .ok b) ∧ K (act i st x).1.1 ∧ Q (act i st x).2) (n : Nat) (l : LList α)
    (hl : AllIn K l) (hN : l.contents.length = N) (st : S) (hst : Q st) :
    ∀ r, (agentSweep act n l st).2 = some r →
      (∃ b, r = .ok b) ∧ AllIn K (agentSweep act n l st).1.1 ∧ (agentSweep act n l st).1.1.contents.length = N ∧
        Q (agentSweep act n l st).1.2 := by
  obtain ⟨⟨s, hrep⟩, hk⟩ := hl
  have hkc : ∀ (i : Nat) (x : α), s.contents[i]? = some x → i < N ∧ K x := fun i x hx =>
    ⟨by rw [← hN, hrep.contents_eq]; exact (List.getElem?_eq_some_iff.1 hx).1, hk x (by rw [hrep.contents_eq]; exact List.mem_of_getElem? hx)⟩
  obtain ⟨s', b1, -, -, b4, -, b6, b7, b8⟩ := agentSweep_rep act (fun _ _ _ x' => K x') Q n st hrep hst
    (fun i st x b _ hx hq _ => (h i st x (hkc i x hx).1 hq (hkc i x hx).2).2)
  intro r hr
  have hok : ∃ b, r = .ok b := by
    by_contra hne
    push Not at hne
    obtain ⟨i, -, x, st', hx, hq, hact⟩ := b8 r ⟨hr, hne⟩
    obtain ⟨b, h1⟩ := (h i st' x (hkc i x hx).1 hq (hkc i x hx).2).1
    exact hne b (by rw [← hact, h1])
  obtain ⟨b, rfl⟩ := hok
  refine ⟨⟨b, rfl⟩, ⟨⟨s', b1⟩, ?_⟩, by rw [b1.contents_eq, b4, ← hrep.contents_eq, hN], ?_⟩
  · intro x hx
    rw [b1.contents_eq] at hx
    obtain ⟨i, hi⟩ := List.getElem?_of_mem hx
    cases b with
    | false =>
      obtain ⟨-, c1, c2⟩ := b6 hr
      by_cases hq : i ∈ s.q0
      · obtain ⟨y, y', -, hy', hK⟩ := c1 i hq
        rw [hy'] at hi
        rw [← Option.some.inj hi]; exact hK
      · rw [c2 i hq] at hi; exact (hkc i x hi).2
    | true =>
      obtain ⟨-, k, -, ⟨y, y', -, hy', hK⟩, c2⟩ := b7 hr
      by_cases hik : i = k
      · subst hik
        rw [hy'] at hi
        rw [← Option.some.inj hi]; exact hK
      · rcases c2 i hik with e | ⟨-, z, z', -, hz', hK'⟩
        · rw [e] at hi; exact (hkc i x hi).2
        · rw [hz'] at hi
          rw [← Option.some.inj hi]; exact hK'
  · cases b with
    | false => exact (b6 hr).1
    | true => exact (b7 hr).1

theorem addMove_safe (D dt : F) (g : G) (v : Pos F) (hv : v.length = d) :
    ∃ z g1, AgentCore.randomMoveToVec rng d (.brownian D) g dt v = ((z, .ok ()), g1) ∧ z.length = d := by
  unfold AgentCore.randomMoveToVec
  rw [if_neg (by simp only [Pos.dim, ne_eq, not_not]; exact hv.symm)]
  have h := sweep_forall rng.gaussian (fun x r => x + r * Fl.sqrt (Fl.two * D * dt) + Fl.zero) (fun _ => True) (fun _ => True)
    (fun _ _ _ => trivial) v g (fun _ _ => trivial)
  exact ⟨_, _, rfl, by rw [← hv]; exact h.1⟩

/-- the limit keeps the steps small. -/
def LimitsMoves (d : Nat) (small : F → Prop) (limit : F) : Prop :=
  ∀ v : Pos F, v.length = d → (limitMove limit v).length = d ∧ ∀ x ∈ limitMove limit v, small x

/-- between the time steps. -/
def PusherList (I : Pos F → Prop) (d N : Nat) (D : F) (st : ExpSim G F) : Prop :=
  AllIn (SafePusher I d D) st.list ∧ st.list.contents.length = N ∧ BufList N st.moves ∧ (∀ i < N, ExpHolds d st.moves.contents i) ∧
    st.displacement.length = d

theorem live_le {α : Type} {l : LList α} {s : Slots α} (h : Rep l s) : s.live.length ≤ l.contents.length := by
  have hnd : s.live.Nodup := h.nodup
  have : s.live.length ≤ (List.range l.contents.length).length := by
    refine (hnd.subperm fun i hi => ?_).length_le
    rw [List.mem_range, ← h.len]
    exact h.bound i hi
  simpa using this

section
variable (hr : SafeRoom sys d I small) (t : BulkTarget F) (ht : t.targetPos.length = d) {limit : F} (hlim : LimitsMoves d small limit)
include hr ht

include hlim in
theorem expMove_safe {D dt : F} (N i : Nat) (s : G × LList (Pos F)) (a : ExpAgent F) (hi : i < N)
    (hs : BufList N s.2 ∧ ∀ i < N, ExpHolds d s.2.contents i) (ha : SafePusher I d D a) :
    (∃ b, (expMoveAct rng sys t.ops limit dt i s a).1.2 = .ok b) ∧ SafePusher I d D (expMoveAct rng sys t.ops limit dt i s a).1.1 ∧
      BufList N (expMoveAct rng sys t.ops limit dt i s a).2.2 ∧ ∀ k < N, ExpHolds d (expMoveAct rng sys t.ops limit dt i s a).2.2.contents k := by
  obtain ⟨h1, h2, h3⟩ := ha
  obtain ⟨v0, hv0, hl0⟩ := hs.2 i hi
  obtain ⟨z, g1, e, hz⟩ := addMove_safe (rng := rng) D dt s.1 v0 hl0
  have em : a.randomMoveToVec rng s.1 dt v0 = ((z, .ok ()), g1) := by unfold ExpAgent.randomMoveToVec; rw [h2, h3, e]
  obtain ⟨m1, m2⟩ := hlim z hz
  obtain ⟨k1, k2⟩ := hr.step a.pos (limitMove limit z) h1 m1 m2
  have hset : ∀ k < N, ExpHolds d (s.2.contents.set i (limitMove limit z)) k := by
    intro k hk
    have hlt := (List.getElem?_eq_some_iff.1 hv0).1
    by_cases hik : i = k
    · subst hik
      exact ⟨_, by rw [List.getElem?_set_self hlt], m1⟩
    · obtain ⟨q, hq, hql⟩ := hs.2 k hk
      exact ⟨q, by rw [List.getElem?_set_ne hik]; exact hq, hql⟩
  unfold expMoveAct
  rw [hv0]
  simp only [em]
  rcases hc : sys.checkBc a.pos (limitMove limit z) with ⟨p, r⟩
  rw [hc] at k1 k2
  simp only at k1 k2
  subst k1
  obtain ⟨b, hb⟩ := checkFind_ok t p (by rw [ht, hr.dim _ k2])
  exact ⟨⟨b, hb⟩, ⟨k2, h2, h3⟩, hs.1.set i _, hset⟩

include hlim in
theorem expStep_safe {D dt : F} (N fuel : Nat) (hf : N * N + N < fuel) (st : ExpSim G F) (h : PusherList I d N D st) :
    ∀ r, (expStep rng sys t.ops limit fuel dt st).2 = some r →
      (∃ b, r = .ok b) ∧ PusherList I d N D (expStep rng sys t.ops limit fuel dt st).1 := by
  obtain ⟨⟨⟨s, hs⟩, hk⟩, hN, hbl, hho, hdl⟩ := h
  have hlive := live_le hs
  rw [hN] at hlive
  obtain ⟨hc1, hc2⟩ := clear_bufList hbl fuel (by omega)
  have hc3 := fun i hi => clear_holds hbl fuel (by omega) i (hho i hi)
  unfold expStep
  rcases hcl : st.moves.clearAll (Pos.clear Fl.zero) fuel with ⟨mv1, fl⟩
  rw [hcl] at hc1 hc2 hc3
  simp only at hc1 hc2 hc3
  subst hc1
  simp only
  have hdi := hs.intoDoubleIter
  rcases hl1 : st.list.intoDoubleIter with ⟨l1, rr⟩
  rw [hl1] at hdi
  obtain ⟨hrd, hro⟩ := hdi
  simp only at hrd hro
  subst hro
  simp only
  have hbnd : (pairsOf s.live).length ≤ N * N := by
    have h1 := length_pairsOf s.live
    have h2 : s.live.length * (s.live.length - 1) ≤ N * N := Nat.mul_le_mul hlive (by omega)
    omega
  obtain ⟨s1, k1, k2, k3, k4, k5⟩ := pairSweep_fold (forceAct dt) (forceBody dt)
    (fun i a j b l s => forceAct_body dt i a j b l s) fuel (st.displacement, mv1) hrd (pairOk_start s)
    (by rw [pending_start]; omega)
  simp only at k2 k3 k4 k5
  have hb2 : BufList N (pairFold (forceBody dt) s.contents (pending { s with q0 := s.live, q1 := s.live.tail })
      (st.displacement, mv1)).1.2 :=
    pairFold_inv (forceBody dt) (fun x => BufList N x.2)
      (fun i a j b x hx => forceBody_bufList N dt i a j b x hx) _ _ _ hc2
  have hag : ∀ i ∈ s.live, i < N ∧ ∃ a, s.contents[i]? = some a ∧ SafePusher I d D a := by
    intro i hi
    obtain ⟨a, ha⟩ := hs.content hi
    exact ⟨by rw [← hN, hs.contents_eq]; exact (List.getElem?_eq_some_iff.1 ha).1, a, ha,
      hk a (by rw [hs.contents_eq]; exact List.mem_of_getElem? ha)⟩
  obtain ⟨f1, f2, f5⟩ := forceFold_safe hr.dim dt s.contents N (pending { s with q0 := s.live, q1 := s.live.tail })
    (by
      rw [pending_start]
      intro p hp
      obtain ⟨q1, q2, -⟩ := (mem_pairsOf hs.sorted p.1 p.2).1 hp
      exact ⟨hag _ q1, hag _ q2⟩) (st.displacement, mv1) hdl hc3
  rw [f1] at k5
  rw [← k4] at hb2 f2 f5
  rcases hps : pairSweep (forceAct dt) fuel l1 (st.displacement, mv1) with ⟨⟨l2, dd, mv2⟩, o⟩
  rw [hps] at k1 k5 hb2 f2 f5
  simp only at k1 k5 hb2 f2 f5
  subst k5
  simp only
  have hcon : l2.contents = st.list.contents := by rw [k1.contents_eq, k3, hs.contents_eq]
  have hall : AllIn (SafePusher I d D) l2 := ⟨⟨_, k1⟩, fun x hx => hk x (by rw [← hcon]; exact hx)⟩
  have hsw := agentSweep_safe_at (SafePusher I d D) (fun x : G × LList (Pos F) => BufList N x.2 ∧ ∀ i < N, ExpHolds d x.2.contents i)
    (expMoveAct rng sys t.ops limit dt) N (fun i x a hi hx ha => expMove_safe hr t ht hlim N i x a hi hx ha) fuel l2.intoIter
    (intoIter_allIn hall) (by rw [← hN, ← hcon]; rfl) (st.rng, mv2) ⟨hb2, f5⟩
  rcases hsx : agentSweep (expMoveAct rng sys t.ops limit dt) fuel l2.intoIter (st.rng, mv2) with ⟨⟨l3, g, mv3⟩, o⟩
  rw [hsx] at hsw
  intro r hro
  obtain ⟨m1, m2, m3, m4⟩ := hsw r hro
  exact ⟨m1, m2, m3, m4.1, m4.2, f2⟩

/-- an agent that can be renewed: of dimension `d`, or at a position that will be replaced. -/
def PushLater (d : Nat) (D : F) (a : ExpAgent F) : Prop := a.mtype = .brownian D ∧ (a.expDim = d ∨ a.pos.length ≠ d)

theorem expRenew_safe {D : F} (inner loops : Nat) (g : G) (a : ExpAgent F) (ha : PushLater d D a) (y)
    (h : a.renewUniform sys t.ops inner loops g = some y) : y.1.2 = .ok () ∧ SafePusher I d D y.1.1 := by
  unfold ExpAgent.renewUniform at h
  rw [startPos_says hr.outside] at h
  simp only at h
  by_cases hp : a.pos.length = d
  · have hd : a.expDim = d := by
      rcases ha.2 with h | h
      · exact h
      · exact absurd hp h
    simp only [hp, ne_eq, not_true_eq_false, decide_false, Bool.false_eq_true, if_false, Option.map_eq_some_iff] at h
    obtain ⟨⟨⟨p, r⟩, g1⟩, hdr, rfl⟩ := h
    obtain ⟨k1, k2⟩ := drawOff_safe hr t ht inner loops g _ hr.outside.1 _ hdr
    exact ⟨k1, k2, hd, ha.1⟩
  · simp only [ne_eq, hp, not_false_eq_true, decide_true, if_true, Option.map_eq_some_iff] at h
    obtain ⟨⟨⟨p, r⟩, g1⟩, hdr, rfl⟩ := h
    obtain ⟨k1, k2⟩ := drawOff_safe hr t ht inner loops g _ hr.outside.1 _ hdr
    exact ⟨k1, k2, hr.outside.1, ha.1⟩

theorem renewContents_safe {D : F} (inner loops : Nat) (w : List (ExpAgent F)) (hw : ∀ a ∈ w, PushLater d D a) (g : G) (y)
    (h : renewContents sys t.ops inner loops w g = some y) :
    y.1.2 = .ok () ∧ y.1.1.length = w.length ∧ ∀ a ∈ y.1.1, SafePusher I d D a := by
  induction w generalizing g y with
  | nil =>
    rw [renewContents] at h
    rw [← Option.some.inj h]
    exact ⟨rfl, rfl, by simp⟩
  | cons a w ih =>
    rw [renewContents] at h
    rcases hn : a.renewUniform sys t.ops inner loops g with _ | ⟨⟨b, r⟩, g1⟩
    · rw [hn] at h; simp at h
    · obtain ⟨k1, k2⟩ := expRenew_safe hr t ht inner loops g a (hw a (by simp)) _ hn
      rw [hn] at h
      simp only at k1 k2
      subst k1
      simp only [Option.map_eq_some_iff] at h
      obtain ⟨z, hz, rfl⟩ := h
      obtain ⟨m1, m2, m3⟩ := ih (fun a ha => hw a (by simp [ha])) g1 z hz
      refine ⟨m1, by simp [m2], fun b hb => ?_⟩
      rcases List.mem_cons.1 hb with rfl | hb
      · exact k2
      · exact m3 b hb

/-- between the ensembles. -/
def ExpReady (d N : Nat) (D : F) (st : ExpSim G F) : Prop :=
  AllIn (PushLater d D) st.list ∧ st.list.contents.length = N ∧ BufList N st.moves ∧ (∀ i < N, ExpHolds d st.moves.contents i) ∧
    st.displacement.length = d

omit hr ht in
theorem expStart_ready {D : F} (v : List (ExpAgent F)) (hv : ∀ a ∈ v, PushLater d D a) (g : G) : ExpReady d v.length D (expStart v d g) := by
  refine ⟨from_allIn v hv, ?_, ⟨_, rep_from _, ?_⟩, fun i hi => ?_, by simp [expStart]⟩
  · exact congrArg List.length (rep_from v).contents_eq
  · simp [Slots.ofContents]
  · refine ⟨List.replicate d Fl.zero, ?_, by simp⟩
    show (LList.from' (List.replicate v.length (List.replicate d (Fl.zero : F)))).contents[i]? = _
    rw [(rep_from _).contents_eq]
    simp [Slots.ofContents, hi]

omit hr ht in
theorem expTick_safe (c : Bool × TimeDiff (ExpStep F)) (h : ∃ a b l, c.2.timeiter.titype = .exponential a b l) :
    ∃ o, (skipOne (TimeDiff.next ExpStep.next (fun c : ExpStep F => c.dt)) c).2 = .ok o ∧
      ∃ a b l, (skipOne (TimeDiff.next ExpStep.next (fun c : ExpStep F => c.dt)) c).1.2.timeiter.titype = .exponential a b l := by
  have one : ∀ c : TimeDiff (ExpStep F), (∃ a b l, c.timeiter.titype = .exponential a b l) →
      ∃ o, (TimeDiff.next ExpStep.next (fun c : ExpStep F => c.dt) c).2 = .ok o ∧
        ∃ a b l, (TimeDiff.next ExpStep.next (fun c : ExpStep F => c.dt) c).1.timeiter.titype = .exponential a b l := by
    rintro ⟨c⟩ ⟨a, b, l, h⟩
    have hb : (c.bump b l).titype = .exponential a b l := by
      unfold ExpStep.bump
      split <;> exact h
    simp only at h
    unfold TimeDiff.next ExpStep.next
    simp only [h]
    by_cases hle : Fl.le (c.bump b l).current (c.bump b l).tmax = true
    · simp only [hle, if_true]
      exact ⟨_, rfl, a, b, l, hb⟩
    · simp only [hle]
      exact ⟨_, rfl, a, b, l, hb⟩
  obtain ⟨o, h1, h2⟩ := one c.2 h
  unfold skipOne
  by_cases hc : c.1 = true
  · rw [if_pos hc]
    exact ⟨o, h1, h2⟩
  · rw [if_neg hc]
    rcases he : TimeDiff.next ExpStep.next (fun c : ExpStep F => c.dt) c.2 with ⟨c1, r1⟩
    rw [he] at h1 h2
    simp only at h1 h2
    subst h1
    cases o with
    | none => exact ⟨none, rfl, h2⟩
    | some x =>
      simp only
      exact one c1 h2

include hlim in
theorem expRun_safe {D : F} (N inner loops fuel steps : Nat) (hf : N * N + N < fuel) (clock : ExpStep F)
    (hty : ∃ a b l, clock.titype = .exponential a b l) (st : ExpSim G F) (h : ExpReady d N D st) (x)
    (hx : expRun rng sys t.ops limit inner loops fuel steps clock st = some x) : (∃ v, x.1 = .ok v) ∧ ExpReady d N D x.2 := by
  obtain ⟨⟨⟨sl, hsl⟩, hk⟩, hN, hbl, hho, hdl⟩ := h
  unfold expRun expPrepare at hx
  rcases hn : renewContents sys t.ops inner loops st.list.contents st.rng with _ | ⟨⟨cs, r⟩, g1⟩
  · rw [hn] at hx; simp at hx
  · obtain ⟨k1, k2, k3⟩ := renewContents_safe hr t ht inner loops _ hk st.rng _ hn
    simp only at k1 k2 k3
    subst k1
    rw [hn] at hx
    obtain ⟨m1, m2⟩ := connectAll_allIn (K := SafePusher I d D) (l := { st.list with contents := cs }) ⟨⟨_, rep_setContents hsl cs k2⟩, k3⟩
    have m3 : ({ st.list with contents := cs } : LList (ExpAgent F)).connectAll.1.contents.length = N := by
      have := (rep_setContents hsl cs k2).connectAll.1
      have e1 : (({ st.list with contents := cs } : LList (ExpAgent F)).step .connectAll).1 =
        ({ st.list with contents := cs } : LList (ExpAgent F)).connectAll.1 := rfl
      rw [e1] at this
      rw [this.contents_eq, ← hN, ← k2]
      rfl
    rcases hca : ({ st.list with contents := cs } : LList (ExpAgent F)).connectAll with ⟨l1, r1⟩
    rw [hca] at m1 m2 m3
    simp only at m1 m2 m3
    subst m1
    simp only [Option.map_some, hca] at hx
    unfold expFpt at hx
    have hl := searchLoop_succeeds (fun c : Bool × TimeDiff (ExpStep F) => ∃ a b l, c.2.timeiter.titype = .exponential a b l)
      (PusherList I d N D) (fun _ : F => True) (skipOne (TimeDiff.next ExpStep.next (fun c : ExpStep F => c.dt)))
      (expStep rng sys t.ops limit fuel)
      (fun c hc => by
        obtain ⟨o, h1, h2⟩ := expTick_safe c hc
        exact ⟨o, h1, h2, fun _ _ => trivial⟩)
      (fun dt s _ hj r hr' => expStep_safe hr t ht hlim N fuel hf s hj r hr')
      steps (false, intoDiff clock) { st with list := l1, rng := g1 } hty ⟨m2, m3, hbl, hho, hdl⟩
    rcases hse : searchLoop (skipOne (TimeDiff.next ExpStep.next (fun c : ExpStep F => c.dt))) (expStep rng sys t.ops limit fuel) steps
      (false, intoDiff clock) { st with list := l1, rng := g1 } with ⟨⟨c1, s1⟩, o⟩
    rw [hse] at hx hl
    cases o with
    | none => simp at hx
    | some r =>
      obtain ⟨⟨o, rfl⟩, hj⟩ := hl r rfl
      simp only [Option.map_some, Option.some.injEq] at hx
      subst hx
      refine ⟨⟨_, rfl⟩, ⟨hj.1.1, fun a ha => ?_⟩, hj.2⟩
      obtain ⟨h1, h2, h3⟩ := hj.1.2 a ha
      exact ⟨h3, .inl h2⟩

include hlim in
theorem expProgram_safe {D : F} (v : List (ExpAgent F)) (hv : ∀ a ∈ v, PushLater d D a) (inner loops fuel steps : Nat)
    (hf : v.length * v.length + v.length < fuel) (clock : ExpStep F) (hty : ∃ a b l, clock.titype = .exponential a b l) (n : Nat) (g : G) :
    WritesAll n (expLoop (expRun rng sys t.ops limit inner loops fuel steps clock) n (expStart v d g)) :=
  expLoop_safe (ExpReady d v.length D) _
    (fun s hl x hx => expRun_safe hr t ht hlim v.length inner loops fuel steps hf clock hty s hl x hx) n _ (expStart_ready v hv g)
end
end Moledyn
