import Verif.Lemmas.ForcePass
/-
Helper lemmas about the steps of examples/mfpt_exp.rs.
-/
namespace Moledyn
open LList
variable {G F S C α : Type}

theorem pairFold_inv (body : Nat → α → Nat → α → S → S × Res Unit) (P : S → Prop)
    (h : ∀ i a j b s, P s → P (body i a j b s).1) (c : List α) (ps : List (Nat × Nat)) (s : S) (hs : P s) :
    P (pairFold body c ps s).1 := by
  induction ps generalizing s with
  | nil => exact hs
  | cons p ps ih =>
    unfold pairFold
    cases c[p.1]? with
    | none => exact hs
    | some a =>
      cases c[p.2]? with
      | none => exact hs
      | some b =>
        simp only
        have := h p.1 a p.2 b s hs
        rcases hb : body p.1 a p.2 b s with ⟨s1, r⟩
        rw [hb] at this
        cases r with
        | ok u => exact ih s1 this
        | err e => exact this
        | panic => exact this

variable [Fl F]

/-- the buffers are a well-formed list with `m` live slots. -/
def BufList (m : Nat) (mv : LList (Pos F)) : Prop := ∃ sm : Slots (Pos F), Rep mv sm ∧ sm.live.length = m

omit [Fl F] in
theorem BufList.set {m : Nat} {mv : LList (Pos F)} (h : BufList m mv) (i : Nat) (v : Pos F) :
    BufList m { mv with contents := mv.contents.set i v } := by
  obtain ⟨sm, hr, hl⟩ := h
  exact ⟨_, hr.setContent i v, hl⟩

omit [Fl F] in
theorem BufList.bufMod {m : Nat} {mv : LList (Pos F)} (h : BufList m mv) (i : Nat) (f : Pos F → Pos F × Res Unit) :
    BufList m (bufMod mv i f).1 := by
  unfold Moledyn.bufMod
  cases mv.contents[i]? with
  | none => exact h
  | some p => exact h.set i (f p).1

theorem forceBody_bufList (m : Nat) (dt : F) (i : Nat) (a : ExpAgent F) (j : Nat) (b : ExpAgent F)
    (s : Pos F × LList (Pos F)) (h : BufList m s.2) : BufList m (forceBody dt i a j b s).1.2 := by
  unfold forceBody forceAct
  rcases a.mutualDisplacementToVec b s.1 with ⟨d, r | e | _⟩
  · simp only
    have h1 := h.bufMod i (fun p => p.mutSub (d.mutScalarMul (a.force r * dt)))
    generalize hx : Moledyn.bufMod s.2 i (fun p => p.mutSub (d.mutScalarMul (a.force r * dt))) = x at h1
    rcases x with ⟨b1, u | e | _⟩
    · simp only
      exact h1.bufMod j _
    · exact h1
    · exact h1
  · exact h
  · exact h

theorem clear_bufList {m : Nat} {mv : LList (Pos F)} (h : BufList m mv) (fuel : Nat) (hf : m < fuel) :
    (mv.clearAll (Pos.clear Fl.zero) fuel).2 = true ∧ BufList m (mv.clearAll (Pos.clear Fl.zero) fuel).1 := by
  obtain ⟨sm, hr, hl⟩ := h
  obtain ⟨h1, h2⟩ := mapSweep_rep (Pos.clear Fl.zero) fuel hr.intoIter (by simpa [hl] using hf)
  exact ⟨h1, _, h2, hl⟩

/-- what an accepted move of an interacting agent amounts to. -/
def ExpMoved (sys : SysOps G F) (target : TargetOps F) (a : ExpAgent F) (b : Bool) (a' : ExpAgent F) : Prop :=
  ∃ p, a' = { a with pos := p } ∧ sys.checkInclusion p = .ok true ∧ target.checkFind p = .ok b

theorem expMoveAct_moved {rng : RngOps G F} {sys : SysOps G F} (hsys : LibrarySystem rng sys)
    (target : TargetOps F) (limit dt : F) (m : Nat) (i : Nat) (s : G × LList (Pos F)) (a : ExpAgent F) (b : Bool)
    (hs : BufList m s.2) (h : (expMoveAct rng sys target limit dt i s a).1.2 = .ok b) :
    ExpMoved sys target a b (expMoveAct rng sys target limit dt i s a).1.1 ∧
      BufList m (expMoveAct rng sys target limit dt i s a).2.2 := by
  unfold expMoveAct at h ⊢
  cases hv : s.2.contents[i]? with
  | none => rw [hv] at h; simp at h
  | some v0 =>
    rw [hv] at h
    simp only at h ⊢
    rcases hm : a.randomMoveToVec rng s.1 dt v0 with ⟨⟨v1, r | e | _⟩, g1⟩
    · rw [hm] at h
      simp only at h ⊢
      have hsd := library_sound hsys a.pos (limitMove limit v1)
      rcases hb : sys.checkBc a.pos (limitMove limit v1) with ⟨p, r | e | _⟩
      · rw [hb] at h hsd
        simp only at h hsd ⊢
        exact ⟨⟨p, rfl, hsd trivial, h⟩, hs.set i _⟩
      · rw [hb] at h; simp at h
      · rw [hb] at h; simp at h
    · rw [hm] at h; simp at h
    · rw [hm] at h; simp at h

/-- what one step of examples/mfpt_exp.rs does. -/
theorem expStep_rep {rng : RngOps G F} {sys : SysOps G F} (hsys : LibrarySystem rng sys)
    (target : TargetOps F) (limit dt : F) (fuel : Nat) (st : ExpSim G F) {s : Slots (ExpAgent F)} {m : Nat}
    (h : Rep st.list s) (hm : BufList m st.moves) (hf : s.live.length * s.live.length + s.live.length + m < fuel) :
    ∃ s' : Slots (ExpAgent F), Rep (expStep rng sys target limit fuel dt st).1.list s' ∧ s'.live = s.live ∧
      (expStep rng sys target limit fuel dt st).2 ≠ none ∧
      ((expStep rng sys target limit fuel dt st).2 = some (.ok false) →
        BufList m (expStep rng sys target limit fuel dt st).1.moves ∧
        ∀ i ∈ s.live, ∃ a a', s.contents[i]? = some a ∧ s'.contents[i]? = some a' ∧
          ExpMoved sys target a false a') ∧
      ((expStep rng sys target limit fuel dt st).2 = some (.ok true) →
        BufList m (expStep rng sys target limit fuel dt st).1.moves ∧
        ∃ k ∈ s.live, (∃ a a', s.contents[k]? = some a ∧ s'.contents[k]? = some a' ∧ ExpMoved sys target a true a') ∧
          ∀ i, i ≠ k → s'.contents[i]? = s.contents[i]? ∨ (i ∈ s.live ∧ ∃ a a', s.contents[i]? = some a ∧
            s'.contents[i]? = some a' ∧ ExpMoved sys target a false a')) := by
  obtain ⟨hc1, hc2⟩ := clear_bufList hm fuel (by omega)
  unfold expStep
  rcases hcl : st.moves.clearAll (Pos.clear Fl.zero) fuel with ⟨mv1, fl⟩
  rw [hcl] at hc1 hc2
  simp only at hc1 hc2
  subst hc1
  simp only
  have hdi := h.intoDoubleIter
  rcases hl1 : st.list.intoDoubleIter with ⟨l1, r⟩
  rw [hl1] at hdi
  obtain ⟨hrd, hro⟩ := hdi
  simp only at hrd hro
  subst hro
  simp only
  have hlen := length_pairsOf s.live
  have hbnd : (pairsOf s.live).length ≤ s.live.length * s.live.length := by
    have : s.live.length * (s.live.length - 1) ≤ s.live.length * s.live.length := Nat.mul_le_mul_left _ (by omega)
    omega
  obtain ⟨s1, k1, k2, k3, k4, k5⟩ := pairSweep_fold (forceAct dt) (forceBody dt)
    (fun i a j b l s => forceAct_body dt i a j b l s) fuel (st.displacement, mv1) hrd (pairOk_start s)
    (by rw [pending_start]; omega)
  simp only at k2 k3 k4 k5
  have hb2 : BufList m (pairFold (forceBody dt) s.contents (pending { s with q0 := s.live, q1 := s.live.tail })
      (st.displacement, mv1)).1.2 :=
    pairFold_inv (forceBody dt) (fun x => BufList m x.2)
      (fun i a j b x hx => forceBody_bufList m dt i a j b x hx) _ _ _ hc2
  rw [← k4] at hb2
  rcases hps : pairSweep (forceAct dt) fuel l1 (st.displacement, mv1) with ⟨⟨l2, d, mv2⟩, o⟩
  rw [hps] at k1 k5 hb2
  simp only at k1 k5 hb2
  rcases o with _ | r
  · simp at k5
  rcases r with u | e | _
  · simp only
    have hi : Rep l2.intoIter { s1 with q0 := s1.live } := k1.intoIter
    obtain ⟨s', a1, a2, a3, a4, a5, a6, a7, a8⟩ :=
      agentSweep_rep (expMoveAct rng sys target limit dt) (fun _ a b a' => ExpMoved sys target a b a')
        (fun x => BufList m x.2) fuel (st.rng, mv2) hi hb2
        (fun i x a b _ _ hx hb => expMoveAct_moved hsys target limit dt m i x a b hx hb)
    simp only at a2 a3 a4 a5 a6 a7 a8
    rcases hsw : agentSweep (expMoveAct rng sys target limit dt) fuel l2.intoIter (st.rng, mv2) with ⟨⟨l3, g, mv3⟩, o⟩
    rw [hsw] at a1 a5 a6 a7
    simp only at a1 a5 a6 a7 ⊢
    rw [k2, k3] at *
    refine ⟨s', a1, a2, a5 (by omega), ?_, ?_⟩
    · intro ho
      obtain ⟨x, y, -⟩ := a6 ho
      exact ⟨x, y⟩
    · intro ho
      exact a7 ho
  · simp only
    exact ⟨s1, k1, k2, by simp, by simp, by simp⟩
  · simp only
    exact ⟨s1, k1, k2, by simp, by simp, by simp⟩

end Moledyn
