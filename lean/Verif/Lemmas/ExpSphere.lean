import Verif.Lemmas.ExpRun
import Verif.Spec.Time
import Verif.Props.StepLength
import Verif.Props.Agents
import Verif.Props.Target
/-
Helper lemmas: a step of examples/mfpt_exp.rs in a ball, exact arithmetic.
-/
namespace Moledyn
open LList
variable {G C : Type}

theorem limitMove_length (limit : ℝ) (v : Pos ℝ) : (limitMove limit v).length = v.length := by
  unfold limitMove
  simp only
  split
  · simp [Pos.mutScalarMul]
  · rfl

theorem limitMove_le (limit : ℝ) (h : 0 < limit) (v : Pos ℝ) : radius (limitMove limit v) ≤ limit := by
  unfold limitMove
  simp only [Fl.gt, fl_lt, norm_eq_radius, fl_one, decide_eq_true_eq]
  split
  · rename_i h1
    rw [lt_div_iff₀ h, one_mul] at h1
    have e : Pos.mutScalarMul v (1 / (radius v / limit)) = v.map (· * (1 / (radius v / limit))) := rfl
    have hv : 0 < radius v := lt_trans h h1
    rw [e, radius_scale, abs_of_pos (by positivity)]
    have : 1 / (radius v / limit) * radius v = limit := by field_simp
    rw [this]
  · rename_i h1
    rw [not_lt, div_le_iff₀ h, one_mul] at h1
    exact h1

/-- an agent as the program makes them: Brownian, of dimension `d`, in the ball of radius `R`. -/
def BallAgent (R : ℝ) (d : Nat) (a : ExpAgent ℝ) : Prop :=
  a.expDim = d ∧ a.pos.length = d ∧ radius a.pos ≤ R ∧ ∃ D, a.mtype = .brownian D

theorem expMoveAct_ball (rng : RngOps G ℝ) (R : ℝ) (d : Nat) (s : Circ ℝ) (hnew : Circ.new R d = .ok s)
    (c : Pos ℝ) (hc : c.length = d) (r limit dt : ℝ) (h0 : 0 < limit) (h2 : limit ≤ 2 * R) (i : Nat)
    (x : G × LList (Pos ℝ)) (a : ExpAgent ℝ) (ha : BallAgent R d a) (hb : BufOk d x.2.contents i) :
    (∃ b, (expMoveAct rng (s.ops rng) (BulkTarget.new c r).ops limit dt i x a).1.2 = .ok b) ∧
    BallAgent R d (expMoveAct rng (s.ops rng) (BulkTarget.new c r).ops limit dt i x a).1.1 ∧
    radius (List.zipWith (· - ·)
      (expMoveAct rng (s.ops rng) (BulkTarget.new c r).ops limit dt i x a).1.1.pos a.pos) ≤ limit ∧
    ∀ k, BufOk d x.2.contents k →
      BufOk d (expMoveAct rng (s.ops rng) (BulkTarget.new c r).ops limit dt i x a).2.2.contents k := by
  obtain ⟨a1, a2, a3, D, a4⟩ := ha
  obtain ⟨v0, hv0, hl0⟩ := hb
  have hmv := (((Props.C39_random_move rng).2.2.1 a x.1 dt v0).1 D a4).2 (by rw [hl0, a1])
  set v1 := List.zipWith (fun old r => old + r * Fl.sqrt (Fl.two * D * dt) + Fl.zero) v0
    (delivered rng.gaussian a.expDim x.1) with hv1
  have hl1 : v1.length = d := by rw [hv1]; simp [delivered_length, hl0, a1]
  have hl2 : (limitMove limit v1).length = d := by rw [limitMove_length, hl1]
  have hle := limitMove_le limit h0 v1
  obtain ⟨im, iok, -, -⟩ := Props.C21_sphere_image R d s hnew a.pos (limitMove limit v1) a2 hl2
  have hsum : radius (List.zipWith (· + ·) a.pos (limitMove limit v1)) ≤ 3 * R := by
    have := Pos.sqrt_sq_add_le a.pos (limitMove limit v1) (by rw [a2, hl2])
    have h' : radius (List.zipWith (· + ·) a.pos (limitMove limit v1)) ≤
      radius a.pos + radius (limitMove limit v1) := this
    linarith
  have hbc : s.checkBc a.pos (limitMove limit v1) = ((s.checkBc a.pos (limitMove limit v1)).1, .ok ()) :=
    Prod.ext rfl (iok.2 hsum)
  have hstep := Props.C59_sphere R d s hnew a.pos (limitMove limit v1) a2 hl2 a3
  set p := (s.checkBc a.pos (limitMove limit v1)).1 with hp
  have hR : 0 < R := by
    unfold Circ.new at hnew
    split at hnew
    · simp at hnew
    · rename_i hc
      simp only [fl_le, fl_zero, Bool.or_eq_true, decide_eq_true_eq, not_or, not_le] at hc
      exact hc.1
  have hpl : p.length = d := by
    rcases le_or_gt (radius (List.zipWith (· + ·) a.pos (limitMove limit v1))) R with h | h
    · rw [im.1 h]; simp [a2, hl2]
    · rw [im.2 h]; simp [a2, hl2]
  have hpr : radius p ≤ R := (radial_inside_iff hR im).2 hsum
  have hfind := (Props.C33_dimension .continuousInBulk c p r).2.1 (by rw [hc, hpl])
  rw [← (Props.C33_dimension .continuousInBulk c p r).2.2.2] at hfind
  obtain ⟨b, hb⟩ := hfind
  have e : expMoveAct rng (s.ops rng) (BulkTarget.new c r).ops limit dt i x a =
      (({ a with pos := p }, .ok b), (advanced rng.gaussian a.expDim x.1,
        { x.2 with contents := x.2.contents.set i (limitMove limit v1) })) := by
    unfold expMoveAct
    rw [hv0]
    simp only [hmv]
    have e2 : (s.ops rng).checkBc a.pos (limitMove limit v1) = (p, .ok ()) := hbc
    rw [e2]
    simp only
    have e3 : (BulkTarget.new c r).ops.checkFind p = .ok b := hb
    rw [e3]
  rw [e]
  refine ⟨⟨b, rfl⟩, ⟨a1, hpl, hpr, D, a4⟩, le_trans hstep hle, ?_⟩
  rintro k ⟨q, hq, hql⟩
  have hlt := (List.getElem?_eq_some_iff.1 hv0).1
  by_cases hk : i = k
  · subst hk
    exact ⟨_, by simp only; rw [List.getElem?_set_self hlt], hl2⟩
  · exact ⟨q, by simp only; rw [List.getElem?_set_ne hk]; exact hq, hql⟩

/-- what holds between the steps. -/
def BallRun (R : ℝ) (d n : Nat) (st : ExpSim G ℝ) : Prop :=
  st.displacement.length = d ∧
  ∃ s : Slots (ExpAgent ℝ), Rep st.list s ∧ s.live.length = n ∧ BufList n st.moves ∧
    (∀ i ∈ s.live, BufOk d st.moves.contents i) ∧
    ∀ i ∈ s.live, ∃ a, s.contents[i]? = some a ∧ BallAgent R d a

theorem clear_bufOk {d n : Nat} {mv : LList (Pos ℝ)} (h : BufList n mv) (fuel : Nat) (hf : n < fuel) (i : Nat)
    (hi : BufOk d mv.contents i) : BufOk d (mv.clearAll (Pos.clear Fl.zero) fuel).1.contents i := by
  obtain ⟨sm, hr, hl⟩ := h
  obtain ⟨-, h2⟩ := mapSweep_rep (Pos.clear (Fl.zero : ℝ)) fuel hr.intoIter (by simpa [hl] using hf)
  have e : (mv.clearAll (Pos.clear Fl.zero) fuel).1.contents =
      sm.live.foldl (fun c i => c.modify i (Pos.clear (Fl.zero : ℝ))) sm.contents := h2.contents_eq
  rw [e]
  rw [hr.contents_eq] at hi
  generalize sm.contents = c at hi
  generalize sm.live = live
  induction live generalizing c with
  | nil => exact hi
  | cons j t ih =>
    apply ih
    obtain ⟨p, hp, hpl⟩ := hi
    by_cases hj : j = i
    · subst hj
      exact ⟨p.clear Fl.zero, by rw [List.getElem?_modify]; simp [hp], by simp [Pos.clear, hpl]⟩
    · exact ⟨p, by rw [List.getElem?_modify]; simp [hj, hp], hpl⟩

theorem expStep_ball (rng : RngOps G ℝ) (R : ℝ) (d : Nat) (s0 : Circ ℝ) (hnew : Circ.new R d = .ok s0)
    (c : Pos ℝ) (hc : c.length = d) (r limit dt : ℝ) (h0 : 0 < limit) (h2 : limit ≤ 2 * R) (n fuel : Nat)
    (hf : n * n + n + n < fuel) (st : ExpSim G ℝ) (h : BallRun R d n st) :
    let res := expStep rng (s0.ops rng) (BulkTarget.new c r).ops limit fuel dt st
    (∃ b, res.2 = some (.ok b)) ∧ BallRun R d n res.1 ∧
    ∀ (i : Nat) (a a' : ExpAgent ℝ), st.list.contents[i]? = some a → res.1.list.contents[i]? = some a' →
      radius (List.zipWith (· - ·) a'.pos a.pos) ≤ limit := by
  obtain ⟨hd, s, hr, hl, hbl, hbo, hag⟩ := h
  obtain ⟨hc1, hc2⟩ := clear_bufList hbl fuel (by omega)
  have hc3 := fun i => clear_bufOk (d := d) hbl fuel (by omega) i
  unfold expStep
  rcases hcl : st.moves.clearAll (Pos.clear Fl.zero) fuel with ⟨mv1, fl⟩
  rw [hcl] at hc1 hc2 hc3
  simp only at hc1 hc2 hc3
  subst hc1
  simp only
  have hdi := hr.intoDoubleIter
  rcases hl1 : st.list.intoDoubleIter with ⟨l1, rr⟩
  rw [hl1] at hdi
  obtain ⟨hrd, hro⟩ := hdi
  simp only at hrd hro
  subst hro
  simp only
  have hlen := length_pairsOf s.live
  have hbnd : (pairsOf s.live).length ≤ n * n := by
    have : s.live.length * (s.live.length - 1) ≤ s.live.length * s.live.length := Nat.mul_le_mul_left _ (by omega)
    rw [hl] at this hlen
    omega
  obtain ⟨s1, k1, k2, k3, k4, k5⟩ := pairSweep_fold (forceAct dt) (forceBody dt)
    (fun i a j b l s => forceAct_body dt i a j b l s) fuel (st.displacement, mv1) hrd (pairOk_start s)
    (by rw [pending_start]; omega)
  simp only at k2 k3 k4 k5
  have hb2 : BufList n (pairFold (forceBody dt) s.contents (pending { s with q0 := s.live, q1 := s.live.tail })
      (st.displacement, mv1)).1.2 :=
    pairFold_inv (forceBody dt) (fun x => BufList n x.2)
      (fun i a j b x hx => forceBody_bufList n dt i a j b x hx) _ _ _ hc2
  obtain ⟨f1, f2, -, -, f5, -⟩ := forceFold_real dt s.contents d (pending { s with q0 := s.live, q1 := s.live.tail })
    (st.displacement, mv1) hd (by
      rw [pending_start]
      intro p hp
      obtain ⟨q1, q2, -⟩ := (mem_pairsOf hr.sorted p.1 p.2).1 hp
      obtain ⟨a, ha, haa⟩ := hag _ q1
      obtain ⟨b, hb, hbb⟩ := hag _ q2
      exact ⟨⟨a, ha, haa.1, haa.2.1⟩, ⟨b, hb, hbb.1, hbb.2.1⟩, hc3 _ (hbo _ q1), hc3 _ (hbo _ q2)⟩)
  simp only at f2 f5
  rw [f1] at k5
  rw [← k4] at hb2 f2 f5
  rcases hps : pairSweep (forceAct dt) fuel l1 (st.displacement, mv1) with ⟨⟨l2, dd, mv2⟩, o⟩
  rw [hps] at k1 k5 hb2 f2 f5
  simp only at k1 k5 hb2 f2 f5
  subst k5
  simp only
  have hi : Rep l2.intoIter { s1 with q0 := s1.live } := k1.intoIter
  have hag1 : ∀ i ∈ s1.live, ∃ a, s1.contents[i]? = some a ∧ BallAgent R d a := by rw [k2, k3]; exact hag
  obtain ⟨s', a1, a2, a3, a4, a5, a6, a7, a8⟩ :=
    agentSweep_rep (expMoveAct rng (s0.ops rng) (BulkTarget.new c r).ops limit dt)
      (fun _ a _ a' => BallAgent R d a' ∧ radius (List.zipWith (· - ·) a'.pos a.pos) ≤ limit)
      (fun x => BufList n x.2 ∧ ∀ i ∈ s.live, BufOk d x.2.contents i) fuel (st.rng, mv2) hi
      ⟨hb2, fun i hi => f5 i (hc3 i (hbo i hi))⟩
      (fun i x a b hiq ha hx hb => by
        simp only at hiq ha
        obtain ⟨a', ha', hba⟩ := hag1 i hiq
        rw [ha'] at ha
        simp only [Option.some.injEq] at ha
        subst ha
        rw [k2] at hiq
        obtain ⟨-, m2, m3, m4⟩ := expMoveAct_ball rng R d s0 hnew c hc r limit dt h0 h2 i x a' hba (hx.2 i hiq)
        exact ⟨⟨m2, m3⟩, (expMoveAct_moved (.inr (.inl ⟨s0, rfl⟩)) _ limit dt n i x a' b hx.1 hb).2,
          fun j hj => m4 j (hx.2 j hj)⟩)
  simp only at a2 a3 a4 a5 a6 a7 a8
  rcases hsw : agentSweep (expMoveAct rng (s0.ops rng) (BulkTarget.new c r).ops limit dt) fuel l2.intoIter
    (st.rng, mv2) with ⟨⟨l3, g, mv3⟩, o⟩
  rw [hsw] at a1 a5 a6 a7 a8
  simp only at a1 a5 a6 a7 a8 ⊢
  rw [k2] at a2 a5 a6 a7 a8
  have hno : ∃ b, o = some (.ok b) := by
    have h5 := a5 (by omega)
    rcases o with _ | o
    · exact absurd rfl h5
    · by_contra hcon
      have hcon' : ∀ b, o ≠ .ok b := fun b hb => hcon ⟨b, by rw [hb]⟩
      obtain ⟨i, hiq, a, x, ha, hx, hres⟩ := a8 o ⟨rfl, hcon'⟩
      rw [k3] at ha
      obtain ⟨a', ha', hba⟩ := hag i hiq
      rw [ha'] at ha
      simp only [Option.some.injEq] at ha
      subst ha
      obtain ⟨⟨b, hb⟩, -⟩ := expMoveAct_ball rng R d s0 hnew c hc r limit dt h0 h2 i x a' hba (hx.2 i hiq)
      rw [hb] at hres
      exact hcon' b hres.symm
  have hself : ∀ a : ExpAgent ℝ, radius (List.zipWith (· - ·) a.pos a.pos) ≤ limit := by
    intro a
    have : radius (List.zipWith (· - ·) a.pos a.pos) = 0 := by
      unfold radius
      have : (List.map (fun x : ℝ => x ^ 2) (List.zipWith (· - ·) a.pos a.pos)).sum = 0 :=
        (Pos.sumSq_diff_eq_zero a.pos a.pos rfl).2 rfl
      rw [this, Real.sqrt_zero]
    rw [this]; exact h0.le
  have hce : st.list.contents = s.contents := hr.contents_eq
  have hce' : l3.contents = s'.contents := a1.contents_eq
  refine ⟨hno, ?_⟩
  obtain ⟨b, rfl⟩ := hno
  cases b with
  | false =>
    obtain ⟨⟨hB, hO⟩, hT, hrest⟩ := a6 rfl
    refine ⟨⟨f2, s', a1, by rw [a2, hl], hB, by rw [a2]; exact hO, ?_⟩, ?_⟩
    · intro i hi'
      rw [a2] at hi'
      obtain ⟨x, y, -, hy, hb, -⟩ := hT i hi'
      exact ⟨y, hy, hb⟩
    · intro i a a' ha ha'
      rw [hce] at ha
      rw [hce'] at ha'
      by_cases hiq : i ∈ s.live
      · obtain ⟨x, y, hx, hy, -, hle⟩ := hT i hiq
        rw [k3] at hx
        rw [hx] at ha
        rw [hy] at ha'
        simp only [Option.some.injEq] at ha ha'
        subst ha ha'
        exact hle
      · have := hrest i hiq
        rw [this, k3, ha] at ha'
        simp only [Option.some.injEq] at ha'
        subst ha'
        exact hself a
  | true =>
    obtain ⟨⟨hB, hO⟩, k, hk, ⟨x, y, hx, hy, hb, hle⟩, hrest⟩ := a7 rfl
    refine ⟨⟨f2, s', a1, by rw [a2, hl], hB, by rw [a2]; exact hO, ?_⟩, ?_⟩
    · intro i hi'
      rw [a2] at hi'
      by_cases hik : i = k
      · subst hik; exact ⟨y, hy, hb⟩
      · rcases hrest i hik with e | ⟨_, x', y', -, hy', hb', -⟩
        · rw [e, k3]; exact hag i hi'
        · exact ⟨y', hy', hb'⟩
    · intro i a a' ha ha'
      rw [hce] at ha
      rw [hce'] at ha'
      by_cases hik : i = k
      · subst hik
        rw [k3] at hx
        rw [hx] at ha
        rw [hy] at ha'
        simp only [Option.some.injEq] at ha ha'
        subst ha ha'
        exact hle
      · rcases hrest i hik with e | ⟨_, x', y', hx', hy', -, hle'⟩
        · rw [e, k3, ha] at ha'
          simp only [Option.some.injEq] at ha'
          subst ha'
          exact hself a
        · rw [k3] at hx'
          rw [hx'] at ha
          rw [hy'] at ha'
          simp only [Option.some.injEq] at ha ha'
          subst ha ha'
          exact hle'

/-- a time loop whose steps cannot fail and are related to what was before. -/
theorem searchLoop_safe {F S : Type} (tick : C → C × Res (Option (F × F))) (step : F → S → S × Option (Res Bool))
    (I : S → Prop) (Q : S → S → Prop) (hrefl : ∀ s, Q s s)
    (hstep : ∀ dt s, I s → (∃ b, (step dt s).2 = some (.ok b)) ∧ I (step dt s).1 ∧ Q s (step dt s).1)
    (htick : ∀ c, ∃ o, (tick c).2 = .ok o) (n : Nat) (c : C) (s : S) (hI : I s) :
    ((searchLoop tick step n c s).2 = none ∨ ∃ b, (searchLoop tick step n c s).2 = some (.ok b)) ∧
    I (searchLoop tick step n c s).1.2 ∧
    Q (searchLoop tick step n c s).1.2 (searchLoop tick step (n + 1) c s).1.2 := by
  induction n generalizing c s with
  | zero =>
    refine ⟨.inl rfl, hI, ?_⟩
    rw [searchLoop, searchLoop]
    obtain ⟨o, ho⟩ := htick c
    rcases hc : tick c with ⟨c1, r⟩
    rw [hc] at ho
    simp only at ho
    subst ho
    rcases o with _ | ⟨t, dt⟩
    · exact hrefl s
    · simp only
      obtain ⟨⟨b, hb⟩, -, hQ⟩ := hstep dt s hI
      rcases hs : step dt s with ⟨s1, o⟩
      rw [hs] at hb hQ
      simp only at hb hQ
      subst hb
      cases b with
      | false => exact hQ
      | true => exact hQ
  | succ n ih =>
    rw [show searchLoop tick step (n + 1 + 1) c s = _ from by rw [searchLoop],
      show searchLoop tick step (n + 1) c s = _ from by rw [searchLoop]]
    obtain ⟨o, ho⟩ := htick c
    rcases hc : tick c with ⟨c1, r⟩
    rw [hc] at ho
    simp only at ho
    subst ho
    rcases o with _ | ⟨t, dt⟩
    · exact ⟨.inr ⟨none, rfl⟩, hI, hrefl s⟩
    · simp only
      obtain ⟨⟨b, hb⟩, hI', hQ⟩ := hstep dt s hI
      rcases hs : step dt s with ⟨s1, o⟩
      rw [hs] at hb hQ hI'
      simp only at hb hQ hI'
      subst hb
      cases b with
      | false => exact ih c1 s1 hI'
      | true => exact ⟨.inr ⟨some t, rfl⟩, hI', hrefl s1⟩

/-- while a time loop runs, its clock has been called once per step. -/
theorem searchLoop_clock {F S : Type} (tick : C → C × Res (Option (F × F))) (step : F → S → S × Option (Res Bool))
    (I : S → Prop) (hstep : ∀ dt s, I s → (∃ b, (step dt s).2 = some (.ok b)) ∧ I (step dt s).1)
    (n : Nat) (c : C) (s : S) (hI : I s) (h : (searchLoop tick step n c s).2 = none) :
    (searchLoop tick step n c s).1.1 = stateAfter tick n c ∧ ∀ k < n, ∃ x, output tick k c = .ok (some x) := by
  induction n generalizing c s with
  | zero => exact ⟨rfl, by omega⟩
  | succ n ih =>
    rw [searchLoop] at h ⊢
    rcases hc : tick c with ⟨c1, (_ | ⟨t, dt⟩) | e | _⟩
    · rw [hc] at h; simp at h
    · rw [hc] at h
      simp only at h ⊢
      obtain ⟨⟨b, hb⟩, hI'⟩ := hstep dt s hI
      rcases hs : step dt s with ⟨s1, o⟩
      rw [hs] at hb hI' h
      simp only at hb hI' h ⊢
      subst hb
      cases b with
      | true => simp at h
      | false =>
        simp only at h ⊢
        obtain ⟨k1, k2⟩ := ih c1 s1 hI' h
        refine ⟨by rw [k1, stateAfter, hc], ?_⟩
        intro k hk
        cases k with
        | zero => exact ⟨(t, dt), by simp [output, stateAfter, hc]⟩
        | succ k =>
          obtain ⟨x, hx⟩ := k2 k (by omega)
          exact ⟨x, by simpa [output, stateAfter, hc] using hx⟩
    · rw [hc] at h; simp at h
    · rw [hc] at h; simp at h

/-- what `.skip(1)` delivers. -/
theorem skipOne_output {F : Type} (tick : C → C × Res (Option (F × F))) (c : C) (k : Nat) (x : F × F)
    (h0 : output tick 0 c = .ok (some x)) : output (skipOne tick) k (false, c) = output tick (k + 1) c := by
  have hst : ∀ k, stateAfter (skipOne tick) (k + 1) (false, c) = (true, stateAfter tick (k + 2) c) := by
    have hsucc : ∀ {S O : Type} (f : S → S × O) (k : Nat) (s : S), stateAfter f (k + 1) s = (f (stateAfter f k s)).1 := by
      intro S O f k
      induction k with
      | zero => intro s; rfl
      | succ k ih => intro s; exact ih _
    intro k
    induction k with
    | zero =>
      have h0' : (tick c).2 = .ok (some x) := h0
      rcases hc : tick c with ⟨c1, r⟩
      rw [hc] at h0'
      simp only at h0'
      subst h0'
      simp [stateAfter, skipOne, hc]
    | succ k ih =>
      rw [hsucc, ih, hsucc tick (k + 2)]
      simp [skipOne]
  cases k with
  | zero =>
    have h0' : (tick c).2 = .ok (some x) := h0
    rcases hc : tick c with ⟨c1, r⟩
    rw [hc] at h0'
    simp only at h0'
    subst h0'
    simp [output, stateAfter, skipOne, hc]
  | succ k =>
    unfold output
    rw [hst k]
    simp [skipOne]

end Moledyn
