import Verif.Lemmas.ForcePass
import Verif.Props.Forces
import Verif.Props.LinkedListSweeps
import Mathlib.Analysis.SpecialFunctions.Sqrt
/-
Property theorem C53: the pair loop of examples/mfpt_exp.rs.
-/
namespace Moledyn.Props
open Moledyn LList
set_option linter.unusedSimpArgs false

/-! ## C53: pair forces -/

/-- Exact arithmetic: take any list of agents and any list of buffers after any histories, the live agents all
of dimension `d` and with a buffer of that dimension that is live in its list.  Clearing the buffers and running
the pair loop of examples/mfpt_exp.rs:50-58 succeeds, leaves the agents alone, and then the buffer of each live
agent is exactly the sum of the pushes from all other live agents, every pair counted once with equal and
opposite effect; so all buffers together sum to zero. -/
theorem C53_pair_forces (v : List (ExpAgent ℝ)) (ops : List (Op (ExpAgent ℝ))) (w : List (Pos ℝ))
    (ops' : List (Op (Pos ℝ))) (d : Nat) (disp : Pos ℝ) (hd : disp.length = d) (dt : ℝ) (fuel : Nat)
    (hf : v.length + (liveAfter v.length ops).2.length * (liveAfter v.length ops).2.length +
      (liveAfter w.length ops').2.length < fuel)
    (hag : ∀ a ∈ liveAgents ((from' v).run ops).1, a.expDim = d ∧ a.pos.length = d)
    (hbuf : ∀ i ∈ (liveAfter v.length ops).2, i ∈ (liveAfter w.length ops').2 ∧
      ∃ p, ((from' w).run ops').1.contents[i]? = some p ∧ p.length = d) :
    let l := ((from' v).run ops).1
    let live := (liveAfter v.length ops).2
    let moves := (((from' w).run ops').1.clearAll (Pos.clear Fl.zero) fuel).1
    let r := pairSweep (forceAct dt) fuel l.intoDoubleIter.1 (disp, moves)
    r.2 = some (.ok ()) ∧ liveAgents r.1.1 = liveAgents l ∧
    (∀ i ∈ live, ∀ k, k < d → bufAt r.1.2.2.contents i k = totalPush dt l.contents live i k) ∧
    ∀ k, k < d → (live.map fun i => bufAt r.1.2.2.contents i k).sum = 0 := by
  intro l live moves r
  obtain ⟨s, hr, hl, hc⟩ := rep_reach v ops
  obtain ⟨c1, c2, c3⟩ := C54_clear_touches_live_only (Pos.clear (Fl.zero : ℝ)) w ops' fuel (by omega)
  have hdi := hr.intoDoubleIter.1
  have hpend : pending { s with q0 := s.live, q1 := s.live.tail } = pairsOf s.live := pending_start s
  have hpok : PairOk { s with q0 := s.live, q1 := s.live.tail } := pairOk_start s
  have hlen := length_pairsOf s.live
  have hbnd : (pairsOf s.live).length ≤ s.live.length * s.live.length := by
    have : s.live.length * (s.live.length - 1) ≤ s.live.length * s.live.length := Nat.mul_le_mul_left _ (by omega)
    omega
  obtain ⟨s', k1, k2, k3, k4, k5⟩ := pairSweep_fold (forceAct dt) (forceBody dt)
    (fun i a j b l s => forceAct_body dt i a j b l s) fuel (disp, moves) hdi hpok
    (by rw [hpend]; rw [← hl] at hf; omega)
  rw [hpend] at k4 k5
  simp only at k2 k3 k4 k5
  have hag' : ∀ i ∈ s.live, ∃ a, s.contents[i]? = some a ∧ a.expDim = d ∧ a.pos.length = d := by
    intro i hi
    obtain ⟨a, ha⟩ := hr.content hi
    exact ⟨a, ha, hag a ((mem_liveAgents hr).2 ⟨i, hi, ha⟩)⟩
  have hclr : ∀ i ∈ s.live, BufOk d moves.contents i ∧ ∀ k, bufAt moves.contents i k = 0 := by
    intro i hi
    rw [hl] at hi
    obtain ⟨hiw, p, hp, hpl⟩ := hbuf i hi
    have := c2 i
    rw [if_pos hiw, hp] at this
    simp only [Option.map_some] at this
    refine ⟨⟨_, this, by simp [Pos.clear, hpl]⟩, fun k => ?_⟩
    unfold bufAt
    rw [show moves.contents[i]? = _ from this]
    simp only [Option.getD_some, Pos.clear, List.getD_eq_getElem?_getD, List.getElem?_map]
    cases (p : List ℝ)[k]? <;> simp
  have hmem : ∀ p ∈ pairsOf s.live, p.1 ∈ s.live ∧ p.2 ∈ s.live := by
    intro p hp
    have := (mem_pairsOf hr.sorted p.1 p.2).1 hp
    exact ⟨this.1, this.2.1⟩
  obtain ⟨f1, -, -, -, -, f6⟩ := forceFold_real dt s.contents d (pairsOf s.live) (disp, moves) hd (by
    intro p hp
    have := hmem p hp
    exact ⟨hag' _ this.1, hag' _ this.2, (hclr _ this.1).1, (hclr _ this.2).1⟩)
  have hbufs : ∀ i ∈ s.live, ∀ k, k < d →
      bufAt r.1.2.2.contents i k = pairPushes dt s.contents (pairsOf s.live) i k := by
    intro i hi k hk
    have hr2 : r.1.2 = _ := k4
    rw [hr2, f6 i k hk, (hclr i hi).2 k, zero_add]
  refine ⟨?_, ?_, ?_, ?_⟩
  · have : r.2 = _ := k5
    rw [this, f1]
  · unfold liveAgents
    rw [liveSlots_rep (show Rep r.1.1 s' from k1), liveSlots_rep hr, show r.1.1.contents = s'.contents from k1.contents_eq,
      show l.contents = s.contents from hr.contents_eq, k2, k3]
  · intro i hi k hk
    have hi' : i ∈ s.live := by rw [hl]; exact hi
    rw [hbufs i hi' k hk, pairPushes_pairsOf dt s.contents k s.live hr.sorted i, if_pos hi', hl,
      show l.contents = s.contents from hr.contents_eq]
  · intro k hk
    have : (live.map fun i => bufAt r.1.2.2.contents i k) =
        s.live.map fun i => pairPushes dt s.contents (pairsOf s.live) i k := by
      show (liveAfter v.length ops).2.map _ = _
      rw [← hl]
      exact List.map_congr_left (fun i hi => hbufs i hi k hk)
    rw [this]
    exact pairPushes_total dt s.contents k s.live hr.nodup _ hmem

private theorem sumSq_nudge_left (q p : List ℝ) (k : Nat) (hk : k < p.length) (hl : q.length = p.length) (h : ℝ) :
    Pos.sumSq (List.zipWith (· - ·) q (p.modify k (· + h))) =
      Pos.sumSq (List.zipWith (· - ·) q p) - 2 * h * (q.getD k 0 - p.getD k 0) + h ^ 2 := by
  induction p generalizing q k with
  | nil => simp at hk
  | cons x p ih =>
    cases q with
    | nil => simp at hl
    | cons y q =>
      cases k with
      | zero => simp [Pos.sumSq]; ring
      | succ k =>
        have := ih q k (by simpa using hk) (by simpa using hl)
        simp [Pos.sumSq] at this ⊢
        rw [this]; ring

private theorem sumSq_nudge_right (q p : List ℝ) (k : Nat) (hk : k < p.length) (hl : q.length = p.length) (h : ℝ) :
    Pos.sumSq (List.zipWith (· - ·) (q.modify k (· + h)) p) =
      Pos.sumSq (List.zipWith (· - ·) q p) + 2 * h * (q.getD k 0 - p.getD k 0) + h ^ 2 := by
  induction p generalizing q k with
  | nil => simp at hk
  | cons x p ih =>
    cases q with
    | nil => simp at hl
    | cons y q =>
      cases k with
      | zero => simp [Pos.sumSq]; ring
      | succ k =>
        have := ih q k (by simpa using hk) (by simpa using hl)
        simp [Pos.sumSq] at this ⊢
        rw [this]; ring

private theorem radius_pos (q p : List ℝ) (hl : q.length = p.length) (hne : p ≠ q) :
    0 < Pos.sumSq (List.zipWith (· - ·) q p) := by
  refine lt_of_le_of_ne (Pos.sumSq_nonneg _) (fun h => hne ?_)
  exact ((Pos.sumSq_diff_eq_zero q p hl).1 h.symm).symm

private theorem hasDeriv_sqrt (A D : ℝ) (hA : 0 < A) (e : ℝ) :
    HasDerivAt (fun h : ℝ => Real.sqrt (A + e * h * D + h ^ 2)) (e * D / (2 * Real.sqrt A)) 0 := by
  have h1 : HasDerivAt (fun h : ℝ => A + e * h * D + h ^ 2) (e * D) 0 := by
    have ha : HasDerivAt (fun h : ℝ => e * h * D) (e * D) 0 := by
      have := ((hasDerivAt_id (0 : ℝ)).const_mul e).mul_const D
      simpa using this
    have hb : HasDerivAt (fun h : ℝ => h ^ 2) 0 0 := by
      have := hasDerivAt_pow 2 (0 : ℝ)
      simpa using this
    have := (ha.const_add A).add hb
    rw [add_zero] at this
    exact this
  have := h1.sqrt (by simp; exact hA.ne')
  simpa using this

/-- displacement buffers of the right dimension are filled. -/
theorem dispLoop_ok {F : Type} [Fl F] (n : Nat) (x y v : Pos F) (hx : n ≤ x.length) (hy : n ≤ y.length) (hv : n ≤ v.length) (s : F) :
    ∃ r, (AgentCore.dispLoop n x y v s).2 = .ok r ∧ (AgentCore.dispLoop n x y v s).1.length = v.length := by
  induction n generalizing x y v s with
  | zero => exact ⟨s, rfl, rfl⟩
  | succ n ih =>
    match x, y, v, hx, hy, hv with
    | x :: xs, y :: ys, v :: vs, hx, hy, hv =>
      obtain ⟨r, e1, e2⟩ := ih xs ys vs (by simpa using hx) (by simpa using hy) (by simpa using hv) (s + Fl.powi (y - x) 2)
      exact ⟨r, e1, by simp only [AgentCore.dispLoop, List.length_cons]; rw [e2]⟩

/-- Any arithmetic: the pair loop needs a move buffer for each of the two agents.  With agents and displacement
buffer of one dimension, the pair panics (index out of range) when the first agent has no buffer, and also when
the first has one and the second has not. -/
theorem C53_missing_buffer {F : Type} [Fl F] (dt : F) (i : Nat) (a : ExpAgent F) (j : Nat) (b : ExpAgent F)
    (l : LList (ExpAgent F)) (disp : Pos F) (moves : LList (Pos F)) (d : Nat) (ha : a.expDim = d ∧ a.pos.length = d)
    (hb : b.expDim = d ∧ b.pos.length = d) (hd : disp.length = d)
    (h : moves.contents.length ≤ i ∨
      (∃ p, moves.contents[i]? = some p ∧ p.length = d) ∧ moves.contents.length ≤ j) :
    (forceAct dt i a j b l (disp, moves)).2 = .panic := by
  obtain ⟨r, e1, e2⟩ := dispLoop_ok d a.pos b.pos disp ha.2.ge hb.2.ge hd.ge (Fl.zero : F)
  have e : ∃ v, a.mutualDisplacementToVec b disp = (v, .ok (Fl.sqrt r)) ∧ v.length = d := by
    unfold ExpAgent.mutualDisplacementToVec AgentCore.mutualDisplacementToVec
    rw [if_neg (by rw [ha.1, hb.1]; simp [Pos.dim, hd])]
    rw [ha.1]
    rcases hx : AgentCore.dispLoop d a.pos b.pos disp Fl.zero with ⟨v, q⟩
    rw [hx] at e1 e2
    simp only at e1 e2
    rw [e1]
    exact ⟨_, rfl, by simp [Pos.mutScalarMul, e2, hd]⟩
  obtain ⟨v, e, hv⟩ := e
  unfold forceAct
  rw [e]
  simp only
  rcases h with h | ⟨⟨p, h1, h2⟩, h3⟩
  · unfold bufMod
    rw [List.getElem?_eq_none h]
  · have hz : (Pos.mutSub p (v.mutScalarMul (a.force (Fl.sqrt r) * dt))).2 = .ok () := by
      have hz' : ∀ (x y : Pos F), x.length = y.length → (Pos.mutZip (· - ·) x y).2 = .ok () := by
        intro x
        induction x with
        | nil => intro y _; rfl
        | cons c x ih =>
          intro y hy
          cases y with
          | nil => simp at hy
          | cons d y => exact ih y (by simpa using hy)
      exact hz' _ _ (by simp [Pos.mutScalarMul, h2, hv])
    have hm : ∃ b1 : LList (Pos F), bufMod moves i (fun p => p.mutSub (v.mutScalarMul (a.force (Fl.sqrt r) * dt))) = (b1, .ok ()) ∧
        b1.contents.length = moves.contents.length := by
      unfold bufMod
      rw [h1]
      simp only
      exact ⟨_, Prod.ext rfl hz, by simp⟩
    obtain ⟨b1, e3, e4⟩ := hm
    rw [e3]
    simp only
    unfold bufMod
    rw [List.getElem?_eq_none (by rw [e4]; exact h3)]

/-- two agents on a line and one buffer. -/
example (t : AgentType) (it : InteractType ℝ) (m : MoveType ℝ) (ini : InitType ℝ) :
    (forceAct (1 : ℝ) 0 ⟨t, it, m, ini, 1, [0], 1, 1, 1, 1⟩ 1 ⟨t, it, m, ini, 1, [1], 1, 1, 1, 1⟩ (LList.from' [])
      ([0], LList.from' [[0]])).2 = .panic :=
  C53_missing_buffer _ _ _ _ _ _ _ _ 1 ⟨rfl, rfl⟩ ⟨rfl, rfl⟩ rfl (.inr ⟨⟨[0], rfl, rfl⟩, le_rfl⟩)

/-- Exact arithmetic: for live agents made by the library's constructors (gamma not 0), of dimension `d` and no
two at one point, the pushes of C53_pair_forces are minus the gradient of the interaction energy: the push on
slot `i` along coordinate `k` in the time `dt` is `-dt` times the derivative of the energy when that agent is
moved along that coordinate. -/
theorem C53_minus_gradient (G : Type) (c : List (ExpAgent ℝ)) (live : List Nat) (hs : live.Pairwise (· < ·))
    (d : Nat) (hc : ∀ i ∈ live, ∃ a, c[i]? = some a ∧ ExpAgent.Built G a ∧ a.gamma ≠ 0 ∧ a.pos.length = d)
    (hne : ∀ i ∈ live, ∀ j ∈ live, i ≠ j → ∀ a b, c[i]? = some a → c[j]? = some b → a.pos ≠ b.pos)
    (i : Nat) (hi : i ∈ live) (k : Nat) (hk : k < d) (dt : ℝ) :
    ∃ g, HasDerivAt (fun h => pairEnergy (nudge c i k h) live) g 0 ∧ totalPush dt c live i k = - g * dt := by
  have key : ∀ ps : List (Nat × Nat), (∀ p ∈ ps, p ∈ pairsOf live) →
      HasDerivAt (fun h => (ps.map fun p =>
        match (nudge c i k h)[p.1]?, (nudge c i k h)[p.2]? with
        | some a, some b => a.potential (radius (List.zipWith (· - ·) b.pos a.pos))
        | _, _ => 0).sum) (- pairPushes 1 c ps i k) 0 := by
    intro ps
    induction ps with
    | nil => intro _; simpa [pairPushes] using hasDerivAt_const (0 : ℝ) (0 : ℝ)
    | cons p ps ih =>
      intro hps
      have ih' := ih (fun q hq => hps q (by simp [hq]))
      have hp := (mem_pairsOf hs p.1 p.2).1 (hps p (by simp))
      obtain ⟨a, ha, hab, hag, hal⟩ := hc p.1 hp.1
      obtain ⟨b, hb, hbb, hbg, hbl⟩ := hc p.2 hp.2.1
      have hpne := hne p.1 hp.1 p.2 hp.2.1 (by omega) a b ha hb
      have hA := radius_pos b.pos a.pos (by rw [hal, hbl]) hpne
      have hpb : pushBetween 1 c p.1 p.2 k =
          a.force (radius (List.zipWith (· - ·) b.pos a.pos)) *
            ((b.pos.getD k 0 - a.pos.getD k 0) / radius (List.zipWith (· - ·) b.pos a.pos)) := by
        unfold pushBetween pushOf
        rw [ha, hb]
        simp
      have hmod : ∀ (x : Nat) (z : ExpAgent ℝ) (h : ℝ), c[x]? = some z →
          (nudge c i k h)[x]? = some (if i = x then { z with pos := z.pos.modify k (· + h) } else z) := by
        intro x z h hz
        unfold nudge
        rw [List.getElem?_modify, hz]
        split <;> rfl
      have hfirst : HasDerivAt (fun h =>
          match (nudge c i k h)[p.1]?, (nudge c i k h)[p.2]? with
          | some a, some b => a.potential (radius (List.zipWith (· - ·) b.pos a.pos))
          | _, _ => 0)
          (- ((if i = p.2 then pushBetween 1 c p.1 p.2 k else 0) -
            (if i = p.1 then pushBetween 1 c p.1 p.2 k else 0))) 0 := by
        simp only [hmod _ _ _ ha, hmod _ _ _ hb]
        have hr : ∀ l, radius l = Real.sqrt (Pos.sumSq l) := fun _ => rfl
        by_cases h1 : i = p.1
        · have h2 : ¬ i = p.2 := by omega
          simp only [if_pos h1, if_neg h2]
          have e : ∀ h : ℝ, radius (List.zipWith (· - ·) b.pos (a.pos.modify k (· + h))) =
              Real.sqrt (Pos.sumSq (List.zipWith (· - ·) b.pos a.pos) +
                (-2) * h * (b.pos.getD k 0 - a.pos.getD k 0) + h ^ 2) := by
            intro h
            rw [hr, sumSq_nudge_left b.pos a.pos k (by rw [hal]; exact hk) (by rw [hal, hbl]) h]
            congr 1; ring
          have hd := hasDeriv_sqrt _ (b.pos.getD k 0 - a.pos.getD k 0) hA (-2)
          have hv := C35_exponential G a hab hag
            (Real.sqrt (Pos.sumSq (List.zipWith (· - ·) b.pos a.pos)))
          have hv' : HasDerivAt (fun x => a.potential x)
              (-(a.force (Real.sqrt (Pos.sumSq (List.zipWith (· - ·) b.pos a.pos)))))
              (Real.sqrt (Pos.sumSq (List.zipWith (· - ·) b.pos a.pos) +
                (-2) * 0 * (b.pos.getD k 0 - a.pos.getD k 0) + 0 ^ 2)) := by
            simpa using hv
          have := HasDerivAt.comp (0 : ℝ) hv' hd
          refine (this.congr_deriv ?_).congr_of_eventuallyEq (Filter.Eventually.of_forall ?_)
          · rw [hpb, hr]
            have : Real.sqrt (Pos.sumSq (List.zipWith (· - ·) b.pos a.pos)) ≠ 0 := (Real.sqrt_pos.2 hA).ne'
            field_simp
            ring
          · intro h
            show a.potential (radius (List.zipWith (· - ·) b.pos (a.pos.modify k (· + h)))) = _
            rw [e h]; rfl
        · by_cases h2 : i = p.2
          · simp only [if_neg h1, if_pos h2]
            have e : ∀ h : ℝ, radius (List.zipWith (· - ·) (b.pos.modify k (· + h)) a.pos) =
                Real.sqrt (Pos.sumSq (List.zipWith (· - ·) b.pos a.pos) +
                  2 * h * (b.pos.getD k 0 - a.pos.getD k 0) + h ^ 2) := by
              intro h
              rw [hr, sumSq_nudge_right b.pos a.pos k (by rw [hal]; exact hk) (by rw [hal, hbl]) h]
            have hd := hasDeriv_sqrt _ (b.pos.getD k 0 - a.pos.getD k 0) hA 2
            have hv := C35_exponential G a hab hag
              (Real.sqrt (Pos.sumSq (List.zipWith (· - ·) b.pos a.pos)))
            have hv' : HasDerivAt (fun x => a.potential x)
                (-(a.force (Real.sqrt (Pos.sumSq (List.zipWith (· - ·) b.pos a.pos)))))
                (Real.sqrt (Pos.sumSq (List.zipWith (· - ·) b.pos a.pos) +
                  2 * 0 * (b.pos.getD k 0 - a.pos.getD k 0) + 0 ^ 2)) := by
              simpa using hv
            have := HasDerivAt.comp (0 : ℝ) hv' hd
            refine (this.congr_deriv ?_).congr_of_eventuallyEq (Filter.Eventually.of_forall ?_)
            · rw [hpb, hr]
              have : Real.sqrt (Pos.sumSq (List.zipWith (· - ·) b.pos a.pos)) ≠ 0 := (Real.sqrt_pos.2 hA).ne'
              field_simp
              ring
            · intro h
              show a.potential (radius (List.zipWith (· - ·) (b.pos.modify k (· + h)) a.pos)) = _
              rw [e h]; rfl
          · simp only [if_neg h1, if_neg h2]
            simpa using hasDerivAt_const (0 : ℝ) _
      have hsum := hfirst.add ih'
      refine (hsum.congr_deriv ?_).congr_of_eventuallyEq (Filter.Eventually.of_forall ?_)
      · simp only [pairPushes, List.map_cons, List.sum_cons]
        ring
      · intro h
        simp only [List.map_cons, List.sum_cons, Pi.add_apply]
  have hlin : ∀ dt, totalPush dt c live i k = totalPush 1 c live i k * dt := by
    intro dt
    have hb : ∀ x y, pushBetween dt c x y k = pushBetween 1 c x y k * dt := by
      intro x y
      unfold pushBetween
      cases c[x]? <;> cases c[y]? <;> simp [pushOf]
    unfold totalPush
    rw [← List.sum_map_mul_right]
    congr 1
    apply List.map_congr_left
    intro j _
    simp only [hb]
    split_ifs <;> ring
  refine ⟨_, key (pairsOf live) (fun _ h => h), ?_⟩
  rw [hlin dt, pairPushes_pairsOf 1 c k live hs i, if_pos hi]
  ring

/-- an agent on a line with strength and gamma 1. -/
private noncomputable def lineAgent (x : ℝ) : ExpAgent ℝ :=
  ⟨.continuousPassiveInteracting, .exponential 1 1, .levy, .specificPosition [x], 1, [x], 1, 1, 1, 1 / 1⟩

/-- the hypotheses of both theorems are met: three agents on a line at 0, 1 and 3, the middle one removed. -/
example :
    let v := [lineAgent 0, lineAgent 1, lineAgent 3]
    let ops : List (Op (ExpAgent ℝ)) := [.del 1]
    (liveAfter v.length ops).2 = [0, 2] ∧ liveAgents ((from' v).run ops).1 = [lineAgent 0, lineAgent 3] ∧
    (∀ a ∈ v, a.expDim = 1 ∧ a.pos.length = 1 ∧ a.gamma ≠ 0 ∧ ExpAgent.Built Unit a) ∧
    totalPush 1 v [0, 2] 2 0 = Real.exp (-3) ∧ totalPush 1 v [0, 2] 0 0 = - Real.exp (-3) := by
  have hb : ∀ x, ExpAgent.Built Unit (lineAgent x) := fun x =>
    ExpAgent.Built.new (it := .exponential 1 1) (mt := .levy) (pos := [x]) (st := 1) (by
      simp [ExpAgent.new, Pos.dim, lineAgent, ExpAgent.coeff])
  have hp : pushOf 1 (lineAgent 0) (lineAgent 3) 0 = Real.exp (-3) := by
    have hr : radius [(3 : ℝ) - 0] = 3 := by
      unfold radius
      simp
    simp only [pushOf, lineAgent, List.zipWith_cons_cons, List.zipWith_nil_left, hr]
    simp [ExpAgent.force]
  refine ⟨rfl, rfl, ?_, ?_, ?_⟩
  · intro a ha
    simp only [List.mem_cons, List.not_mem_nil, or_false] at ha
    rcases ha with rfl | rfl | rfl <;> exact ⟨rfl, rfl, by simp [lineAgent], hb _⟩
  · simp [totalPush, pushBetween, hp]
  · simp [totalPush, pushBetween, hp]

end Moledyn.Props
