import Verif.Lemmas.PushChain
import Verif.Lemmas.MergeSimulates
import Verif.Lemmas.FreshExp
import Verif.Lemmas.ExpSphere
/-
The program of examples/mfpt_exp.rs carries out the process of Spec/PushLaw.
-/
namespace Moledyn
open LList MeasureTheory
open Props (checkFind_eq)
set_option linter.unusedSectionVars false

variable {n d : Nat}

/-- a searcher at `p`. -/
noncomputable def pusher (D gamma strength : ℝ) (itype : InitType ℝ) (p : Fin d → ℝ) : ExpAgent ℝ :=
  ⟨.continuousPassiveInteracting, .exponential d gamma, .brownian D, itype, d, List.ofFn p, gamma, strength, strength, strength / gamma⟩

theorem radius_ofFn (v : Fin d → ℝ) : radius (List.ofFn v) = lengthOf v := by
  unfold radius lengthOf
  rw [List.map_ofFn, List.sum_ofFn]
  rfl

theorem limitMove_ofFn {limit : ℝ} (h : 0 < limit) (v : Fin d → ℝ) : limitMove limit (List.ofFn v) = List.ofFn (shortened limit v) := by
  unfold limitMove shortened
  simp only [Fl.gt, fl_lt, norm_eq_radius, fl_one, decide_eq_true_eq, radius_ofFn]
  by_cases h1 : limit < lengthOf v
  · rw [if_pos ((one_lt_div h).2 h1), if_pos h1]
    simp only [Pos.mutScalarMul, List.map_ofFn]
    congr 1
    funext k
    simp
  · rw [if_neg (fun hh => h1 ((one_lt_div h).1 hh)), if_neg h1]

variable {G : Type} [MeasurableSpace G] {rng : RngOps G ℝ} {sys : SysOps G ℝ} {S : Set (Fin d → ℝ)} {put : (Fin d → ℝ) → Fin d → ℝ}

/-- one searcher's step in the program. -/
theorem push_act (w : Walls sys S put) (c : Fin d → ℝ) (t : BulkTarget ℝ) (ht : t.targetPos = List.ofFn c) {limit : ℝ} (hl : 0 < limit) (dt : ℝ) (i : Nat) (g : G)
    (mv : LList (Pos ℝ)) {f : Fin d → ℝ} (hb : mv.contents[i]? = some (List.ofFn f)) {D gamma strength : ℝ} {itype : InitType ℝ} (x p : Fin d → ℝ)
    (hp : p = put (x + shortened limit fun k => f k + (drawsN rng.gaussian d g).1 k * Real.sqrt (2 * D * dt))) :
    ∃ v2 : Fin d → ℝ,
    (p ∉ S → expMoveAct rng sys t.ops limit dt i (g, mv) (pusher D gamma strength itype x) =
      ((pusher D gamma strength itype p, .err .tooLargeTimeStep), ((drawsN rng.gaussian d g).2, { mv with contents := mv.contents.set i (List.ofFn v2) }))) ∧
    (p ∈ S → p ∈ nearSet c t.targetSize → expMoveAct rng sys t.ops limit dt i (g, mv) (pusher D gamma strength itype x) =
      ((pusher D gamma strength itype p, .ok true), ((drawsN rng.gaussian d g).2, { mv with contents := mv.contents.set i (List.ofFn v2) }))) ∧
    (p ∈ S → p ∉ nearSet c t.targetSize → expMoveAct rng sys t.ops limit dt i (g, mv) (pusher D gamma strength itype x) =
      ((pusher D gamma strength itype p, .ok false), ((drawsN rng.gaussian d g).2, { mv with contents := mv.contents.set i (List.ofFn v2) }))) := by
  have em : (pusher D gamma strength itype x).randomMoveToVec rng g dt (List.ofFn f) =
      ((List.ofFn fun k => f k + (drawsN rng.gaussian d g).1 k * Real.sqrt (2 * D * dt), .ok ()), (drawsN rng.gaussian d g).2) := by
    unfold ExpAgent.randomMoveToVec AgentCore.randomMoveToVec
    rw [if_neg (by simp [pusher, Pos.dim])]
    show (((Random.getGaussianToVecNonstandard rng g (List.ofFn f) Fl.zero (Fl.sqrt (Fl.two * D * dt))).1, Res.ok ()), _) = _
    unfold Random.getGaussianToVecNonstandard
    rw [sweep_draws' (d := d) rng.gaussian _ (List.ofFn f) (by simp) g]
    congr 2
    refine List.ext_getElem (by simp) fun i h1 h2 => ?_
    simp
  generalize (fun k => f k + (drawsN rng.gaussian d g).1 k * Real.sqrt (2 * D * dt)) = z at em hp
  refine ⟨shortened limit z, ?_⟩
  generalize hz : shortened limit z = v2 at hp
  have hlm : limitMove limit (List.ofFn z) = List.ofFn v2 := by rw [← hz]; exact limitMove_ofFn hl z
  have ep : (pusher D gamma strength itype x).pos = List.ofFn x := rfl
  refine ⟨fun h => ?_, fun h h2 => ?_, fun h h2 => ?_⟩
  all_goals
    unfold expMoveAct
    simp only [hb]
    rw [em]
    simp only
    rw [hlm, ep]
  · rw [w.step_err x v2 (hp ▸ h), ← hp]; rfl
  · rw [w.step_ok x v2 (hp ▸ h), ← hp]
    simp only
    rw [(checkFind_eq c p t ht).1 h2]; rfl
  · rw [w.step_ok x v2 (hp ▸ h), ← hp]
    simp only
    rw [(checkFind_eq c p t ht).2 h2]; rfl

/-- the forces the program adds up are those of the process. -/
theorem push_total (D gamma strength : ℝ) (itype : InitType ℝ) (dt : ℝ) (y : Fin n → Fin d → ℝ) {cs : List (ExpAgent ℝ)}
    (hcs : ∀ i : Fin n, cs[i.val]? = some (pusher D gamma strength itype (y i))) (i : Fin n) (k : Fin d) :
    totalPush dt cs (List.range n) i.val k.val = forceOn (expForce gamma strength) y i k * dt := by
  have hrad : ∀ a b : Fin n, radius (List.zipWith (· - ·) (List.ofFn (y b)) (List.ofFn (y a))) = lengthOf (y b - y a) := by
    intro a b
    rw [← radius_ofFn]
    congr 1
    exact List.ext_getElem (by simp) fun i h1 h2 => by simp
  have hget : ∀ a : Fin n, (List.ofFn (y a)).getD k.val 0 = y a k := by
    intro a; simp [List.getD_eq_getElem?_getD]
  have hsym : ∀ a b : Fin n, lengthOf (y b - y a) = lengthOf (y a - y b) := by
    intro a b
    unfold lengthOf
    congr 1
    refine Finset.sum_congr rfl fun k _ => ?_
    simp only [Pi.sub_apply]; ring
  have hpush : ∀ a b : Fin n, pushBetween dt cs a.val b.val k.val =
      expForce gamma strength (lengthOf (y b - y a)) * ((y b k - y a k) / lengthOf (y b - y a)) * dt := by
    intro a b
    unfold pushBetween
    rw [hcs a, hcs b]
    simp only [pushOf]
    rw [show (pusher D gamma strength itype (y a)).pos = List.ofFn (y a) from rfl, show (pusher D gamma strength itype (y b)).pos = List.ofFn (y b) from rfl,
      hrad, hget, hget]
    rfl
  unfold totalPush forceOn
  have hsum : ∀ f : ℕ → ℝ, ((List.range n).map f).sum = ∑ j : Fin n, f j.val := by
    intro f
    rw [← List.sum_ofFn]
    congr 1
    exact List.ext_getElem (by simp) fun i h1 h2 => by simp
  rw [Finset.sum_mul, hsum]
  refine Finset.sum_congr rfl fun j _ => ?_
  rcases lt_trichotomy j i with h | rfl | h
  · rw [if_pos (show j.val < i.val from h), if_neg h.ne, hpush]
  · simp
  · rw [if_neg (by have : i.val < j.val := h; omega), if_pos (show i.val < j.val from h), if_neg h.ne', hpush, hsym]
    ring

/-! ### a turn -/

/-- the program is at the beginning of a turn. -/
structure PushReady (n : ℕ) (D gamma strength : ℝ) (itype : InitType ℝ) (y : Fin n → Fin d → ℝ) (st : ExpSim G ℝ) : Prop where
  disp : st.displacement.length = d
  moves : Shape (List.replicate n d) st.moves
  rep : ∃ s, Rep st.list s ∧ s.live = List.range n ∧ s.contents.length = n ∧ ∀ i : Fin n, s.contents[i.val]? = some (pusher D gamma strength itype (y i))

theorem shape_length {L : List Nat} {mv : LList (Pos ℝ)} (h : Shape L mv) : mv.contents.length = L.length := by
  obtain ⟨w, x, y, rfl, rfl⟩ := h
  simp [LList.withCursors, from']

theorem shape_set {mv : LList (Pos ℝ)} (h : Shape (List.replicate n d) mv) (i : Nat) (v : Fin d → ℝ) :
    Shape (List.replicate n d) { mv with contents := mv.contents.set i (List.ofFn v) } := by
  obtain ⟨w, x, y, rfl, e⟩ := h
  have hw : w.length = n := by simpa using congrArg List.length e
  refine ⟨w.set i (List.ofFn v), x, y, ?_, ?_⟩
  · unfold LList.withCursors from'; simp
  · rw [List.map_set, e]
    refine List.ext_getElem (by simp) fun j h1 h2 => ?_
    rw [List.getElem_set]
    split_ifs <;> simp

/-- Clearing the buffers and adding up the forces. -/
theorem push_forces {D gamma strength : ℝ} {itype : InitType ℝ} {y : Fin n → Fin d → ℝ} {st : ExpSim G ℝ} (h : PushReady n D gamma strength itype y st)
    {fuel : ℕ} (hf : n * n + n < fuel) (dt : ℝ) :
    ∃ mv1 l1 l2 dd mv2 s, st.moves.clearAll (Pos.clear Fl.zero) fuel = (mv1, true) ∧ st.list.intoDoubleIter = (l1, .ok ()) ∧
      pairSweep (forceAct dt) fuel l1 (st.displacement, mv1) = ((l2, dd, mv2), some (.ok ())) ∧ dd.length = d ∧ Shape (List.replicate n d) mv2 ∧
      (∀ i : Fin n, mv2.contents[i.val]? = some (List.ofFn fun k => forceOn (expForce gamma strength) y i k * dt)) ∧
      Rep l2 s ∧ s.live = List.range n ∧ s.contents.length = n ∧ ∀ i : Fin n, s.contents[i.val]? = some (pusher D gamma strength itype (y i)) := by
  obtain ⟨hd, hmv, s, hr, hlive, hlen, hH⟩ := h
  obtain ⟨yc, hcl⟩ := clear_shape hmv (fuel := fuel) (by simp; nlinarith)
  set mv1 := (from' ((List.replicate n d).map fun k => List.replicate k (Fl.zero : ℝ))).withCursors none yc with hmv1
  have hc1 : mv1.contents = List.replicate n (List.replicate d (Fl.zero : ℝ)) := by
    rw [hmv1]; simp [LList.withCursors, from']
  have hbok : ∀ i < n, BufOk d mv1.contents i := fun i hi => ⟨List.replicate d Fl.zero, by rw [hc1, List.getElem?_replicate, if_pos hi], by simp⟩
  have hb0 : ∀ i k : ℕ, bufAt mv1.contents i k = 0 := by
    intro i k
    unfold bufAt
    rw [hc1, List.getElem?_replicate]
    split_ifs
    · simp only [Option.getD_some, List.getD_eq_getElem?_getD, List.getElem?_replicate]
      split_ifs <;> simp
    · simp
  have hdi := hr.intoDoubleIter
  rcases hl1 : st.list.intoDoubleIter with ⟨l1, rr⟩
  rw [hl1] at hdi
  obtain ⟨hrd, hro⟩ := hdi
  simp only at hrd hro
  subst hro
  have hpl := length_pairsOf s.live
  have hbnd : (pairsOf s.live).length ≤ n * n := by
    have h1 : s.live.length = n := by rw [hlive]; simp
    rw [h1] at hpl
    have : n * (n - 1) ≤ n * n := Nat.mul_le_mul_left _ (by omega)
    omega
  obtain ⟨s1, k1, k2, k3, k4, k5⟩ := pairSweep_fold (forceAct dt) (forceBody dt)
    (fun i a j b l s => forceAct_body dt i a j b l s) fuel (st.displacement, mv1) hrd (pairOk_start s)
    (by rw [pending_start]; omega)
  simp only at k2 k3 k4 k5
  have hmem : ∀ i, i ∈ s.live ↔ i < n := by intro i; rw [hlive, List.mem_range]
  have hag : ∀ i ∈ s.live, ∃ a, s.contents[i]? = some a ∧ a.expDim = d ∧ a.pos.length = d := by
    intro i hi
    exact ⟨_, hH ⟨i, (hmem i).1 hi⟩, rfl, by simp [pusher]⟩
  obtain ⟨f1, f2, f3, f4, f5, f6⟩ := forceFold_real dt s.contents d (pending { s with q0 := s.live, q1 := s.live.tail })
    (st.displacement, mv1) hd (by
      rw [pending_start]
      intro p hp
      obtain ⟨q1, q2, -⟩ := (mem_pairsOf hr.sorted p.1 p.2).1 hp
      exact ⟨hag _ q1, hag _ q2, hbok _ ((hmem _).1 q1), hbok _ ((hmem _).1 q2)⟩)
  rw [pending_start] at f6
  simp only at f2 f3 f4 f5 f6
  rw [f1] at k5
  rw [← k4] at f2 f3 f4 f5
  have f6' : ∀ (x k : ℕ), k < d → bufAt (pairSweep (forceAct dt) fuel l1 (st.displacement, mv1)).1.2.2.contents x k = pairPushes dt s.contents (pairsOf s.live) x k := by
    intro x k hk
    rw [k4, pending_start, f6 x k hk, hb0, zero_add]
  rcases hps : pairSweep (forceAct dt) fuel l1 (st.displacement, mv1) with ⟨⟨l2, dd, mv2⟩, o⟩
  rw [hps] at k1 k5 f2 f3 f4 f5 f6'
  simp only at k1 k5 f2 f3 f4 f5 f6'
  subst k5
  have hl2 : mv2.contents.length = n := by rw [f4, hc1]; simp
  have hbuf : ∀ i : Fin n, mv2.contents[i.val]? = some (List.ofFn fun k => forceOn (expForce gamma strength) y i k * dt) := by
    intro i
    obtain ⟨p, hp, hpl⟩ := f5 i.val (hbok _ i.isLt)
    rw [hp]
    congr 1
    refine List.ext_getElem (by simp [hpl]) fun k h1 h2 => ?_
    have hk : k < d := by omega
    have := f6' i.val k hk
    unfold bufAt at this
    rw [hp, Option.getD_some, List.getD_eq_getElem?_getD, List.getElem?_eq_getElem h1, Option.getD_some,
      pairPushes_pairsOf dt s.contents k s.live hr.sorted, if_pos ((hmem _).2 i.isLt), hlive,
      push_total D gamma strength itype dt y hH i ⟨k, hk⟩] at this
    rw [this]
    simp
  refine ⟨mv1, l1, l2, dd, mv2, s1, hcl, rfl, hps, f2, ?_, hbuf, k1, by rw [k2, hlive], by rw [k3, hlen], by rw [k3]; exact hH⟩
  refine ⟨mv2.contents, none, yc, ?_, ?_⟩
  · rw [f3, hmv1]
    unfold LList.withCursors from'
    simp [hl2]
  · refine List.ext_getElem (by simp [hl2]) fun j h1 h2 => ?_
    have hj : j < n := by simpa using h2
    have := hbuf ⟨j, hj⟩
    simp only at this
    rw [List.getElem?_eq_getElem (by omega)] at this
    simp [Option.some.inj this]

/-- the world of examples/mfpt_exp.rs. -/
noncomputable def pushWorld (put : (Fin d → ℝ) → Fin d → ℝ) (S T : Set (Fin d → ℝ)) (D gamma strength limit : ℝ) (clk : ℕ → Option ℝ) : PushWorld d :=
  ⟨put, S, T, D, expForce gamma strength, limit, clk⟩

section
variable (w : Walls sys S put) (c : Fin d → ℝ) (t : BulkTarget ℝ) (ht : t.targetPos = List.ofFn c) {limit : ℝ} (hl : 0 < limit) (D gamma strength : ℝ) (itype : InitType ℝ)
  (clk : ℕ → Option ℝ)
include w ht hl

/-- The steps of the searchers from number `m` on. -/
theorem push_sweep {dt : ℝ} (k : ℕ) (hk : clk k = some dt) (x0 : Fin n → Fin d → ℝ) :
    ∀ (r m : ℕ) (y : Fin n → Fin d → ℝ) (g : G) (mv : LList (Pos ℝ)) (f : ℕ) {l : LList (ExpAgent ℝ)} {s : Slots (ExpAgent ℝ)}, m + r = n → 0 < r → r < f → Rep l s →
      s.live = List.range n → s.q0 = (List.range n).drop m → s.contents.length = n → (∀ i : Fin n, s.contents[i.val]? = some (pusher D gamma strength itype (y i))) →
      Shape (List.replicate n d) mv →
      (∀ i : Fin n, m ≤ i.val → mv.contents[i.val]? = some (List.ofFn fun k => forceOn (expForce gamma strength) x0 i k * dt)) →
      ∃ j, (∀ m' < j, ((drawStep (pushMove (pushWorld put S (nearSet c t.targetSize) D gamma strength limit clk)) (drawsN rng.gaussian d))^[m' + 1]
        ((⟨k, m, none⟩, x0, y), g)).1.1.over = none) ∧
      ((∃ m' x' l' g' mv', (drawStep (pushMove (pushWorld put S (nearSet c t.targetSize) D gamma strength limit clk)) (drawsN rng.gaussian d))^[j + 1]
          ((⟨k, m, none⟩, x0, y), g) = ((⟨k, m', some .found⟩, x'), g') ∧
          agentSweep (expMoveAct rng sys t.ops limit dt) f l (g, mv) = ((l', g', mv'), some (.ok true))) ∨
       (∃ m' x' l' g' mv', (drawStep (pushMove (pushWorld put S (nearSet c t.targetSize) D gamma strength limit clk)) (drawsN rng.gaussian d))^[j + 1]
          ((⟨k, m, none⟩, x0, y), g) = ((⟨k, m', some .tooFar⟩, x'), g') ∧
          agentSweep (expMoveAct rng sys t.ops limit dt) f l (g, mv) = ((l', g', mv'), some (.err .tooLargeTimeStep))) ∨
       (∃ y' l' g' mv' s', (drawStep (pushMove (pushWorld put S (nearSet c t.targetSize) D gamma strength limit clk)) (drawsN rng.gaussian d))^[j + 1]
          ((⟨k, m, none⟩, x0, y), g) = ((⟨k + 1, 0, if (clk (k + 1)).isNone then some .clock else none⟩, y', y'), g') ∧
          agentSweep (expMoveAct rng sys t.ops limit dt) f l (g, mv) = ((l', g', mv'), some (.ok false)) ∧ Rep l' s' ∧
          s'.live = List.range n ∧ s'.contents.length = n ∧ (∀ i : Fin n, s'.contents[i.val]? = some (pusher D gamma strength itype (y' i))) ∧
          Shape (List.replicate n d) mv')) := by
  set W := pushWorld put S (nearSet c t.targetSize) D gamma strength limit clk with hW
  set act := expMoveAct rng sys t.ops limit dt with hact
  intro r
  induction r with
  | zero => intro m y g mv f l s _ h; exact absurd h (lt_irrefl _)
  | succ r ih =>
    intro m y g mv f l s hmr _ hf h hlive hq hlen hH hmv hb
    obtain ⟨f, rfl⟩ : ∃ f', f = f' + 1 := ⟨f - 1, by omega⟩
    have hm : m < n := by omega
    have hq : s.q0 = m :: (List.range n).drop (m + 1) := by
      rw [hq, List.drop_eq_getElem_cons (by simpa using hm)]; simp
    have ha := hH ⟨m, hm⟩
    simp only at ha
    have hc : l.c0 = some m := by rw [h.c0, hq]; rfl
    obtain ⟨he, hrep⟩ := h.enumMut_cons (i := m) (q := (List.range n).drop (m + 1)) hq (fun a => (act (l.c0.getD 0) (g, mv) a).1.1) ha
    have he : l.enumerateMut (fun a => (act (l.c0.getD 0) (g, mv) a).1.1) =
        ((l.enumerateMut (fun a => (act (l.c0.getD 0) (g, mv) a).1.1)).1, .ok (some (m, pusher D gamma strength itype (y ⟨m, hm⟩)))) := Prod.ext rfl he
    generalize (l.enumerateMut (fun a => (act (l.c0.getD 0) (g, mv) a).1.1)).1 = l1 at he hrep
    simp only [hc, Option.getD_some] at hrep
    obtain ⟨p, hp⟩ : ∃ p, p = put (y ⟨m, hm⟩ + shortened limit fun k => forceOn (expForce gamma strength) x0 ⟨m, hm⟩ k * dt +
      (drawsN rng.gaussian d g).1 k * Real.sqrt (2 * D * dt)) := ⟨_, rfl⟩
    obtain ⟨v2, c1, c2, c3⟩ := push_act (rng := rng) w c t ht hl dt m g mv (hb ⟨m, hm⟩ le_rfl) (gamma := gamma) (strength := strength) (itype := itype) (y ⟨m, hm⟩) p hp
    have hpt : pushTo W k x0 y ⟨m, hm⟩ (drawsN rng.gaussian d g).1 = p := by
      rw [hp]; unfold pushTo; rw [hW]; simp only [pushWorld, hk, Option.getD_some]
    have hsh := shape_set hmv m v2
    by_cases h1 : p ∈ S
    · by_cases h2 : p ∈ nearSet c t.targetSize
      · refine ⟨0, by simp, .inl ⟨m, (x0, Function.update y ⟨m, hm⟩ p), l1, (drawsN rng.gaussian d g).2, { mv with contents := mv.contents.set m (List.ofFn v2) }, ?_, ?_⟩⟩
        · show drawStep _ _ _ = _
          unfold drawStep
          rw [push_found hm (by rw [hpt]; exact h1) (by rw [hpt]; exact h2), hpt]
        · simp only [agentSweep, he]
          rw [hact, c2 h1 h2]
      · have hrep' : Rep l1 { s with q0 := (List.range n).drop (m + 1), contents := s.contents.set m (pusher D gamma strength itype p) } := by
          rw [hact, c3 h1 h2] at hrep; exact hrep
        have hH' : ∀ i : Fin n, (s.contents.set m (pusher D gamma strength itype p))[i.val]? = some (pusher D gamma strength itype (Function.update y ⟨m, hm⟩ p i)) := by
          intro i
          rw [List.getElem?_set]
          by_cases hi : m = i.val
          · obtain rfl : i = ⟨m, hm⟩ := Fin.ext hi.symm
            simp [hlen, hm]
          · have : i ≠ ⟨m, hm⟩ := fun e => hi (by rw [e])
            rw [if_neg hi, Function.update_of_ne this]
            exact hH i
        have hsw : agentSweep act (f + 1) l (g, mv) = agentSweep act f l1 ((drawsN rng.gaussian d g).2, { mv with contents := mv.contents.set m (List.ofFn v2) }) := by
          simp only [agentSweep, he]
          rw [hact, c3 h1 h2]
        by_cases h3 : m + 1 = n
        · obtain ⟨f, rfl⟩ : ∃ f', f = f' + 1 := ⟨f - 1, by omega⟩
          refine ⟨0, by simp, .inr (.inr ⟨Function.update y ⟨m, hm⟩ p, l1, (drawsN rng.gaussian d g).2, { mv with contents := mv.contents.set m (List.ofFn v2) }, _, ?_, ?_, hrep', hlive, by simpa using hlen, hH', hsh⟩)⟩
          · show drawStep _ _ _ = _
            unfold drawStep
            rw [push_last hm (by rw [hpt]; exact h1) (by rw [hpt]; exact h2) h3, hpt]
            rfl
          · rw [hsw]
            simp only [agentSweep, hrep'.enumMut_nil (by simp [h3])]
        · obtain ⟨j, hon, hend⟩ := ih (m + 1) (Function.update y ⟨m, hm⟩ p) (drawsN rng.gaussian d g).2 _ f (by omega) (by omega) (by omega) hrep'
            hlive rfl (by simpa using hlen) hH' hsh (fun i hi => by
              simp only
              rw [List.getElem?_set_ne (by omega)]
              exact hb i (by omega))
          have hst : drawStep (pushMove W) (drawsN rng.gaussian d) ((⟨k, m, none⟩, x0, y), g) =
              ((⟨k, m + 1, none⟩, x0, Function.update y ⟨m, hm⟩ p), (drawsN rng.gaussian d g).2) := by
            unfold drawStep
            rw [push_next hm (by rw [hpt]; exact h1) (by rw [hpt]; exact h2) h3, hpt]
          refine ⟨j + 1, fun m' hm' => ?_, ?_⟩
          · rw [Function.iterate_succ_apply, hst]
            rcases m' with _ | m'
            · rfl
            · exact hon m' (by omega)
          · rw [Function.iterate_succ_apply, hst, hsw]
            exact hend
    · refine ⟨0, by simp, .inr (.inl ⟨m, (x0, Function.update y ⟨m, hm⟩ p), l1, (drawsN rng.gaussian d g).2, { mv with contents := mv.contents.set m (List.ofFn v2) }, ?_, ?_⟩)⟩
      · show drawStep _ _ _ = _
        unfold drawStep
        rw [push_tooFar hm (by rw [hpt]; exact h1), hpt]
      · simp only [agentSweep, he]
        rw [hact, c1 h1]

/-- A turn of the program. -/
theorem push_turn (hn : 0 < n) {fuel : ℕ} (hfuel : n * n + n < fuel) {dt : ℝ} (k : ℕ) (hk : clk k = some dt) (y : Fin n → Fin d → ℝ) (st : ExpSim G ℝ)
    (hst : PushReady n D gamma strength itype y st) :
    ∃ j, (∀ m' < j, ((drawStep (pushMove (pushWorld put S (nearSet c t.targetSize) D gamma strength limit clk)) (drawsN rng.gaussian d))^[m' + 1]
        ((⟨k, 0, none⟩, y, y), st.rng)).1.1.over = none) ∧
      ((∃ m' x' st', (drawStep (pushMove (pushWorld put S (nearSet c t.targetSize) D gamma strength limit clk)) (drawsN rng.gaussian d))^[j + 1]
          ((⟨k, 0, none⟩, y, y), st.rng) = ((⟨k, m', some .found⟩, x'), st'.rng) ∧ expStep rng sys t.ops limit fuel dt st = (st', some (.ok true))) ∨
       (∃ m' x' st', (drawStep (pushMove (pushWorld put S (nearSet c t.targetSize) D gamma strength limit clk)) (drawsN rng.gaussian d))^[j + 1]
          ((⟨k, 0, none⟩, y, y), st.rng) = ((⟨k, m', some .tooFar⟩, x'), st'.rng) ∧ expStep rng sys t.ops limit fuel dt st = (st', some (.err .tooLargeTimeStep))) ∨
       (∃ y' st', (drawStep (pushMove (pushWorld put S (nearSet c t.targetSize) D gamma strength limit clk)) (drawsN rng.gaussian d))^[j + 1]
          ((⟨k, 0, none⟩, y, y), st.rng) = ((⟨k + 1, 0, if (clk (k + 1)).isNone then some .clock else none⟩, y', y'), st'.rng) ∧
          expStep rng sys t.ops limit fuel dt st = (st', some (.ok false)) ∧ PushReady n D gamma strength itype y' st')) := by
  obtain ⟨mv1, l1, l2, dd, mv2, s, e1, e2, e3, e4, e5, e6, e7, e8, e9, e10⟩ := push_forces hst hfuel dt
  have hi : Rep l2.intoIter { s with q0 := s.live } := e7.intoIter
  obtain ⟨j, hon, hend⟩ := push_sweep (rng := rng) w c t ht hl D gamma strength itype clk k hk y n 0 y st.rng mv2 fuel (by omega) hn (by nlinarith) hi e8 (by simp [e8]) e9 e10 e5
    (fun i _ => e6 i)
  refine ⟨j, hon, ?_⟩
  rcases hend with ⟨m', x', l', g', mv', h1, h2⟩ | ⟨m', x', l', g', mv', h1, h2⟩ | ⟨y', l', g', mv', s', h1, h2, h3, h4, h5, h6, h7⟩
  · refine .inl ⟨m', x', ⟨l', g', dd, mv'⟩, h1, ?_⟩
    unfold expStep
    rw [e1]
    simp only
    rw [e2]
    simp only
    rw [e3]
    simp only
    rw [h2]
  · refine .inr (.inl ⟨m', x', ⟨l', g', dd, mv'⟩, h1, ?_⟩)
    unfold expStep
    rw [e1]
    simp only
    rw [e2]
    simp only
    rw [e3]
    simp only
    rw [h2]
  · refine .inr (.inr ⟨y', ⟨l', g', dd, mv'⟩, h1, ?_, ⟨e4, h7, s', h3, h4, h5, h6⟩⟩)
    unfold expStep
    rw [e1]
    simp only
    rw [e2]
    simp only
    rw [e3]
    simp only
    rw [h2]

/-- The search of the program: if it ends, it is as the process ends; if it is not over after `steps` turns, the process is
not over either. -/
theorem push_loop (hn : 0 < n) {fuel : ℕ} (hfuel : n * n + n < fuel) {C : Type} (tick : C → C × Res (Option (ℝ × ℝ))) (time : ℕ → ℝ) (steps : ℕ) :
    ∀ (k : ℕ) (c0 : C) (y : Fin n → Fin d → ℝ) (st : ExpSim G ℝ),
      (∀ j, (∀ i < j, (clk (k + i)).isSome) → output tick j c0 = .ok ((clk (k + j)).map fun dt => (time (k + j), dt))) → (clk k).isSome →
      PushReady n D gamma strength itype y st →
    (∃ (N : ℕ) (e : Ending) (r : (C × ExpSim G ℝ)) (T : ℕ),
      (∀ m < N, ((drawStep (pushMove (pushWorld put S (nearSet c t.targetSize) D gamma strength limit clk)) (drawsN rng.gaussian d))^[m + 1]
        ((⟨k, 0, none⟩, y, y), st.rng)).1.1.over = none) ∧
      ((drawStep (pushMove (pushWorld put S (nearSet c t.targetSize) D gamma strength limit clk)) (drawsN rng.gaussian d))^[N + 1] ((⟨k, 0, none⟩, y, y), st.rng)).1.1.over = some e ∧
      pushOutcome ((drawStep (pushMove (pushWorld put S (nearSet c t.targetSize) D gamma strength limit clk)) (drawsN rng.gaussian d))^[N + 1] ((⟨k, 0, none⟩, y, y), st.rng)).1 = (T + 1, e) ∧
      r.2.rng = ((drawStep (pushMove (pushWorld put S (nearSet c t.targetSize) D gamma strength limit clk)) (drawsN rng.gaussian d))^[N + 1] ((⟨k, 0, none⟩, y, y), st.rng)).2 ∧
      searchLoop tick (expStep rng sys t.ops limit fuel) steps c0 st = (r, some (match e with
        | .found => .ok (some (time T))
        | .tooFar => .err .tooLargeTimeStep
        | .clock => .ok none))) ∨
    ((searchLoop tick (expStep rng sys t.ops limit fuel) steps c0 st).2 = none ∧ ∃ M, steps ≤ M + 1 ∧
      ∀ m < M, ((drawStep (pushMove (pushWorld put S (nearSet c t.targetSize) D gamma strength limit clk)) (drawsN rng.gaussian d))^[m + 1]
        ((⟨k, 0, none⟩, y, y), st.rng)).1.1.over = none) := by
  set F := drawStep (pushMove (n := n) (pushWorld put S (nearSet c t.targetSize) D gamma strength limit clk)) (drawsN rng.gaussian d) with hF
  induction steps with
  | zero =>
    intro k c0 y st _ _ _
    exact .inr ⟨rfl, 0, by omega, by simp⟩
  | succ steps ih =>
    intro k c0 y st hclk hk hst
    obtain ⟨dt, hdt⟩ := Option.isSome_iff_exists.1 hk
    have htick : (tick c0).2 = .ok (some (time k, dt)) := by
      have := hclk 0 (by simp)
      simp only [Nat.add_zero, hdt, Option.map_some] at this
      exact this
    have htick : tick c0 = ((tick c0).1, .ok (some (time k, dt))) := Prod.ext rfl htick
    obtain ⟨j, hon, hend⟩ := push_turn (rng := rng) w c t ht hl D gamma strength itype clk hn hfuel k hdt y st hst
    rw [← hF] at hon hend
    rcases hend with ⟨m', x', st', h1, h2⟩ | ⟨m', x', st', h1, h2⟩ | ⟨y', st', h1, h2, h3⟩
    · refine .inl ⟨j, .found, ((tick c0).1, st'), k, hon, by rw [h1], by rw [h1]; simp [pushOutcome], by rw [h1], ?_⟩
      rw [searchLoop, htick]
      simp only
      rw [h2]
    · refine .inl ⟨j, .tooFar, ((tick c0).1, st'), k, hon, by rw [h1], by rw [h1]; simp [pushOutcome], by rw [h1], ?_⟩
      rw [searchLoop, htick]
      simp only
      rw [h2]
    · have hloop : searchLoop tick (expStep rng sys t.ops limit fuel) (steps + 1) c0 st =
          searchLoop tick (expStep rng sys t.ops limit fuel) steps (tick c0).1 st' := by
        rw [searchLoop, htick]
        simp only
        rw [h2]
      have hclk' : ∀ j, (∀ i < j, (clk (k + 1 + i)).isSome) → output tick j (tick c0).1 = .ok ((clk (k + 1 + j)).map fun dt => (time (k + 1 + j), dt)) := by
        intro j hj
        have := hclk (j + 1) (fun i hi => by
          rcases i with _ | i
          · simpa using hk
          · have := hj i (by omega)
            rwa [show k + (i + 1) = k + 1 + i by omega])
        rw [show k + (j + 1) = k + 1 + j by omega] at this
        exact this
      rw [hloop]
      cases hnext : clk (k + 1) with
      | none =>
        rw [hnext] at h1
        simp only [Option.isNone_none, if_true] at h1
        rcases steps with _ | steps
        · exact .inr ⟨rfl, j, by omega, hon⟩
        · have h0 : (tick (tick c0).1).2 = .ok none := by
            have := hclk' 0 (by simp)
            simp only [Nat.add_zero, hnext, Option.map_none] at this
            exact this
          have h0 : tick (tick c0).1 = ((tick (tick c0).1).1, .ok none) := Prod.ext rfl h0
          refine .inl ⟨j, .clock, ((tick (tick c0).1).1, st'), k, hon, by rw [h1], by rw [h1]; simp [pushOutcome], by rw [h1], ?_⟩
          rw [searchLoop, h0]
      | some dt' =>
        rw [hnext] at h1
        simp only [Option.isNone_some, Bool.false_eq_true, if_false] at h1
        have hshift : ∀ m, F^[m + 1] ((⟨k + 1, 0, none⟩, y', y'), st'.rng) = F^[m + (j + 1) + 1] ((⟨k, 0, none⟩, y, y), st.rng) := by
          intro m
          rw [← h1, ← Function.iterate_add_apply]
          congr 1
          omega
        have honx : ∀ M, (∀ m < M, (F^[m + 1] ((⟨k + 1, 0, none⟩, y', y'), st'.rng)).1.1.over = none) →
            ∀ m < M + (j + 1), (F^[m + 1] ((⟨k, 0, none⟩, y, y), st.rng)).1.1.over = none := by
          intro M hM m hm
          by_cases hmj : m < j
          · exact hon m hmj
          · by_cases hmj : m = j
            · rw [hmj, h1]
            · have := hM (m - (j + 1)) (by omega)
              rw [hshift, show m - (j + 1) + (j + 1) = m by omega] at this
              exact this
        rcases ih (k + 1) (tick c0).1 y' st' hclk' (by rw [hnext]; rfl) h3 with ⟨N, e, r, T, a1, a2, a3, a4, a5⟩ | ⟨a1, M, a2, a3⟩
        · rw [hshift] at a2 a3 a4
          exact .inl ⟨N + (j + 1), e, r, T, honx N a1, a2, a3, a4, a5⟩
        · exact .inr ⟨a1, M + (j + 1), by omega, honx M a3⟩
end

end Moledyn
