import Verif.Lemmas.UnitsLists
/-
Helper lemmas for C119: the programs that keep their agents commute with a change of units.
-/
namespace Moledyn
set_option linter.unusedSimpArgs false
variable {G S S' C C' α β : Type}
namespace Units
variable (U : Units)

theorem start_pos {sys sys' : SysOps G ℝ} (h : Alike U sys sys') (p : Pos ℝ) :
    AgentCore.startPos sys' (U.pos p) = (U.pos (AgentCore.startPos sys p).1, (AgentCore.startPos sys p).2) := by
  unfold AgentCore.startPos
  rw [h.outTo, h.out]
  rcases sys.positionOutToVec p with ⟨q, r⟩
  cases r <;> rfl

theorem renew_merging (hU : U.len ^ 2 = U.time) {sys sys' : SysOps G ℝ} (h : Alike U sys sys') (t : BulkTarget ℝ) (inner fuel : Nat)
    (g : G) (a : MergeAgent ℝ) :
    (U.merging a).renewUniform sys' (U.target t).ops inner fuel g =
      (a.renewUniform sys t.ops inner fuel g).map fun r => ((U.merging r.1.1, r.1.2), r.2) := by
  unfold MergeAgent.renewUniform
  rw [show (U.merging a).pos = U.pos a.pos from rfl, U.start_pos h]
  rcases AgentCore.startPos sys a.pos with ⟨q, b⟩
  simp only
  rw [U.draw_off h]
  rcases AgentCore.drawOffTarget sys t.ops inner fuel g q with _ | ⟨⟨p, r⟩, g1⟩
  · rfl
  · simp only [Option.map_some, Option.some.injEq]
    have hd : (if b = true then (U.pos q).dim else (U.merging a).dim) = (if b = true then q.dim else a.dim) := by
      rw [show (U.pos q).dim = q.dim from U.length_pos q]; rfl
    cases r with
    | ok _ =>
      simp only [hd]
      exact congrArg (·, g1) (U.rescale_merging hU { a with pos := p, dim := if b = true then q.dim else a.dim, size := 1 })
    | err e => simp only [hd]; rfl
    | panic => simp only [hd]; rfl

theorem renew_sweep (hU : U.len ^ 2 = U.time) {sys sys' : SysOps G ℝ} (h : Alike U sys sys') (t : BulkTarget ℝ) (inner loops fuel : Nat)
    (l : LList (MergeAgent ℝ)) (g : G) :
    renewSweep sys' (U.target t).ops inner loops fuel (list U.merging l) g =
      ((list U.merging (renewSweep sys t.ops inner loops fuel l g).1.1, (renewSweep sys t.ops inner loops fuel l g).1.2),
        (renewSweep sys t.ops inner loops fuel l g).2) := by
  induction fuel generalizing l g with
  | zero => rfl
  | succ n ih =>
    unfold renewSweep LList.enumerateMut
    rw [show (list U.merging l).c0 = l.c0 from rfl, show (list U.merging l).links = l.links from rfl,
      show (list U.merging l).contents = l.contents.map U.merging from rfl]
    rcases l.c0 with _ | i
    · rfl
    · simp only
      rcases l.links[i]? with _ | nd
      · rfl
      · simp only [List.getElem?_map]
        rcases l.contents[i]? with _ | a
        · rfl
        · simp only [Option.map_some, U.renew_merging hU h]
          rcases a.renewUniform sys t.ops inner loops g with _ | ⟨⟨b, r⟩, g1⟩
          · simp only [Option.map_none]
            simp only [Units.list, List.map_set]
          · simp only [Option.map_some]
            have e : ({ links := l.links, contents := (l.contents.map U.merging).set i (U.merging b), head := (list U.merging l).head, tail := (list U.merging l).tail, c0 := nd.next, c1 := (list U.merging l).c1, c2 := (list U.merging l).c2 } : LList (MergeAgent ℝ)) =
                list U.merging { l with contents := l.contents.set i b, c0 := nd.next } := by
              simp only [Units.list, List.map_set]
            cases r with
            | ok _ => simp only [e]; exact ih _ g1
            | err e' => simp only [e]
            | panic => simp only [e]

theorem large_run (hU : U.len ^ 2 = U.time) {sys sys' : SysOps G ℝ} (h : Alike U sys sys') (rng : RngOps G ℝ) (t : BulkTarget ℝ)
    (inner loops fuel steps : Nat) (s : LList (MergeAgent ℝ) × ExpStep ℝ × G) :
    largeNRun rng sys' (U.target t).ops inner loops fuel steps (list U.merging s.1, U.expClock s.2.1, s.2.2) =
      U.answer (fun s => (list U.merging s.1, U.expClock s.2.1, s.2.2)) (largeNRun rng sys t.ops inner loops fuel steps s) := by
  obtain ⟨l, c, g⟩ := s
  unfold largeNRun
  simp only
  rw [U.renew_exp]
  rcases c.renew with ⟨c1, r⟩
  cases r with
  | err e => rfl
  | panic => rfl
  | ok _ =>
    simp only
    have hp : largeNPrepare sys' (U.target t).ops inner loops fuel (list U.merging l) g =
        ((list U.merging (largeNPrepare sys t.ops inner loops fuel l g).1.1, (largeNPrepare sys t.ops inner loops fuel l g).1.2),
          (largeNPrepare sys t.ops inner loops fuel l g).2) := by
      unfold largeNPrepare
      rw [connect_all]
      rcases l.connectAll with ⟨l1, r⟩
      cases r with
      | ok _ => simp only; exact U.renew_sweep hU h t inner loops fuel l1.intoIter g
      | err e => rfl
      | panic => rfl
    rw [hp]
    rcases largeNPrepare sys t.ops inner loops fuel l g with ⟨⟨l1, g1⟩, _ | r | e | _⟩
    · rfl
    · simp only
      unfold largeNFpt
      have := U.search_loop (κ := U.diffClock) (σ := U.mergeSim (G := G))
        (step := mergeStep rng sys t.ops (fun a => a.ptlRadius) fuel)
        (step' := mergeStep rng sys' (U.target t).ops (fun a => a.ptlRadius) fuel) U.next_diff
        (fun dt s => U.merge_step hU h rng t (fun _ => rfl) fuel dt s) steps (intoDiff c1) ⟨l1, g1, []⟩
      rw [show U.mergeSim ⟨l1, g1, []⟩ = ⟨list U.merging l1, g1, []⟩ from rfl, show U.diffClock (intoDiff c1) = intoDiff (U.expClock c1) from rfl] at this
      rw [this]
      rcases searchLoop (TimeDiff.next ExpStep.next (fun c : ExpStep ℝ => c.dt)) (mergeStep rng sys t.ops (fun a => a.ptlRadius) fuel) steps (intoDiff c1) ⟨l1, g1, []⟩ with ⟨⟨c, s⟩, r⟩
      rcases r with _ | ⟨_ | x⟩ | e | _ <;> rfl
    · rfl
    · rfl

/-! ### tests/arguments.rs -/

theorem renew_indep_one {sys sys' : SysOps G ℝ} (h : Alike U sys sys') (t : BulkTarget ℝ) (inner fuel : Nat) (g : G) (a : IndepAgent ℝ) :
    (U.indep a).renewUniform sys' (U.target t).ops inner fuel g =
      (a.renewUniform sys t.ops inner fuel g).map fun r => ((U.indep r.1.1, r.1.2), r.2) := by
  unfold IndepAgent.renewUniform
  rw [show (U.indep a).pos = U.pos a.pos from rfl, U.start_pos h]
  rcases AgentCore.startPos sys a.pos with ⟨q, b⟩
  simp only
  rw [U.draw_off h]
  rcases AgentCore.drawOffTarget sys t.ops inner fuel g q with _ | ⟨⟨p, r⟩, g1⟩
  · rfl
  · simp only [Option.map_some, Option.some.injEq]
    have hd : (if b = true then (U.pos q).dim else (U.indep a).dim) = (if b = true then q.dim else a.dim) := by
      rw [show (U.pos q).dim = q.dim from U.length_pos q]; rfl
    rw [hd]
    rfl

theorem renew_indep {sys sys' : SysOps G ℝ} (h : Alike U sys sys') (t : BulkTarget ℝ) (inner loops : Nat) (v : List (IndepAgent ℝ)) (g : G) :
    renewIndep sys' (U.target t).ops inner loops (v.map U.indep) g =
      (renewIndep sys t.ops inner loops v g).map fun r => ((r.1.1.map U.indep, r.1.2), r.2) := by
  induction v generalizing g with
  | nil => rfl
  | cons a v ih =>
    simp only [List.map_cons]
    unfold renewIndep
    rw [U.renew_indep_one h]
    rcases a.renewUniform sys t.ops inner loops g with _ | ⟨⟨b, r⟩, g1⟩
    · rfl
    · cases r with
      | ok _ =>
        simp only [Option.map_some]
        rw [ih]
        rcases renewIndep sys t.ops inner loops v g1 with _ | r <;> rfl
      | err e => rfl
      | panic => rfl

theorem list_act {sys sys' : SysOps G ℝ} (h : Alike U sys sys') (rng : RngOps G ℝ) (t : BulkTarget ℝ) (dt : ℝ) (i : Nat) (s : Pos ℝ × G) (a : IndepAgent ℝ) :
    listAct rng sys' (U.target t).ops (U.time * dt) i (U.pos s.1, s.2) (U.indep a) =
      ((U.indep (listAct rng sys t.ops dt i s a).1.1, (listAct rng sys t.ops dt i s a).1.2),
        (U.pos (listAct rng sys t.ops dt i s a).2.1, (listAct rng sys t.ops dt i s a).2.2)) := by
  obtain ⟨v, g⟩ := s
  unfold listAct
  have hz : (U.pos v).clear (Fl.zero : ℝ) = U.pos (v.clear Fl.zero) := by
    rw [U.clear_pos]
    simp [Pos.clear, Units.pos, Fl.zero, Function.comp_def]
  have h1 : (U.indep a).randomMoveToVec rng g (U.time * dt) (U.pos (v.clear Fl.zero)) = _ :=
    U.random_move_to rng a.dim a.mtype g dt (v.clear Fl.zero)
  simp only
  rw [hz, h1]
  rw [show AgentCore.randomMoveToVec rng a.dim a.mtype g dt = a.randomMoveToVec rng g dt from rfl]
  rcases a.randomMoveToVec rng g dt (v.clear Fl.zero) with ⟨⟨w, r⟩, g1⟩
  cases r with
  | ok _ =>
    simp only
    rw [show (U.indep a).pos = U.pos a.pos from rfl, h.bc]
    rcases sys.checkBc a.pos w with ⟨p, r | e | _⟩
    · simp only
      rw [show (U.target t).ops.checkFind (U.pos p) = t.ops.checkFind p from U.find_target t p]
      rfl
    · rfl
    · rfl
  | err e => rfl
  | panic => rfl

theorem const_tick (c : ConstStep ℝ) : constTick (U.constClock c) =
    (U.constClock (constTick c).1, (constTick c).2.map (Option.map fun p => (U.time * p.1, U.time * p.2))) := by
  unfold constTick ConstStep.next
  have h3 : Fl.le (U.time * c.current) (U.time * c.tmax) = Fl.le c.current c.tmax := le_scale U.time_pos _ _
  rw [show (U.constClock c).current = U.time * c.current from rfl, show (U.constClock c).tmax = U.time * c.tmax from rfl]
  simp only [h3]
  by_cases hx : Fl.le c.current c.tmax = true
  · have : (U.time * c.current + (U.constClock c).dt : ℝ) = U.time * (c.current + c.dt) := (mul_add _ _ _).symm
    simp only [if_pos hx, this]
    rfl
  · simp only [if_neg hx]
    rfl

theorem list_run {sys sys' : SysOps G ℝ} (h : Alike U sys sys') (rng : RngOps G ℝ) (t : BulkTarget ℝ) (inner loops fuel steps : Nat)
    (clock : ConstStep ℝ) (s : ListSim G ℝ) :
    listRun rng sys' (U.target t).ops inner loops fuel steps (U.constClock clock) (list U.indep s.1, U.pos s.2.1, s.2.2) =
      U.answer (fun s => (list U.indep s.1, U.pos s.2.1, s.2.2)) (listRun rng sys t.ops inner loops fuel steps clock s) := by
  obtain ⟨l, v, g⟩ := s
  unfold listRun
  have hp : listPrepare sys' (U.target t).ops inner loops (list U.indep l) g =
      (listPrepare sys t.ops inner loops l g).map fun r => ((list U.indep r.1.1, r.1.2), r.2) := by
    unfold listPrepare
    rw [show (list U.indep l).contents = l.contents.map U.indep from rfl, U.renew_indep h]
    rcases renewIndep sys t.ops inner loops l.contents g with _ | ⟨⟨w, r⟩, g1⟩
    · rfl
    · simp only [Option.map_some]
      cases r with
      | ok _ => exact congrArg (fun x => some (x, g1)) (connect_all U.indep { l with contents := w })
      | err e => rfl
      | panic => rfl
  simp only
  rw [hp]
  rcases listPrepare sys t.ops inner loops l g with _ | ⟨⟨l1, r⟩, g1⟩
  · rfl
  · cases r with
    | err e => rfl
    | panic => rfl
    | ok _ =>
      simp only [Option.map_some]
      have := U.search_loop (κ := U.constClock) (σ := fun s : ListSim G ℝ => (list U.indep s.1, U.pos s.2.1, s.2.2))
        (step := listStep rng sys t.ops fuel) (step' := listStep rng sys' (U.target t).ops fuel) U.const_tick
        (fun dt s => by
          unfold listStep
          have hw := agent_sweep (f := U.indep) (σ := fun s : Pos ℝ × G => (U.pos s.1, s.2)) (act := listAct rng sys t.ops dt)
            (act' := listAct rng sys' (U.target t).ops (U.time * dt)) (fun i s a => U.list_act h rng t dt i s a) fuel s.1.intoIter s.2
          exact hw) steps clock (l1, v, g1)
      simp only at this
      rw [this]
      rcases searchLoop constTick (listStep rng sys t.ops fuel) steps clock (l1, v, g1) with ⟨⟨c, s⟩, r⟩
      rcases r with _ | ⟨_ | x⟩ | e | _
      · rfl
      · simp only [Option.map_some, Res.map_ok, Units.answer, Option.map_none, Option.getD_none, U.zero_time]
      · rfl
      · rfl
      · rfl

/-! ### examples/mfpt_exp.rs -/

theorem renew_exp_one {sys sys' : SysOps G ℝ} (h : Alike U sys sys') (t : BulkTarget ℝ) (inner fuel : Nat) (g : G) (a : ExpAgent ℝ) :
    (U.exp a).renewUniform sys' (U.target t).ops inner fuel g =
      (a.renewUniform sys t.ops inner fuel g).map fun r => ((U.exp r.1.1, r.1.2), r.2) := by
  unfold ExpAgent.renewUniform
  rw [show (U.exp a).pos = U.pos a.pos from rfl, U.start_pos h]
  rcases AgentCore.startPos sys a.pos with ⟨q, b⟩
  have hq : (U.pos q).dim = q.dim := U.length_pos q
  have hc : U.len ^ 2 / U.time * a.strength / (U.len * a.gamma) = U.len / U.time * (a.strength / a.gamma) := by
    have := U.len_pos.ne'
    have := U.time_pos.ne'
    rw [show U.len ^ 2 / U.time * a.strength = U.len * (U.len / U.time * a.strength) by ring, mul_div_mul_left _ _ U.len_pos.ne', mul_div_assoc]
  simp only
  cases b
  · simp only [Bool.false_eq_true, if_false]
    rw [U.draw_off h]
    rcases AgentCore.drawOffTarget sys t.ops inner fuel g q with _ | ⟨⟨p, r⟩, g1⟩ <;> rfl
  · simp only [if_true, ExpAgent.coeff]
    rw [U.draw_off h]
    rcases AgentCore.drawOffTarget sys t.ops inner fuel g q with _ | ⟨⟨p, r⟩, g1⟩
    · rfl
    · simp only [Option.map_some, hq]
      have e : ((U.exp a).strength / (U.exp a).gamma : ℝ) = U.len / U.time * (a.strength / a.gamma) := hc
      simp only [e]
      rfl

theorem renew_contents {sys sys' : SysOps G ℝ} (h : Alike U sys sys') (t : BulkTarget ℝ) (inner loops : Nat) (v : List (ExpAgent ℝ)) (g : G) :
    renewContents sys' (U.target t).ops inner loops (v.map U.exp) g =
      (renewContents sys t.ops inner loops v g).map fun r => ((r.1.1.map U.exp, r.1.2), r.2) := by
  induction v generalizing g with
  | nil => rfl
  | cons a v ih =>
    simp only [List.map_cons]
    unfold renewContents
    rw [U.renew_exp_one h]
    rcases a.renewUniform sys t.ops inner loops g with _ | ⟨⟨b, r⟩, g1⟩
    · rfl
    · cases r with
      | ok _ =>
        simp only [Option.map_some]
        rw [ih]
        rcases renewContents sys t.ops inner loops v g1 with _ | r <;> rfl
      | err e => rfl
      | panic => rfl

theorem disp_loop (n : Nat) (p q v : Pos ℝ) (s : ℝ) :
    AgentCore.dispLoop n (U.pos p) (U.pos q) (U.pos v) (U.len ^ 2 * s) =
      (U.pos (AgentCore.dispLoop n p q v s).1, (AgentCore.dispLoop n p q v s).2.map (U.len ^ 2 * ·)) := by
  induction n generalizing p q v s with
  | zero => rfl
  | succ n ih =>
    cases p with
    | nil => rfl
    | cons x p =>
      cases q with
      | nil => rfl
      | cons y q =>
        cases v with
        | nil => rfl
        | cons w v =>
          have e1 : (U.len ^ 2 * s + Fl.powi (U.len * y - U.len * x) 2 : ℝ) = U.len ^ 2 * (s + Fl.powi (y - x) 2) := by
            rw [fl_powi, fl_powi]
            show U.len ^ 2 * s + (U.len * y - U.len * x) ^ 2 = U.len ^ 2 * (s + (y - x) ^ 2)
            ring
          have e2 : (U.len * y - U.len * x : ℝ) = U.len * (y - x) := (mul_sub _ _ _).symm
          have := ih p q v (s + Fl.powi (y - x) 2)
          simp only [Units.pos, List.map_cons, AgentCore.dispLoop] at this ⊢
          refine Eq.trans ?_ (congrArg (fun r : Pos ℝ × Res ℝ => (U.len * (y - x) :: r.1, r.2)) this)
          exact congrArg₂ (fun (a s : ℝ) => ((a :: (AgentCore.dispLoop n (p.map (U.len * ·)) (q.map (U.len * ·)) (v.map (U.len * ·)) s).1,
            (AgentCore.dispLoop n (p.map (U.len * ·)) (q.map (U.len * ·)) (v.map (U.len * ·)) s).2) : Pos ℝ × Res ℝ)) e2 e1

theorem displacement_exp (a b : ExpAgent ℝ) (v : Pos ℝ) :
    (∃ w d, a.mutualDisplacementToVec b v = (w, .ok d) ∧ (U.exp a).mutualDisplacementToVec (U.exp b) (U.pos v) = (w, .ok (U.len * d))) ∨
    (∃ w e, a.mutualDisplacementToVec b v = (w, .err e) ∧ (U.exp a).mutualDisplacementToVec (U.exp b) (U.pos v) = (U.pos w, .err e)) ∨
    (∃ w, a.mutualDisplacementToVec b v = (w, .panic) ∧ (U.exp a).mutualDisplacementToVec (U.exp b) (U.pos v) = (U.pos w, .panic)) := by
  unfold ExpAgent.mutualDisplacementToVec AgentCore.mutualDisplacementToVec
  rw [show (U.exp a).pos = U.pos a.pos from rfl, show (U.exp b).pos = U.pos b.pos from rfl, show (U.exp a).expDim = a.expDim from rfl,
    show (U.exp b).expDim = b.expDim from rfl, show (U.pos v).dim = v.dim from U.length_pos v]
  by_cases hd : a.expDim ≠ b.expDim ∨ a.expDim ≠ v.dim
  · exact .inr (.inl ⟨v, .invalidDimension, by rw [if_pos hd], by rw [if_pos hd]⟩)
  · have := U.disp_loop a.expDim a.pos b.pos v Fl.zero
    rw [show (U.len ^ 2 * Fl.zero : ℝ) = Fl.zero by simp [Fl.zero]] at this
    simp only [if_neg hd]
    rw [this]
    rcases AgentCore.dispLoop a.expDim a.pos b.pos v Fl.zero with ⟨w, s | e | _⟩
    · refine .inl ⟨_, _, rfl, ?_⟩
      simp only [Res.map_ok]
      have hs : Fl.sqrt (U.len ^ 2 * s) = U.len * Fl.sqrt s := by
        rw [fl_sqrt, fl_sqrt, Real.sqrt_mul (by positivity), Real.sqrt_sq U.len_pos.le]
      rw [hs]
      refine congrArg (·, Res.ok (U.len * Fl.sqrt s)) ?_
      simp only [Pos.mutScalarMul, Units.pos, List.map_map]
      refine List.map_congr_left fun x _ => ?_
      show U.len * x * (Fl.one / (U.len * Fl.sqrt s)) = x * (Fl.one / Fl.sqrt s)
      have h1 : (Fl.one : ℝ) / (U.len * Fl.sqrt s) = U.len⁻¹ * (Fl.one / Fl.sqrt s) := by
        show (Fl.one : ℝ) / (U.len * Fl.sqrt s) = U.len⁻¹ * ((Fl.one : ℝ) / Fl.sqrt s)
        rw [div_mul_eq_div_div, div_right_comm, div_eq_inv_mul (_ / _) U.len]
      rw [h1]
      have := U.len_pos.ne'
      show U.len * x * (U.len⁻¹ * (Fl.one / Fl.sqrt s)) = x * (Fl.one / Fl.sqrt s)
      field_simp
    · exact .inr (.inl ⟨w, e, rfl, rfl⟩)
    · exact .inr (.inr ⟨w, rfl, rfl⟩)

theorem buf_mod {f f' : Pos ℝ → Pos ℝ × Res Unit} (h : ∀ p, f' (U.pos p) = (U.pos (f p).1, (f p).2)) (b : LList (Pos ℝ)) (i : Nat) :
    bufMod (list U.pos b) i f' = (list U.pos (bufMod b i f).1, (bufMod b i f).2) := by
  unfold bufMod
  rw [show (list U.pos b).contents = b.contents.map U.pos from rfl, List.getElem?_map]
  rcases b.contents[i]? with _ | p
  · rfl
  · simp only [Option.map_some, h]
    simp only [Units.list, List.map_set]

theorem force_exp (a : ExpAgent ℝ) (d dt : ℝ) : (U.exp a).force (U.len * d) * (U.time * dt) = U.len * (a.force d * dt) := by
  unfold ExpAgent.force
  have h1 : (-(U.len * d) / (U.exp a).gamma : ℝ) = -d / a.gamma := by
    show -(U.len * d) / (U.len * a.gamma) = -d / a.gamma
    rw [← mul_neg, mul_div_mul_left _ _ U.len_pos.ne']
  have h2 : (U.exp a).coeffForce = U.len / U.time * a.coeffForce := rfl
  have ht := U.time_pos.ne'
  have key : ∀ E : ℝ, U.len / U.time * a.coeffForce * E * (U.time * dt) = U.len * (a.coeffForce * E * dt) := by
    intro E; field_simp
  refine Eq.trans ?_ (key (Fl.exp (-d / a.gamma)))
  exact congrArg (fun x : ℝ => U.len / U.time * a.coeffForce * Fl.exp x * (U.time * dt)) h1

theorem force_act (dt : ℝ) (i : Nat) (a : ExpAgent ℝ) (j : Nat) (b : ExpAgent ℝ) (l : LList (ExpAgent ℝ)) (s : Pos ℝ × LList (Pos ℝ)) :
    forceAct (U.time * dt) i (U.exp a) j (U.exp b) (list U.exp l) (U.pos s.1, list U.pos s.2) =
      ((list U.exp (forceAct dt i a j b l s).1.1, (U.pos (forceAct dt i a j b l s).1.2.1, list U.pos (forceAct dt i a j b l s).1.2.2)),
        (forceAct dt i a j b l s).2) := by
  obtain ⟨v, m⟩ := s
  unfold forceAct
  simp only
  rcases U.displacement_exp a b v with ⟨w, d, h1, h2⟩ | ⟨w, e, h1, h2⟩ | ⟨w, h1, h2⟩
  · rw [h1, h2]
    simp only
    rw [U.force_exp, U.mutScalarMul_len, U.buf_mod (fun p => U.mutSub_pos p (w.mutScalarMul (a.force d * dt)))]
    rcases bufMod m i (fun p => p.mutSub (w.mutScalarMul (a.force d * dt))) with ⟨b1, r⟩
    cases r with
    | ok _ =>
      simp only
      rw [U.buf_mod (fun p => U.mutAdd_pos p (w.mutScalarMul (a.force d * dt)))]
    | err e => rfl
    | panic => rfl
  · rw [h1, h2]
  · rw [h1, h2]

theorem limit_move (limit : ℝ) (v : Pos ℝ) : limitMove (U.len * limit) (U.pos v) = U.pos (limitMove limit v) := by
  unfold limitMove
  have h1 : (Pos.norm (U.pos v) / (U.len * limit) : ℝ) = v.norm / limit := by
    rw [U.norm_pos]; exact mul_div_mul_left _ _ U.len_pos.ne'
  simp only [h1, U.mutScalarMul_pos]
  by_cases hb : Fl.gt (v.norm / limit) (Fl.one : ℝ) = true
  · rw [if_pos hb, if_pos hb]
  · rw [if_neg hb, if_neg hb]

theorem exp_move {sys sys' : SysOps G ℝ} (h : Alike U sys sys') (rng : RngOps G ℝ) (t : BulkTarget ℝ) (limit dt : ℝ) (i : Nat)
    (s : G × LList (Pos ℝ)) (a : ExpAgent ℝ) :
    expMoveAct rng sys' (U.target t).ops (U.len * limit) (U.time * dt) i (s.1, list U.pos s.2) (U.exp a) =
      ((U.exp (expMoveAct rng sys t.ops limit dt i s a).1.1, (expMoveAct rng sys t.ops limit dt i s a).1.2),
        ((expMoveAct rng sys t.ops limit dt i s a).2.1, list U.pos (expMoveAct rng sys t.ops limit dt i s a).2.2)) := by
  obtain ⟨g, m⟩ := s
  unfold expMoveAct
  rw [show (g, list U.pos m).2.contents = m.contents.map U.pos from rfl, List.getElem?_map]
  simp only
  rcases m.contents[i]? with _ | v
  · rfl
  · simp only [Option.map_some]
    have h1 : (U.exp a).randomMoveToVec rng g (U.time * dt) (U.pos v) = _ := U.random_move_to rng a.expDim a.mtype g dt v
    rw [h1]
    rw [show AgentCore.randomMoveToVec rng a.expDim a.mtype g dt = a.randomMoveToVec rng g dt from rfl]
    have e : ∀ w : Pos ℝ, ({ links := (list U.pos m).links, contents := (m.contents.map U.pos).set i (U.pos w), head := (list U.pos m).head, tail := (list U.pos m).tail, c0 := (list U.pos m).c0, c1 := (list U.pos m).c1, c2 := (list U.pos m).c2 } : LList (Pos ℝ)) =
        list U.pos { m with contents := m.contents.set i w } := by
      intro w
      simp only [Units.list, List.map_set]
    rcases a.randomMoveToVec rng g dt v with ⟨⟨w, r⟩, g1⟩
    cases r with
    | ok _ =>
      simp only [U.limit_move, e]
      rw [show (U.exp a).pos = U.pos a.pos from rfl, h.bc]
      rcases sys.checkBc a.pos (limitMove limit w) with ⟨p, r | e' | _⟩
      · simp only
        rw [show (U.target t).ops.checkFind (U.pos p) = t.ops.checkFind p from U.find_target t p]
        rfl
      · rfl
      · rfl
    | err e' => simp only [e]
    | panic => simp only [e]

/-- the state of examples/mfpt_exp.rs, in new units. -/
noncomputable def expSim (st : ExpSim G ℝ) : ExpSim G ℝ := ⟨list U.exp st.list, st.rng, U.pos st.displacement, list U.pos st.moves⟩

theorem exp_step {sys sys' : SysOps G ℝ} (h : Alike U sys sys') (rng : RngOps G ℝ) (t : BulkTarget ℝ) (limit : ℝ) (fuel : Nat) (dt : ℝ)
    (st : ExpSim G ℝ) :
    expStep rng sys' (U.target t).ops (U.len * limit) fuel (U.time * dt) (U.expSim st) =
      (U.expSim (expStep rng sys t.ops limit fuel dt st).1, (expStep rng sys t.ops limit fuel dt st).2) := by
  obtain ⟨l, g, d, m⟩ := st
  unfold expStep
  have hc : (list U.pos m).clearAll (Pos.clear (Fl.zero : ℝ)) fuel = (list U.pos (m.clearAll (Pos.clear Fl.zero) fuel).1, (m.clearAll (Pos.clear Fl.zero) fuel).2) :=
    map_sweep (fun p => by
      rw [U.clear_pos]
      simp [Pos.clear, Units.pos, Fl.zero, Function.comp_def]) fuel m.intoIter
  rw [show (U.expSim ⟨l, g, d, m⟩ : ExpSim G ℝ) = ⟨list U.exp l, g, U.pos d, list U.pos m⟩ from rfl]
  simp only
  rw [hc]
  rcases m.clearAll (Pos.clear (Fl.zero : ℝ)) fuel with ⟨m1, b⟩
  cases b
  · rfl
  · simp only
    rw [into_double]
    rcases l.intoDoubleIter with ⟨l1, r⟩
    cases r with
    | err e => rfl
    | panic => rfl
    | ok _ =>
      simp only
      have hp := pair_sweep (f := U.exp) (σ := fun s : Pos ℝ × LList (Pos ℝ) => (U.pos s.1, list U.pos s.2)) (act := forceAct dt)
        (act' := forceAct (U.time * dt)) (fun i a j b l s => U.force_act dt i a j b l s) fuel l1 (d, m1)
      simp only at hp
      rw [hp]
      rcases pairSweep (forceAct dt) fuel l1 (d, m1) with ⟨⟨l2, d2, m2⟩, _ | r | e | _⟩
      · rfl
      · simp only
        have hw := agent_sweep (f := U.exp) (σ := fun s : G × LList (Pos ℝ) => (s.1, list U.pos s.2)) (act := expMoveAct rng sys t.ops limit dt)
          (act' := expMoveAct rng sys' (U.target t).ops (U.len * limit) (U.time * dt))
          (fun i s a => U.exp_move h rng t limit dt i s a) fuel l2.intoIter (g, m2)
        simp only at hw
        rw [into_iter, hw]
        rfl
      · rfl
      · rfl

theorem exp_run {sys sys' : SysOps G ℝ} (h : Alike U sys sys') (rng : RngOps G ℝ) (t : BulkTarget ℝ) (limit : ℝ) (inner loops fuel steps : Nat)
    (clock : ExpStep ℝ) (st : ExpSim G ℝ) :
    expRun rng sys' (U.target t).ops (U.len * limit) inner loops fuel steps (U.expClock clock) (U.expSim st) =
      U.answer U.expSim (expRun rng sys t.ops limit inner loops fuel steps clock st) := by
  obtain ⟨l, g, d, m⟩ := st
  unfold expRun
  have hp : expPrepare sys' (U.target t).ops inner loops (list U.exp l) g =
      (expPrepare sys t.ops inner loops l g).map fun r => ((list U.exp r.1.1, r.1.2), r.2) := by
    unfold expPrepare
    rw [show (list U.exp l).contents = l.contents.map U.exp from rfl, U.renew_contents h]
    rcases renewContents sys t.ops inner loops l.contents g with _ | ⟨⟨w, r⟩, g1⟩
    · rfl
    · simp only [Option.map_some]
      cases r with
      | ok _ => exact congrArg (fun x => some (x, g1)) (connect_all U.exp { l with contents := w })
      | err e => rfl
      | panic => rfl
  rw [show (U.expSim ⟨l, g, d, m⟩ : ExpSim G ℝ) = ⟨list U.exp l, g, U.pos d, list U.pos m⟩ from rfl]
  simp only
  rw [hp]
  rcases expPrepare sys t.ops inner loops l g with _ | ⟨⟨l1, r⟩, g1⟩
  · rfl
  · cases r with
    | err e => rfl
    | panic => rfl
    | ok _ =>
      simp only [Option.map_some]
      unfold expFpt
      have := U.search_loop (κ := fun c : Bool × TimeDiff (ExpStep ℝ) => (c.1, U.diffClock c.2)) (σ := U.expSim (G := G))
        (step := expStep rng sys t.ops limit fuel) (step' := expStep rng sys' (U.target t).ops (U.len * limit) fuel) U.next_skip
        (fun dt s => U.exp_step h rng t limit fuel dt s) steps (false, intoDiff clock) ⟨l1, g1, d, m⟩
      rw [show (U.expSim ⟨l1, g1, d, m⟩ : ExpSim G ℝ) = ⟨list U.exp l1, g1, U.pos d, list U.pos m⟩ from rfl] at this
      simp only at this
      rw [show U.diffClock (intoDiff clock) = intoDiff (U.expClock clock) from rfl] at this
      rw [this]
      rcases searchLoop (skipOne (TimeDiff.next ExpStep.next (fun c : ExpStep ℝ => c.dt))) (expStep rng sys t.ops limit fuel) steps (false, intoDiff clock) ⟨l1, g1, d, m⟩ with ⟨⟨c, s⟩, r⟩
      rcases r with _ | ⟨_ | x⟩ | e | _
      · rfl
      · simp only [Option.map_some, Res.map_ok, Units.answer, Option.map_none, Option.getD_none, U.zero_time]
      · rfl
      · rfl
      · rfl

theorem limit_units (size gamma : ℝ) : moveLimit (U.len * size) (U.len * gamma) = U.len * moveLimit size gamma := by
  unfold moveLimit
  have e : (Fl.lit (1 / 10) * (U.len * size) : ℝ) = U.len * (Fl.lit (1 / 10) * size) := mul_left_comm _ _ _
  have h1 : Fl.gt (U.len * (Fl.lit (1 / 10) * size)) (U.len * gamma) = Fl.gt (Fl.lit (1 / 10) * size) gamma := lt_scale U.len_pos _ _
  rw [e]
  by_cases hb : Fl.gt (Fl.lit (1 / 10) * size) gamma = true
  · rw [if_pos hb, if_pos (h1.trans hb)]
  · rw [if_neg hb, if_neg (by rw [h1]; exact hb)]
end Units
end Moledyn
