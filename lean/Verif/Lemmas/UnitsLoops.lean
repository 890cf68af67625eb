import Verif.Lemmas.Units
import Verif.Spec.Simulation
/-
Helper lemmas for C119: the loops of the programs commute with a change of units.
-/
namespace Moledyn
set_option linter.unusedSimpArgs false
variable {G S S' C C' α β : Type}
namespace Units
variable (U : Units)

/-! ### one walker -/

theorem draw_off {sys sys' : SysOps G ℝ} (h : Alike U sys sys') (t : BulkTarget ℝ) (inner fuel : Nat) (g : G) (p : Pos ℝ) :
    AgentCore.drawOffTarget sys' (U.target t).ops inner fuel g (U.pos p) =
      (AgentCore.drawOffTarget sys t.ops inner fuel g p).map fun r => ((U.pos r.1.1, r.1.2), r.2) := by
  induction fuel generalizing g p with
  | zero => rfl
  | succ n ih =>
    unfold AgentCore.drawOffTarget
    rw [h.draw]
    rcases sys.randomPosToVec inner g p with _ | ⟨⟨q, r⟩, g1⟩
    · rfl
    · cases r with
      | err e => rfl
      | panic => rfl
      | ok _ =>
        simp only [Option.map_some]
        rw [show (U.target t).ops.checkFind (U.pos q) = t.ops.checkFind q from U.find_target t q]
        rcases t.ops.checkFind q with b | e | _
        · cases b
          · rfl
          · exact ih g1 q
        · rfl
        · rfl

theorem new_indep {sys sys' : SysOps G ℝ} (h : Alike U sys sys') (t : BulkTarget ℝ) (inner fuel : Nat) (g : G) (m : MoveType ℝ) :
    IndepAgent.newUniform sys' (U.target t).ops inner fuel g (U.mtype m) =
      (IndepAgent.newUniform sys t.ops inner fuel g m).map fun r => (r.1.map U.indep, r.2) := by
  unfold IndepAgent.newUniform
  rw [h.out, U.draw_off h]
  rcases AgentCore.drawOffTarget sys t.ops inner fuel g sys.positionOut with _ | ⟨⟨q, r⟩, g1⟩
  · rfl
  · cases r with
    | ok _ =>
      simp only [Option.map_some, Res.map_ok, Option.some.injEq, Prod.mk.injEq, Res.ok.injEq, and_true]
      simp [Units.indep, Units.itype, Pos.dim, U.length_pos]
    | err e => rfl
    | panic => rfl

theorem length_turn (D dt : ℝ) :
    Fl.sqrt (Fl.two * (U.len ^ 2 / U.time * D) * (U.time * dt)) = U.len * Fl.sqrt (Fl.two * D * dt) := by
  have e : (Fl.two * (U.len ^ 2 / U.time * D) * (U.time * dt) : ℝ) = U.len ^ 2 * (Fl.two * D * dt) := by
    have := U.time_pos.ne'
    show (Fl.two : ℝ) * (U.len ^ 2 / U.time * D) * (U.time * dt) = U.len ^ 2 * (Fl.two * D * dt)
    field_simp
  rw [e, fl_sqrt, fl_sqrt]
  exact (Real.sqrt_mul (by positivity) _).trans (by rw [Real.sqrt_sq U.len_pos.le])

theorem random_move (rng : RngOps G ℝ) (dim : Nat) (m : MoveType ℝ) (g : G) (dt : ℝ) :
    AgentCore.randomMove rng dim (U.mtype m) g (U.time * dt) =
      ((AgentCore.randomMove rng dim m g dt).1.map U.pos, (AgentCore.randomMove rng dim m g dt).2) := by
  cases m with
  | levy => rfl
  | brownian D =>
    unfold AgentCore.randomMove Units.mtype
    simp only [Res.map_ok]
    rw [U.length_turn, U.mutScalarMul_len]

theorem sweep_gaussian (rng : RngOps G ℝ) (b : ℝ) (p : Pos ℝ) (g : G) :
    Random.getGaussianToVecNonstandard rng g (U.pos p) Fl.zero (U.len * b) =
      (U.pos (Random.getGaussianToVecNonstandard rng g p Fl.zero b).1, (Random.getGaussianToVecNonstandard rng g p Fl.zero b).2) := by
  unfold Random.getGaussianToVecNonstandard
  induction p generalizing g with
  | nil => rfl
  | cons x p ih =>
    simp only [Units.pos, List.map_cons, Random.sweep] at ih ⊢
    rw [ih]
    simp only [Prod.mk.injEq, List.cons.injEq, and_true]
    show U.len * x + (rng.gaussian g).1 * (U.len * b) + Fl.zero = U.len * (x + (rng.gaussian g).1 * b + Fl.zero)
    simp only [Fl.zero, fl_zero]
    ring

theorem random_move_to (rng : RngOps G ℝ) (dim : Nat) (m : MoveType ℝ) (g : G) (dt : ℝ) (v : Pos ℝ) :
    AgentCore.randomMoveToVec rng dim (U.mtype m) g (U.time * dt) (U.pos v) =
      ((U.pos (AgentCore.randomMoveToVec rng dim m g dt v).1.1, (AgentCore.randomMoveToVec rng dim m g dt v).1.2),
        (AgentCore.randomMoveToVec rng dim m g dt v).2) := by
  unfold AgentCore.randomMoveToVec
  rw [show (U.pos v).dim = v.dim from U.length_pos v]
  by_cases hd : dim ≠ v.dim
  · rw [if_pos hd, if_pos hd]
  · rw [if_neg hd, if_neg hd]
    cases m with
    | levy => rfl
    | brownian D =>
      unfold Units.mtype
      simp only
      rw [U.length_turn, U.sweep_gaussian]

theorem fresh_turn {sys sys' : SysOps G ℝ} (h : Alike U sys sys') (rng : RngOps G ℝ) (dt : ℝ) (a : IndepAgent ℝ) (g : G) :
    freshTurn rng sys' (U.time * dt) (U.indep a, g) =
      ((U.indep (freshTurn rng sys dt (a, g)).1.1, (freshTurn rng sys dt (a, g)).1.2), (freshTurn rng sys dt (a, g)).2) := by
  unfold freshTurn
  have h1 : (U.indep a).randomMove rng g (U.time * dt) = _ := U.random_move rng a.dim a.mtype g dt
  simp only
  rw [h1]
  rw [show AgentCore.randomMove rng a.dim a.mtype g dt = a.randomMove rng g dt from rfl]
  rcases a.randomMove rng g dt with ⟨r | e | _, g1⟩
  · simp only [Res.map_ok]
    rw [show (U.indep a).pos = U.pos a.pos from rfl, h.bc]
    rfl
  · rfl
  · rfl

theorem buffer_turn {sys sys' : SysOps G ℝ} (h : Alike U sys sys') (rng : RngOps G ℝ) (dt : ℝ) (s : IndepAgent ℝ × Pos ℝ × G) :
    bufferTurn rng sys' (U.time * dt) (U.indep s.1, U.pos s.2.1, s.2.2) =
      ((U.indep (bufferTurn rng sys dt s).1.1, U.pos (bufferTurn rng sys dt s).1.2.1, (bufferTurn rng sys dt s).1.2.2),
        (bufferTurn rng sys dt s).2) := by
  obtain ⟨a, v, g⟩ := s
  unfold bufferTurn
  have hz : (U.pos v).clear (Fl.zero : ℝ) = U.pos (v.clear Fl.zero) := by
    rw [U.clear_pos]
    simp [Pos.clear, Units.pos, Fl.zero, Function.comp_def]
  have h1 : (U.indep a).randomMoveToVec rng g (U.time * dt) (U.pos (v.clear Fl.zero)) = _ :=
    U.random_move_to rng a.dim a.mtype g dt (v.clear Fl.zero)
  simp only
  rw [hz, h1]
  rw [show AgentCore.randomMoveToVec rng a.dim a.mtype g dt = a.randomMoveToVec rng g dt from rfl]
  rcases a.randomMoveToVec rng g dt (v.clear Fl.zero) with ⟨⟨w, r⟩, g1⟩
  cases r with
  | ok _ =>
    simp only
    rw [show (U.indep a).pos = U.pos a.pos from rfl, h.bc]
    rfl
  | err e => rfl
  | panic => rfl

theorem while_search {found : S → Res Bool} {turn : S → S × Res Unit} {found' : S' → Res Bool} {turn' : S' → S' × Res Unit} {f : S → S'}
    (hf : ∀ s, found' (f s) = found s) (ht : ∀ s, turn' (f s) = (f (turn s).1, (turn s).2)) (dt : ℝ) (n : Nat) (s : S) (x : ℝ) :
    whileSearch found' turn' (U.time * dt) n (f s) (U.time * x) =
      ((f (whileSearch found turn dt n s x).1.1, U.time * (whileSearch found turn dt n s x).1.2),
        (whileSearch found turn dt n s x).2.map (Res.map (U.time * ·))) := by
  induction n generalizing s x with
  | zero => rfl
  | succ n ih =>
    unfold whileSearch
    rw [hf, ht]
    rcases found s with b | e | _
    · cases b
      · simp only
        rcases turn s with ⟨s1, r⟩
        cases r with
        | ok _ =>
          simp only
          rw [← ih]
          congr 1
          exact (mul_add U.time x dt).symm
        | err e => rfl
        | panic => rfl
      · rfl
    · rfl
    · rfl

theorem one_searcher {sys sys' : SysOps G ℝ} (h : Alike U sys sys') (rng : RngOps G ℝ) (t : BulkTarget ℝ) (inner loops steps : Nat)
    (m : MoveType ℝ) (dt : ℝ) (g : G) :
    oneSearcher rng sys' (U.target t).ops inner loops steps (U.mtype m) (U.time * dt) g =
      U.answer id (oneSearcher rng sys t.ops inner loops steps m dt g) := by
  unfold oneSearcher
  rw [U.new_indep h]
  rcases IndepAgent.newUniform sys t.ops inner loops g m with _ | ⟨a | e | _, g1⟩
  · rfl
  · simp only [Option.map_some, Res.map_ok]
    have := U.while_search (found := fun s : IndepAgent ℝ × G => t.ops.checkFind s.1.pos) (turn := freshTurn rng sys dt)
      (found' := fun s : IndepAgent ℝ × G => (U.target t).ops.checkFind s.1.pos) (turn' := freshTurn rng sys' (U.time * dt))
      (f := fun s => (U.indep s.1, s.2)) (fun s => U.find_target t s.1.pos) (fun s => U.fresh_turn h rng dt s.1 s.2) dt steps (a, g1) Fl.zero
    have hz : (U.time * Fl.zero : ℝ) = Fl.zero := by simp [Fl.zero]
    rw [hz] at this
    rw [this]
    rcases whileSearch (fun s : IndepAgent ℝ × G => t.ops.checkFind s.1.pos) (freshTurn rng sys dt) dt steps (a, g1) Fl.zero with ⟨⟨s, x⟩, r⟩
    cases r with
    | none => rfl
    | some r => rfl
  · rfl
  · rfl

theorem one_buffered {sys sys' : SysOps G ℝ} (h : Alike U sys sys') (rng : RngOps G ℝ) (t : BulkTarget ℝ) (inner loops steps : Nat)
    (m : MoveType ℝ) (dt : ℝ) (s : Pos ℝ × G) :
    oneBuffered rng sys' (U.target t).ops inner loops steps (U.mtype m) (U.time * dt) (U.pos s.1, s.2) =
      U.answer (fun s => (U.pos s.1, s.2)) (oneBuffered rng sys t.ops inner loops steps m dt s) := by
  obtain ⟨v, g⟩ := s
  unfold oneBuffered
  simp only
  rw [U.new_indep h]
  rcases IndepAgent.newUniform sys t.ops inner loops g m with _ | ⟨a | e | _, g1⟩
  · rfl
  · simp only [Option.map_some, Res.map_ok]
    have := U.while_search (found := fun s : IndepAgent ℝ × Pos ℝ × G => t.ops.checkFind s.1.pos) (turn := bufferTurn rng sys dt)
      (found' := fun s : IndepAgent ℝ × Pos ℝ × G => (U.target t).ops.checkFind s.1.pos) (turn' := bufferTurn rng sys' (U.time * dt))
      (f := fun s => (U.indep s.1, U.pos s.2.1, s.2.2)) (fun s => U.find_target t s.1.pos) (fun s => U.buffer_turn h rng dt s) dt steps (a, v, g1) Fl.zero
    have hz : (U.time * Fl.zero : ℝ) = Fl.zero := by simp [Fl.zero]
    rw [hz] at this
    rw [this]
    rcases whileSearch (fun s : IndepAgent ℝ × Pos ℝ × G => t.ops.checkFind s.1.pos) (bufferTurn rng sys dt) dt steps (a, v, g1) Fl.zero with ⟨⟨s, x⟩, r⟩
    cases r with
    | none => rfl
    | some r => rfl
  · rfl
  · rfl

/-! ### ensembles -/

theorem ensemble_sum {run : S → Option (Res ℝ × S)} {run' : S' → Option (Res ℝ × S')} {f : S → S'}
    (h : ∀ s, run' (f s) = U.answer f (run s)) (n : Nat) (s : S) (x : ℝ) :
    ensembleSum run' n (f s) (U.time * x) = U.answer f (ensembleSum run n s x) := by
  induction n generalizing s x with
  | zero => rfl
  | succ n ih =>
    unfold ensembleSum
    rw [h]
    rcases run s with _ | ⟨t | e | _, s1⟩
    · rfl
    · simp only [Units.answer, Option.map_some, Res.map_ok]
      have := ih s1 (x + t)
      rw [show U.time * (x + t) = U.time * x + U.time * t from mul_add _ _ _] at this
      exact this
    · rfl
    · rfl

theorem ensemble_mean {run : S → Option (Res ℝ × S)} {run' : S' → Option (Res ℝ × S')} {f : S → S'}
    (h : ∀ s, run' (f s) = U.answer f (run s)) (n : Nat) (s : S) :
    ensembleMean run' n (f s) = U.answer f (ensembleMean run n s) := by
  unfold ensembleMean
  have := U.ensemble_sum h n s Fl.zero
  have hz : (U.time * Fl.zero : ℝ) = Fl.zero := by simp [Fl.zero]
  rw [hz] at this
  rw [this]
  rcases ensembleSum run n s Fl.zero with _ | ⟨t | e | _, s1⟩
  · rfl
  · simp only [Units.answer, Option.map_some, Res.map_ok]
    exact congrArg (fun y => some (Res.ok y, f s1)) (mul_div_assoc U.time t n)
  · rfl
  · rfl

/-- all the numbers a program writes. -/
theorem exp_loop {run : S → Option (Res ℝ × S)} {run' : S' → Option (Res ℝ × S')} {f : S → S'}
    (h : ∀ s, run' (f s) = U.answer f (run s)) (n : Nat) (s : S) :
    expLoop run' n (f s) = (expLoop run n s).map fun r => ((r.1.1.map (U.time * ·), r.1.2), f r.2) := by
  induction n generalizing s with
  | zero => rfl
  | succ n ih =>
    unfold expLoop
    rw [h]
    rcases run s with _ | ⟨t | e | _, s1⟩
    · rfl
    · simp only [Units.answer, Option.map_some, Res.map_ok]
      rw [ih]
      rcases expLoop run n s1 with _ | r <;> rfl
    · rfl
    · rfl

theorem min_loop {run : S → Option (Res ℝ × S)} {run' : S' → Option (Res ℝ × S')} {f : S → S'}
    (h : ∀ s, run' (f s) = U.answer f (run s)) (M : ℝ) (n : Nat) (s : S) (x x' : ℝ) (hx : min x' (U.time * M) = min (U.time * x) M) :
    (minLoop run n s x = none ∧ minLoop run' n (f s) x' = none) ∨
    (∃ y y' s1, minLoop run n s x = some (.ok y, s1) ∧ minLoop run' n (f s) x' = some (.ok y', f s1) ∧ min y' (U.time * M) = min (U.time * y) M) ∨
    (∃ e s1, minLoop run n s x = some (.err e, s1) ∧ minLoop run' n (f s) x' = some (.err e, f s1)) ∨
    (∃ s1, minLoop run n s x = some (.panic, s1) ∧ minLoop run' n (f s) x' = some (.panic, f s1)) := by
  induction n generalizing s x x' with
  | zero => exact .inr (.inl ⟨x, x', s, rfl, rfl, hx⟩)
  | succ n ih =>
    unfold minLoop
    rw [h]
    rcases run s with _ | ⟨t | e | _, s1⟩
    · exact .inl ⟨rfl, rfl⟩
    · simp only [Units.answer, Option.map_some, Res.map_ok]
      refine ih s1 _ _ ?_
      have e1 : ∀ a b : ℝ, (if Fl.gt a b then b else a) = min a b := by
        intro a b
        simp only [Fl.gt, fl_lt, decide_eq_true_eq]
        split_ifs with hab
        · exact (min_eq_right hab.le).symm
        · exact (min_eq_left (not_lt.1 hab)).symm
      rw [e1, e1, min_right_comm, hx, mul_min_of_nonneg _ _ U.time_pos.le, min_right_comm]
    · exact .inr (.inr (.inl ⟨e, s1, rfl, rfl⟩))
    · exact .inr (.inr (.inr ⟨s1, rfl, rfl⟩))

/-! ### loops over lists -/

theorem agent_sweep {f : α → β} {σ : S → S'} {act : Nat → S → α → (α × Res Bool) × S} {act' : Nat → S' → β → (β × Res Bool) × S'}
    (h : ∀ i s a, act' i (σ s) (f a) = ((f (act i s a).1.1, (act i s a).1.2), σ (act i s a).2)) (n : Nat) (l : LList α) (s : S) :
    agentSweep act' n (list f l) (σ s) =
      ((list f (agentSweep act n l s).1.1, σ (agentSweep act n l s).1.2), (agentSweep act n l s).2) := by
  induction n generalizing l s with
  | zero => rfl
  | succ n ih =>
    unfold agentSweep LList.enumerateMut
    rw [show (list f l).c0 = l.c0 from rfl, show (list f l).links = l.links from rfl, show (list f l).contents = l.contents.map f from rfl]
    rcases hcur : l.c0 with _ | idx
    · rfl
    · simp only [Option.getD_some]
      rcases hnd : l.links[idx]? with _ | nd
      · rfl
      · simp only [List.getElem?_map]
        rcases ha : l.contents[idx]? with _ | a
        · rfl
        · simp only [Option.map_some, h]
          rcases hact : act idx s a with ⟨⟨a1, r⟩, s1⟩
          have el : ({ links := l.links, contents := (l.contents.map f).set idx (f a1), head := l.head, tail := l.tail, c0 := nd.next, c1 := l.c1, c2 := l.c2 } : LList β) =
              list f { l with contents := l.contents.set idx a1, c0 := nd.next } := by
            simp only [Units.list, List.map_set]
          have el' : ({ links := l.links, contents := (l.contents.map f).set idx (f a1), head := (list f l).head, tail := (list f l).tail, c0 := nd.next, c1 := (list f l).c1, c2 := (list f l).c2 } : LList β) =
              list f { l with contents := l.contents.set idx a1, c0 := nd.next } := el
          simp only [el']
          rcases r with b | e | _
          · cases b
            · exact ih _ s1
            · rfl
          · rfl
          · rfl

theorem indicies_double (f : α → β) (l : LList α) : (list f l).indiciesDouble = (list f l.indiciesDouble.1, l.indiciesDouble.2) := by
  unfold LList.indiciesDouble
  rw [show (list f l).c0 = l.c0 from rfl, show (list f l).c1 = l.c1 from rfl, show (list f l).tail = l.tail from rfl, show (list f l).links = l.links from rfl]
  repeat' split
  all_goals rfl

theorem enumerate_double (f : α → β) (l : LList α) :
    (list f l).enumerateDouble = (list f l.enumerateDouble.1, l.enumerateDouble.2.map (Option.map fun r => (r.1, f r.2.1, r.2.2.1, f r.2.2.2))) := by
  unfold LList.enumerateDouble
  rw [indicies_double]
  rcases l.indiciesDouble with ⟨l1, o | e | _⟩
  · cases o with
    | none => rfl
    | some p =>
      obtain ⟨i, j⟩ := p
      simp only [Units.list, List.getElem?_map]
      rcases l1.contents[i]? with _ | a
      · rfl
      · rcases l1.contents[j]? with _ | b <;> rfl
  · rfl
  · rfl

theorem pair_sweep {f : α → β} {σ : S → S'} {act : Nat → α → Nat → α → LList α → S → (LList α × S) × Res Unit}
    {act' : Nat → β → Nat → β → LList β → S' → (LList β × S') × Res Unit}
    (h : ∀ i a j b l s, act' i (f a) j (f b) (list f l) (σ s) = ((list f (act i a j b l s).1.1, σ (act i a j b l s).1.2), (act i a j b l s).2))
    (n : Nat) (l : LList α) (s : S) :
    pairSweep act' n (list f l) (σ s) = ((list f (pairSweep act n l s).1.1, σ (pairSweep act n l s).1.2), (pairSweep act n l s).2) := by
  induction n generalizing l s with
  | zero => rfl
  | succ n ih =>
    unfold pairSweep
    rw [enumerate_double]
    rcases l.enumerateDouble with ⟨l1, o | e | _⟩
    · cases o with
      | none => rfl
      | some p =>
        obtain ⟨i, a, j, b⟩ := p
        simp only [Res.map_ok, Option.map_some, h]
        rcases act i a j b l1 s with ⟨⟨l2, s2⟩, r⟩
        cases r with
        | ok _ => exact ih l2 s2
        | err e => rfl
        | panic => rfl
    · rfl
    · rfl

theorem search_loop {κ : C → C'} {σ : S → S'} {tick : C → C × Res (Option (ℝ × ℝ))} {tick' : C' → C' × Res (Option (ℝ × ℝ))}
    {step : ℝ → S → S × Option (Res Bool)} {step' : ℝ → S' → S' × Option (Res Bool)}
    (ht : ∀ c, tick' (κ c) = (κ (tick c).1, (tick c).2.map (Option.map fun p => (U.time * p.1, U.time * p.2))))
    (hs : ∀ dt s, step' (U.time * dt) (σ s) = (σ (step dt s).1, (step dt s).2)) (n : Nat) (c : C) (s : S) :
    searchLoop tick' step' n (κ c) (σ s) = ((κ (searchLoop tick step n c s).1.1, σ (searchLoop tick step n c s).1.2),
      (searchLoop tick step n c s).2.map (Res.map (Option.map (U.time * ·)))) := by
  induction n generalizing c s with
  | zero => rfl
  | succ n ih =>
    unfold searchLoop
    rw [ht]
    rcases tick c with ⟨c1, o | e | _⟩
    · cases o with
      | none => rfl
      | some p =>
        obtain ⟨x, dt⟩ := p
        simp only [Res.map_ok, Option.map_some, hs]
        rcases step dt s with ⟨s1, _ | b | e | _⟩
        · rfl
        · cases b
          · exact ih c1 s1
          · rfl
        · rfl
        · rfl
    · rfl
    · rfl
end Units
end Moledyn
