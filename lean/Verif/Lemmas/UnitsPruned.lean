import Verif.Lemmas.UnitsPrograms
/-
Helper lemmas for C119: the program of tests/test_setup.rs, which compares times with `f64::MAX`.
-/
namespace Moledyn
set_option linter.unusedSimpArgs false
variable {G S S' C C' α β : Type}
namespace Units
variable (U : Units)

theorem pruned_le {found : S → Res Bool} {turn : S → S × Res Unit} {dt : ℝ} (hdt : 0 ≤ dt) (fpt : ℝ) (n : Nat) (s : S) (x t : ℝ) :
    (prunedSearch found turn dt fpt n s x).2 = some (.ok t) → t ≤ x + n * dt := by
  induction n generalizing s x with
  | zero => intro h; simp [prunedSearch] at h
  | succ n ih =>
    unfold prunedSearch
    have hx : x ≤ x + (n + 1 : ℕ) * dt := by
      have : 0 ≤ ((n + 1 : ℕ) : ℝ) * dt := by positivity
      linarith
    rcases found s with b | e | _
    · cases b
      · simp only
        by_cases hl : Fl.lt x fpt = true
        · rw [if_pos hl]
          rcases turn s with ⟨s1, r⟩
          cases r with
          | ok _ =>
            intro h
            have := ih s1 (x + dt) h
            push_cast
            linarith
          | err e => intro h; simp at h
          | panic => intro h; simp at h
        · rw [if_neg hl]
          intro h
          simp only [Option.some.injEq, Res.ok.injEq] at h
          rw [← h]; exact hx
      · intro h
        simp only [Option.some.injEq, Res.ok.injEq] at h
        rw [← h]; exact hx
    · intro h; simp at h
    · intro h; simp at h

theorem pruned_search {found : S → Res Bool} {turn : S → S × Res Unit} {found' : S' → Res Bool} {turn' : S' → S' × Res Unit} {f : S → S'}
    (hf : ∀ s, found' (f s) = found s) (ht : ∀ s, turn' (f s) = (f (turn s).1, (turn s).2)) {dt : ℝ} (hdt : 0 ≤ dt) (fpt fpt' : ℝ)
    (n : Nat) (s : S) (x : ℝ) (hR : ∀ y ≤ x + n * dt, (Fl.lt (U.time * y) fpt' = Fl.lt y fpt)) :
    prunedSearch found' turn' (U.time * dt) fpt' n (f s) (U.time * x) =
      ((f (prunedSearch found turn dt fpt n s x).1.1, U.time * (prunedSearch found turn dt fpt n s x).1.2),
        (prunedSearch found turn dt fpt n s x).2.map (Res.map (U.time * ·))) := by
  induction n generalizing s x with
  | zero => rfl
  | succ n ih =>
    unfold prunedSearch
    have hx : x ≤ x + (n + 1 : ℕ) * dt := by
      have : 0 ≤ ((n + 1 : ℕ) : ℝ) * dt := by positivity
      linarith
    rw [hf, ht]
    rcases found s with b | e | _
    · cases b
      · simp only [hR x hx]
        by_cases hl : Fl.lt x fpt = true
        · rw [if_pos hl, if_pos hl]
          rcases turn s with ⟨s1, r⟩
          cases r with
          | ok _ =>
            simp only
            rw [← ih s1 (x + dt) (fun y hy => hR y (by push_cast; linarith))]
            congr 1
            exact (mul_add U.time x dt).symm
          | err e => rfl
          | panic => rfl
        · rw [if_neg hl, if_neg hl]; rfl
      · rfl
    · rfl
    · rfl

theorem pruned_searcher {sys sys' : SysOps G ℝ} (h : Alike U sys sys') (rng : RngOps G ℝ) (t : BulkTarget ℝ) (inner loops steps : Nat)
    (m : MoveType ℝ) {dt : ℝ} (hdt : 0 ≤ dt) (fpt fpt' : ℝ) (hR : ∀ y ≤ steps * dt, (Fl.lt (U.time * y) fpt' = Fl.lt y fpt)) (s : Pos ℝ × G) :
    prunedSearcher rng sys' (U.target t).ops inner loops steps (U.mtype m) (U.time * dt) fpt' (U.pos s.1, s.2) =
      U.answer (fun s => (U.pos s.1, s.2)) (prunedSearcher rng sys t.ops inner loops steps m dt fpt s) ∧
    ∀ x s1, prunedSearcher rng sys t.ops inner loops steps m dt fpt s = some (.ok x, s1) → x ≤ steps * dt := by
  obtain ⟨v, g⟩ := s
  unfold prunedSearcher
  simp only
  rw [U.new_indep h]
  rcases IndepAgent.newUniform sys t.ops inner loops g m with _ | ⟨a | e | _, g1⟩
  · exact ⟨rfl, by simp⟩
  · simp only [Option.map_some, Res.map_ok]
    have z0 : (Fl.zero : ℝ) + steps * dt = steps * dt := by
      have : (Fl.zero : ℝ) = 0 := by simp [Fl.zero]
      rw [this, zero_add]
    have := U.pruned_search (found := fun s : IndepAgent ℝ × Pos ℝ × G => t.ops.checkFind s.1.pos) (turn := bufferTurn rng sys dt)
      (found' := fun s : IndepAgent ℝ × Pos ℝ × G => (U.target t).ops.checkFind s.1.pos) (turn' := bufferTurn rng sys' (U.time * dt))
      (f := fun s => (U.indep s.1, U.pos s.2.1, s.2.2)) (fun s => U.find_target t s.1.pos) (fun s => U.buffer_turn h rng dt s) hdt fpt fpt' steps (a, v, g1) Fl.zero
      (fun y hy => hR y (by rwa [z0] at hy))
    have hle := fun x => pruned_le (found := fun s : IndepAgent ℝ × Pos ℝ × G => t.ops.checkFind s.1.pos) (turn := bufferTurn rng sys dt)
      hdt fpt steps (a, v, g1) Fl.zero x
    rw [U.zero_time] at this
    rw [this]
    revert hle
    rcases prunedSearch (fun s : IndepAgent ℝ × Pos ℝ × G => t.ops.checkFind s.1.pos) (bufferTurn rng sys dt) dt fpt steps (a, v, g1) Fl.zero with ⟨⟨s, x⟩, r⟩
    intro hle
    cases r with
    | none => exact ⟨rfl, by simp⟩
    | some r =>
      refine ⟨rfl, ?_⟩
      intro y s1 hy
      simp only [Option.some.injEq, Prod.mk.injEq] at hy
      have := hle y (by rw [hy.1])
      rwa [z0] at this
  · exact ⟨rfl, by simp⟩
  · exact ⟨rfl, by simp⟩

/-- below `B` the two bounds are the same in the two units; either none is set yet, or the one is the other. -/
def Bounds (M B fpt fpt' : ℝ) : Prop := (fpt = M ∧ fpt' = M) ∨ (fpt ≤ B ∧ fpt' = U.time * fpt)

theorem Bounds.agree {U : Units} {M B fpt fpt' : ℝ} (h : U.Bounds M B fpt fpt') (hB : B < M) (hB' : U.time * B < M) (y : ℝ) (hy : y ≤ B) :
    Fl.lt (U.time * y) fpt' = Fl.lt y fpt := by
  rcases h with ⟨rfl, rfl⟩ | ⟨-, rfl⟩
  · have h1 : y < fpt' := lt_of_le_of_lt hy hB
    have h2 : U.time * y < fpt' := lt_of_le_of_lt (mul_le_mul_of_nonneg_left hy U.time_pos.le) hB'
    rw [fl_lt, fl_lt, decide_eq_true h1, decide_eq_true h2]
  · exact lt_scale U.time_pos _ _

theorem pruned_loop {run : ℝ → S → Option (Res ℝ × S)} {run' : ℝ → S' → Option (Res ℝ × S')} {f : S → S'} {M B : ℝ}
    (hB : B < M) (hB' : U.time * B < M)
    (h : ∀ fpt fpt' s, U.Bounds M B fpt fpt' → run' fpt' (f s) = U.answer f (run fpt s) ∧ ∀ x s1, run fpt s = some (.ok x, s1) → x ≤ B)
    (n : Nat) (s : S) (fpt fpt' : ℝ) (hb : U.Bounds M B fpt fpt') (hn : 0 < n ∨ fpt' = U.time * fpt) :
    prunedLoop run' n (f s) fpt' = U.answer f (prunedLoop run n s fpt) := by
  induction n generalizing s fpt fpt' with
  | zero =>
    rcases hn with hn | rfl
    · exact absurd hn (lt_irrefl 0)
    · rfl
  | succ n ih =>
    unfold prunedLoop
    obtain ⟨h1, h2⟩ := h fpt fpt' s hb
    rw [h1]
    rcases hr : run fpt s with _ | ⟨t | e | _, s1⟩
    · rfl
    · have ht := h2 t s1 hr
      simp only [Units.answer, Option.map_some, Res.map_ok]
      rw [hb.agree hB hB' t ht]
      by_cases hl : Fl.lt t fpt = true
      · rw [if_pos hl, if_pos hl]
        exact ih s1 _ _ (.inr ⟨ht, rfl⟩) (.inr rfl)
      · rw [if_neg hl, if_neg hl]
        rcases hb with ⟨rfl, rfl⟩ | ⟨hf, rfl⟩
        · rw [fl_lt, decide_eq_true (lt_of_le_of_lt ht hB)] at hl
          exact absurd rfl hl
        · exact ih s1 _ _ (.inr ⟨hf, rfl⟩) (.inr rfl)
    · rfl
    · rfl

theorem pruned_run {sys sys' : SysOps G ℝ} (h : Alike U sys sys') (rng : RngOps G ℝ) (t : BulkTarget ℝ) (inner loops steps : Nat)
    (m : MoveType ℝ) {dt : ℝ} (hdt : 0 ≤ dt) (hB : steps * dt < Fl.maxVal) (hB' : U.time * (steps * dt) < Fl.maxVal)
    {n : Nat} (hn : 0 < n) (s : Pos ℝ × G) :
    prunedRun rng sys' (U.target t).ops inner loops steps (U.mtype m) (U.time * dt) n (U.pos s.1, s.2) =
      U.answer (fun s => (U.pos s.1, s.2)) (prunedRun rng sys t.ops inner loops steps m dt n s) := by
  unfold prunedRun
  exact U.pruned_loop (f := fun s : Pos ℝ × G => (U.pos s.1, s.2)) hB hB' (fun fpt fpt' s hb =>
    U.pruned_searcher h rng t inner loops steps m hdt fpt fpt' (fun y hy => hb.agree hB hB' y hy) s) n s _ _ (.inl ⟨rfl, rfl⟩) (.inl hn)
end Units
end Moledyn
