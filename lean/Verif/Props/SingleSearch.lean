import Verif.Spec.SingleSearch
import Verif.Spec.Simulation
import Verif.Spec.WholeNumbers
import Verif.Lemmas.SimulationRuns
import Verif.Props.Agents
/-
Property theorems C66: programs that follow one walker at a time.
-/
namespace Moledyn.Props
open Moledyn
set_option linter.unusedSimpArgs false
variable {G F S : Type}

theorem afterTurns_zero (turn : S → S × Res Unit) (s : S) : afterTurns turn 0 s = s := rfl

theorem afterTurns_succ (turn : S → S × Res Unit) (k : Nat) (s : S) :
    afterTurns turn (k + 1) s = afterTurns turn k (turn s).1 := rfl

theorem afterTurns_succ' (turn : S → S × Res Unit) (k : Nat) (s : S) :
    afterTurns turn (k + 1) s = (turn (afterTurns turn k s)).1 := Function.iterate_succ_apply' _ _ _

private theorem foundAt_zero {found : S → Res Bool} {turn : S → S × Res Unit} {s : S} :
    FoundAt found turn 0 s ↔ found s = .ok true := by
  simp [FoundAt, afterTurns_zero]

private theorem foundAt_succ {found : S → Res Bool} {turn : S → S × Res Unit} {k : Nat} {s : S} :
    FoundAt found turn (k + 1) s ↔
      found s = .ok false ∧ (turn s).2 = .ok () ∧ FoundAt found turn k (turn s).1 := by
  unfold FoundAt
  constructor
  · rintro ⟨h1, h2⟩
    exact ⟨(h1 0 (by omega)).1, (h1 0 (by omega)).2, fun j hj => h1 (j + 1) (by omega), h2⟩
  · rintro ⟨h1, h2, h3, h4⟩
    refine ⟨fun j hj => ?_, h4⟩
    cases j with
    | zero => exact ⟨h1, h2⟩
    | succ j => exact h3 j (by omega)

/-- How the loop comes to its answer. -/
theorem whileSearch_iff [Fl F] (found : S → Res Bool) (turn : S → S × Res Unit) (dt : F) (n : Nat) (s : S)
    (t0 : F) (s' : S) (t' t : F) :
    whileSearch found turn dt n s t0 = ((s', t'), some (.ok t)) ↔
      ∃ k < n, FoundAt found turn k s ∧ t = (fun t => t + dt)^[k] t0 ∧ t' = t ∧ s' = afterTurns turn k s := by
  induction n generalizing s t0 with
  | zero => simp [whileSearch]
  | succ n ih =>
    have hex : (∃ k < n + 1, FoundAt found turn k s ∧ t = (fun t => t + dt)^[k] t0 ∧ t' = t ∧
          s' = afterTurns turn k s) ↔
        ((found s = .ok true ∧ t = t0 ∧ t' = t ∧ s' = s) ∨
          (found s = .ok false ∧ (turn s).2 = .ok () ∧
            ∃ k < n, FoundAt found turn k (turn s).1 ∧ t = (fun t => t + dt)^[k] (t0 + dt) ∧ t' = t ∧
              s' = afterTurns turn k (turn s).1)) := by
      constructor
      · rintro ⟨k, hk, h1, h2, h3, h4⟩
        cases k with
        | zero => exact .inl ⟨foundAt_zero.1 h1, h2, h3, h4⟩
        | succ k =>
          obtain ⟨a, b, c⟩ := foundAt_succ.1 h1
          exact .inr ⟨a, b, k, by omega, c, h2, h3, h4⟩
      · rintro (⟨h1, h2, h3, h4⟩ | ⟨h1, h2, k, hk, h3, h4, h5, h6⟩)
        · exact ⟨0, by omega, foundAt_zero.2 h1, h2, h3, h4⟩
        · exact ⟨k + 1, by omega, foundAt_succ.2 ⟨h1, h2, h3⟩, h4, h5, h6⟩
    rw [hex]
    unfold whileSearch
    cases hf : found s with
    | err e => simp
    | panic => simp
    | ok b =>
      cases b with
      | true =>
        simp only [Prod.mk.injEq, Option.some.injEq, Res.ok.injEq, reduceCtorEq, false_and, or_false, true_and]
        constructor
        · rintro ⟨⟨rfl, rfl⟩, rfl⟩; exact ⟨rfl, rfl, rfl⟩
        · rintro ⟨rfl, rfl, rfl⟩; exact ⟨⟨rfl, rfl⟩, rfl⟩
      | false =>
        simp only [Res.ok.injEq, Bool.false_eq_true, false_and, false_or, true_and, reduceCtorEq]
        rcases ht : turn s with ⟨s1, r⟩
        cases r with
        | ok _ => simp only [ih]; simp
        | err e => simp
        | panic => simp

private theorem freshTurn_keeps [Fl F] {rng : RngOps G F} {sys : SysOps G F} (hsys : LibrarySystem rng sys) (dt : F)
    (s : IndepAgent F × G) (h : (freshTurn rng sys dt s).2 = .ok ()) :
    sys.checkInclusion (freshTurn rng sys dt s).1.1.pos = .ok true ∧
    (freshTurn rng sys dt s).1.1 = { s.1 with pos := (freshTurn rng sys dt s).1.1.pos } := by
  unfold freshTurn at h ⊢
  rcases hm : s.1.randomMove rng s.2 dt with ⟨r, g1⟩
  rw [hm] at h
  cases r with
  | err e => simp at h
  | panic => simp at h
  | ok v => exact ⟨library_sound hsys _ _ h, rfl⟩

/-! ## C66: one walker -/

/-- Any arithmetic, random source, library system and target: following one walker (tests/rts_n_searcher.rs)
reports `t` exactly if there is a turn `k`, within the allowed number, such that the target is found at the
walker's position after `k` turns and at none of the positions before, all turns going through; then `t` is `dt`
added up `k` times, and on the way the walker was always inside the system and changed nothing but its position. -/
theorem C66_first_passage [Fl F] (rng : RngOps G F) (sys : SysOps G F) (hsys : LibrarySystem rng sys)
    (target : TargetOps F) (dt : F) (a : IndepAgent F) (hin : sys.checkInclusion a.pos = .ok true) (g : G)
    (steps : Nat) (t : F) :
    let found := fun s : IndepAgent F × G => target.checkFind s.1.pos
    let path := fun k => afterTurns (freshTurn rng sys dt) k (a, g)
    ((whileSearch found (freshTurn rng sys dt) dt steps (a, g) Fl.zero).2 = some (.ok t) ↔
      ∃ k < steps, t = clockAfter dt k ∧ FoundAt found (freshTurn rng sys dt) k (a, g)) ∧
    ∀ k, FoundAt found (freshTurn rng sys dt) k (a, g) → ∀ j ≤ k,
      sys.checkInclusion (path j).1.pos = .ok true ∧ (path j).1 = { a with pos := (path j).1.pos } := by
  intro found path
  constructor
  · constructor
    · intro h
      rcases hr : whileSearch found (freshTurn rng sys dt) dt steps (a, g) Fl.zero with ⟨⟨s', t'⟩, o⟩
      rw [hr] at h
      simp only at h
      subst h
      obtain ⟨k, hk, h1, h2, -, -⟩ := (whileSearch_iff _ _ _ _ _ _ _ _ _).1 hr
      exact ⟨k, hk, h2, h1⟩
    · rintro ⟨k, hk, h1, h2⟩
      rw [(whileSearch_iff found (freshTurn rng sys dt) dt steps (a, g) Fl.zero _ t t).2 ⟨k, hk, h2, h1, rfl, rfl⟩]
  · intro k hk j hj
    induction j with
    | zero => exact ⟨hin, rfl⟩
    | succ j ih =>
      obtain ⟨-, h2⟩ := ih (by omega)
      obtain ⟨k1, k2⟩ := freshTurn_keeps hsys dt (path j) (hk.1 j (by omega)).2
      have e : path (j + 1) = (freshTurn rng sys dt (path j)).1 := afterTurns_succ' _ _ _
      rw [e]
      exact ⟨k1, by rw [k2, h2]⟩

/-- In exact arithmetic the reported time is the number of turns times `dt`. -/
theorem C66_time_is_turns (dt : ℝ) (k : Nat) : clockAfter dt k = k * dt := by
  unfold clockAfter
  induction k with
  | zero => simp
  | succ k ih => rw [Function.iterate_succ_apply', ih]; push_cast; simp only [fl_add]; ring

/-- a turn with a buffer of the right dimension does what a turn with a new vector does. -/
theorem bufferTurn_fresh (rng : RngOps G ℝ) (sys : SysOps G ℝ) (dt : ℝ) {n : Nat} (a : IndepAgent ℝ) (b : Pos ℝ) (g : G)
    (ha : a.dim = n) (hb : b.length = n) :
    ∃ b' : Pos ℝ, b'.length = n ∧ bufferTurn rng sys dt (a, b, g) =
      (((freshTurn rng sys dt (a, g)).1.1, b', (freshTurn rng sys dt (a, g)).1.2), (freshTurn rng sys dt (a, g)).2) ∧
      (freshTurn rng sys dt (a, g)).1.1.dim = n := by
  have hc : b.clear (Fl.zero : ℝ) = List.replicate a.dim 0 := by
    simp [Pos.clear, ha, hb, List.map_const']
  cases hm : a.mtype with
  | brownian D =>
    obtain ⟨p, g', h1, h2, h3⟩ := C39_variants_agree rng a D hm g dt
    refine ⟨p, by rw [h2, ha], ?_, ?_⟩
    · unfold bufferTurn freshTurn
      simp only [hc, h1, h3]
    · unfold freshTurn; simp only [h1]; exact ha
  | levy =>
    have h := ((C39_random_move rng).1 a g dt (List.replicate a.dim 0)).2.2 hm
    have h3 := h.2 (by simp)
    refine ⟨List.replicate a.dim 0, by simp [ha], ?_, ?_⟩
    · unfold bufferTurn freshTurn
      simp only [hc, h.1, h3]
    · unfold freshTurn; simp only [h.1]; exact ha

/-- The buffer of tests/single_ptl_rts.rs makes no difference (exact arithmetic): whatever numbers are left in it,
if it has the dimension of the system the run gives the same outcome and leaves the generator in the same state as
the run that allocates a vector in every turn; and the buffer keeps its dimension, so this holds ensemble after
ensemble. -/
theorem C66_buffer_makes_no_difference (rng : RngOps G ℝ) (sys : SysOps G ℝ) (n : Nat) (hd : sys.DrawsInside n)
    (target : TargetOps ℝ) (inner loops steps : Nat) (mtype : MoveType ℝ) (dt : ℝ) (buf : Pos ℝ)
    (hb : buf.length = n) (g : G) :
    (oneBuffered rng sys target inner loops steps mtype dt (buf, g)).map (fun r => (r.1, r.2.2)) =
      oneSearcher rng sys target inner loops steps mtype dt g ∧
    ∀ r buf' g', oneBuffered rng sys target inner loops steps mtype dt (buf, g) = some (r, buf', g') →
      buf'.length = n := by
  have hloop : ∀ (m : Nat) (a : IndepAgent ℝ) (b : Pos ℝ) (g : G) (t : ℝ), a.dim = n → b.length = n →
      ∃ b' : Pos ℝ, b'.length = n ∧
        whileSearch (fun s : IndepAgent ℝ × Pos ℝ × G => target.checkFind s.1.pos) (bufferTurn rng sys dt) dt m
          (a, b, g) t =
        (let r := whileSearch (fun s : IndepAgent ℝ × G => target.checkFind s.1.pos) (freshTurn rng sys dt) dt m
          (a, g) t
         (((r.1.1.1, b', r.1.1.2), r.1.2), r.2)) := by
    intro m
    induction m with
    | zero => intro a b g t ha hb; exact ⟨b, hb, rfl⟩
    | succ m ih =>
      intro a b g t ha hb
      unfold whileSearch
      simp only
      cases target.checkFind a.pos with
      | err e => exact ⟨b, hb, rfl⟩
      | panic => exact ⟨b, hb, rfl⟩
      | ok x =>
        cases x with
        | true => exact ⟨b, hb, rfl⟩
        | false =>
          obtain ⟨b1, hb1, e1, e2⟩ := bufferTurn_fresh rng sys dt a b g ha hb
          simp only [e1]
          rcases hft : freshTurn rng sys dt (a, g) with ⟨⟨a1, g1⟩, r⟩
          rw [hft] at e2
          cases r with
          | ok _ => exact ih a1 b1 g1 _ e2 hb1
          | err e => exact ⟨b1, hb1, rfl⟩
          | panic => exact ⟨b1, hb1, rfl⟩
  unfold oneBuffered oneSearcher
  simp only
  rcases hn : IndepAgent.newUniform sys target inner loops g mtype with _ | ⟨r, g1⟩
  · simp
  · cases r with
    | err e => simpa using hb
    | panic => simpa using hb
    | ok a =>
      have hdim : a.dim = n := by
        unfold IndepAgent.newUniform at hn
        simp only [Option.map_eq_some_iff] at hn
        obtain ⟨⟨⟨p, r⟩, g2⟩, hp, he⟩ := hn
        cases r with
        | err e => simp [Res.map] at he
        | panic => simp [Res.map] at he
        | ok _ =>
          simp only [Res.map_ok, Prod.mk.injEq, Res.ok.injEq] at he
          obtain ⟨rfl, rfl⟩ := he
          exact (drawOffTarget_ok hd hp).1
      obtain ⟨b', hb', e⟩ := hloop steps a buf g1 Fl.zero hdim hb
      simp only [e]
      rcases hw : whileSearch (fun s : IndepAgent ℝ × G => target.checkFind s.1.pos) (freshTurn rng sys dt) dt steps
        (a, g1) Fl.zero with ⟨⟨⟨a2, g2⟩, t2⟩, o⟩
      cases o with
      | none => simp
      | some r =>
        simp only [Option.map_some, Option.some.injEq, Prod.mk.injEq, true_and]
        rintro _ _ _ ⟨-, rfl, -⟩
        exact hb'

/-- A buffer of another dimension than the system's is refused before the first move: the program ends with
`InvalidDimension` (as soon as one turn is allowed). -/
theorem C66_wrong_buffer_refused [Fl F] (rng : RngOps G F) (sys : SysOps G F) (n : Nat) (hd : sys.DrawsInside n)
    (target : TargetOps F) (inner loops steps : Nat) (mtype : MoveType F) (dt : F) (buf : Pos F)
    (hb : buf.length ≠ n) (g g1 : G) (a : IndepAgent F)
    (hnew : IndepAgent.newUniform sys target inner loops g mtype = some (.ok a, g1)) :
    oneBuffered rng sys target inner loops (steps + 1) mtype dt (buf, g) =
      some (.err .invalidDimension, (List.replicate buf.length Fl.zero, g1)) := by
  unfold oneBuffered
  simp only [hnew]
  unfold IndepAgent.newUniform at hnew
  simp only [Option.map_eq_some_iff] at hnew
  obtain ⟨⟨⟨p, r⟩, g2⟩, hp, he⟩ := hnew
  cases r with
  | err e => simp [Res.map] at he
  | panic => simp [Res.map] at he
  | ok _ =>
    simp only [Res.map_ok, Prod.mk.injEq, Res.ok.injEq] at he
    obtain ⟨rfl, rfl⟩ := he
    obtain ⟨h1, -, h3⟩ := drawOffTarget_ok hd hp
    unfold whileSearch bufferTurn IndepAgent.randomMoveToVec AgentCore.randomMoveToVec
    simp only [h3, Pos.dim, Pos.clear, List.map_const', List.length_replicate]
    rw [if_pos (by rw [h1]; exact fun h => hb h.symm)]

/-! ### the fastest of several searchers -/

private theorem minLoop_iff (run : S → Option (Res ℝ × S)) (n : Nat) (s : S) (m0 m : ℝ) (s' : S) :
    minLoop run n s m0 = some (.ok m, s') ↔
      ∃ ts : List ℝ, ts.length = n ∧ OneByOne run s ts s' ∧ m = ts.foldl min m0 := by
  induction n generalizing s m0 with
  | zero =>
    simp only [minLoop, Option.some.injEq, Prod.mk.injEq, Res.ok.injEq, List.length_eq_zero_iff, exists_eq_left,
      List.foldl_nil]
    constructor
    · rintro ⟨rfl, rfl⟩; exact ⟨.nil _, rfl⟩
    · rintro ⟨h, rfl⟩; cases h; exact ⟨rfl, rfl⟩
  | succ n ih =>
    unfold minLoop
    constructor
    · intro h
      rcases hr : run s with _ | ⟨r, s1⟩
      · rw [hr] at h; simp at h
      · rw [hr] at h
        cases r with
        | err e => simp at h
        | panic => simp at h
        | ok t =>
          simp only at h
          obtain ⟨ts, h1, h2, h3⟩ := (ih _ _).1 h
          refine ⟨t :: ts, by simp [h1], .cons hr h2, ?_⟩
          rw [List.foldl_cons, h3]
          congr 1
          simp only [Fl.gt, fl_lt, decide_eq_true_eq]
          split
          · rename_i h; exact (min_eq_right h.le).symm
          · rename_i h; exact (min_eq_left (not_lt.1 h)).symm
    · rintro ⟨ts, h1, h2, h3⟩
      cases h2 with
      | nil => simp at h1
      | @cons _ t s1 ts _ hr h2 =>
        rw [hr]
        simp only
        rw [ih]
        refine ⟨ts, by simpa using h1, h2, ?_⟩
        rw [h3, List.foldl_cons]
        congr 1
        simp only [Fl.gt, fl_lt, decide_eq_true_eq]
        split
        · rename_i h; exact min_eq_right h.le
        · rename_i h; exact min_eq_left (not_lt.1 h)

private theorem foldl_min_le (ts : List ℝ) (m0 : ℝ) : ts.foldl min m0 ≤ m0 ∧ ∀ t ∈ ts, ts.foldl min m0 ≤ t := by
  induction ts generalizing m0 with
  | nil => simp
  | cons t ts ih =>
    obtain ⟨h1, h2⟩ := ih (min m0 t)
    simp only [List.foldl_cons, List.mem_cons]
    refine ⟨h1.trans (min_le_left _ _), ?_⟩
    rintro x (rfl | hx)
    · exact h1.trans (min_le_right _ _)
    · exact h2 x hx

private theorem foldl_min_mem (ts : List ℝ) (m0 : ℝ) : ts.foldl min m0 = m0 ∨ ts.foldl min m0 ∈ ts := by
  induction ts generalizing m0 with
  | nil => simp
  | cons t ts ih =>
    simp only [List.foldl_cons, List.mem_cons]
    rcases ih (min m0 t) with h | h
    · rcases min_choice m0 t with e | e
      · left; rw [h, e]
      · right; left; rw [h, e]
    · right; right; exact h

/-- `n_ptl_fpt` of tests/rts_n_searcher.rs (exact arithmetic) answers `m` exactly if the `n` searchers, followed
one after the other with one generator, need times `ts` and `m` is the least of them and of `f64::MAX`: no
searcher was faster, and unless all were slower than `f64::MAX` (or there were none) one of them needed just `m`. -/
theorem C66_fastest (rng : RngOps G ℝ) (sys : SysOps G ℝ) (target : TargetOps ℝ) (inner loops steps : Nat)
    (mtype : MoveType ℝ) (dt : ℝ) (n : Nat) (g g' : G) (m : ℝ) :
    nSearchersFpt rng sys target inner loops steps mtype dt n g = some (.ok m, g') ↔
      ∃ ts : List ℝ, ts.length = n ∧ OneByOne (oneSearcher rng sys target inner loops steps mtype dt) g ts g' ∧
        (∀ t ∈ ts, m ≤ t) ∧ m ≤ Fl.maxVal ∧ (m = Fl.maxVal ∨ m ∈ ts) := by
  unfold nSearchersFpt
  rw [minLoop_iff]
  constructor
  · rintro ⟨ts, h1, h2, rfl⟩
    exact ⟨ts, h1, h2, (foldl_min_le _ _).2, (foldl_min_le _ _).1, foldl_min_mem _ _⟩
  · rintro ⟨ts, h1, h2, h3, h4, h5⟩
    refine ⟨ts, h1, h2, le_antisymm ?_ ?_⟩
    · rcases foldl_min_mem ts (Fl.maxVal : ℝ) with h | h
      · rw [h]; exact h4
      · exact h3 _ h
    · rcases h5 with h | h
      · rw [h]; exact (foldl_min_le _ _).1
      · exact (foldl_min_le _ _).2 _ h

/-- Without searchers the answer is `f64::MAX`, not an error. -/
theorem C66_no_searcher [Fl F] (rng : RngOps G F) (sys : SysOps G F) (target : TargetOps F)
    (inner loops steps : Nat) (mtype : MoveType F) (dt : F) (g : G) :
    nSearchersFpt rng sys target inner loops steps mtype dt 0 g = some (.ok Fl.maxVal, g) := rfl

/-! ### free diffusion -/

private theorem advanced_add {F : Type} (draw : G → F × G) (m n : Nat) (g : G) :
    advanced draw (m + n) g = advanced draw n (advanced draw m g) := by
  induction m generalizing g with
  | zero => simp [advanced]
  | succ m ih => rw [Nat.succ_add]; exact ih _

private theorem delivered_eq {F : Type} (draw : G → F × G) (n : Nat) (g : G) :
    delivered draw n g = (List.range n).map (nthDraw draw g) := by
  induction n generalizing g with
  | zero => rfl
  | succ n ih =>
    rw [List.range_succ_eq_map, List.map_cons, List.map_map, delivered, ih]
    rfl

private theorem nthDraw_advanced {F : Type} (draw : G → F × G) (g : G) (m k : Nat) :
    nthDraw draw (advanced draw m g) k = nthDraw draw g (m + k) := by
  unfold nthDraw; rw [advanced_add]

private theorem mutAdd_range (dim : Nat) (f h : Nat → ℝ) :
    Pos.mutAdd ((List.range dim).map f) ((List.range dim).map h) =
      ((List.range dim).map (fun c => f c + h c), .ok ()) := by
  unfold Pos.mutAdd
  generalize List.range dim = l
  induction l with
  | nil => rfl
  | cons x l ih => simp only [List.map_cons, Pos.mutZip, ih]

private theorem norm_sq_range (dim : Nat) (f : Nat → ℝ) :
    Fl.powi (Pos.norm ((List.range dim).map f)) 2 = ∑ c ∈ Finset.range dim, f c ^ 2 := by
  have h : ∀ (l : List Nat) (s : ℝ), (l.map f).foldl (fun res x => res + x * x) s = s + (l.map fun c => f c ^ 2).sum := by
    intro l
    induction l with
    | nil => intro s; simp
    | cons x l ih => intro s; simp only [List.map_cons, List.foldl_cons, ih, List.sum_cons]; ring
  have hs : ((List.range dim).map fun c => f c ^ 2).sum = ∑ c ∈ Finset.range dim, f c ^ 2 := by
    rw [← List.sum_toFinset _ List.nodup_range, List.toFinset_range]
  unfold Pos.norm
  rw [fl_powi, fl_sqrt]
  simp only [fl_add, fl_mul, fl_zero]
  rw [h, hs, zero_add, Real.sq_sqrt (Finset.sum_nonneg fun c _ => sq_nonneg _)]

private theorem freeLoop_says (rng : RngOps G ℝ) (D dt : ℝ) (dim n k : Nat) (st : FreeSim G ℝ) (f : Nat → ℝ)
    (hm : st.agent.mtype = .brownian D) (hdim : st.agent.dim = dim) (hp : st.agent.pos = (List.range dim).map f)
    (hb : st.buf.length = dim) :
    ∃ st', freeLoop rng dt n k st = (st', .ok ()) ∧ st'.buf.length = dim ∧
      st'.rng = advanced rng.gaussian (n * dim) st.rng ∧ st'.data.length = st.data.length ∧
      ∀ m, st'.data.getD m 0 = st.data.getD m 0 + if k < m ∧ m ≤ k + n ∧ m < st.data.length then
        ∑ c ∈ Finset.range dim, (f c + ∑ i ∈ Finset.range (m - k),
          Real.sqrt (2 * D * dt) * nthDraw rng.gaussian st.rng (i * dim + c)) ^ 2 else 0 := by
  induction n generalizing k st f with
  | zero =>
    refine ⟨st, rfl, hb, by simp [advanced], rfl, fun m => ?_⟩
    rw [if_neg (by omega), add_zero]
  | succ n ih =>
    have hmove : st.agent.randomMoveToVec rng st.rng dt (st.buf.clear Fl.zero) =
        (((List.range dim).map fun c => Real.sqrt (2 * D * dt) * nthDraw rng.gaussian st.rng c, .ok ()),
          advanced rng.gaussian dim st.rng) := by
      have h := (((C39_random_move rng).1 st.agent st.rng dt (st.buf.clear Fl.zero)).1 D hm).2 (by
        simp [Pos.clear, hb, hdim])
      rw [h, hdim, delivered_eq]
      congr 2
      have hc : st.buf.clear (Fl.zero : ℝ) = (List.range dim).map fun _ => (0 : ℝ) := by
        simp [Pos.clear, hb, List.map_const']
      rw [hc]
      generalize List.range dim = l
      induction l with
      | nil => rfl
      | cons x l ih =>
        rw [List.map_cons, List.map_cons, List.map_cons, List.zipWith_cons_cons, ih]
        congr 1
        simp only [fl_add, fl_mul, fl_sqrt, fl_zero, fl_two]
        ring
    unfold freeLoop
    simp only [hmove, hp, mutAdd_range]
    obtain ⟨st', h1, h2, h3, h4, h5⟩ := ih (k + 1)
      ⟨{ st.agent with pos := (List.range dim).map fun c => f c + Real.sqrt (2 * D * dt) * nthDraw rng.gaussian st.rng c },
        (List.range dim).map fun c => Real.sqrt (2 * D * dt) * nthDraw rng.gaussian st.rng c,
        advanced rng.gaussian dim st.rng,
        st.data.modify (k + 1) (· + Fl.powi (Pos.norm ((List.range dim).map fun c =>
          f c + Real.sqrt (2 * D * dt) * nthDraw rng.gaussian st.rng c)) 2)⟩
      (fun c => f c + Real.sqrt (2 * D * dt) * nthDraw rng.gaussian st.rng c) hm hdim rfl (by simp)
    refine ⟨st', h1, h2, ?_, by simpa using h4, fun m => ?_⟩
    · rw [h3]; simp only; rw [← advanced_add]; congr 1; ring
    · rw [h5]
      simp only [List.length_modify]
      have hget : (st.data.modify (k + 1) (· + Fl.powi (Pos.norm ((List.range dim).map fun c =>
          f c + Real.sqrt (2 * D * dt) * nthDraw rng.gaussian st.rng c)) 2)).getD m 0 =
          st.data.getD m 0 + if k + 1 = m ∧ m < st.data.length then
            ∑ c ∈ Finset.range dim, (f c + Real.sqrt (2 * D * dt) * nthDraw rng.gaussian st.rng c) ^ 2 else 0 := by
        rw [List.getD_eq_getElem?_getD, List.getD_eq_getElem?_getD, List.getElem?_modify]
        by_cases hml : m < st.data.length
        · rw [List.getElem?_eq_getElem hml]
          by_cases hkm : k + 1 = m
          · rw [if_pos ⟨hkm, hml⟩, ← norm_sq_range]
            simp [hkm]
          · simp [hkm]
        · rw [List.getElem?_eq_none (by omega)]
          simp [hml]
      rw [hget, add_assoc]
      congr 1
      by_cases hml : m < st.data.length
      · rcases lt_trichotomy m (k + 1) with hlt | heq | hgt
        · rw [if_neg (by omega), if_neg (by omega), if_neg (by omega), add_zero]
        · rw [if_pos ⟨heq.symm, hml⟩, if_neg (by omega), if_pos ⟨by omega, by omega, hml⟩, add_zero]
          subst heq
          apply Finset.sum_congr rfl
          intro c _
          simp
        · by_cases hle : m ≤ k + 1 + n
          · rw [if_neg (by omega), if_pos ⟨hgt, hle, hml⟩, if_pos ⟨by omega, by omega, hml⟩, zero_add]
            apply Finset.sum_congr rfl
            intro c _
            congr 1
            obtain ⟨d, rfl⟩ : ∃ d, m = k + 1 + d := ⟨m - (k + 1), by omega⟩
            have e1 : k + 1 + d - (k + 1) = d := by omega
            have e2 : k + 1 + d - k = d + 1 := by omega
            rw [e1, e2, Finset.sum_range_succ', add_assoc]
            congr 1
            rw [add_comm]
            congr 1
            · apply Finset.sum_congr rfl
              intro i _
              rw [nthDraw_advanced]
              congr 2; ring
            · simp
          · rw [if_neg (by omega), if_neg (by omega), if_neg (by omega), add_zero]
      · rw [if_neg (by omega), if_neg (by omega), if_neg (by omega), add_zero]

private theorem freeEnsembles_says (rng : RngOps G ℝ) (D dt : ℝ) (dim steps n : Nat) (st : FreeSim G ℝ)
    (hb : st.buf.length = dim) (hl : st.data.length = steps + 1) :
    ∃ st', freeEnsembles rng (.brownian D) dim dt steps n st = (st', .ok ()) ∧ st'.data.length = steps + 1 ∧
      ∀ m ≤ steps, st'.data.getD m 0 = st.data.getD m 0 + ∑ j ∈ Finset.range n, ∑ c ∈ Finset.range dim,
        (∑ i ∈ Finset.range m, Real.sqrt (2 * D * dt) *
          nthDraw rng.gaussian st.rng (j * (steps * dim) + (i * dim + c))) ^ 2 := by
  induction n generalizing st with
  | zero => exact ⟨st, rfl, hl, by simp⟩
  | succ n ih =>
    obtain ⟨st1, h1, h2, h3, h4, h5⟩ := freeLoop_says rng D dt dim steps 0
      { st with agent := IndepAgent.new (.brownian D) (List.replicate dim Fl.zero) } (fun _ => 0) rfl
      (by simp [IndepAgent.new, Pos.dim]) (by simp [IndepAgent.new, List.map_const']) hb
    obtain ⟨st2, k1, k2, k3⟩ := ih st1 h2 (by rw [h4]; exact hl)
    refine ⟨st2, ?_, k2, fun m hm => ?_⟩
    · unfold freeEnsembles; rw [h1]; exact k1
    · rw [k3 m hm, h5, h3]
      simp only [zero_add]
      rw [add_assoc, Finset.sum_range_succ', add_comm (Finset.sum _ _)]
      congr 2
      · by_cases h0 : 0 < m
        · rw [if_pos ⟨h0, hm, by omega⟩]
          simp
        · obtain rfl : m = 0 := by omega
          simp
      · apply Finset.sum_congr rfl
        intro j _
        apply Finset.sum_congr rfl
        intro c _
        congr 1
        apply Finset.sum_congr rfl
        intro i _
        rw [nthDraw_advanced]
        congr 2; ring

/-- The free walk of tests/single_ptl_rts.rs with a buffer of the right dimension (exact arithmetic): for any
diffusion constant, time step, dimension, numbers of steps and ensembles it ends without error, and entry `k` of
its table is the mean over the walks of the squared distance after `k` steps, each coordinate of a step being
`sqrt(2 D dt)` times the next Gaussian number. -/
theorem C66_free_diffusion (rng : RngOps G ℝ) (D dt : ℝ) (dim steps ensembles : Nat) (buf : Pos ℝ)
    (hb : buf.length = dim) (g : G) :
    freeDiffusion rng (.brownian D) dim dt steps ensembles buf g =
      .ok ((List.range (steps + 1)).map
        (meanSquare (Real.sqrt (2 * D * dt)) rng.gaussian g dim steps ensembles)) := by
  obtain ⟨st', h1, h2, h3⟩ := freeEnsembles_says rng D dt dim steps ensembles
    ⟨IndepAgent.new (.brownian D) [], buf, g, List.replicate (steps + 1) Fl.zero⟩ hb (by simp)
  unfold freeDiffusion
  simp only [h1, Res.map_ok]
  congr 1
  apply List.ext_getElem (by simp [h2])
  intro m hm1 hm2
  simp only [List.length_map, h2] at hm1
  have h := h3 m (by omega)
  rw [List.getD_eq_getElem?_getD, List.getElem?_eq_getElem (by omega), Option.getD_some] at h
  simp only [List.getElem_map, List.getElem_range, fl_div, fl_ofNat]
  rw [h]
  unfold meanSquare
  congr 1
  rw [List.getD_eq_getElem?_getD]
  simp [List.getElem?_replicate, hm1]

/-- As shipped, with `single_move` the default value (no coordinates), the test never gets further than its first
step: in every positive dimension it ends with `InvalidDimension`. -/
theorem C66_shipped_free_diffusion_fails [Fl F] (rng : RngOps G F) (mtype : MoveType F) (dim : Nat) (hd : 0 < dim)
    (dt : F) (steps ensembles : Nat) (g : G) :
    freeDiffusion rng mtype dim dt (steps + 1) (ensembles + 1) [] g = .err .invalidDimension := by
  have : freeEnsembles rng mtype dim dt (steps + 1) (ensembles + 1)
      ⟨IndepAgent.new mtype [], [], g, List.replicate (steps + 1 + 1) Fl.zero⟩ =
      (⟨IndepAgent.new mtype (List.replicate dim Fl.zero), [], g, List.replicate (steps + 1 + 1) Fl.zero⟩,
        .err .invalidDimension) := by
    unfold freeEnsembles freeLoop IndepAgent.randomMoveToVec AgentCore.randomMoveToVec
    simp only [IndepAgent.new, Pos.dim, Pos.clear, List.length_replicate, List.map_nil, List.length_nil]
    rw [if_pos (by omega)]
  unfold freeDiffusion
  simp only [this]
  rfl

/-! ### examples -/

private def demoSys : SysOps (List Int) Z :=
  (⟨.continuousRectangular, .reflection, ⟨10⟩, 1⟩ : Cubic Z).ops Z.draws
private def demoTarget : TargetOps Z := (BulkTarget.new [⟨8⟩] (⟨2⟩ : Z)).ops

-- a walker at 0 that steps to 2, 4, 8 finds the target there; the clock shows three steps
example : (whileSearch (fun s : IndepAgent Z × List Int => demoTarget.checkFind s.1.pos)
      (freshTurn Z.draws demoSys ⟨2⟩) (⟨2⟩ : Z) 10 (IndepAgent.new (.brownian ⟨1⟩) [⟨0⟩], [1, 1, 2, 5]) Fl.zero).2 =
    some (.ok (⟨6⟩ : Z)) ∧ LibrarySystem Z.draws demoSys ∧ demoSys.checkInclusion [(⟨0⟩ : Z)] = .ok true := by
  exact ⟨by decide +kernel, .inl ⟨_, rfl⟩, by decide +kernel⟩

-- two searchers: the first needs one turn, the second two; the smaller time is reported
example : (nSearchersFpt Z.draws demoSys demoTarget 1 1 10 (.brownian ⟨1⟩) ⟨2⟩ 2 [0, 9, 0, 5, 4, 7]) =
    some (.ok ⟨2⟩, [7]) := by
  decide +kernel

end Moledyn.Props
