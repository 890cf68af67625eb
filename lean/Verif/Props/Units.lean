import Verif.Lemmas.UnitsPruned
import Verif.Props.Accuracy
/-
C119: the choice of units does not matter (exact arithmetic).

The same problem is written down twice: once with the lengths and times of the caller, once in other units, in which
what was the length 1 is now `U.len` and what was the time 1 is now `U.time` (Spec/Units.lean).  With the same random
generator, in the same state, all programs make the same decisions, and every time they report is `U.time` times as long;
every place is `U.len` times as far out.  The one exception is merging: the library makes the diffusion coefficient of a
merged walker from its size alone.
-/
namespace Moledyn.Props
open Moledyn Moledyn.Units MeasureTheory
set_option linter.unusedSimpArgs false
variable {G : Type} (rng : RngOps G ℝ) (U : Units) (sys sys' : SysOps G ℝ) (room : SameRoom rng U sys sys') (t : BulkTarget ℝ)
include room

/-- The operations of a system and of a target: what is inside is inside in every unit, a step taken in other units ends
at the same place, uniformly distributed positions are drawn at the same place, the target is found where it was. -/
theorem C119_operations (p dp : Pos ℝ) (inner : Nat) (g : G) :
    sys'.checkInclusion (U.pos p) = sys.checkInclusion p ∧
    sys'.checkBc (U.pos p) (U.pos dp) = (U.pos (sys.checkBc p dp).1, (sys.checkBc p dp).2) ∧
    sys'.randomPosToVec inner g (U.pos p) = (sys.randomPosToVec inner g p).map (fun r => ((U.pos r.1.1, r.1.2), r.2)) ∧
    (U.target t).checkFind (U.pos p) = t.checkFind p := by
  refine ⟨?_, room.alike.bc p dp, room.alike.draw inner g p, U.find_target t p⟩
  cases room with
  | cubic s => exact U.inclusion_cubic s p
  | circ s => exact U.inclusion_circ s p
  | cyl s => exact U.inclusion_cyl s p

/-- tests/rts_n_searcher.rs: one searcher, and the mean of an ensemble of searches. -/
theorem C119_single (inner loops steps : Nat) (m : MoveType ℝ) (dt : ℝ) (g : G) (n : Nat) :
    oneSearcher rng sys' (U.target t).ops inner loops steps (U.mtype m) (U.time * dt) g =
      (oneSearcher rng sys t.ops inner loops steps m dt g).map (fun r => (r.1.map (U.time * ·), r.2)) ∧
    ensembleMean (oneSearcher rng sys' (U.target t).ops inner loops steps (U.mtype m) (U.time * dt)) n g =
      (ensembleMean (oneSearcher rng sys t.ops inner loops steps m dt) n g).map (fun r => (r.1.map (U.time * ·), r.2)) :=
  ⟨U.one_searcher room.alike rng t inner loops steps m dt g,
    U.ensemble_mean (f := id) (U.one_searcher room.alike rng t inner loops steps m dt) n g⟩

/-- tests/single_ptl_rts.rs: the same, with a buffer `v` that is kept between the searches. -/
theorem C119_buffered (inner loops steps : Nat) (m : MoveType ℝ) (dt : ℝ) (v : Pos ℝ) (g : G) (n : Nat) :
    ensembleMean (oneBuffered rng sys' (U.target t).ops inner loops steps (U.mtype m) (U.time * dt)) n (U.pos v, g) =
      (ensembleMean (oneBuffered rng sys t.ops inner loops steps m dt) n (v, g)).map
        (fun r => (r.1.map (U.time * ·), (U.pos r.2.1, r.2.2))) :=
  U.ensemble_mean (f := fun s : Pos ℝ × G => (U.pos s.1, s.2)) (U.one_buffered room.alike rng t inner loops steps m dt) n (v, g)

/-- tests/rts_n_searcher.rs: the fastest of `n` searchers.  (The program starts its minimum at `f64::MAX`, which has no
unit, so the times in both units have to be below it.) -/
theorem C119_fastest (inner loops steps : Nat) (m : MoveType ℝ) (dt : ℝ) (n : Nat) (g : G) :
    (∀ x g', nSearchersFpt rng sys t.ops inner loops steps m dt n g = some (.ok x, g') → x < Fl.maxVal → U.time * x < Fl.maxVal →
      nSearchersFpt rng sys' (U.target t).ops inner loops steps (U.mtype m) (U.time * dt) n g = some (.ok (U.time * x), g')) ∧
    (∀ r g', nSearchersFpt rng sys t.ops inner loops steps m dt n g = some (r, g') → (∀ x, r ≠ .ok x) →
      nSearchersFpt rng sys' (U.target t).ops inner loops steps (U.mtype m) (U.time * dt) n g = some (r, g')) ∧
    (nSearchersFpt rng sys t.ops inner loops steps m dt n g = none →
      nSearchersFpt rng sys' (U.target t).ops inner loops steps (U.mtype m) (U.time * dt) n g = none) := by
  have h := U.min_loop (f := id) (U.one_searcher room.alike rng t inner loops steps m dt) Fl.maxVal n g Fl.maxVal Fl.maxVal (min_comm _ _)
  unfold nSearchersFpt
  rcases h with ⟨h1, h2⟩ | ⟨y, y', s1, h1, h2, h3⟩ | ⟨e, s1, h1, h2⟩ | ⟨s1, h1, h2⟩ <;> rw [h1]
  · exact ⟨fun x g' h => (by cases h), fun e g' h => (by cases h), fun _ => h2⟩
  · refine ⟨fun x g' h hx hx' => ?_, fun r g' h hr => (by cases h; exact absurd rfl (hr y)), fun h => (by cases h)⟩
    cases h
    have h4 : U.time * y < U.time * Fl.maxVal := mul_lt_mul_of_pos_left hx U.time_pos
    rw [min_eq_left hx'.le] at h3
    have : y' = U.time * y := by
      rcases le_total y' (U.time * Fl.maxVal) with hy | hy
      · rwa [min_eq_left hy] at h3
      · rw [min_eq_right hy] at h3; exact absurd h3 h4.ne'
    rw [← this]
    exact h2
  · exact ⟨fun x g' h => (by cases h), fun e' g' h _ => (by cases h; exact h2), fun h => (by cases h)⟩
  · exact ⟨fun x g' h => (by cases h), fun e' g' h _ => (by cases h; exact h2), fun h => (by cases h)⟩

/-- tests/n_ptl_rts_iterator.rs: `n` walkers in a list, and the mean of an ensemble. -/
theorem C119_list (inner loops fuel steps : Nat) (m : MoveType ℝ) (dt : ℝ) (k : Nat) (g : G) (n : Nat) :
    ensembleMean (indepRun rng sys' (U.target t).ops inner loops fuel steps (U.mtype m) (U.time * dt) k) n g =
      (ensembleMean (indepRun rng sys t.ops inner loops fuel steps m dt k) n g).map (fun r => (r.1.map (U.time * ·), r.2)) :=
  U.ensemble_mean (f := id) (U.indep_run room.alike rng t inner loops fuel steps m dt k) n g

/-- tests/arguments.rs: all searchers of an ensemble are placed anew, and the time of each ensemble is reported, on a clock
with constant steps. -/
theorem C119_arguments (inner loops fuel steps : Nat) (clock : ConstStep ℝ) (v : List (IndepAgent ℝ)) (dim : Nat) (g : G) (n : Nat) :
    (expLoop (listRun rng sys' (U.target t).ops inner loops fuel steps (U.constClock clock)) n (listStart (v.map U.indep) dim g)).map (·.1) =
      (expLoop (listRun rng sys t.ops inner loops fuel steps clock) n (listStart v dim g)).map (fun r => (r.1.1.map (U.time * ·), r.1.2)) := by
  have h0 : (listStart (v.map U.indep) dim g : ListSim G ℝ) =
      (fun s : ListSim G ℝ => (Units.list U.indep s.1, U.pos s.2.1, s.2.2)) (listStart v dim g) := by
    have hz : (List.replicate dim Fl.zero : Pos ℝ) = U.pos (List.replicate dim Fl.zero) := by simp [Units.pos, Fl.zero]
    unfold listStart
    simp only [from_list, ← hz]
  rw [h0, U.exp_loop (f := fun s : ListSim G ℝ => (Units.list U.indep s.1, U.pos s.2.1, s.2.2))
    (U.list_run room.alike rng t inner loops fuel steps clock)]
  simp only [Option.map_map]
  rfl

/-- examples/mfpt_exp.rs: interacting searchers, on a clock with growing steps; the largest step allowed is made from the
target's size and the range of the interaction. -/
theorem C119_mfpt_exp (inner loops fuel steps : Nat) (clock : ExpStep ℝ) (gamma : ℝ) (v : List (ExpAgent ℝ)) (dim : Nat) (g : G) (n : Nat) :
    (expLoop (expRun rng sys' (U.target t).ops (moveLimit (U.target t).targetSize (U.len * gamma)) inner loops fuel steps (U.expClock clock)) n
        (expStart (v.map U.exp) dim g)).map (·.1) =
      (expLoop (expRun rng sys t.ops (moveLimit t.targetSize gamma) inner loops fuel steps clock) n (expStart v dim g)).map
        (fun r => (r.1.1.map (U.time * ·), r.1.2)) := by
  have hz : (List.replicate dim Fl.zero : Pos ℝ) = U.pos (List.replicate dim Fl.zero) := by simp [Units.pos, Fl.zero]
  have h0 : (expStart (v.map U.exp) dim g : ExpSim G ℝ) = U.expSim (expStart v dim g) := by
    unfold expStart Units.expSim
    simp only [from_list, ← hz, List.length_map]
    rw [← from_list U.pos, List.map_replicate, ← hz]
  rw [h0, show moveLimit (U.target t).targetSize (U.len * gamma) = U.len * moveLimit t.targetSize gamma from U.limit_units t.targetSize gamma,
    U.exp_loop (f := U.expSim) (U.exp_run room.alike rng t (moveLimit t.targetSize gamma) inner loops fuel steps clock)]
  simp only [Option.map_map]
  rfl

/-- tests/test_setup.rs: the searches of one ensemble, each given up when it takes longer than the shortest before.
(`f64::MAX` again: `steps` bounds how far the search is followed.) -/
theorem C119_setup (inner loops steps : Nat) (m : MoveType ℝ) (dt : ℝ) (hdt : 0 ≤ dt) (h1 : steps * dt < Fl.maxVal)
    (h2 : U.time * (steps * dt) < Fl.maxVal) (n : Nat) (hn : 0 < n) (v : Pos ℝ) (g : G) :
    prunedRun rng sys' (U.target t).ops inner loops steps (U.mtype m) (U.time * dt) n (U.pos v, g) =
      (prunedRun rng sys t.ops inner loops steps m dt n (v, g)).map (fun r => (r.1.map (U.time * ·), (U.pos r.2.1, r.2.2))) :=
  U.pruned_run room.alike rng t inner loops steps m hdt h1 h2 hn (v, g)

/-- tests/merge_fpt.rs and tests/large_n_simulation.rs: walkers that merge.  The library gives a walker of size `n` the
diffusion coefficient `n ^ -alpha`, whatever the units; so their results follow a change of units that leaves the number 1
for a diffusion coefficient alone. -/
theorem C119_merging (hU : U.len ^ 2 = U.time) (inner loops fuel steps : Nat) (m : MoveType ℝ) (radius alpha dt : ℝ) (k : Nat) (g : G) (n : Nat)
    (l : LList (MergeAgent ℝ)) (clock : ExpStep ℝ) :
    ensembleMean (mergeRun rng sys' (U.target t).ops inner loops fuel steps (U.mtype m) (U.len * radius) alpha (U.time * dt) k) n g =
      (ensembleMean (mergeRun rng sys t.ops inner loops fuel steps m radius alpha dt k) n g).map (fun r => (r.1.map (U.time * ·), r.2)) ∧
    (ensembleMean (largeNRun rng sys' (U.target t).ops inner loops fuel steps) n (Units.list U.merging l, U.expClock clock, g)).map (·.1) =
      (ensembleMean (largeNRun rng sys t.ops inner loops fuel steps) n (l, clock, g)).map (fun r => r.1.map (U.time * ·)) := by
  refine ⟨U.ensemble_mean (f := id) (U.merge_run hU room.alike rng t inner loops fuel steps m radius alpha dt k) n g, ?_⟩
  have h := U.ensemble_mean (f := fun s : LList (MergeAgent ℝ) × ExpStep ℝ × G => (Units.list U.merging s.1, U.expClock s.2.1, s.2.2))
    (U.large_run hU room.alike rng t inner loops fuel steps) n (l, clock, g)
  simp only at h
  rw [h]
  unfold Units.answer
  rw [Option.map_map]
  rfl
omit room

/-- In other units a merged walker is another walker: its steps, from the same random numbers, are `√time` times as long,
where all lengths are `len` times as long. -/
theorem C119_merging_fails (a b : MergeAgent ℝ) (D dt : ℝ) (ha : a.mtype = .brownian D) (g g' : G) (p : Pos ℝ)
    (h : (a.merge b).1.randomMove rng g dt = (.ok p, g')) :
    ((U.merging a).merge (U.merging b)).1.randomMove rng g (U.time * dt) = (.ok (p.map (√U.time * ·)), g') ∧
    ((U.len ^ 2 ≠ U.time ∧ ∃ x ∈ p, x ≠ 0) → p.map (√U.time * ·) ≠ U.pos p) := by
  constructor
  · let V : Units := ⟨√U.time, U.time, Real.sqrt_pos.2 U.time_pos, U.time_pos⟩
    have hV : V.len ^ 2 / V.time = 1 := by
      show √U.time ^ 2 / U.time = 1
      rw [Real.sq_sqrt U.time_pos.le, div_self U.time_pos.ne']
    have e1 : (a.merge b).1 = { a with size := a.size + b.size, mtype := .brownian (Fl.powf (Fl.ofNat (a.size + b.size)) (-a.alpha)) } := by
      unfold MergeAgent.merge MergeAgent.rescale
      simp only [ha]
    have e2 : ((U.merging a).merge (U.merging b)).1.mtype = (a.merge b).1.mtype := by
      rw [e1]
      unfold MergeAgent.merge MergeAgent.rescale
      rw [show (U.merging a).mtype = U.mtype a.mtype from rfl, ha]
      rfl
    have e3 : ((U.merging a).merge (U.merging b)).1.dim = (a.merge b).1.dim := by
      rw [e1]
      unfold MergeAgent.merge MergeAgent.rescale
      rw [show (U.merging a).mtype = U.mtype a.mtype from rfl, ha]
      rfl
    unfold MergeAgent.randomMove at h ⊢
    rw [e2, e3]
    have := V.random_move rng (a.merge b).1.dim (a.merge b).1.mtype g dt
    rw [h] at this
    have hm : V.mtype (a.merge b).1.mtype = (a.merge b).1.mtype := by
      rw [e1]
      simp only [Units.mtype, hV, one_mul]
    rw [hm] at this
    exact this
  · rintro ⟨hU, x, hx, hx0⟩ he
    obtain ⟨i, hi, rfl⟩ := List.getElem_of_mem hx
    have h1 := congrArg (fun l : List ℝ => l[i]?) he
    simp only [Units.pos, List.getElem?_map, List.getElem?_eq_getElem hi, Option.map_some, Option.some.injEq] at h1
    have h2 : √U.time = U.len := mul_right_cancel₀ hx0 h1
    exact hU (by rw [← h2, Real.sq_sqrt U.time_pos.le])

/-- The distribution of the outcome of a search (C77) does not depend on the units: if the number of steps to the target, or
to a failure, has the distribution `ρ` in one unit, it has the distribution `ρ` in all of them. -/
theorem C119_law [MeasurableSpace G] (room : SameRoom rng U sys sys') (P : Measure G) (m : MoveType ℝ) (dt : ℝ) (ρ : Measure (ℕ × Bool))
    (h : Yields P (fun n g => oneSearcher rng sys t.ops n n n m dt g) (reported dt) ρ) :
    Yields P (fun n g => oneSearcher rng sys' (U.target t).ops n n n (U.mtype m) (U.time * dt) g) (reported (U.time * dt)) ρ := by
  obtain ⟨f, hf, hg⟩ := h
  refine ⟨f, hf, ?_⟩
  filter_upwards [hg] with g ⟨n, hn⟩
  refine ⟨n, fun loops hl => ?_⟩
  rw [(C119_single rng U sys sys' room t loops loops loops m dt g 0).1, hn loops hl]
  unfold reported
  rcases (f g).1.2 with _ | _
  · rfl
  · simp only [Option.map_some, if_true, Res.map_ok]
    rw [mul_left_comm]

/-- The hypotheses are met by a square of half width 1 (in metres, say), a target of radius 1/4, and centimetres and seconds in place of
metres and hours: a square of half width 100, a target of radius 25, `D = 100²/3600`, steps of 36 in place of 1/100.  The search
ends, with probability one, and in the same way. -/
example : let s : Cubic ℝ := ⟨.continuousRectangular, .reflection, 1, 2⟩
    let s' : Cubic ℝ := ⟨.continuousRectangular, .reflection, 100, 2⟩
    ∃ U : Units, SameRoom tapeRng U (s.ops tapeRng) (s'.ops tapeRng) ∧ (U.target (BulkTarget.new [0, 0] (1 / 4))) = BulkTarget.new [0, 0] 25 ∧
      U.len ^ 2 ≠ U.time ∧
    ∃ ρ : Measure (ℕ × Bool), ρ {(1, true)} ≠ 0 ∧
      Yields tapeLaw (fun n g => oneSearcher tapeRng (s'.ops tapeRng) (BulkTarget.new [0, 0] 25).ops n n n (.brownian (100 ^ 2 / 3600)) 36 g)
        (reported 36) ρ := by
  intro s s'
  have hs : Cubic.new .reflection (1 : ℝ) 2 = .ok s := by
    unfold Cubic.new; rw [if_neg (by simp)]
  have w := (C77_walls tapeRng).1 .reflection 1 2 s hs
  have room := (C73_systems tapeRng tapeLaw tape_ideal).1 s (by simp [s])
  have h1 := (C77_outcomes tapeRng tapeLaw tape_ideal _ 2 _ _ room w.bounded _ w (fun _ => 0) (BulkTarget.new [0, 0] (1 / 4))
    (by simp [BulkTarget.new]) square_example 1 (1 / 100) (by norm_num) (by norm_num) _ rfl).2 ⟨fun _ => 0, 1 / 4, by norm_num, square_target⟩
  have h2 := (C77_search tapeRng tapeLaw tape_ideal _ 2 _ _ room w.bounded _ w (fun _ => 0) (BulkTarget.new [0, 0] (1 / 4))
    (by simp [BulkTarget.new]) square_example 1 (1 / 100) (by norm_num) (by norm_num)).1
  let U : Units := ⟨100, 3600, by norm_num, by norm_num⟩
  have hr : SameRoom tapeRng U (s.ops tapeRng) (s'.ops tapeRng) := by
    have : s' = U.cubic s := by simp [Units.cubic, s, s', U]
    rw [this]
    exact .cubic s
  have ht : U.target (BulkTarget.new [0, 0] (1 / 4)) = BulkTarget.new [0, 0] 25 := by
    simp only [Units.target, BulkTarget.new, Units.pos, U, List.map_cons, List.map_nil, mul_zero]
    congr 1
    norm_num
  refine ⟨U, hr, ht, by norm_num [U], _, h1, ?_⟩
  have := C119_law tapeRng U _ _ (BulkTarget.new [0, 0] (1 / 4)) hr tapeLaw (.brownian 1) (1 / 100) _ h2
  rw [ht] at this
  have e1 : U.mtype (.brownian 1) = .brownian (100 ^ 2 / 3600) := by simp only [Units.mtype, U, mul_one]
  have e2 : U.time * (1 / 100) = 36 := by norm_num [U]
  rw [e1, e2] at this
  exact this

end Moledyn.Props
