import Verif.Lemmas.NoMerging
import Verif.Props.Simulation
import Verif.Props.MergeLaw
import Verif.Props.SideBySide
import Verif.Props.DoubleClock
/-
C110: merging searchers that do not meet search as independent searchers.
-/
namespace Moledyn.Props
open LList MeasureTheory ProbabilityTheory
open scoped ENNReal

section
variable {G F C : Type} [Fl F]

/-- Any arithmetic, random source, library system, target, merging distance and clock: if a merging simulation that has not
failed still has all its searchers, then independent searchers started at the same places with the same generator have had
the same search: the same answer, the same generator, and every searcher at the same place. -/
theorem C110_not_met (rng : RngOps G F) (sys : SysOps G F) (hsys : LibrarySystem rng sys) (d : Nat) (ho : sys.OutsideDim d)
    (target : TargetOps F) (rad : MergeAgent F → F) (hrad : LibraryRadius rad) (D : F) (v : List (MergeAgent F))
    (hv : ∀ a ∈ v, sys.checkInclusion a.pos = .ok true ∧ a.dim = d ∧ a.mtype = .brownian D)
    (tick : C → C × Res (Option (F × F))) (c : C) (g : G) (fuel : Nat) (hf : v.length * v.length < fuel) (steps : Nat)
    (hok : NoFailure (searchLoop tick (mergeStep rng sys target rad fuel) steps c ⟨from' v, g, []⟩).2)
    (hall : (liveAgents (searchLoop tick (mergeStep rng sys target rad fuel) steps c ⟨from' v, g, []⟩).1.2.list).length = v.length) :
    let merging := searchLoop tick (mergeStep rng sys target rad fuel) steps c ⟨from' v, g, []⟩
    let independent := searchLoop tick (walkStep (IndepAgent.walker rng) sys target fuel) steps c (from' (v.map MergeAgent.plain), g)
    independent.2 = merging.2 ∧ independent.1.2.2 = merging.1.2.rng ∧
      liveAgents independent.1.2.1 = (liveAgents merging.1.2.list).map MergeAgent.plain := by
  obtain ⟨-, -, h3, -⟩ := C52_every_step rng sys hsys target rad hrad v (fun a ha => (hv a ha).1) tick c g fuel hf steps hok
  have hm : (searchLoop tick (mergeStep rng sys target rad fuel) steps c ⟨from' v, g, []⟩).1.2.merges = [] :=
    List.eq_nil_of_length_eq_zero (by omega)
  have h0 : NotMet d v.length D (⟨from' v, g, []⟩ : MergeSim G F) (from' (v.map MergeAgent.plain), g) := by
    refine ⟨⟨by simp [from'], by simp [from'], by simp [from'], by simp [from'], rfl⟩, rfl, rfl, ?_, _, rep_from v, by simp [Slots.ofContents]⟩
    intro a ha
    obtain ⟨a1, a2, a3⟩ := hv a ha
    exact ⟨a2, inside_length hsys ho a1, a3⟩
  obtain ⟨k1, k2, -, k4⟩ := searchLoop_quiet hsys ho target rad False (fun h => h.elim) hf tick steps c h0 (.inl hm)
  exact ⟨k1, k2, liveAgents_corresponds k4⟩

/-- Any arithmetic, random source and library system: if there is at most one searcher, or if places are never found to be
closer than two radii, tests/merge_fpt.rs and tests/n_ptl_rts_iterator.rs give the same answer and leave the generator in the
same state. -/
theorem C110_same_program (rng : RngOps G F) (sys : SysOps G F) (hsys : LibrarySystem rng sys) (d : Nat) (hd : sys.DrawsInside d)
    (ho : sys.OutsideDim d) (target : TargetOps F) (inner loops fuel steps : Nat) (D radius alpha dt : F) (n : Nat) (hf : n * n < fuel)
    (hfar : n ≤ 1 ∨ NeverClose d radius) (g : G) :
    mergeRun rng sys target inner loops fuel steps (.brownian D) radius alpha dt n g =
      indepRun rng sys target inner loops fuel steps (.brownian D) dt n g := by
  obtain ⟨h1, h2⟩ := makeAgents_plain hd target inner loops D radius alpha n g
  unfold mergeRun indepRun
  rw [h1]
  rcases hm : makeAgents (fun g => MergeAgent.newUniform sys target inner loops g (.brownian D) radius alpha) n g with _ | ⟨r, g1⟩
  · rfl
  · cases r with
    | err e => rfl
    | panic => rfl
    | ok v =>
      obtain ⟨hlen, hK⟩ := h2 v g1 hm
      have h0 : NotMet d n D (⟨from' v, g1, []⟩ : MergeSim G F) (from' (v.map MergeAgent.plain), g1) :=
        ⟨⟨by simp [from'], by simp [from'], by simp [from'], by simp [from'], rfl⟩, rfl, rfl, hK, _, rep_from v,
          by simp [Slots.ofContents, hlen]⟩
      obtain ⟨k1, k2, -, -⟩ := searchLoop_quiet hsys ho target (fun _ => radius) True
        (fun _ => hfar.imp_right fun h a b x ha hb => h a.pos b.pos ha.2.1 hb.2.1 x) hf (countingTick dt) steps Fl.zero h0 (.inr trivial)
      simp only [Option.map_some, Res.map]
      unfold mergeFpt
      generalize searchLoop (countingTick dt) (mergeStep rng sys target (fun _ => radius) fuel) steps Fl.zero ⟨from' v, g1, []⟩ = x at k1 k2
      generalize searchLoop (countingTick dt) (walkStep (IndepAgent.walker rng) sys target fuel) steps Fl.zero
        (from' (v.map MergeAgent.plain), g1) = y at k1 k2
      obtain ⟨⟨cx, sx⟩, ox⟩ := x
      obtain ⟨⟨cy, ly, gy⟩, oy⟩ := y
      simp only at k1 k2
      subst k1 k2
      rcases oy with _ | ⟨_ | _⟩ | _ | _ <;> rfl
end

/-- Searchers of radius zero (or less) are never close: in exact arithmetic, and with any rounding, in particular that of
double precision. -/
theorem C110_points (d : Nat) : (∀ radius : ℝ, radius ≤ 0 → NeverClose d radius) ∧
    ∀ (R : Rounding) (radius : RF R), radius.val ≤ 0 → NeverClose d radius := by
  constructor
  · intro radius hr p q _ _ x hx
    unfold Pos.distance at hx
    split at hx
    · simp at hx
    · have hx := Res.ok.inj hx
      have h0 : 0 ≤ x := by rw [← hx]; exact Real.sqrt_nonneg _
      have : ¬ x < 2 * radius := by linarith
      simpa using this
  · intro R radius hr p q _ _ x hx
    have mono0 : ∀ {y : ℝ}, 0 ≤ y → 0 ≤ R.rnd y := fun {y} hy => R.zero ▸ R.mono 0 y hy
    unfold Pos.distance at hx
    split at hx
    · simp at hx
    · have hx := Res.ok.inj hx
      have h0 : 0 ≤ x.val := by rw [← hx]; exact mono0 (Real.sqrt_nonneg _)
      have h2 : (Fl.two * radius : RF R).val ≤ 0 := by
        have h3 : (Fl.two : RF R).val * radius.val ≤ 0 := mul_nonpos_of_nonneg_of_nonpos (mono0 (by norm_num)) hr
        exact R.zero ▸ R.mono _ 0 h3
      have : ¬ x.val < (Fl.two * radius : RF R).val := by linarith
      simpa using this

/-- two descriptions of what a program reports agree. -/
theorem yields_unique {G α X Y : Type} [MeasurableSpace G] [MeasurableSpace X] [MeasurableSpace Y] [DiscreteMeasurableSpace X] [DiscreteMeasurableSpace Y]
    {P : Measure G} [IsProbabilityMeasure P] {prog : Nat → G → Option (Res α × G)} {out : X → Res α} {out' : Y → Res α} {μ : Measure X} {μ' : Measure Y}
    [SFinite μ] [SFinite μ'] (h : Yields P prog out μ) (h' : Yields P prog out' μ') (A : Set (Res α)) : μ (out ⁻¹' A) = μ' (out' ⁻¹' A) := by
  obtain ⟨f, hf, hae⟩ := h
  obtain ⟨f', hf', hae'⟩ := h'
  have h1 : MeasurePreserving (fun g => (f g).1) P μ := measurePreserving_fst.comp hf
  have h2 : MeasurePreserving (fun g => (f' g).1) P μ' := measurePreserving_fst.comp hf'
  rw [← h1.measure_preimage (MeasurableSet.of_discrete).nullMeasurableSet, ← h2.measure_preimage (MeasurableSet.of_discrete).nullMeasurableSet]
  refine measure_congr ?_
  filter_upwards [hae, hae'] with g ⟨N, hN⟩ ⟨N', hN'⟩
  have e := (hN (max N N') (le_max_left _ _)).symm.trans (hN' (max N N') (le_max_right _ _))
  simp only [Option.some.injEq, Prod.mk.injEq] at e
  refine propext ?_
  show out (f g).1 ∈ A ↔ out' (f' g).1 ∈ A
  rw [e.1]

section
variable {G : Type} [MeasurableSpace G]
variable (rng : RngOps G ℝ) (P : Measure G) (h : IdealRng rng P) (sys : SysOps G ℝ) (hsys : LibrarySystem rng sys) (d : Nat) (hd : sys.DrawsInside d)
  (ho : sys.OutsideDim d) (S₀ S : Set (Fin d → ℝ))
  (room : Room P sys d S₀) (hbd : ∃ M, ∀ x ∈ S₀, ∀ i, |x i| ≤ M) (put : (Fin d → ℝ) → Fin d → ℝ) (w : Walls sys S put)
  (c : Fin d → ℝ) (t : BulkTarget ℝ) (ht : t.targetPos = List.ofFn c) (hpos : volume (S₀ \ nearSet c t.targetSize) ≠ 0)
  (D dt alpha radius : ℝ) (hD : 0 < D) (hdt : 0 < dt) (n : ℕ) (hr : n = 0 ∨ radius ≤ 0) (ρ : Measure (ℕ × Bool))
  (hρ : ρ = searchLaw put S (nearSet c t.targetSize) (normalLaw _ (2 * D * dt)) (uniformLaw (S₀ \ nearSet c t.targetSize)))
include h hsys hd ho room hbd w ht hpos hD hdt hr hρ

/-- A single searcher, or searchers of radius zero, with an ideal generator: tests/merge_fpt.rs reports the first to end of
independent searches (C77), and it lasts longer than `k` turns with the corresponding power of the probability that one does. -/
theorem C110_law : Yields P (fun loops g => mergeRun rng sys t.ops loops loops loops loops (.brownian D) radius alpha dt (n + 1) g) (reported dt)
      ((Measure.pi fun _ : Fin (n + 1) => ρ).map (firstOf n)) ∧
    ∀ k, ((Measure.pi fun _ : Fin (n + 1) => ρ).map (firstOf n)) {y | k < y.1} = ρ {y | k < y.1} ^ (n + 1) := by
  obtain ⟨⟨f, hf, hae⟩, h2⟩ := C104_law rng P h sys d S₀ S room hbd put w c t ht hpos D dt hD hdt ρ hρ n
  refine ⟨⟨f, hf, ?_⟩, h2⟩
  filter_upwards [hae] with g ⟨N, hN⟩
  refine ⟨max N ((n + 1) * (n + 1) + 1), fun loops hl => ?_⟩
  have e := C110_same_program rng sys hsys d hd ho t.ops loops loops loops loops D radius alpha dt (n + 1)
    (by have := (le_max_right _ _).trans hl; omega) (hr.imp (by omega) ((C110_points d).1 radius)) g
  exact e.trans (hN loops ((le_max_left _ _).trans hl))

/-- So the process of C106, in which searchers that meet merge, finds the target in turn `k` with the probability with which
the first of independent searches does, if the radius is zero; and it fails as often. -/
theorem C110_processes (μ : Measure (ℕ × Ending)) (hμ : μ = mergeLaw (worldOf put S (nearSet c t.targetSize) D alpha radius fun _ => some dt) (normalLaw d 1)
      (Measure.pi fun _ : Fin (n + 1) => uniformLaw (S₀ \ nearSet c t.targetSize))) :
    (∀ k, μ {(k, .found)} = (Measure.pi fun _ : Fin (n + 1) => ρ) {ys | firstOf n ys = (k, true)}) ∧
    μ {y | y.2 = .tooFar} = (Measure.pi fun _ : Fin (n + 1) => ρ) {ys | (firstOf n ys).2 = false} := by
  have := h.prob
  have hprob := (C77_search rng P h sys d S₀ S room hbd put w c t ht hpos D dt hD hdt).2.1
  rw [← hρ] at hprob
  obtain ⟨hμp, hy, -⟩ := C106_law rng P h sys d S₀ S room hbd put w c t ht hpos D dt alpha radius hD hdt (n + 1) (by omega) μ hμ
  have hy' := (C110_law rng P h sys hsys d hd ho S₀ S room hbd put w c t ht hpos D dt alpha radius hD hdt n hr ρ hρ).1
  have hfm : Measurable (firstOf n) := .of_discrete
  constructor
  · intro k
    have e := yields_unique hy hy' {.ok (k * dt)}
    have e1 : (mergeReported fun k => (k : ℝ) * dt) ⁻¹' {.ok (k * dt)} = {(k, .found)} := by
      ext ⟨j, b⟩
      cases b <;> simp [mergeReported, hdt.ne']
    have e2 : (reported dt) ⁻¹' {.ok (k * dt)} = {(k, true)} := by
      ext ⟨j, b⟩
      cases b <;> simp [reported, hdt.ne']
    rw [e1, e2, Measure.map_apply hfm .of_discrete] at e
    exact e
  · have e := yields_unique hy hy' {.err .tooLargeTimeStep}
    have e1 : (mergeReported fun k => (k : ℝ) * dt) ⁻¹' {.err .tooLargeTimeStep} = {y | y.2 = .tooFar} := by
      ext ⟨j, b⟩
      cases b <;> simp [mergeReported]
    have e2 : (reported dt) ⁻¹' {.err .tooLargeTimeStep} = {y | y.2 = false} := by
      ext ⟨j, b⟩
      cases b <;> simp [reported]
    rw [e1, e2, Measure.map_apply hfm .of_discrete] at e
    exact e
end

/-! ### examples -/

/-- With an ideal generator: five points in a disc with mirrors. -/
example : let s : Circ ℝ := ⟨.continuousCircular, .reflection, 10, 2⟩
    ∃ ρ : Measure (ℕ × Bool),
    Yields tapeLaw (fun loops g => mergeRun tapeRng (s.ops tapeRng) (BulkTarget.new [0, 0] 1).ops loops loops loops loops (.brownian 1) 0 1 (1 / 100) 5 g)
      (reported (1 / 100)) ((Measure.pi fun _ : Fin 5 => ρ).map (firstOf 4)) ∧
    ∀ k, ((Measure.pi fun _ : Fin 5 => ρ).map (firstOf 4)) {y | k < y.1} = ρ {y | k < y.1} ^ 5 := by
  intro s
  have w := (C77_walls tapeRng).2.1 10 2 s (by unfold Circ.new; rw [if_neg (by simp)])
  have room := (C73_systems tapeRng tapeLaw tape_ideal).2.1 s (by simp [s])
  exact ⟨_, C110_law tapeRng tapeLaw tape_ideal _ (.inr (.inl ⟨s, rfl⟩)) 2 (C37_systems_draw_inside.1 tapeRng s)
    ((C37_systems_outside_dim tapeRng).2.1 s) _ _ room w.bounded _ w (fun _ => 0) (BulkTarget.new [0, 0] 1)
    (by simp [BulkTarget.new]) disc_example 1 (1 / 100) 1 0 (by norm_num) (by norm_num) 4 (.inr le_rfl) _ rfl⟩

private def demoSys : SysOps (List Int) Z :=
  (⟨.continuousCircular, .reflection, ⟨10⟩, 1⟩ : Circ Z).ops Z.draws
private def demoTarget : TargetOps Z := (BulkTarget.new [⟨8⟩] (⟨2⟩ : Z)).ops
private def demoAgents : List (MergeAgent Z) :=
  [MergeAgent.new (.brownian ⟨1⟩) [⟨0⟩] ⟨1⟩ ⟨0⟩, MergeAgent.new (.brownian ⟨1⟩) [⟨-6⟩] ⟨1⟩ ⟨0⟩]
private def demoSearch (radius : Int) :=
  searchLoop (countingTick ⟨2⟩) (mergeStep Z.draws demoSys demoTarget (fun _ => ⟨radius⟩) 10) 5 ⟨0⟩ ⟨from' demoAgents, [0, 1, 1, 0, 1, 6], []⟩
private def demoIndep :=
  searchLoop (countingTick ⟨2⟩) (walkStep (IndepAgent.walker Z.draws) demoSys demoTarget 10) 5 ⟨0⟩
    (from' (demoAgents.map MergeAgent.plain), [0, 1, 1, 0, 1, 6])

/-- two searchers that do not meet, one of which finds the target in the third turn; with a larger radius they would have
merged in the first turn, and not have found it. -/
example : (∀ a ∈ demoAgents, demoSys.checkInclusion a.pos = .ok true ∧ a.dim = 1 ∧ a.mtype = .brownian ⟨1⟩) ∧
    LibrarySystem Z.draws demoSys ∧ demoSys.OutsideDim 1 ∧ NoFailure (demoSearch 1).2 ∧
    (liveAgents (demoSearch 1).1.2.list).length = demoAgents.length ∧
    (demoSearch 1).2 = some (.ok (some ⟨6⟩)) ∧ demoIndep.2 = some (.ok (some ⟨6⟩)) ∧ (demoSearch 3).2 = none ∧
    (liveAgents (demoSearch 3).1.2.list).length = 1 := by
  refine ⟨?_, .inr (.inl ⟨_, rfl⟩), (C37_systems_outside_dim Z.draws).2.1 _, .inr ⟨some ⟨6⟩, by decide +kernel⟩, by decide +kernel,
    by decide +kernel, by decide +kernel, by decide +kernel, by decide +kernel⟩
  intro a ha
  simp only [demoAgents, List.mem_cons, List.not_mem_nil, or_false] at ha
  rcases ha with rfl | rfl <;> exact ⟨by decide +kernel, rfl, rfl⟩

/-- in double precision, too: points in a ball. -/
example (G : Type) (rng : RngOps G Double) (s : Circ Double) (target : TargetOps Double) (D dt alpha : Double) (n : Nat) (g : G) :
    mergeRun rng (s.ops rng) target 9 9 (n * n + 1) 99 (.brownian D) ⟨0⟩ alpha dt n g =
      indepRun rng (s.ops rng) target 9 9 (n * n + 1) 99 (.brownian D) dt n g :=
  C110_same_program rng _ (.inr (.inl ⟨s, rfl⟩)) s.dim (C37_systems_draw_inside.1 rng s) ((C37_systems_outside_dim rng).2.1 s) target _ _ _ _ _ _ _ _ _
    (by omega) (.inr ((C110_points s.dim).2 _ _ le_rfl)) g
end Moledyn.Props
