import Verif.Spec.SymmetryCrowds
import Verif.Lemmas.SymmetryCrowds
import Verif.Props.Symmetry
import Verif.Props.PushLaw
/-
Property theorems C122: it does not matter on which side the target is, for searchers that notice each other either.
-/
namespace Moledyn.Props
open Moledyn LList MeasureTheory ProbabilityTheory Filter
open scoped ENNReal NNReal Topology
variable {G : Type} [MeasurableSpace G]

/-- Two programs that report the same function of outcomes with the same distribution. -/
private theorem same_reports {α X : Type} [MeasurableSpace X] [Countable X] [MeasurableSingletonClass X] {P : Measure G} {μ : Measure X}
    {prog prog' : Nat → G → Option (Res α × G)} {out : X → Res α} (h : Reports P prog out μ) (h' : Reports P prog' out μ) : SameChances P prog prog' := by
  obtain ⟨x, hx, hr⟩ := h
  obtain ⟨x', hx', hr'⟩ := h'
  refine ⟨out ∘ x, out ∘ x', hr, hr', fun B => ?_⟩
  rw [Set.preimage_comp, Set.preimage_comp, hx.measure_preimage (Set.to_countable _).measurableSet.nullMeasurableSet,
    hx'.measure_preimage (Set.to_countable _).measurableSet.nullMeasurableSet]

private theorem yields_report {α X : Type} [MeasurableSpace X] {P : Measure G} [IsProbabilityMeasure P] {μ : Measure X} [IsProbabilityMeasure μ]
    {prog : Nat → G → Option (Res α × G)} {out : X → Res α} (h : Yields P prog out μ) : Reports P prog out μ := by
  obtain ⟨f, hf, ha⟩ := h
  refine ⟨_, measurePreserving_fst.comp hf, ?_⟩
  filter_upwards [ha] with g ⟨N, hN⟩
  exact ⟨N, fun loops hl => by rw [hN loops hl]; rfl⟩

/-- Two targets that are images of each other in a room. -/
private theorem same_crowds {rng : RngOps G ℝ} {P : Measure G} (h : IdealRng rng P) {sys : SysOps G ℝ} {d : Nat} {S₀ S : Set (Fin d → ℝ)}
    (room : Room P sys d S₀) (hbd : ∃ M, ∀ x ∈ S₀, ∀ i, |x i| ≤ M) {put : (Fin d → ℝ) → Fin d → ℝ} (w : Walls sys S put) (hod : sys.OutsideDim d)
    {c c' : Fin d → ℝ} {t t' : BulkTarget ℝ} (ht : t.targetPos = List.ofFn c) (ht' : t'.targetPos = List.ofFn c') (hr : t'.targetSize = t.targetSize)
    (hpos : volume (S₀ \ nearSet c t.targetSize) ≠ 0) {φ : (Fin d → ℝ) → Fin d → ℝ} (hφ : RoomMap put S S₀ φ) (hc : φ c = c') :
    SameCrowds P rng sys d t t' := by
  have := h.prob
  subst hc
  have hpos' : volume (S₀ \ nearSet (φ c) t'.targetSize) ≠ 0 := by
    rw [hr, (hφ.places room.measurable room.volume_finite hpos 0).2]; exact hpos
  have hν : IsProbabilityMeasure (gaussianReal 0 1) := inferInstance
  have hW1 : normalLaw d 1 = Measure.pi fun _ : Fin d => gaussianReal 0 1 := by simp [normalLaw]
  have em := fun D alpha radius clk n => hφ.merge w.measurable w.room_measurable room.measurable room.volume_finite hpos D alpha radius clk n
  rw [← hr] at em
  have ep := fun D limit gamma strength clk n => hφ.push w.measurable w.room_measurable room.measurable room.volume_finite hpos D limit (expForce gamma strength)
    (by unfold expForce; fun_prop) clk n
  rw [← hr] at ep
  rw [hr] at em ep
  refine ⟨fun D dt alpha radius n num hD hdt hn => ?_, fun clock a b l alpha radius v hcl hty ha hinc htm hv hv0 => ?_,
    fun clock a b l limit D gamma strength itype n k v hcl hty ha hinc htm hl hn hv => ?_⟩
  · refine same_reports (C106_ensembles rng P h sys d S₀ S room hbd put w c t ht hpos D dt alpha radius hD hdt n hn _ rfl num).1
      (C106_ensembles rng P h sys d S₀ S room hbd put w (φ c) t' ht' hpos' D dt alpha radius hD hdt n hn _ ?_ num).1
    rw [hr, em]
  · have hn : 0 < v.length := List.length_pos_iff.2 hv0
    obtain ⟨b1, b2, -⟩ := C107_law rng P (gaussianReal 0 1) h hν sys d S₀ S room put w c t ht hpos clock hcl a b l hty ha hinc htm radius alpha v.length hn _ rfl
    obtain ⟨-, b3, -⟩ := C107_law rng P (gaussianReal 0 1) h hν sys d S₀ S room put w (φ c) t' ht' hpos' clock hcl a b l hty ha hinc htm radius alpha v.length hn
      (mergeLaw (worldOf put S (nearSet c t.targetSize) 1 alpha radius (expTurns a b clock.inc l clock.tmax)) (Measure.pi fun _ : Fin d => gaussianReal 0 1)
        (Measure.pi fun _ : Fin v.length => uniformLaw (S₀ \ nearSet c t.targetSize))) (by rw [← hW1, hr, em])
    exact same_reports (yields_report (b2 v hv rfl)) (yields_report (b3 v hv rfl))
  · obtain ⟨x, hx, hax⟩ := C108_program rng P (gaussianReal 0 1) h hν sys d S₀ S room put w c t ht hpos clock hcl a b l hty ha hinc limit hl D gamma strength
      itype n hn v hv hod htm _ rfl k
    obtain ⟨x', hx', hax'⟩ := C108_program rng P (gaussianReal 0 1) h hν sys d S₀ S room put w (φ c) t' ht' hpos' clock hcl a b l hty ha hinc limit hl D gamma strength
      itype n hn v hv hod htm (pushLaw ⟨put, S, nearSet c t.targetSize, D, expForce gamma strength, limit, laterTurns a b clock.inc l clock.tmax⟩
        (Measure.pi fun _ : Fin d => gaussianReal 0 1) (Measure.pi fun _ : Fin n => uniformLaw (S₀ \ nearSet c t.targetSize))) (by rw [← hW1, hr, ep]) k
    refine same_reports (out := fun y => Res.ok (linesReported (fun k => expTime a b clock.inc l k) (List.ofFn y))) ⟨x, hx, ?_⟩ ⟨x', hx', ?_⟩
    · filter_upwards [hax] with g ⟨N, hN⟩
      refine ⟨N, fun loops hl => ?_⟩
      have e := hN loops hl
      rw [Option.map_map]
      obtain ⟨r, h1, h2⟩ := Option.map_eq_some_iff.1 e
      rw [h1]
      simp [h2]
    · filter_upwards [hax'] with g ⟨N, hN⟩
      refine ⟨N, fun loops hl => ?_⟩
      have e := hN loops hl
      rw [Option.map_map]
      obtain ⟨r, h1, h2⟩ := Option.map_eq_some_iff.1 e
      rw [h1]
      simp [h2]

/-- With ideal normal numbers: in a cube, two targets of the same size that are images of each other by exchanging and reflecting axes; in
a ball, two at the same distance from the centre; in a cylinder, two at the same distance from the axis and the same places along it: the
searches by searchers that merge, or that push each other away, report all results with the same chances. -/
theorem C122_systems (rng : RngOps G ℝ) (P : Measure G) (h : IdealRng rng P) (n : Nat) (c c' : Fin n → ℝ) (t t' : BulkTarget ℝ)
    (ht : t.targetPos = List.ofFn c) (ht' : t'.targetPos = List.ofFn c') (hr : t'.targetSize = t.targetSize) :
    (∀ (bc : BoundaryCond) (L : ℝ) (s : Cubic ℝ), Cubic.new bc L n = .ok s → volume (cubeSet n L \ nearSet c t.targetSize) ≠ 0 →
      SameInCube bc c c' → SameCrowds P rng (s.ops rng) n t t') ∧
    (∀ (R : ℝ) (s : Circ ℝ), Circ.new R n = .ok s → volume (ballSet n R \ nearSet c t.targetSize) ≠ 0 →
      SameInBall c c' → SameCrowds P rng (s.ops rng) n t t') ∧
    (∀ (k : Nat) (R L : ℝ) (s : Cyl ℝ), Cyl.new k R L n = .ok s → volume (cylSet n k R (2 * L) \ nearSet c t.targetSize) ≠ 0 →
      SameInCyl k c c' → SameCrowds P rng (s.ops rng) n t t') := by
  have := h.prob
  obtain ⟨r1, r2, r3⟩ := C73_systems rng P h
  obtain ⟨w1, w2, w3⟩ := C77_walls rng
  obtain ⟨o1, o2, o3⟩ := C37_systems_outside_dim rng
  refine ⟨fun bc L s hs hpos hsym => ?_, fun R s hs hpos hsym => ?_, fun k R L s hs hpos hsym => ?_⟩
  · have w := w1 bc L n s hs
    have hod := o1 s
    obtain ⟨hL, hn, rfl, -⟩ := new_cubic hs
    have room : Room P (Cubic.ops rng ⟨.continuousRectangular, bc, L, n⟩) n (cubeSet n L) := r1 _ hL
    obtain ⟨φ, hφ, hc⟩ := cube_map hsym L hL
    exact same_crowds h room w.bounded w hod ht ht' hr hpos hφ hc
  · have w := w2 R n s hs
    have hod := o2 s
    obtain ⟨hR, hd, hsz, hdim⟩ := new_circ hs
    have room := r2 s (by rw [hsz]; exact hR)
    rw [hsz] at room
    subst hdim
    obtain ⟨φ, hφ, hc⟩ := ball_map hsym R
    exact same_crowds h room w.bounded w hod ht ht' hr hpos hφ hc
  · have w := w3 k R L n s hs
    have hod := o3 s
    obtain ⟨hR, hL, hk, hn, e⟩ := new_cyl hs
    have hs2 : Cyl.new k R (2 * L) n = .ok ⟨.continuousCylindrical k, .mixed k, R, 2 * L, n⟩ := by
      unfold Cyl.new
      rw [if_neg]
      simp only [fl_le, fl_zero, Bool.or_eq_true, decide_eq_true_eq, not_or, not_le, not_lt, beq_iff_eq]
      exact ⟨⟨⟨hk, hR⟩, by linarith⟩, by omega⟩
    subst e
    have room : Room P (Cyl.ops rng ⟨.continuousCylindrical k, .mixed k, R, L, n⟩) n (cylSet n k R (2 * L)) := r3 _ k rfl hk hR hL
    obtain ⟨φ, hφ, hc⟩ := cyl_map hsym R L (2 * L) hL
    exact same_crowds h room (w3 k R (2 * L) n _ hs2).bounded w hod ht ht' hr hpos hφ hc

/-- tests/large_n_simulation.rs as a whole, in a ball, with the clock it makes: two targets at the same distance from the centre. -/
theorem C122_program (rng : RngOps G ℝ) (P : Measure G) (h : IdealRng rng P) (d : Nat) (R : ℝ) (s : Circ ℝ) (hs : Circ.new R d = .ok s) (c c' : Fin d → ℝ)
    (t t' : BulkTarget ℝ) (ht : t.targetPos = List.ofFn c) (ht' : t'.targetPos = List.ofFn c') (hr : t'.targetSize = t.targetSize)
    (hpos : volume (ballSet d R \ nearSet c t.targetSize) ≠ 0) (hsym : SameInBall c c') (a b : ℝ) (l : ℕ) (clock : ExpStep ℝ) (hc : ExpStep.new a b l = .ok clock)
    (D alpha radius : ℝ) (n num : ℕ) (hn : 0 < n) :
    SameChances P (fun loops g => largeNProgram rng (s.ops rng) t.ops loops loops loops loops (.brownian D) radius alpha clock n num g)
      (fun loops g => largeNProgram rng (s.ops rng) t'.ops loops loops loops loops (.brownian D) radius alpha clock n num g) := by
  have := h.prob
  obtain ⟨hR, hd, hsz, hdim⟩ := new_circ hs
  have w := (C77_walls rng).2.1 R d s hs
  have room := (C73_systems rng P h).2.1 s (by rw [hsz]; exact hR)
  rw [hsz] at room
  subst hdim
  obtain ⟨φ, hφ, rfl⟩ := ball_map hsym R
  have hcl : clock.Fresh := .new hc
  obtain ⟨ha, hty, hinc, htm⟩ : 0 < a ∧ clock.titype = .exponential a b l ∧ 1 ≤ clock.inc ∧ 0 ≤ clock.tmax := by
    have hc' := hc
    unfold ExpStep.new at hc'
    split at hc' <;> simp only [reduceCtorEq, Res.ok.injEq] at hc'
    rename_i hlt
    simp only [fl_lt, fl_lit, Bool.or_eq_true, decide_eq_true_eq, not_or, not_lt, beq_iff_eq] at hlt
    rw [← hc']
    refine ⟨lt_of_lt_of_le (by norm_num) hlt.1.1, rfl, ?_, ?_⟩
    · simp only
      split_ifs with h1 h2
      · simp only [fl_lit]; norm_num
      · simp only [fl_ofNat, fl_two]
        have : (2 : ℝ) ≤ l := by exact_mod_cast (by omega : 2 ≤ l)
        linarith
      · simp only [fl_lit]; norm_num
    · have h1 : ∀ m k : ℕ, m ≤ k → (0 : ℝ) ≤ (2 : ℝ) ^ k - 2 ^ m := fun m k hmk => sub_nonneg.2 (pow_le_pow_right₀ (by norm_num) hmk)
      exact h1 971 1024 (by omega)
  have hpos' : volume (ballSet s.dim R \ nearSet (φ c) t'.targetSize) ≠ 0 := by
    rw [hr, (hφ.places room.measurable room.volume_finite hpos 0).2]; exact hpos
  have hν : IsProbabilityMeasure (gaussianReal 0 1) := inferInstance
  have hW1 : normalLaw s.dim 1 = Measure.pi fun _ : Fin s.dim => gaussianReal 0 1 := by simp [normalLaw]
  have em := hφ.merge w.measurable w.room_measurable room.measurable room.volume_finite hpos 1 alpha radius (expTurns a b clock.inc l clock.tmax) n
  rw [← hr] at em
  refine same_reports
    (C107_program rng P (gaussianReal 0 1) h hν _ s.dim _ _ room _ w c t ht hpos clock hcl a b l hty ha hinc htm radius alpha n hn _ rfl
      (.inr (.inl ⟨s, rfl⟩)) ((C37_systems_draw_inside).1 rng s) ((C37_systems_outside_dim rng).2.1 s) num D)
    (C107_program rng P (gaussianReal 0 1) h hν _ s.dim _ _ room _ w (φ c) t' ht' hpos' clock hcl a b l hty ha hinc htm radius alpha n hn _ ?_
      (.inr (.inl ⟨s, rfl⟩)) ((C37_systems_draw_inside).1 rng s) ((C37_systems_outside_dim rng).2.1 s) num D)
  rw [← hW1, ← hr, em]

/-! ### examples -/

private theorem disc_off : volume (ballSet 2 1 \ nearSet ![1 / 2, 0] (1 / 4)) ≠ 0 := by
  have hopen : IsOpen (openBox (fun _ : Fin 2 => (1 / 2 : ℝ)) ∩ {x | x 0 < 0}) := (openBox_open _).inter (isOpen_lt (continuous_apply 0) continuous_const)
  refine ne_of_gt (lt_of_lt_of_le (hopen.measure_pos volume ⟨fun _ => -1 / 4, fun i => ?_, ?_⟩) (measure_mono ?_))
  · show |(-1 / 4 : ℝ)| < 1 / 2
    rw [abs_lt]; constructor <;> norm_num
  · show (-1 / 4 : ℝ) < 0
    norm_num
  · rintro x ⟨h1, h2⟩
    refine ⟨?_, fun h3 => ?_⟩
    · have h0 := abs_lt.1 (h1 0)
      have h1 := abs_lt.1 (h1 1)
      show ∑ i, x i ^ 2 ≤ 1 ^ 2
      rw [Fin.sum_univ_two]
      nlinarith
    · have h2 : x 0 < 0 := h2
      have h3 : Real.sqrt (∑ i, (x i - ![1 / 2, 0] i) ^ 2) < 1 / 4 := h3
      have h4 : |x 0 - ![(1 : ℝ) / 2, 0] 0| ≤ Real.sqrt (∑ i, (x i - ![1 / 2, 0] i) ^ 2) := by
        rw [← Real.sqrt_sq_eq_abs]
        exact Real.sqrt_le_sqrt (Finset.single_le_sum (f := fun i => (x i - ![(1 : ℝ) / 2, 0] i) ^ 2) (fun i _ => sq_nonneg _) (Finset.mem_univ 0))
      have h5 := neg_le_abs (x 0 - ![(1 : ℝ) / 2, 0] 0)
      have h6 := lt_of_le_of_lt h4 h3
      simp at h5 h6
      linarith

/-- A target of radius 1/4 in a disc of radius 1, at (1/2, 0) or at (3/10, 4/10): searchers that notice each other; and the program
with the clock of tests/large_n_simulation.rs. -/
example : SameCrowds tapeLaw tapeRng (Circ.ops tapeRng ⟨.continuousCircular, .reflection, 1, 2⟩) 2
      (BulkTarget.new [1 / 2, 0] (1 / 4)) (BulkTarget.new [3 / 10, 4 / 10] (1 / 4)) ∧
    ∃ clock, ExpStep.new (1 / 10 ^ 10 : ℝ) (1 / 10 ^ 5) 10 = .ok clock ∧
      SameChances tapeLaw (fun loops g => largeNProgram tapeRng (Circ.ops tapeRng ⟨.continuousCircular, .reflection, 1, 2⟩) (BulkTarget.new [1 / 2, 0] (1 / 4)).ops
          loops loops loops loops (.brownian 1) (1 / 20) 1 clock 7 50 g)
        (fun loops g => largeNProgram tapeRng (Circ.ops tapeRng ⟨.continuousCircular, .reflection, 1, 2⟩) (BulkTarget.new [3 / 10, 4 / 10] (1 / 4)).ops
          loops loops loops loops (.brownian 1) (1 / 20) 1 clock 7 50 g) := by
  have hsym : SameInBall ![(1 : ℝ) / 2, 0] ![3 / 10, 4 / 10] := by
    simp only [SameInBall, Fin.sum_univ_two]
    norm_num
  have hs : Circ.new (1 : ℝ) 2 = .ok ⟨.continuousCircular, .reflection, 1, 2⟩ := by unfold Circ.new; rw [if_neg (by simp)]
  have hc : ∃ clock, ExpStep.new (1 / 10 ^ 10 : ℝ) (1 / 10 ^ 5) 10 = .ok clock := by
    unfold ExpStep.new
    rw [if_neg]
    · exact ⟨_, rfl⟩
    · simp only [fl_lt, fl_lit, Bool.or_eq_true, decide_eq_true_eq, not_or, not_lt, beq_iff_eq]
      push_cast
      norm_num
  obtain ⟨clock, hc⟩ := hc
  exact ⟨(C122_systems tapeRng tapeLaw tape_ideal 2 ![1 / 2, 0] ![3 / 10, 4 / 10] (BulkTarget.new [1 / 2, 0] (1 / 4)) (BulkTarget.new [3 / 10, 4 / 10] (1 / 4))
      (by simp [BulkTarget.new]) (by simp [BulkTarget.new]) rfl).2.1 1 _ hs disc_off hsym,
    clock, hc, C122_program tapeRng tapeLaw tape_ideal 2 1 _ hs ![1 / 2, 0] ![3 / 10, 4 / 10] (BulkTarget.new [1 / 2, 0] (1 / 4)) (BulkTarget.new [3 / 10, 4 / 10] (1 / 4))
      (by simp [BulkTarget.new]) (by simp [BulkTarget.new]) rfl disc_off hsym _ _ _ clock hc 1 1 (1 / 20) 7 50 (by norm_num)⟩

end Moledyn.Props
