import Verif.Spec.Symmetry
import Verif.Lemmas.Shift
import Verif.Props.MergeSearch
/-
Property theorems C121: it does not matter on which side the target is.
-/
namespace Moledyn.Props
open Moledyn MeasureTheory ProbabilityTheory Filter
open scoped ENNReal NNReal Topology
set_option linter.unusedSimpArgs false
variable {G : Type} [MeasurableSpace G]

private theorem same_chances {α X : Type} [MeasurableSpace X] [Countable X] [MeasurableSingletonClass X] {P : Measure G} {μ : Measure X}
    {prog prog' : Nat → G → Option (Res α × G)} {x x' : G → X} (hx : MeasurePreserving x P μ) (hx' : MeasurePreserving x' P μ) (out : X → Res α)
    (h : ∀ᵐ g ∂P, ∃ n, ∀ loops ≥ n, (prog loops g).map (·.1) = some (out (x g)))
    (h' : ∀ᵐ g ∂P, ∃ n, ∀ loops ≥ n, (prog' loops g).map (·.1) = some (out (x' g))) : SameChances P prog prog' := by
  refine ⟨out ∘ x, out ∘ x', h, h', fun B => ?_⟩
  rw [Set.preimage_comp, Set.preimage_comp, hx.measure_preimage (Set.to_countable _).measurableSet.nullMeasurableSet,
    hx'.measure_preimage (Set.to_countable _).measurableSet.nullMeasurableSet]

/-- Two searches with the same distribution of outcomes give the same chances to all results. -/
private theorem same_searches {P : Measure G} [IsProbabilityMeasure P] {ρ : Measure (ℕ × Bool)} [IsProbabilityMeasure ρ]
    {rng : RngOps G ℝ} {sys : SysOps G ℝ} {t t' : BulkTarget ℝ} {D dt : ℝ}
    (hy : Yields P (fun n g => oneSearcher rng sys t.ops n n n (.brownian D) dt g) (reported dt) ρ)
    (hy' : Yields P (fun n g => oneSearcher rng sys t'.ops n n n (.brownian D) dt g) (reported dt) ρ) : SameSearches P rng sys t t' D dt := by
  classical
  refine ⟨?_, fun n => ?_, fun n => ?_⟩
  · obtain ⟨f, hf, ha⟩ := hy
    obtain ⟨f', hf', ha'⟩ := hy'
    refine same_chances (measurePreserving_fst.comp hf) (measurePreserving_fst.comp hf') (reported dt) ?_ ?_
    · filter_upwards [ha] with g ⟨N, hN⟩
      exact ⟨N, fun loops hl => by rw [hN loops hl]; rfl⟩
    · filter_upwards [ha'] with g ⟨N, hN⟩
      exact ⟨N, fun loops hl => by rw [hN loops hl]; rfl⟩
  · obtain ⟨x, hx, ha⟩ := ensemble_of_searches hy n
    obtain ⟨x', hx', ha'⟩ := ensemble_of_searches hy' n
    refine same_chances hx hx' (fun y => if ∀ i, (y i).2 = true then .ok ((∑ i, (y i).1 * dt) / n) else .err .tooLargeTimeStep) ?_ ?_
    · filter_upwards [ha] with g ⟨N, hN⟩
      refine ⟨N, fun loops hl => ?_⟩
      by_cases h : ∀ i, (x g i).2 = true
      · rw [if_pos h]; exact ((hN loops hl).1 h).1
      · rw [if_neg h]; exact ((hN loops hl).2 (by simpa using h)).1
    · filter_upwards [ha'] with g ⟨N, hN⟩
      refine ⟨N, fun loops hl => ?_⟩
      by_cases h : ∀ i, (x' g i).2 = true
      · rw [if_pos h]; exact ((hN loops hl).1 h).1
      · rw [if_neg h]; exact ((hN loops hl).2 (by simpa using h)).1
  · obtain ⟨x, hx, ha⟩ := ensemble_of_searches hy n
    obtain ⟨x', hx', ha'⟩ := ensemble_of_searches hy' n
    let least : (Fin n → ℕ × Bool) → ℝ → Prop := fun y m =>
      m ≤ Fl.maxVal ∧ (∀ i, m ≤ (y i).1 * dt) ∧ (m = Fl.maxVal ∨ ∃ i, m = (y i).1 * dt)
    have huniq : ∀ y m m', least y m → least y m' → m = m' := by
      rintro y m m' ⟨a1, a2, a3⟩ ⟨b1, b2, b3⟩
      refine le_antisymm ?_ ?_
      · rcases b3 with rfl | ⟨i, rfl⟩
        · exact a1
        · exact a2 i
      · rcases a3 with rfl | ⟨i, rfl⟩
        · exact b1
        · exact b2 i
    let out : (Fin n → ℕ × Bool) → Res ℝ := fun y =>
      if ∀ i, (y i).2 = true then (if h : ∃ m, least y m then .ok h.choose else .ok 0) else .err .tooLargeTimeStep
    have hout : ∀ y m, (∀ i, (y i).2 = true) → least y m → out y = .ok m := by
      intro y m h hm
      have hex : ∃ m, least y m := ⟨m, hm⟩
      simp only [out, if_pos h, dif_pos hex]
      rw [huniq y _ _ hex.choose_spec hm]
    refine same_chances hx hx' out ?_ ?_
    · filter_upwards [ha] with g ⟨N, hN⟩
      refine ⟨N, fun loops hl => ?_⟩
      by_cases h : ∀ i, (x g i).2 = true
      · obtain ⟨m, m1, m2⟩ := ((hN loops hl).1 h).2
        rw [hout _ _ h m2]; exact m1
      · simp only [out, if_neg h]; exact ((hN loops hl).2 (by simpa using h)).2
    · filter_upwards [ha'] with g ⟨N, hN⟩
      refine ⟨N, fun loops hl => ?_⟩
      by_cases h : ∀ i, (x' g i).2 = true
      · obtain ⟨m, m1, m2⟩ := ((hN loops hl).1 h).2
        rw [hout _ _ h m2]; exact m1
      · simp only [out, if_neg h]; exact ((hN loops hl).2 (by simpa using h)).2

/-- the distribution of the outcomes, for signed permutations. -/
private theorem law_axes {n : Nat} {μ : Measure (Fin n → ℝ)} [IsProbabilityMeasure μ] {put : (Fin n → ℝ) → Fin n → ℝ} {S S₀ : Set (Fin n → ℝ)}
    {p : Equiv.Perm (Fin n)} {e : Fin n → ℝ} (he : ∀ i, e i = 1 ∨ e i = -1) (hμ : μ.map (signedPerm p e) = μ) (hput : Measurable put)
    (hS : MeasurableSet S) (hS₀ : MeasurableSet S₀) (hfin : volume S₀ ≠ ⊤) (hc : ∀ y, put (signedPerm p e y) = signedPerm p e (put y))
    (hSS : ∀ x, signedPerm p e x ∈ S ↔ x ∈ S) (hSS₀ : ∀ x, signedPerm p e x ∈ S₀ ↔ x ∈ S₀) (c : Fin n → ℝ) (r : ℝ) (hpos : volume (S₀ \ nearSet c r) ≠ 0) :
    searchLaw put S (nearSet (signedPerm p e c) r) μ (uniformLaw (S₀ \ nearSet (signedPerm p e c) r)) =
      searchLaw put S (nearSet c r) μ (uniformLaw (S₀ \ nearSet c r)) ∧ volume (S₀ \ nearSet (signedPerm p e c) r) = volume (S₀ \ nearSet c r) := by
  refine searchLaw_symm hput (signedPerm_volume p e he) hμ hS hS₀ (near_meas _ _) (near_meas _ _) (fun x z => ?_) hSS hSS₀
    (near_iso rfl (signedPerm_iso p he) r) hfin hpos
  rw [← hc]
  congr 1
  funext i
  simp only [signedPerm, Pi.add_apply]; ring

private theorem normal_axes {n : Nat} (v : ℝ) (p : Equiv.Perm (Fin n)) {e : Fin n → ℝ} (he : ∀ i, e i = 1 ∨ e i = -1) :
    (normalLaw n v).map (signedPerm p e) = normalLaw n v := by
  unfold normalLaw
  refine signedPerm_pi ?_ p e he
  rw [gaussianReal_map_neg, neg_zero]

private theorem step_axes {n : Nat} {ν : Measure ℝ} [IsProbabilityMeasure ν] (hν : ν.map (fun x => -x) = ν) (σ : ℝ) (p : Equiv.Perm (Fin n)) {e : Fin n → ℝ}
    (he : ∀ i, e i = 1 ∨ e i = -1) : (stepLaw n ν σ).map (signedPerm p e) = stepLaw n ν σ := by
  unfold stepLaw
  have hm : Measurable fun x : ℝ => x * σ := by fun_prop
  have : IsProbabilityMeasure (ν.map (· * σ)) := Measure.isProbabilityMeasure_map hm.aemeasurable
  refine signedPerm_pi ?_ p e he
  rw [Measure.map_map measurable_neg hm]
  conv_rhs => rw [← hν]
  rw [Measure.map_map hm measurable_neg]
  congr 1
  funext x
  simp

/-- the distribution of the outcomes in a cylinder. -/
private theorem law_cyl {n k : Nat} {c c' : Fin n → ℝ} (h : SameInCyl k c c') (v R L : ℝ) (hL : 0 < L) (S₀ : Set (Fin n → ℝ)) (hput : Measurable (cylPut (d := n) k R L))
    (hS : MeasurableSet (cylSet n k R L)) (L₀ : ℝ) (hS₀e : S₀ = cylSet n k R L₀) (hS₀ : MeasurableSet S₀) (hfin : volume S₀ ≠ ⊤) (r : ℝ) (hpos : volume (S₀ \ nearSet c r) ≠ 0) :
    searchLaw (cylPut k R L) (cylSet n k R L) (nearSet c' r) (normalLaw n v) (uniformLaw (S₀ \ nearSet c' r)) =
      searchLaw (cylPut k R L) (cylSet n k R L) (nearSet c r) (normalLaw n v) (uniformLaw (S₀ \ nearSet c r)) ∧
      volume (S₀ \ nearSet c' r) = volume (S₀ \ nearSet c r) := by
  subst hS₀e
  obtain ⟨h1, p, hp, h2⟩ := h
  obtain ⟨e, he, e1, e2⟩ := sign_of (q := fun i : Fin n => k ≤ i.1) h2
  obtain ⟨l1, l2⟩ := law_axes he (normal_axes v p he) hput hS hS₀ hfin (cylPut_signed k R L hL p he hp) (cyl_signed k R L p he hp) (cyl_signed k R L₀ p he hp) c r hpos
  obtain ⟨φ, f1, f2, f3, f4, f5, f6, f7, f8⟩ := mirror_across (k := k) (c := signedPerm p e c) (c' := c') (by rw [signedPerm_axis k p he hp, h1])
    (fun i hi => e1 i hi)
  obtain ⟨y1, y2⟩ := cyl_across f6 f7 f8 R L
  obtain ⟨m1, m2⟩ := searchLaw_symm (A := nearSet (signedPerm p e c) r) (A' := nearSet c' r) hput f1 (f2 v) hS hS₀ (near_meas _ _) (near_meas _ _)
    (fun x z => by rw [← f3, y1]) y2 (cyl_across f6 f7 f8 R L₀).2 (near_iso f4 f5 r) hfin (by rw [l2]; exact hpos)
  exact ⟨m1.trans l1, m2.trans l2⟩

/-- With ideal normal numbers: in a cube, two targets of the same size that are images of each other by exchanging and reflecting axes; in
a ball, two at the same distance from the centre; in a cylinder, two at the same distance from the axis and the same places along
it: the searches for both report all results with the same chances. -/
theorem C121_systems (rng : RngOps G ℝ) (P : Measure G) (h : IdealRng rng P) (n : Nat) (c c' : Fin n → ℝ) (t t' : BulkTarget ℝ)
    (ht : t.targetPos = List.ofFn c) (ht' : t'.targetPos = List.ofFn c') (hr : t'.targetSize = t.targetSize) (D dt : ℝ) (hD : 0 < D) (hdt : 0 < dt) :
    (∀ (bc : BoundaryCond) (L : ℝ) (s : Cubic ℝ), Cubic.new bc L n = .ok s → volume (cubeSet n L \ nearSet c t.targetSize) ≠ 0 →
      SameInCube bc c c' → SameSearches P rng (s.ops rng) t t' D dt) ∧
    (∀ (R : ℝ) (s : Circ ℝ), Circ.new R n = .ok s → volume (ballSet n R \ nearSet c t.targetSize) ≠ 0 →
      SameInBall c c' → SameSearches P rng (s.ops rng) t t' D dt) ∧
    (∀ (k : Nat) (R L : ℝ) (s : Cyl ℝ), Cyl.new k R L n = .ok s → volume (cylSet n k R (2 * L) \ nearSet c t.targetSize) ≠ 0 →
      SameInCyl k c c' → SameSearches P rng (s.ops rng) t t' D dt) := by
  have := h.prob
  obtain ⟨a1, a2, a3⟩ := C77_systems rng P h n c t ht D dt hD hdt
  obtain ⟨b1, b2, b3⟩ := C77_systems rng P h n c' t' ht' D dt hD hdt
  obtain ⟨r1, r2, r3⟩ := C73_systems rng P h
  obtain ⟨w1, w2, w3⟩ := C77_walls rng
  refine ⟨fun bc L s hs hpos hsym => ?_, fun R s hs hpos hsym => ?_, fun k R L s hs hpos hsym => ?_⟩
  · have w := w1 bc L n s hs
    have y := a1 bc L s hs hpos
    have y' := b1 bc L s hs
    have room : Room P (s.ops rng) n (cubeSet n L) := by
      obtain ⟨hL, hn, rfl, -⟩ := new_cubic hs
      exact r1 _ hL
    obtain ⟨hL, hn, rfl, -⟩ := new_cubic hs
    obtain ⟨p, hp, hc⟩ := hsym
    obtain ⟨e, he, e1, -⟩ := sign_of (q := fun _ => True) (fun i _ => hc i)
    obtain ⟨l1, l2⟩ := law_axes he (normal_axes (2 * D * dt) p he) w.measurable w.room_measurable room.measurable room.volume_finite (cubePut_signed bc _ hL p he hp)
      (cube_signed _ p he) (cube_signed _ p he) c t.targetSize hpos
    have ec : signedPerm p e c = c' := by funext i; exact (e1 i trivial).symm
    rw [ec] at l1 l2
    rw [hr] at y'
    have y' := y' (by rw [l2]; exact hpos)
    rw [l1] at y'
    have := (C77_search rng P h _ n _ _ room w.bounded _ w c t ht hpos D dt hD hdt).2.1
    exact same_searches y y'
  · have w := w2 R n s hs
    have y := a2 R s hs hpos
    have y' := b2 R s hs
    have hR : 0 < R ∧ s = ⟨.continuousCircular, .reflection, R, n⟩ := by
      unfold Circ.new at hs
      split at hs
      · simp at hs
      · rename_i hc
        simp only [fl_le, fl_zero, Bool.or_eq_true, decide_eq_true_eq, not_or, not_le, beq_iff_eq] at hc
        simp only [Res.ok.injEq] at hs
        exact ⟨hc.1, hs.symm⟩
    obtain ⟨hR, rfl⟩ := hR
    have room : Room P (Circ.ops rng ⟨.continuousCircular, .reflection, R, n⟩) n (ballSet n R) := r2 _ hR
    have eput : ballPut R = cylPut (d := n) n R 1 := by funext x; exact ballPut_cyl R 1 x
    have eset : ballSet n R = cylSet n n R 1 := ballSet_cyl R 1
    have hcyl : SameInCyl n c c' := by
      refine ⟨?_, 1, fun _ => Iff.rfl, fun i hi => absurd i.2 (by omega)⟩
      rw [← sumSq_axis, ← sumSq_axis]; exact hsym
    obtain ⟨l1, l2⟩ := law_cyl hcyl (2 * D * dt) R 1 one_pos (ballSet n R) (by rw [← eput]; exact w.measurable) (by rw [← eset]; exact w.room_measurable) 1 eset
      room.measurable room.volume_finite t.targetSize hpos
    rw [← eput, ← eset] at l1
    rw [hr] at y'
    have y' := y' (by rw [l2]; exact hpos)
    rw [l1] at y'
    have := (C77_search rng P h _ n _ _ room w.bounded _ w c t ht hpos D dt hD hdt).2.1
    exact same_searches y y'
  · have w := w3 k R L n s hs
    have y := a3 k R L s hs hpos
    have y' := b3 k R L s hs
    obtain ⟨hR, hL, hk, hn, e⟩ := new_cyl hs
    have hs2 : Cyl.new k R (2 * L) n = .ok ⟨.continuousCylindrical k, .mixed k, R, 2 * L, n⟩ := by
      unfold Cyl.new
      rw [if_neg]
      simp only [fl_le, fl_zero, Bool.or_eq_true, decide_eq_true_eq, not_or, not_le, not_lt, beq_iff_eq]
      exact ⟨⟨⟨hk, hR⟩, by linarith⟩, by omega⟩
    subst e
    have room : Room P (Cyl.ops rng ⟨.continuousCylindrical k, .mixed k, R, L, n⟩) n (cylSet n k R (2 * L)) := r3 _ k rfl hk hR hL
    obtain ⟨l1, l2⟩ := law_cyl hsym (2 * D * dt) R L hL _ w.measurable w.room_measurable (2 * L) rfl room.measurable room.volume_finite t.targetSize hpos
    rw [hr] at y'
    have y' := y' (by rw [l2]; exact hpos)
    rw [l1] at y'
    have := (C77_search rng P h _ n _ _ room (w3 k R (2 * L) n _ hs2).bounded _ w c t ht hpos D dt hD hdt).2.1
    exact same_searches y y'

private theorem prob_of_yields {P : Measure G} [IsProbabilityMeasure P] {run : Nat → G → Option (Res ℝ × G)} {dt : ℝ} {d : Nat} {put : (Fin d → ℝ) → Fin d → ℝ}
    {S T : Set (Fin d → ℝ)} {μ π : Measure (Fin d → ℝ)} (h : Yields P run (reported dt) (searchLaw put S T μ π)) : IsProbabilityMeasure (searchLaw put S T μ π) := by
  obtain ⟨f, hf, -⟩ := h
  have h1 : IsProbabilityMeasure ((searchLaw put S T μ π).prod P) := hf.map_eq ▸ Measure.isProbabilityMeasure_map hf.measurable.aemeasurable
  have h2 : SFinite (searchLaw put S T μ π) := by unfold searchLaw; infer_instance
  have h3 := Measure.map_fst_prod (μ := searchLaw put S T μ π) (ν := P)
  rw [measure_univ, one_smul] at h3
  exact h3 ▸ Measure.isProbabilityMeasure_map measurable_fst.aemeasurable

/-- Two searches that surely find the target, with one and the same distribution of the time: the results have the same chances, and the
means of ensembles approach the same number. -/
private theorem same_finds {P : Measure G} [IsProbabilityMeasure P] {rng : RngOps G ℝ} {sys : SysOps G ℝ} {t t' : BulkTarget ℝ} {D dt : ℝ} {d : Nat}
    {put : (Fin d → ℝ) → Fin d → ℝ} {S T T' : Set (Fin d → ℝ)} {μ π π' : Measure (Fin d → ℝ)}
    (h : FindsTarget P (fun loops g => oneSearcher rng sys t.ops loops loops loops (.brownian D) dt g) dt (searchLaw put S T μ π))
    (h' : FindsTarget P (fun loops g => oneSearcher rng sys t'.ops loops loops loops (.brownian D) dt g) dt (searchLaw put S T' μ π'))
    (e : searchLaw put S T' μ π' = searchLaw put S T μ π) :
    SameSearches P rng sys t t' D dt ∧ ∃ ρ, FindsTarget P (fun loops g => oneSearcher rng sys t.ops loops loops loops (.brownian D) dt g) dt ρ ∧
      FindsTarget P (fun loops g => oneSearcher rng sys t'.ops loops loops loops (.brownian D) dt g) dt ρ := by
  rw [e] at h'
  have := prob_of_yields h.1
  exact ⟨same_searches h.1 h'.1, _, h, h'⟩

private theorem axes_part {n : Nat} {p : Equiv.Perm (Fin n)} {e : Fin n → ℝ} (he : ∀ i, e i = 1 ∨ e i = -1) {S : Set (Fin n → ℝ)}
    (hSS : ∀ x, signedPerm p e x ∈ S ↔ x ∈ S) {c : Fin n → ℝ} {r : ℝ} (h : ∃ c' ε, 0 < ε ∧ nearSet c' ε ⊆ S ∩ nearSet c r) :
    ∃ c' ε, 0 < ε ∧ nearSet c' ε ⊆ S ∩ nearSet (signedPerm p e c) r := by
  obtain ⟨c0, ε, hε, hsub⟩ := h
  refine ⟨signedPerm p e c0, ε, hε, fun y hy => ?_⟩
  have hx : signedPerm p e (fun j => e (p.symm j) * y (p.symm j)) = y := by
    funext i
    simp only [signedPerm, Equiv.symm_apply_apply, ← mul_assoc]
    rcases he i with h | h <;> rw [h] <;> ring
  rw [← hx] at hy ⊢
  have := hsub ((near_iso rfl (signedPerm_iso p he) ε _).1 hy)
  exact ⟨(hSS _).2 this.1, (near_iso rfl (signedPerm_iso p he) r _).2 this.2⟩

/-- With bounded normal numbers that are as often positive as negative, steps not too large for the room, and a target that is partly
in the room: if the targets are images of each other by exchanging and reflecting axes, every search for either of them finds it, all
results have the same chances, the distribution of the time is the same and the means of ensembles approach the same number. -/
theorem C121_bounded (rng : RngOps G ℝ) (P : Measure G) (ν : Measure ℝ) (b : ℝ) (h : IndepRng rng P ν) (hν : BoundedSpread ν b)
    (hsym : ν.map (fun x => -x) = ν) (n : Nat) (c c' : Fin n → ℝ) (t t' : BulkTarget ℝ)
    (ht : t.targetPos = List.ofFn c) (ht' : t'.targetPos = List.ofFn c') (hr : t'.targetSize = t.targetSize) (D dt : ℝ) (hD : 0 < D) (hdt : 0 < dt) :
    let same := fun sys : SysOps G ℝ => SameSearches P rng sys t t' D dt ∧
      ∃ ρ, FindsTarget P (fun loops g => oneSearcher rng sys t.ops loops loops loops (.brownian D) dt g) dt ρ ∧
        FindsTarget P (fun loops g => oneSearcher rng sys t'.ops loops loops loops (.brownian D) dt g) dt ρ
    (∀ (bc : BoundaryCond) (L : ℝ) (s : Cubic ℝ), Cubic.new bc L n = .ok s → volume (cubeSet n L \ nearSet c t.targetSize) ≠ 0 →
      (∃ c' ε, 0 < ε ∧ nearSet c' ε ⊆ cubeSet n L ∩ nearSet c t.targetSize) → b * Real.sqrt (2 * D * dt) ≤ 2 * L →
      SameInCube bc c c' → same (s.ops rng)) ∧
    (∀ (R : ℝ) (s : Circ ℝ), Circ.new R n = .ok s → volume (ballSet n R \ nearSet c t.targetSize) ≠ 0 →
      (∃ c' ε, 0 < ε ∧ nearSet c' ε ⊆ ballSet n R ∩ nearSet c t.targetSize) → b * Real.sqrt (2 * D * dt) ≤ 2 * R / Real.sqrt n →
      SameAxes n c c' → same (s.ops rng)) ∧
    (∀ (k : Nat) (R L : ℝ) (s : Cyl ℝ), Cyl.new k R L n = .ok s → volume (cylSet n k R (2 * L) \ nearSet c t.targetSize) ≠ 0 →
      (∃ c' ε, 0 < ε ∧ nearSet c' ε ⊆ cylSet n k R L ∩ nearSet c t.targetSize) → b * Real.sqrt (2 * D * dt) ≤ L →
      b * Real.sqrt (2 * D * dt) * Real.sqrt k ≤ 2 * R → SameAxes k c c' → same (s.ops rng)) := by
  have := h.prob
  have := hν.prob
  have := stepLaw_prob n (ν := ν) (Real.sqrt (2 * D * dt))
  obtain ⟨a1, a2, a3⟩ := C100_systems rng P ν b h hν n c t ht D dt hD hdt
  obtain ⟨b1, b2, b3⟩ := C100_systems rng P ν b h hν n c' t' ht' D dt hD hdt
  obtain ⟨r1, r2, r3⟩ := C73_systems rng P h
  obtain ⟨w1, w2, w3⟩ := C77_walls rng
  refine ⟨fun bc L s hs hpos hin hstep hc => ?_, fun R s hs hpos hin hstep hc => ?_, fun k R L s hs hpos hin hstep hstep' hc => ?_⟩
  · have w := w1 bc L n s hs
    have y := a1 bc L s hs hpos hin hstep
    have y' := b1 bc L s hs
    have room : Room P (s.ops rng) n (cubeSet n L) := by
      obtain ⟨hL, hn, rfl, -⟩ := new_cubic hs
      exact r1 _ hL
    obtain ⟨hL, hn, rfl, -⟩ := new_cubic hs
    obtain ⟨p, hp, hc⟩ := hc
    obtain ⟨e, he, e1, -⟩ := sign_of (q := fun _ => True) (fun i _ => hc i)
    obtain rfl : signedPerm p e c = c' := by funext i; exact (e1 i trivial).symm
    obtain ⟨l1, l2⟩ := law_axes he (step_axes hsym (Real.sqrt (2 * D * dt)) p he) w.measurable w.room_measurable room.measurable room.volume_finite (cubePut_signed bc _ hL p he hp)
      (cube_signed _ p he) (cube_signed _ p he) c t.targetSize hpos
    rw [hr] at y'
    exact same_finds y (y' (by rw [l2]; exact hpos) (axes_part he (cube_signed _ p he) hin) hstep) l1
  · have w := w2 R n s hs
    have y := a2 R s hs hpos hin hstep
    have y' := b2 R s hs
    have hR : 0 < R ∧ s = ⟨.continuousCircular, .reflection, R, n⟩ := by
      unfold Circ.new at hs
      split at hs
      · simp at hs
      · rename_i hc
        simp only [fl_le, fl_zero, Bool.or_eq_true, decide_eq_true_eq, not_or, not_le, beq_iff_eq] at hc
        simp only [Res.ok.injEq] at hs
        exact ⟨hc.1, hs.symm⟩
    obtain ⟨hR, rfl⟩ := hR
    have room : Room P (Circ.ops rng ⟨.continuousCircular, .reflection, R, n⟩) n (ballSet n R) := r2 _ hR
    obtain ⟨p, hp, hc⟩ := hc
    obtain ⟨e, he, e1, -⟩ := sign_of (q := fun _ => True) (fun i _ => hc i)
    obtain rfl : signedPerm p e c = c' := by funext i; exact (e1 i trivial).symm
    have hball : ∀ x, signedPerm p e x ∈ ballSet n R ↔ x ∈ ballSet n R := by
      rw [ballSet_cyl R 1]; exact cyl_signed n R 1 p he hp
    obtain ⟨l1, l2⟩ := law_axes he (step_axes hsym (Real.sqrt (2 * D * dt)) p he) w.measurable w.room_measurable room.measurable room.volume_finite
      (fun y => by rw [ballPut_cyl R 1, ballPut_cyl R 1]; exact cylPut_signed n R 1 one_pos p he hp y) hball hball c t.targetSize hpos
    rw [hr] at y'
    exact same_finds y (y' (by rw [l2]; exact hpos) (axes_part he hball hin) hstep) l1
  · have w := w3 k R L n s hs
    have y := a3 k R L s hs hpos hin hstep hstep'
    have y' := b3 k R L s hs
    obtain ⟨hR, hL, hk, hn, e⟩ := new_cyl hs
    subst e
    have room : Room P (Cyl.ops rng ⟨.continuousCylindrical k, .mixed k, R, L, n⟩) n (cylSet n k R (2 * L)) := r3 _ k rfl hk hR hL
    obtain ⟨p, hp, hc⟩ := hc
    obtain ⟨e, he, e1, -⟩ := sign_of (q := fun _ => True) (fun i _ => hc i)
    obtain rfl : signedPerm p e c = c' := by funext i; exact (e1 i trivial).symm
    obtain ⟨l1, l2⟩ := law_axes he (step_axes hsym (Real.sqrt (2 * D * dt)) p he) w.measurable w.room_measurable room.measurable room.volume_finite
      (cylPut_signed k R L hL p he hp) (cyl_signed k R L p he hp) (cyl_signed k R (2 * L) p he hp) c t.targetSize hpos
    rw [hr] at y'
    exact same_finds y (y' (by rw [l2]; exact hpos) (axes_part he (cyl_signed k R L p he hp) hin) hstep hstep') l1

/-- In a cube with periodic directions, and steps not longer than its side: a target that does not reach over the ends may be moved along
the periodic directions, as long as it does not reach over the ends afterwards: every search for either target finds it, all results have
the same chances, the distribution of the time is the same and the means of ensembles approach the same number. -/
theorem C121_periodic (rng : RngOps G ℝ) (P : Measure G) (ν : Measure ℝ) (b : ℝ) (h : IndepRng rng P ν) (hν : BoundedSpread ν b)
    (n : Nat) (c c' : Fin n → ℝ) (t t' : BulkTarget ℝ)
    (ht : t.targetPos = List.ofFn c) (ht' : t'.targetPos = List.ofFn c') (hr : t'.targetSize = t.targetSize) (D dt : ℝ) (hD : 0 < D) (hdt : 0 < dt)
    (bc : BoundaryCond) (L : ℝ) (s : Cubic ℝ) (hs : Cubic.new bc L n = .ok s) (hpos : volume (cubeSet n L \ nearSet c t.targetSize) ≠ 0)
    (hin : ∃ c' ε, 0 < ε ∧ nearSet c' ε ⊆ cubeSet n L ∩ nearSet c t.targetSize) (hstep : b * Real.sqrt (2 * D * dt) ≤ 2 * L)
    (hmove : ∀ i, c' i = c i ∨ (¬ bc.mirrored i ∧ |c i| + t.targetSize ≤ L ∧ |c' i| + t.targetSize ≤ L)) :
    SameSearches P rng (s.ops rng) t t' D dt ∧
      ∃ ρ, FindsTarget P (fun loops g => oneSearcher rng (s.ops rng) t.ops loops loops loops (.brownian D) dt g) dt ρ ∧
        FindsTarget P (fun loops g => oneSearcher rng (s.ops rng) t'.ops loops loops loops (.brownian D) dt g) dt ρ := by
  have := h.prob
  have := hν.prob
  have hμ := stepLaw_prob n (ν := ν) (Real.sqrt (2 * D * dt))
  have w := (C77_walls rng).1 bc L n s hs
  have y := (C100_systems rng P ν b h hν n c t ht D dt hD hdt).1 bc L s hs hpos hin hstep
  have y' := (C100_systems rng P ν b h hν n c' t' ht' D dt hD hdt).1 bc L s hs
  obtain ⟨hL, hn, rfl, -⟩ := new_cubic hs
  obtain ⟨c0, ε, hε, hsub⟩ := hin
  have hr0 : 0 < t.targetSize := by
    have h1 : c0 ∈ nearSet c0 ε := by simp only [nearSet, Set.mem_ofPred_eq]; simpa using hε
    have h2 : Real.sqrt _ < t.targetSize := (hsub h1).2
    exact lt_of_le_of_lt (Real.sqrt_nonneg _) h2
  have hnear : ∀ (x q : Fin n → ℝ) (r : ℝ), x ∈ nearSet q r → ∀ i, |x i - q i| < r := by
    intro x q r hx i
    refine lt_of_le_of_lt ?_ hx
    rw [← Real.sqrt_sq_eq_abs]
    exact Real.sqrt_le_sqrt (Finset.single_le_sum (f := fun i => (x i - q i) ^ 2) (fun i _ => sq_nonneg _) (Finset.mem_univ i))
  let a : Fin n → ℝ := fun i => c' i - c i
  have hcase : ∀ i, a i = 0 ∨ (¬ bc.mirrored i ∧ |c i| + t.targetSize ≤ L ∧ |c' i| + t.targetSize ≤ L) := fun i =>
    (hmove i).imp_left fun h => by simp [a, h]
  have ha : ∀ i, |a i| ≤ 2 * L := by
    intro i
    rcases hcase i with h | ⟨-, h1, h2⟩
    · rw [h]; simp; positivity
    · exact (abs_sub _ _).trans (by linarith)
  have hcoord : ∀ x ∈ cubeSet n L, ∀ i, |x i + a i - c' i| < t.targetSize → periodicPut L (x i + a i) = x i + a i := by
    intro x hx i hi
    refine periodicPut_inside ?_
    rcases hcase i with h | ⟨-, h1, h2⟩
    · rw [h, add_zero]; exact hx i
    · calc |x i + a i| = |(x i + a i - c' i) + c' i| := by ring_nf
        _ ≤ |x i + a i - c' i| + |c' i| := abs_add_le _ _
        _ ≤ L := by linarith
  have hback : ∀ x ∈ cubeSet n L, ∀ i, |periodicPut L (x i + a i) - c' i| < t.targetSize → periodicPut L (x i + a i) = x i + a i := by
    intro x hx i hi
    rcases hcase i with h | ⟨-, h1, h2⟩
    · rw [h, add_zero]; exact periodicPut_inside (hx i)
    · obtain ⟨m, hm⟩ := periodicPut_mod L (x i + a i)
      have h3 : |periodicPut L (x i + a i) - a i| < L := by
        calc |periodicPut L (x i + a i) - a i| = |(periodicPut L (x i + a i) - c' i) + c i| := by simp only [a]; ring_nf
          _ ≤ |periodicPut L (x i + a i) - c' i| + |c i| := abs_add_le _ _
          _ < L := by linarith
      rcases same_or_ends hL h3.le (hx i) (m := m) (by rw [hm]; ring) with h4 | ⟨h4, -⟩
      · linarith
      · exact absurd h4 (by linarith)
  have hAA : ∀ x ∈ cubeSet n L, shiftIn L a x ∈ nearSet c' t.targetSize ↔ x ∈ nearSet c t.targetSize := by
    intro x hx
    constructor
    · intro h1
      have h2 := hnear _ _ _ h1
      have e : shiftIn L a x = fun i => x i + a i := by funext i; exact hback x hx i (h2 i)
      rw [e] at h1
      have e2 : ∑ i, (x i + a i - c' i) ^ 2 = ∑ i, (x i - c i) ^ 2 := Finset.sum_congr rfl fun i _ => by simp only [a]; ring
      simp only [nearSet, Set.mem_ofPred_eq, e2] at h1
      exact h1
    · intro h1
      have h2 := hnear _ _ _ h1
      have e : shiftIn L a x = fun i => x i + a i := by
        funext i
        refine hcoord x hx i ?_
        have : x i + a i - c' i = x i - c i := by simp only [a]; ring
        rw [this]; exact h2 i
      have e2 : ∑ i, (x i + a i - c' i) ^ 2 = ∑ i, (x i - c i) ^ 2 := Finset.sum_congr rfl fun i _ => by simp only [a]; ring
      rw [e]
      simp only [nearSet, Set.mem_ofPred_eq, e2]
      exact h1
  have hsteps : ∀ᵐ z ∂stepLaw n ν (Real.sqrt (2 * D * dt)), ∀ i, |z i| ≤ 2 * L := by
    filter_upwards [step_bounded hν n (Real.sqrt_nonneg (2 * D * dt))] with z hz i
    exact (hz i).trans hstep
  obtain ⟨l1, l2⟩ := shift_law bc hL ha (fun i hm => (hcase i).resolve_right fun h => h.1 hm) hsteps w.measurable (near_meas c t.targetSize) (near_meas c' t.targetSize) hAA hpos
  rw [hr] at y'
  refine same_finds y (y' (by rw [l2]; exact hpos) ⟨fun i => c0 i + a i, ε, hε, fun z hz => ?_⟩ hstep) l1
  have h1 : (fun i => z i - a i) ∈ nearSet c0 ε := by
    have e : ∑ i, (z i - a i - c0 i) ^ 2 = ∑ i, (z i - (c0 i + a i)) ^ 2 := Finset.sum_congr rfl fun i _ => by ring
    simp only [nearSet, Set.mem_ofPred_eq] at hz ⊢
    rw [e]; exact hz
  obtain ⟨h2, h3⟩ := hsub h1
  have h4 : z ∈ nearSet c' t.targetSize := by
    have e : ∑ i, (z i - a i - c i) ^ 2 = ∑ i, (z i - c' i) ^ 2 := Finset.sum_congr rfl fun i _ => by simp only [a]; ring
    simp only [nearSet, Set.mem_ofPred_eq, e] at h3 ⊢
    exact h3
  refine ⟨fun i => ?_, h4⟩
  rcases hcase i with h | ⟨-, h5, h6⟩
  · have := h2 i
    simp only [h, sub_zero] at this
    exact this
  · calc |z i| = |(z i - c' i) + c' i| := by ring_nf
      _ ≤ |z i - c' i| + |c' i| := abs_add_le _ _
      _ ≤ L := by linarith [hnear _ _ _ h4 i]

/-- A room around 0 that is larger than a target that does not contain 0. -/
private theorem off_centre {n : Nat} {S : Set (Fin n → ℝ)} {c : Fin n → ℝ} {r : ℝ} (w : Fin n → ℝ) (j : Fin n) (hw : ∀ i, 0 < w i) (hbox : openBox w ⊆ S)
    (hc : r ≤ c j) : volume (S \ nearSet c r) ≠ 0 := by
  have hopen : IsOpen (openBox w ∩ {x | x j < 0}) := (openBox_open _).inter (isOpen_lt (continuous_apply j) continuous_const)
  refine ne_of_gt (lt_of_lt_of_le (hopen.measure_pos volume ⟨fun i => -w i / 2, fun i => ?_, ?_⟩) (measure_mono ?_))
  · have := hw i
    show |-w i / 2| < w i
    rw [abs_lt]; constructor <;> linarith
  · have := hw j
    show -w j / 2 < 0
    linarith
  · rintro x ⟨h1, h2⟩
    refine ⟨hbox h1, fun h3 => ?_⟩
    have h2 : x j < 0 := h2
    have h3 : Real.sqrt (∑ i, (x i - c i) ^ 2) < r := h3
    have h4 : |x j - c j| ≤ Real.sqrt (∑ i, (x i - c i) ^ 2) := by
      rw [← Real.sqrt_sq_eq_abs]
      exact Real.sqrt_le_sqrt (Finset.single_le_sum (f := fun i => (x i - c i) ^ 2) (fun i _ => sq_nonneg _) (Finset.mem_univ j))
    have := neg_le_abs (x j - c j)
    linarith

/-- A target of radius 1/4 in a disc of radius 1, at (1/2, 0) or at (3/10, 4/10). -/
example : SameSearches tapeLaw tapeRng (Circ.ops tapeRng ⟨.continuousCircular, .reflection, 1, 2⟩)
    (BulkTarget.new [1 / 2, 0] (1 / 4)) (BulkTarget.new [3 / 10, 4 / 10] (1 / 4)) 1 (1 / 100) := by
  refine (C121_systems tapeRng tapeLaw tape_ideal 2 ![1 / 2, 0] ![3 / 10, 4 / 10] (BulkTarget.new [1 / 2, 0] (1 / 4)) (BulkTarget.new [3 / 10, 4 / 10] (1 / 4)) (by simp [BulkTarget.new]) (by simp [BulkTarget.new]) rfl
    1 (1 / 100) (by norm_num) (by norm_num)).2.1 1 _ (by unfold Circ.new; rw [if_neg (by simp)]) ?_ ?_
  · refine off_centre (fun _ => 1 / 2) 0 (fun _ => by norm_num) (fun x hx => ?_) (by simp [BulkTarget.new]; norm_num)
    have h0 := abs_lt.1 (hx 0)
    have h1 := abs_lt.1 (hx 1)
    show ∑ i, x i ^ 2 ≤ 1 ^ 2
    rw [Fin.sum_univ_two]
    nlinarith
  · simp only [SameInBall, Fin.sum_univ_two]
    norm_num

/-- A target of radius 1/4 in a cylinder of radius 2 and length 10, at (1, 0, 3) or at (0, -1, -3). -/
example : SameSearches tapeLaw tapeRng (Cyl.ops tapeRng ⟨.continuousCylindrical 2, .mixed 2, 2, 5, 3⟩)
    (BulkTarget.new [1, 0, 3] (1 / 4)) (BulkTarget.new [0, -1, -3] (1 / 4)) 1 (1 / 100) := by
  refine (C121_systems tapeRng tapeLaw tape_ideal 3 ![1, 0, 3] ![0, -1, -3] (BulkTarget.new [1, 0, 3] (1 / 4)) (BulkTarget.new [0, -1, -3] (1 / 4)) (by simp [BulkTarget.new]) (by simp [BulkTarget.new]) rfl
    1 (1 / 100) (by norm_num) (by norm_num)).2.2 2 2 5 _ (by unfold Cyl.new; rw [if_neg (by simp)]) ?_ ⟨?_, 1, fun _ => Iff.rfl, fun i hi => ?_⟩
  · refine off_centre (fun _ => 1) 0 (fun _ => by norm_num) (fun x hx => ?_) (by simp [BulkTarget.new]; norm_num)
    have h0 := abs_lt.1 (hx 0)
    have h1 := abs_lt.1 (hx 1)
    refine ⟨?_, fun i _ => (hx i).le.trans (by norm_num)⟩
    rw [Fin.sum_univ_three]
    simp
    nlinarith
  · simp [axisSq, Fin.sum_univ_three]
  · fin_cases i
    · simp at hi
    · simp at hi
    · simp

private theorem near_part {n : Nat} {S : Set (Fin n → ℝ)} {c : Fin n → ℝ} {r : ℝ} (hr : 0 < r) (h : ∀ x, (∀ i, |x i - c i| < r) → x ∈ S) :
    ∃ c' ε, 0 < ε ∧ nearSet c' ε ⊆ S ∩ nearSet c r := by
  refine ⟨c, r, hr, fun x hx => ⟨h x fun i => lt_of_le_of_lt ?_ hx, hx⟩⟩
  rw [← Real.sqrt_sq_eq_abs]
  exact Real.sqrt_le_sqrt (Finset.single_le_sum (f := fun i => (x i - c i) ^ 2) (fun i _ => sq_nonneg _) (Finset.mem_univ i))

private theorem cut_symmetric (b : ℝ) (hb : 0 < b) : ((gaussianReal 0 1).map fun z => max (-b) (min b z)).map (fun x => -x) = (gaussianReal 0 1).map fun z => max (-b) (min b z) := by
  have hm : Measurable fun z : ℝ => max (-b) (min b z) := by fun_prop
  have h1 : (gaussianReal 0 1).map (fun x => -x) = gaussianReal 0 1 := by rw [gaussianReal_map_neg, neg_zero]
  rw [Measure.map_map measurable_neg hm]
  conv_rhs => rw [← h1]
  rw [Measure.map_map hm measurable_neg]
  congr 1
  funext z
  simp only [Function.comp]
  rcases le_total z (-b) with h | h
  · rw [min_eq_right (by linarith), max_eq_left h, min_eq_left (by linarith), max_eq_right (by linarith)]; ring
  · rcases le_total z b with h' | h'
    · rw [min_eq_right h', max_eq_right h, min_eq_right (by linarith), max_eq_right (by linarith)]
    · rw [min_eq_left h', max_eq_right (by linarith), min_eq_right (by linarith), max_eq_left (by linarith)]

/-- A target of radius 1/4 in a square of side 2, with normal numbers cut at 25: at (1/2, 0) or at (0, -1/2), with mirrors; and at
(1/2, 0) or (-3/4, 1/3), without. -/
example : SameSearches tapeLaw (cutRng tapeRng 25) (Cubic.ops (cutRng tapeRng 25) ⟨.continuousRectangular, .reflection, 1, 2⟩)
      (BulkTarget.new [1 / 2, 0] (1 / 4)) (BulkTarget.new [0, -1 / 2] (1 / 4)) 1 (1 / 5000) ∧
    SameSearches tapeLaw (cutRng tapeRng 25) (Cubic.ops (cutRng tapeRng 25) ⟨.continuousRectangular, .periodic, 1, 2⟩)
      (BulkTarget.new [1 / 2, 0] (1 / 4)) (BulkTarget.new [-3 / 4, 1 / 3] (1 / 4)) 1 (1 / 5000) := by
  have hoff : volume (cubeSet 2 1 \ nearSet ![1 / 2, 0] (1 / 4)) ≠ 0 :=
    off_centre (fun _ => 1) 0 (fun _ => by norm_num) (fun x hx i => (hx i).le) (by simp; norm_num)
  have hpart : ∃ c' ε, 0 < ε ∧ nearSet c' ε ⊆ cubeSet 2 1 ∩ nearSet ![1 / 2, 0] (1 / 4) := near_part (by norm_num) fun x hx i => by
    have h := abs_lt.1 (hx i)
    rw [abs_le]
    fin_cases i <;> simp at h ⊢ <;> constructor <;> linarith [h.1, h.2]
  constructor
  · refine ((C121_bounded (cutRng tapeRng 25) tapeLaw _ 25 (cut_indep tape_ideal 25) (C100_cut_normal (by norm_num)) (cut_symmetric 25 (by norm_num)) 2
      ![1 / 2, 0] ![0, -1 / 2] (BulkTarget.new [1 / 2, 0] (1 / 4)) (BulkTarget.new [0, -1 / 2] (1 / 4)) (by simp [BulkTarget.new]) (by simp [BulkTarget.new]) rfl 1 (1 / 5000) (by norm_num) (by norm_num)).1 .reflection 1 _
      (by unfold Cubic.new; rw [if_neg (by simp)]) hoff hpart square_step ⟨Equiv.swap 0 1, fun i => by simp [BoundaryCond.mirrored], fun i => ?_⟩).1
    fin_cases i
    · simp
    · simp; norm_num
  · refine (C121_periodic (cutRng tapeRng 25) tapeLaw _ 25 (cut_indep tape_ideal 25) (C100_cut_normal (by norm_num)) 2
      ![1 / 2, 0] ![-3 / 4, 1 / 3] (BulkTarget.new [1 / 2, 0] (1 / 4)) (BulkTarget.new [-3 / 4, 1 / 3] (1 / 4)) (by simp [BulkTarget.new]) (by simp [BulkTarget.new]) rfl 1 (1 / 5000) (by norm_num) (by norm_num) .periodic 1 _
      (by unfold Cubic.new; rw [if_neg (by simp)]) hoff hpart square_step fun i => .inr ⟨by simp [BoundaryCond.mirrored], ?_⟩).1
    fin_cases i
    · simp [BulkTarget.new, abs_of_neg, abs_of_pos]; norm_num [abs_of_neg, abs_of_pos]
    · simp [BulkTarget.new, abs_of_neg, abs_of_pos]; norm_num [abs_of_neg, abs_of_pos]

end Moledyn.Props
