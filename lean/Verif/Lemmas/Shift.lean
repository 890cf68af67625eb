import Verif.Lemmas.Symmetry
/-
Lemmas about shifting a target along the periodic directions of a cube.
-/
namespace Moledyn
open MeasureTheory ProbabilityTheory
open scoped ENNReal
open Props (cubeSet)
variable {d : Nat}

/-- shifting a point of a periodic interval. -/
noncomputable def shiftIn (L : ℝ) (a x : Fin d → ℝ) : Fin d → ℝ := fun i => periodicPut L (x i + a i)

theorem periodicPut_measurable (L : ℝ) : Measurable (periodicPut L) := by
  unfold periodicPut
  refine Measurable.ite (measurableSet_lt measurable_const measurable_id) (by fun_prop) ?_
  exact Measurable.ite (measurableSet_lt measurable_id measurable_const) (by fun_prop) (by fun_prop)

theorem shiftIn_measurable (L : ℝ) (a : Fin d → ℝ) : Measurable (shiftIn L a) :=
  measurable_pi_lambda _ fun i => (periodicPut_measurable L).comp (by fun_prop)

theorem periodicPut_within {L x : ℝ} (h : |x| ≤ 3 * L) : |periodicPut L x| ≤ L := by
  unfold periodicPut
  rw [abs_le] at *
  split_ifs <;> constructor <;> linarith [h.1, h.2]

theorem periodicPut_inside {L x : ℝ} (h : |x| ≤ L) : periodicPut L x = x := by
  unfold periodicPut
  rw [abs_le] at h
  rw [if_neg (by linarith [h.2]), if_neg (by linarith [h.1])]

theorem periodicPut_mod (L x : ℝ) : ∃ m : ℤ, periodicPut L x = x + m * (2 * L) := by
  unfold periodicPut
  split_ifs
  · exact ⟨-1, by push_cast; ring⟩
  · exact ⟨1, by push_cast; ring⟩
  · exact ⟨0, by push_cast; ring⟩

/-- two points of a periodic interval that are the same point of the circle are equal, or both are ends. -/
theorem same_or_ends {L x y : ℝ} (hL : 0 < L) (hx : |x| ≤ L) (hy : |y| ≤ L) {m : ℤ} (h : x = y + m * (2 * L)) : x = y ∨ (|x| = L ∧ |y| = L) := by
  rw [abs_le] at hx hy
  have h1 : (m : ℝ) * (2 * L) ≤ 2 * L := by linarith
  have h2 : -(2 * L) ≤ (m : ℝ) * (2 * L) := by linarith
  have h3 : (m : ℝ) ≤ 1 := by by_contra h; push Not at h; nlinarith
  have h4 : (-1 : ℝ) ≤ m := by by_contra h; push Not at h; nlinarith
  have h3 : m ≤ 1 := by exact_mod_cast h3
  have h4 : -1 ≤ m := by exact_mod_cast h4
  have : m = -1 ∨ m = 0 ∨ m = 1 := by omega
  rcases this with rfl | rfl | rfl
  · right
    push_cast at h
    have e1 : x = -L := by linarith
    have e2 : y = L := by linarith
    rw [e1, e2]
    exact ⟨by rw [abs_neg, abs_of_pos hL], abs_of_pos hL⟩
  · left; simpa using h
  · right
    push_cast at h
    have e1 : x = L := by linarith
    have e2 : y = -L := by linarith
    rw [e1, e2]
    exact ⟨abs_of_pos hL, by rw [abs_neg, abs_of_pos hL]⟩

/-- shifting does not change the volume: one direction. -/
theorem shift_line {L a : ℝ} (hL : 0 < L) (ha : |a| ≤ 2 * L) :
    MeasurePreserving (fun x => periodicPut L (x + a)) (volume.restrict (Set.Icc (-L) L)) (volume.restrict (Set.Icc (-L) L)) := by
  have hm : Measurable fun x => periodicPut L (x + a) := (periodicPut_measurable L).comp (by fun_prop)
  refine ⟨hm, ?_⟩
  have hadd : ∀ b : ℝ, ∀ s : Set ℝ, MeasurableSet s → (volume.restrict ((· + b) ⁻¹' s)).map (· + b) = volume.restrict s := by
    intro b s hs
    rw [← Measure.restrict_map (by fun_prop) hs]
    congr 1
    exact map_add_right_eq_self volume b
  have hcong : ∀ (b : ℝ) (s t : Set ℝ), MeasurableSet s → MeasurableSet t → s = (· + b) ⁻¹' t → (∀ x ∈ s, periodicPut L (x + a) = x + b) →
      (volume.restrict s).map (fun x => periodicPut L (x + a)) = volume.restrict t := by
    intro b s t hs ht hst hx
    rw [← hadd b t ht, ← hst]
    exact Measure.map_congr ((ae_restrict_iff' hs).2 (Filter.Eventually.of_forall hx))
  obtain ⟨ha1, ha2⟩ := abs_le.1 ha
  have hu : ∀ {s t : Set ℝ}, MeasurableSet t → Disjoint s t → volume.restrict (s ∪ t) = volume.restrict s + volume.restrict t :=
    fun ht hd => Measure.restrict_union hd ht
  rcases le_total 0 a with h0 | h0
  · have e1 : Set.Icc (-L) L = Set.Icc (-L) (L - a) ∪ Set.Ioc (L - a) L := (Set.Icc_union_Ioc_eq_Icc (by linarith) (by linarith)).symm
    have e2 : Set.Icc (-L) L = Set.Ico (-L) (a - L) ∪ Set.Icc (a - L) L := (Set.Ico_union_Icc_eq_Icc (by linarith) (by linarith)).symm
    have h1 := hcong a (Set.Icc (-L) (L - a)) (Set.Icc (a - L) L) measurableSet_Icc measurableSet_Icc
      (by ext x; simp only [Set.mem_Icc, Set.mem_preimage]; constructor <;> rintro ⟨h, h'⟩ <;> constructor <;> linarith)
      (fun x hx => by rw [periodicPut_inside (abs_le.2 ⟨by linarith [hx.1], by linarith [hx.2]⟩)])
    have h2 := hcong (a - 2 * L) (Set.Ioc (L - a) L) (Set.Ioc (-L) (a - L)) measurableSet_Ioc measurableSet_Ioc
      (by ext x; simp only [Set.mem_Ioc, Set.mem_preimage]; constructor <;> rintro ⟨h, h'⟩ <;> constructor <;> linarith)
      (fun x hx => by unfold periodicPut; rw [if_pos (by linarith [hx.1])]; ring)
    have h3 : volume.restrict (Set.Ioc (-L) (a - L)) = volume.restrict (Set.Ico (-L) (a - L)) := Measure.restrict_congr_set Ico_ae_eq_Ioc.symm
    conv_lhs => rw [e1]
    conv_rhs => rw [e2]
    rw [hu measurableSet_Ioc (Set.disjoint_left.2 fun x hx hx' => by linarith [hx.2, hx'.1]),
      hu measurableSet_Icc (Set.disjoint_left.2 fun x hx hx' => by linarith [hx.2, hx'.1]), Measure.map_add _ _ hm, h1, h2, h3, add_comm]
  · have e1 : Set.Icc (-L) L = Set.Ico (-L) (-L - a) ∪ Set.Icc (-L - a) L := (Set.Ico_union_Icc_eq_Icc (by linarith) (by linarith)).symm
    have e2 : Set.Icc (-L) L = Set.Icc (-L) (L + a) ∪ Set.Ioc (L + a) L := (Set.Icc_union_Ioc_eq_Icc (by linarith) (by linarith)).symm
    have h1 := hcong a (Set.Icc (-L - a) L) (Set.Icc (-L) (L + a)) measurableSet_Icc measurableSet_Icc
      (by ext x; simp only [Set.mem_Icc, Set.mem_preimage]; constructor <;> rintro ⟨h, h'⟩ <;> constructor <;> linarith)
      (fun x hx => by rw [periodicPut_inside (abs_le.2 ⟨by linarith [hx.1], by linarith [hx.2]⟩)])
    have h2 := hcong (a + 2 * L) (Set.Ico (-L) (-L - a)) (Set.Ico (L + a) L) measurableSet_Ico measurableSet_Ico
      (by ext x; simp only [Set.mem_Ico, Set.mem_preimage]; constructor <;> rintro ⟨h, h'⟩ <;> constructor <;> linarith)
      (fun x hx => by unfold periodicPut; rw [if_neg (by linarith [hx.2]), if_pos (by linarith [hx.2])]; ring)
    have h3 : volume.restrict (Set.Ico (L + a) L) = volume.restrict (Set.Ioc (L + a) L) := Measure.restrict_congr_set Ico_ae_eq_Ioc
    conv_lhs => rw [e1]
    conv_rhs => rw [e2]
    rw [hu measurableSet_Icc (Set.disjoint_left.2 fun x hx hx' => by linarith [hx.2, hx'.1]),
      hu measurableSet_Ioc (Set.disjoint_left.2 fun x hx hx' => by linarith [hx.2, hx'.1]), Measure.map_add _ _ hm, h1, h2, h3, add_comm]

theorem cubeSet_pi (L : ℝ) : cubeSet d L = Set.univ.pi fun _ => Set.Icc (-L) L := by
  ext x; simp only [cubeSet, Set.mem_ofPred_eq, Set.mem_univ_pi, Set.mem_Icc, abs_le]

theorem shift_volume {L : ℝ} (hL : 0 < L) {a : Fin d → ℝ} (ha : ∀ i, |a i| ≤ 2 * L) :
    (volume.restrict (cubeSet d L)).map (shiftIn L a) = volume.restrict (cubeSet d L) := by
  have e : volume.restrict (cubeSet d L) = Measure.pi fun _ : Fin d => volume.restrict (Set.Icc (-L) L) := by
    rw [cubeSet_pi, volume_pi, Measure.restrict_pi_pi]
  rw [e]
  exact (measurePreserving_pi _ _ fun i => shift_line hL (ha i)).map_eq

/-- the walls of a cube map null sets to null sets backwards. -/
theorem cubePut_null (bc : BoundaryCond) (L : ℝ) {N : Set (Fin d → ℝ)} (hN : volume N = 0) : volume (cubePut bc L ⁻¹' N) = 0 := by
  let g : (Fin d → Bool) × (Fin d → ℤ) → (Fin d → ℝ) → Fin d → ℝ := fun q y => signedPerm 1 (fun i => if q.1 i then 1 else -1) y + fun i => (q.2 i : ℝ) * (2 * L)
  have hg : ∀ q, MeasurePreserving (g q) volume volume := fun q =>
    (measurePreserving_add_right volume _).comp (signedPerm_volume 1 _ fun i => by by_cases h : q.1 i <;> simp [h])
  have hsub : cubePut bc L ⁻¹' N ⊆ ⋃ q, g q ⁻¹' N := by
    intro y hy
    have hex : ∀ i, ∃ q : Bool × ℤ, cubePut bc L y i = (if q.1 then 1 else -1) * y i + q.2 * (2 * L) := by
      intro i
      unfold cubePut
      split_ifs
      · unfold mirrorPut
        split_ifs
        · exact ⟨(false, 1), by push_cast; simp; ring⟩
        · exact ⟨(false, -1), by push_cast; simp; ring⟩
        · exact ⟨(true, 0), by simp⟩
      · obtain ⟨m, hm⟩ := periodicPut_mod L (y i)
        exact ⟨(true, m), by rw [hm]; simp⟩
    choose q hq using hex
    refine Set.mem_iUnion.2 ⟨(fun i => (q i).1, fun i => (q i).2), ?_⟩
    have e : g (fun i => (q i).1, fun i => (q i).2) y = cubePut bc L y := by
      funext i
      simp only [g, Pi.add_apply, signedPerm, hq i, Equiv.Perm.coe_one, id_eq]
    show g _ y ∈ N
    rw [e]; exact hy
  refine measure_mono_null hsub (measure_iUnion_null fun q => ?_)
  exact (hg q).quasiMeasurePreserving.preimage_null hN

/-- Shifting a target along the periodic directions of a cube. -/
theorem shift_law (bc : BoundaryCond) {L : ℝ} (hL : 0 < L) {a : Fin d → ℝ} (ha : ∀ i, |a i| ≤ 2 * L) (hbc : ∀ i : Fin d, bc.mirrored i → a i = 0)
    {μ : Measure (Fin d → ℝ)} [IsProbabilityMeasure μ] (hstep : ∀ᵐ z ∂μ, ∀ i, |z i| ≤ 2 * L) (hput : Measurable (cubePut (d := d) bc L))
    {A A' : Set (Fin d → ℝ)} (hA : MeasurableSet A) (hA' : MeasurableSet A') (hAA : ∀ x ∈ cubeSet d L, shiftIn L a x ∈ A' ↔ x ∈ A)
    (hpos : volume (cubeSet d L \ A) ≠ 0) :
    searchLaw (cubePut bc L) (cubeSet d L) A' μ (uniformLaw (cubeSet d L \ A')) = searchLaw (cubePut bc L) (cubeSet d L) A μ (uniformLaw (cubeSet d L \ A)) ∧
      volume (cubeSet d L \ A') = volume (cubeSet d L \ A) := by
  have hS : MeasurableSet (cubeSet d L) := Props.cube_measurable d L
  have hτ := shiftIn_measurable L a
  have hmove : Measurable fun p : (Fin d → ℝ) × (Fin d → ℝ) => cubePut bc L (p.1 + p.2) := hput.comp (measurable_fst.add measurable_snd)
  have hτS : ∀ x ∈ cubeSet d L, shiftIn L a x ∈ cubeSet d L := fun x hx i =>
    periodicPut_within ((abs_add_le _ _).trans (by linarith [hx i, ha i]))
  obtain ⟨u1, u2⟩ := uniformLaw_image hτ (shift_volume hL ha) hA hA' ((ae_restrict_iff' hS).2 (Filter.Eventually.of_forall fun x hx => propext (hAA x hx)))
  refine ⟨?_, u2⟩
  rw [u1]
  have hin : ∀ π : Measure (Fin d → ℝ), IsFiniteMeasure π ∧ π ≪ volume ∧ π (cubeSet d L)ᶜ = 0 →
      (∀ᵐ p ∂π.prod μ, p.1 ∈ cubeSet d L ∧ ∀ i, |p.2 i| ≤ 2 * L) ∧ walked (cubePut bc L) μ π (cubeSet d L)ᶜ = 0 := by
    rintro π ⟨hfin, hac, hπ⟩
    have h1 : ∀ᵐ p ∂π.prod μ, p.1 ∈ cubeSet d L ∧ ∀ i, |p.2 i| ≤ 2 * L := by
      have h2 : ∀ᵐ x ∂π, x ∈ cubeSet d L := by rw [ae_iff]; exact hπ
      filter_upwards [Measure.quasiMeasurePreserving_fst.ae h2, Measure.quasiMeasurePreserving_snd.ae hstep] with p h3 h4
      exact ⟨h3, h4⟩
    refine ⟨h1, ?_⟩
    unfold walked
    rw [Measure.map_apply hmove hS.compl]
    have h2 : ∀ᵐ p ∂π.prod μ, cubePut bc L (p.1 + p.2) ∈ cubeSet d L := by
      filter_upwards [h1] with p hp
      exact (Props.C77_safe_steps d p.1 p.2).1 bc L hL (.inl hp.1) hp.2
    rw [ae_iff] at h2
    exact h2
  have hmem : ∀ π : Measure (Fin d → ℝ), IsFiniteMeasure π ∧ π ≪ volume ∧ π (cubeSet d L)ᶜ = 0 →
      ∀ᵐ x ∂walked (cubePut bc L) μ π, x ∈ cubeSet d L := fun π hπ => by rw [ae_iff]; exact (hin π hπ).2
  refine searchLaw_map hput hτ measurable_id Measure.map_id hS hA' (fun π => IsFiniteMeasure π ∧ π ≪ volume ∧ π (cubeSet d L)ᶜ = 0)
    (fun π h => h.1) (fun π hπ => ?_) (fun π hπ => ?_) (fun π hπ => ?_) (fun π hπ => ?_) ?_
  · have := hπ.1
    refine ⟨by unfold walked; infer_instance, ?_, le_antisymm ((Measure.restrict_apply_le _ _).trans (hin π hπ).2.le) bot_le⟩
    refine Measure.AbsolutelyContinuous.trans Measure.absolutelyContinuous_restrict ?_
    refine Measure.AbsolutelyContinuous.mk fun N hN h0 => ?_
    unfold walked
    rw [Measure.map_apply hmove hN, Measure.prod_apply_symm (hmove hN)]
    refine (lintegral_eq_zero_iff' ?_).2 (Filter.Eventually.of_forall fun z => ?_)
    · exact (measurable_measure_prodMk_right (hmove hN)).aemeasurable
    · refine hπ.2.1 ?_
      have h1 := (measurePreserving_add_right volume z).quasiMeasurePreserving.preimage_null (cubePut_null bc L h0)
      exact h1
  · have := hπ.1
    have h3 : ∀ᵐ p ∂π.prod μ, ∀ i, ∀ m : ℤ, ∀ s : Bool, p.1 i + p.2 i + a i ≠ (if s then L else -L) + m * (2 * L) := by
      simp only [ae_all_iff]
      intro i m s
      generalize (if s then L else -L) + (m : ℝ) * (2 * L) = v
      rw [ae_iff]
      simp only [ne_eq, not_not]
      have hms : MeasurableSet {p : (Fin d → ℝ) × (Fin d → ℝ) | p.1 i + p.2 i + a i = v} :=
        measurableSet_eq_fun (by fun_prop) measurable_const
      rw [Measure.prod_apply_symm hms]
      refine (lintegral_eq_zero_iff' (measurable_measure_prodMk_right hms).aemeasurable).2 (Filter.Eventually.of_forall fun z => ?_)
      refine hπ.2.1 ?_
      have h1 := Measure.pi_hyperplane (fun _ : Fin d => (volume : Measure ℝ)) i (v - a i - z i)
      rw [← volume_pi] at h1
      refine measure_mono_null ?_ h1
      intro x hx
      have hx : x i + z i + a i = v := hx
      show x i = v - a i - z i
      linarith
    filter_upwards [(hin π hπ).1, h3] with p hp h3
    funext i
    have b1 : |p.1 i| ≤ L := hp.1 i
    have b2 := hp.2 i
    have e1 : |p.1 i + p.2 i| ≤ 3 * L := (abs_add_le _ _).trans (by linarith)
    by_cases hm : bc.mirrored i
    · have w : |mirrorPut L (p.1 i + p.2 i)| ≤ L := by
        unfold mirrorPut
        rw [abs_le] at *
        split_ifs <;> constructor <;> linarith [e1.1, e1.2]
      simp only [cubePut, if_pos hm, shiftIn, Pi.add_apply, hbc i hm, add_zero, id_eq, periodicPut_inside b1, periodicPut_inside w]
    · simp only [cubePut, if_neg hm, shiftIn, Pi.add_apply, id_eq]
      have c1 : |periodicPut L (p.1 i + a i)| ≤ L := periodicPut_within ((abs_add_le _ _).trans (by linarith [ha i]))
      have c2 : |periodicPut L (p.1 i + p.2 i)| ≤ L := periodicPut_within e1
      have d1 : |periodicPut L (periodicPut L (p.1 i + a i) + p.2 i)| ≤ L := periodicPut_within ((abs_add_le _ _).trans (by linarith))
      have d2 : |periodicPut L (periodicPut L (p.1 i + p.2 i) + a i)| ≤ L := periodicPut_within ((abs_add_le _ _).trans (by linarith [ha i]))
      obtain ⟨m1, k1⟩ := periodicPut_mod L (p.1 i + a i)
      obtain ⟨m2, k2⟩ := periodicPut_mod L (periodicPut L (p.1 i + a i) + p.2 i)
      obtain ⟨m3, k3⟩ := periodicPut_mod L (p.1 i + p.2 i)
      obtain ⟨m4, k4⟩ := periodicPut_mod L (periodicPut L (p.1 i + p.2 i) + a i)
      rcases same_or_ends hL d1 d2 (m := m1 + m2 - m3 - m4) (by rw [k2, k4, k1, k3]; push_cast; ring) with h | ⟨h, -⟩
      · exact h
      · exfalso
        rcases (abs_eq hL.le).1 h with h | h
        · refine h3 i (-m1 - m2) true ?_
          rw [k2, k1] at h
          push_cast
          simp only [if_true]
          linarith
        · refine h3 i (-m1 - m2) false ?_
          rw [k2, k1] at h
          push_cast
          simp
          linarith
  · filter_upwards [hmem π hπ] with x hx
    exact propext ⟨fun _ => hx, fun _ => hτS x hx⟩
  · filter_upwards [hmem π hπ] with x hx
    exact propext (hAA x hx)
  · have hfin : volume (cubeSet d L \ A) ≠ ∞ := ne_top_of_le_ne_top (Props.cube_vol d hL).2 (measure_mono Set.sdiff_subset)
    refine ⟨?_, ?_, ?_⟩
    · have := uniformLaw_prob hpos hfin
      infer_instance
    · unfold uniformLaw
      exact Measure.AbsolutelyContinuous.trans (Measure.smul_absolutelyContinuous) Measure.absolutelyContinuous_restrict
    · unfold uniformLaw
      rw [Measure.smul_apply, Measure.restrict_apply hS.compl, smul_eq_mul]
      have : (cubeSet d L)ᶜ ∩ (cubeSet d L \ A) = ∅ := by ext x; simp only [Set.mem_inter_iff, Set.mem_compl_iff, Set.mem_sdiff, Set.mem_empty_iff_false]; tauto
      rw [this, measure_empty, mul_zero]

end Moledyn
