import Verif.Spec.Law
import Verif.Model.System
import Mathlib.Probability.StrongLaw
/-
Lemmas about the distribution of what the program draws.
-/
namespace Moledyn
open MeasureTheory ProbabilityTheory
open scoped ENNReal
set_option linter.unusedSectionVars false

variable {G : Type} [MeasurableSpace G]

instance : IsProbabilityMeasure unitLaw := ⟨by simp [unitLaw]⟩

/-! ### one number per coordinate -/

/-- `d` draws, one after the other. -/
def drawsN {X : Type} (draw : G → X × G) : (d : Nat) → G → (Fin d → X) × G
  | 0, g => (Fin.elim0, g)
  | d + 1, g =>
    let s := drawsN draw d (draw g).2
    (Fin.cons (draw g).1 s.1, s.2)

theorem drawsN_mp {X : Type} [MeasurableSpace X] {P : Measure G} [IsProbabilityMeasure P] {μ : Measure X}
    [IsProbabilityMeasure μ] {draw : G → X × G} (h : MeasurePreserving draw P (μ.prod P)) :
    ∀ d, MeasurePreserving (drawsN draw d) P ((Measure.pi fun _ : Fin d => μ).prod P)
  | 0 => by
    have e : drawsN draw 0 = fun g => ((Fin.elim0 : Fin 0 → X), g) := rfl
    rw [e]
    refine ⟨measurable_const.prodMk measurable_id, ?_⟩
    rw [Measure.pi_of_empty (x := (Fin.elim0 : Fin 0 → X)), Measure.dirac_prod]
  | d + 1 => by
    have ih := drawsN_mp h d
    have h1 : MeasurePreserving (Prod.map id (drawsN draw d)) (μ.prod P)
        (μ.prod ((Measure.pi fun _ : Fin d => μ).prod P)) := (MeasurePreserving.id μ).prod ih
    have h2 := (measurePreserving_prodAssoc μ (Measure.pi fun _ : Fin d => μ) P).symm
    have h3 := ((measurePreserving_piFinSuccAbove (fun _ : Fin (d + 1) => μ) 0).symm).prod (MeasurePreserving.id P)
    have h4 := h3.comp (h2.comp (h1.comp h))
    convert h4 using 1
    funext g
    refine Prod.ext ?_ rfl
    simp [drawsN, MeasurableEquiv.piFinSuccAbove, MeasurableEquiv.prodAssoc]
    rfl

theorem sweep_draws (draw : G → ℝ × G) (f : ℝ → ℝ → ℝ) (xs : List ℝ) (g : G) :
    Random.sweep draw f xs g =
      (List.zipWith f xs (List.ofFn (drawsN draw xs.length g).1), (drawsN draw xs.length g).2) := by
  induction xs generalizing g with
  | nil => rfl
  | cons x xs ih =>
    simp only [Random.sweep, List.length_cons, ih, drawsN]
    rw [List.ofFn_succ]
    rfl

/-! ### rejection -/

section
variable {X : Type} [MeasurableSpace X] {P : Measure G} [IsProbabilityMeasure P] {V : Measure X} [IsProbabilityMeasure V]

/-- the states before the proposals. -/
def after (q : G → X × G) (n : Nat) (g : G) : G := (fun g => (q g).2)^[n] g

theorem after_mp {q : G → X × G} (hq : MeasurePreserving q P (V.prod P)) (n : Nat) : MeasurePreserving (after q n) P P := by
  have h : MeasurePreserving (fun g => (q g).2) P P := measurePreserving_snd.comp hq
  exact h.iterate n

/-- the first `n` proposals are rejected, the next one is accepted and lands in `E`. -/
def acceptsAt (q : G → X × G) (S : Set X) (E : Set (X × G)) (n : Nat) : Set G :=
  {g | (∀ m < n, (q (after q m g)).1 ∉ S) ∧ (q (after q n g)).1 ∈ S ∧ q (after q n g) ∈ E}

theorem acceptsAt_succ (q : G → X × G) (S : Set X) (E : Set (X × G)) (n : Nat) :
    acceptsAt q S E (n + 1) = q ⁻¹' (Sᶜ ×ˢ acceptsAt q S E n) := by
  ext g
  simp only [acceptsAt, Set.mem_ofPred_eq, Set.mem_preimage, Set.mem_prod, Set.mem_compl_iff]
  have e : ∀ m, after q (m + 1) g = after q m (q g).2 := fun m => rfl
  constructor
  · rintro ⟨h1, h2, h3⟩
    exact ⟨h1 0 (by omega), fun m hm => by rw [← e]; exact h1 (m + 1) (by omega), h2, h3⟩
  · rintro ⟨h0, h1, h2, h3⟩
    refine ⟨fun m hm => ?_, h2, h3⟩
    cases m with
    | zero => exact h0
    | succ m => rw [e]; exact h1 m (by omega)

theorem acceptsAt_measurable {q : G → X × G} (hq : MeasurePreserving q P (V.prod P)) {S : Set X} (hS : MeasurableSet S)
    {E : Set (X × G)} (hE : MeasurableSet E) (n : Nat) : MeasurableSet (acceptsAt q S E n) := by
  induction n with
  | zero =>
    have : acceptsAt q S E 0 = q ⁻¹' ((S ×ˢ Set.univ) ∩ E) := by
      ext g; simp [acceptsAt, after]
    rw [this]
    exact hq.measurable ((hS.prod .univ).inter hE)
  | succ n ih =>
    rw [acceptsAt_succ]
    exact hq.measurable (hS.compl.prod ih)

theorem acceptsAt_prob {q : G → X × G} (hq : MeasurePreserving q P (V.prod P)) {S A : Set X} (hS : MeasurableSet S)
    (hA : MeasurableSet A) {B : Set G} (hB : MeasurableSet B) (n : Nat) :
    P (acceptsAt q S (A ×ˢ B) n) = V Sᶜ ^ n * (V (A ∩ S) * P B) := by
  induction n with
  | zero =>
    have : acceptsAt q S (A ×ˢ B) 0 = q ⁻¹' ((A ∩ S) ×ˢ B) := by
      ext g
      simp only [acceptsAt, after, Set.mem_ofPred_eq, Set.mem_preimage, Set.mem_prod, Function.iterate_zero, id, Set.mem_inter_iff]
      constructor
      · rintro ⟨-, h1, h2, h3⟩; exact ⟨⟨h2, h1⟩, h3⟩
      · rintro ⟨⟨h2, h1⟩, h3⟩; exact ⟨by omega, h1, h2, h3⟩
    rw [this, hq.measure_preimage ((hA.inter hS).prod hB).nullMeasurableSet, Measure.prod_prod]
    simp
  | succ n ih =>
    rw [acceptsAt_succ, hq.measure_preimage (hS.compl.prod (acceptsAt_measurable hq hS (hA.prod hB) n)).nullMeasurableSet,
      Measure.prod_prod, ih, pow_succ]
    ring

/-- the law of an accepted proposal. -/
noncomputable def condLaw (V : Measure X) (S : Set X) : Measure X := (V S)⁻¹ • V.restrict S

/-- repeat until accepted: the accepted proposal has the conditional law and does not depend on the state left. -/
theorem reject_mp {q : G → X × G} (hq : MeasurePreserving q P (V.prod P)) {S : Set X} (hS : MeasurableSet S)
    (h0 : V S ≠ 0) : ∃ f : G → X × G, MeasurePreserving f P ((condLaw V S).prod P) ∧
      ∀ᵐ g ∂P, ∃ n, (∀ m < n, (q (after q m g)).1 ∉ S) ∧ (q (after q n g)).1 ∈ S ∧ f g = q (after q n g) := by
  classical
  have hVS : V S ≠ ∞ := measure_ne_top _ _
  have hgeo : ∀ A B, MeasurableSet A → MeasurableSet B →
      P (⋃ n, acceptsAt q S (A ×ˢ B) n) = (condLaw V S) A * P B := by
    intro A B hA hB
    rw [measure_iUnion ?_ (fun n => acceptsAt_measurable hq hS (hA.prod hB) n)]
    · simp only [acceptsAt_prob hq hS hA hB]
      rw [ENNReal.tsum_mul_right, ENNReal.tsum_geometric, prob_compl_eq_one_sub hS,
        ENNReal.sub_sub_cancel ENNReal.one_ne_top prob_le_one]
      simp only [condLaw, Measure.smul_apply, Measure.restrict_apply hA, smul_eq_mul]
      ring
    · intro i j hij
      rw [Function.onFun, Set.disjoint_left]
      rintro g ⟨a1, a2, -⟩ ⟨b1, b2, -⟩
      rcases lt_or_gt_of_ne hij with h | h
      · exact b1 i h a2
      · exact a1 j h b2
  -- the procedure ends with probability one
  have hend : ∀ᵐ g ∂P, ∃ n, (q (after q n g)).1 ∈ S := by
    have h1 := hgeo Set.univ Set.univ .univ .univ
    have hcond : condLaw V S Set.univ = 1 := by
      simp only [condLaw, Measure.smul_apply, Measure.restrict_apply MeasurableSet.univ, Set.univ_inter, smul_eq_mul]
      exact ENNReal.inv_mul_cancel h0 hVS
    rw [hcond, measure_univ, mul_one] at h1
    have hm : MeasurableSet (⋃ n, acceptsAt q S (Set.univ ×ˢ Set.univ) n) :=
      .iUnion fun n => acceptsAt_measurable hq hS (.prod .univ .univ) n
    have h2 := (prob_compl_eq_zero_iff hm).2 h1
    rw [ae_iff]
    refine measure_mono_null ?_ h2
    intro g hg
    simp only [Set.mem_compl_iff, Set.mem_iUnion, not_exists]
    intro n hn
    exact hg ⟨n, hn.2.1⟩
  have hex : ∀ g, ∃ n, (q (after q n g)).1 ∈ S ∨ ∀ m, (q (after q m g)).1 ∉ S := by
    intro g
    by_cases h : ∃ n, (q (after q n g)).1 ∈ S
    · obtain ⟨n, hn⟩ := h; exact ⟨n, .inl hn⟩
    · push Not at h; exact ⟨0, .inr h⟩
  have hmS : ∀ n, MeasurableSet {g | (q (after q n g)).1 ∈ S} := fun n =>
    (measurable_fst.comp (hq.measurable.comp (after_mp hq n).measurable)) hS
  let f : G → X × G := fun g => q (after q (Nat.find (hex g)) g)
  have hfm : Measurable f := by
    refine Measurable.find (f := fun n g => q (after q n g)) (fun n => hq.measurable.comp (after_mp hq n).measurable) ?_ hex
    intro n
    have : {g | ∀ m, (q (after q m g)).1 ∉ S} = ⋂ m, {g | (q (after q m g)).1 ∈ S}ᶜ := by ext g; simp
    have h2 : MeasurableSet {g | ∀ m, (q (after q m g)).1 ∉ S} := by
      rw [this]
      exact .iInter fun m => (hmS m).compl
    exact (hmS n).union h2
  have hfind : ∀ g, (∃ n, (q (after q n g)).1 ∈ S) → (∀ m < Nat.find (hex g), (q (after q m g)).1 ∉ S) ∧
      (q (after q (Nat.find (hex g)) g)).1 ∈ S := by
    intro g h
    refine ⟨fun m hm => ?_, ?_⟩
    · have := Nat.find_min (hex g) hm
      push Not at this
      exact this.1
    · rcases Nat.find_spec (hex g) with h1 | h1
      · exact h1
      · obtain ⟨n, hn⟩ := h; exact absurd hn (h1 n)
  refine ⟨f, ⟨hfm, ?_⟩, ?_⟩
  · have : SigmaFinite (condLaw V S) := by
      have : IsFiniteMeasure (condLaw V S) := by
        refine ⟨?_⟩
        simp only [condLaw, Measure.smul_apply, smul_eq_mul]
        exact ENNReal.mul_lt_top (ENNReal.inv_lt_top.2 (pos_iff_ne_zero.2 h0)) (measure_lt_top _ _)
      infer_instance
    symm
    refine Measure.prod_eq fun A B hA hB => ?_
    rw [Measure.map_apply hfm (hA.prod hB), ← hgeo A B hA hB]
    refine measure_congr ?_
    filter_upwards [hend] with g hg
    refine propext ?_
    show f g ∈ A ×ˢ B ↔ g ∈ ⋃ n, acceptsAt q S (A ×ˢ B) n
    obtain ⟨h1, h2⟩ := hfind g hg
    rw [Set.mem_iUnion]
    constructor
    · intro h; exact ⟨_, h1, h2, h⟩
    · rintro ⟨n, a1, a2, a3⟩
      have : n = Nat.find (hex g) := by
        rcases lt_trichotomy n (Nat.find (hex g)) with h | h | h
        · exact absurd a2 (h1 n h)
        · exact h
        · exact absurd h2 (a1 _ h)
      subst this
      exact a3
  · filter_upwards [hend] with g hg
    exact ⟨_, (hfind g hg).1, (hfind g hg).2, rfl⟩
end

/-! ### uniform distributions -/
section
variable {d : Nat}

theorem uniformLaw_prob {S : Set (Fin d → ℝ)} (h0 : volume S ≠ 0) (h1 : volume S ≠ ∞) :
    IsProbabilityMeasure (uniformLaw S) := by
  refine ⟨?_⟩
  simp only [uniformLaw, Measure.smul_apply, Measure.restrict_apply MeasurableSet.univ, Set.univ_inter, smul_eq_mul]
  exact ENNReal.inv_mul_cancel h0 h1

theorem uniformLaw_congr {S T : Set (Fin d → ℝ)} (h : S =ᵐ[volume] T) : uniformLaw S = uniformLaw T := by
  unfold uniformLaw
  rw [measure_congr h, Measure.restrict_congr_set h]

theorem uniformLaw_map {f : (Fin d → ℝ) → (Fin d → ℝ)} (hf : Measurable f) {k : ℝ≥0∞} (hk0 : k ≠ 0) (hk : k ≠ ∞)
    (h : volume.map f = k • (volume : Measure (Fin d → ℝ))) {T : Set (Fin d → ℝ)} (hT : MeasurableSet T) :
    (uniformLaw (f ⁻¹' T)).map f = uniformLaw T := by
  have hv : ∀ A, MeasurableSet A → volume (f ⁻¹' A) = k * volume A := by
    intro A hA
    rw [← Measure.map_apply hf hA, h]; rfl
  ext A hA
  rw [Measure.map_apply hf hA]
  simp only [uniformLaw, Measure.smul_apply, Measure.restrict_apply hA, Measure.restrict_apply (hf hA), smul_eq_mul]
  rw [← Set.preimage_inter, hv _ (hA.inter hT), hv _ hT, ENNReal.mul_inv (.inl hk0) (.inl hk)]
  rw [mul_mul_mul_comm, ENNReal.inv_mul_cancel hk0 hk, one_mul]

/-- the points whose coordinates are all smaller than `w`. -/
def openBox (w : Fin d → ℝ) : Set (Fin d → ℝ) := {x | ∀ i, |x i| < w i}

theorem openBox_open (w : Fin d → ℝ) : IsOpen (openBox w) := by
  have : openBox w = ⋂ i, {x | |x i| < w i} := by ext x; simp [openBox]
  rw [this]
  exact isOpen_iInter_of_finite fun i => isOpen_lt (continuous_apply i).abs continuous_const

theorem openBox_pi (w : Fin d → ℝ) : openBox w = Set.univ.pi fun i => Set.Ioo (-w i) (w i) := by
  ext x; simp [openBox, abs_lt]

theorem openBox_volume (w : Fin d → ℝ) : volume (openBox w) = ∏ i, ENNReal.ofReal (2 * w i) := by
  rw [openBox_pi, volume_pi_pi]
  refine Finset.prod_congr rfl fun i _ => ?_
  rw [Real.volume_Ioo]; congr 1; ring

theorem openBox_pos {w : Fin d → ℝ} (hw : ∀ i, 0 < w i) : volume (openBox w) ≠ 0 := by
  rw [openBox_volume, Finset.prod_ne_zero_iff]
  intro i _
  simp [hw i]

theorem openBox_finite (w : Fin d → ℝ) : volume (openBox w) ≠ ∞ := by
  rw [openBox_volume]
  exact ENNReal.prod_ne_top fun i _ => ENNReal.ofReal_ne_top

/-- stretch and shift each coordinate. -/
def stretch (w : Fin d → ℝ) (x : Fin d → ℝ) : Fin d → ℝ := fun i => 2 * w i * x i - w i

theorem stretch_measurable (w : Fin d → ℝ) : Measurable (stretch w) :=
  measurable_pi_lambda _ fun i => ((measurable_pi_apply i).const_mul _).sub_const _

theorem stretch_volume {w : Fin d → ℝ} (hw : ∀ i, 0 < w i) : ∃ k : ℝ≥0∞, k ≠ 0 ∧ k ≠ ∞ ∧
    volume.map (stretch w) = k • (volume : Measure (Fin d → ℝ)) := by
  have hdet : Matrix.det (Matrix.diagonal fun i => 2 * w i) ≠ 0 := by
    rw [Matrix.det_diagonal, Finset.prod_ne_zero_iff]
    intro i _; have := hw i; positivity
  have h := Real.smul_map_diagonal_volume_pi hdet
  set c := ENNReal.ofReal |Matrix.det (Matrix.diagonal fun i => 2 * w i)| with hc
  have c0 : c ≠ 0 := by rw [hc]; simpa using hdet
  have c1 : c ≠ ∞ := ENNReal.ofReal_ne_top
  refine ⟨c⁻¹, ENNReal.inv_ne_zero.2 c1, ENNReal.inv_ne_top.2 c0, ?_⟩
  have e : stretch w = (fun x => x + fun i => -w i) ∘ (Matrix.toLin' (Matrix.diagonal fun i => 2 * w i)) := by
    funext x i
    simp [stretch, Matrix.toLin'_apply, Matrix.mulVec_diagonal]
    ring
  have hm : Measurable (Matrix.toLin' (Matrix.diagonal fun i => 2 * w i)) :=
    (LinearMap.continuous_on_pi _).measurable
  rw [e, ← Measure.map_map (measurable_add_const _) hm]
  have h2 : volume.map (Matrix.toLin' (Matrix.diagonal fun i => 2 * w i)) = c⁻¹ • (volume : Measure (Fin d → ℝ)) := by
    calc _ = c⁻¹ • c • volume.map (Matrix.toLin' (Matrix.diagonal fun i => 2 * w i)) := by
          rw [smul_smul, ENNReal.inv_mul_cancel c0 c1, one_smul]
      _ = _ := by rw [h]
  rw [h2, Measure.map_smul, (measurePreserving_add_right volume (fun i => -w i)).map_eq]

theorem pi_unit : (Measure.pi fun _ : Fin d => unitLaw) = uniformLaw (Set.univ.pi fun _ : Fin d => Set.Ioo (0 : ℝ) 1) := by
  unfold unitLaw uniformLaw
  rw [← Measure.restrict_pi_pi, ← volume_pi]
  have : volume (Set.univ.pi fun _ : Fin d => Set.Ioo (0 : ℝ) 1) = 1 := by
    rw [volume_pi_pi]; simp
  rw [this]; simp

theorem stretch_mp {w : Fin d → ℝ} (hw : ∀ i, 0 < w i) :
    MeasurePreserving (stretch w) (Measure.pi fun _ : Fin d => unitLaw) (uniformLaw (openBox w)) := by
  obtain ⟨k, k0, k1, hk⟩ := stretch_volume hw
  refine ⟨stretch_measurable w, ?_⟩
  have e : (Set.univ.pi fun _ : Fin d => Set.Ioo (0 : ℝ) 1) = stretch w ⁻¹' openBox w := by
    ext x
    simp only [Set.mem_pi, Set.mem_univ, true_implies, Set.mem_Ioo, Set.mem_preimage, openBox, Set.mem_ofPred_eq,
      stretch, abs_lt]
    refine forall_congr' fun i => ?_
    have := hw i
    constructor
    · rintro ⟨h1, h2⟩; constructor <;> nlinarith
    · rintro ⟨h1, h2⟩; constructor <;> nlinarith
  rw [pi_unit, e]
  exact uniformLaw_map (stretch_measurable w) k0 k1 hk (openBox_open w).measurableSet

theorem condLaw_uniform {C S : Set (Fin d → ℝ)} (hC0 : volume C ≠ 0) (hC1 : volume C ≠ ∞) (hS : MeasurableSet S) :
    condLaw (uniformLaw C) S = uniformLaw (S ∩ C) := by
  unfold condLaw uniformLaw
  rw [Measure.restrict_smul, smul_smul, Measure.restrict_restrict hS]
  congr 1
  simp only [Measure.smul_apply, Measure.restrict_apply hS, smul_eq_mul]
  rw [ENNReal.mul_inv (.inl (ENNReal.inv_ne_zero.2 hC1)) (.inl (ENNReal.inv_ne_top.2 hC0)), inv_inv, mul_right_comm,
    ENNReal.mul_inv_cancel hC0 hC1, one_mul]

/-- a box with or without its surface. -/
theorem openBox_ae (w : Fin d → ℝ) : ({x | ∀ i, |x i| ≤ w i} : Set (Fin d → ℝ)) =ᵐ[volume] openBox w := by
  have h : ∀ᵐ x : Fin d → ℝ, ∀ i, x i ≠ w i ∧ x i ≠ -w i := by
    rw [ae_all_iff]
    intro i
    have h1 : ∀ c : ℝ, ∀ᵐ x : Fin d → ℝ, x i ≠ c := fun c => by
      rw [ae_iff]
      simp only [not_not]
      exact Measure.pi_hyperplane (fun _ : Fin d => (volume : Measure ℝ)) i c
    filter_upwards [h1 (w i), h1 (-w i)] with x a b using ⟨a, b⟩
  filter_upwards [h] with x hx
  refine propext ⟨fun hle i => ?_, fun hlt i => (hlt i).le⟩
  refine lt_of_le_of_ne (hle i) fun e => ?_
  rcases eq_or_eq_neg_of_abs_eq e with e | e
  · exact (hx i).1 e
  · exact (hx i).2 e
end

/-! ### the programs -/

theorem sweep_draws' {d : Nat} (draw : G → ℝ × G) (f : ℝ → ℝ → ℝ) (xs : List ℝ) (h : xs.length = d) (g : G) :
    Random.sweep draw f xs g =
      (List.zipWith f xs (List.ofFn (drawsN draw d g).1), (drawsN draw d g).2) := by
  subst h; exact sweep_draws draw f xs g

theorem zipWith_const {d : Nat} (f : ℝ → ℝ → ℝ) (c : ℝ) (u : Fin d → ℝ) :
    List.zipWith f (List.replicate d c) (List.ofFn u) = List.ofFn fun i => f c (u i) := by
  refine List.ext_getElem (by simp) fun i h1 h2 => ?_
  simp

theorem rejectLoop_samples {X α : Type} [MeasurableSpace X] {P : Measure G} [IsProbabilityMeasure P] {V : Measure X}
    [IsProbabilityMeasure V] {q : G → X × G} (hq : MeasurePreserving q P (V.prod P)) {S : Set X} (hS : MeasurableSet S)
    (h0 : V S ≠ 0) (out : X → α) (try_ : G → Res (Option α) × G)
    (h1 : ∀ g, (q g).1 ∈ S → try_ g = (.ok (some (out (q g).1)), (q g).2))
    (h2 : ∀ g, (q g).1 ∉ S → try_ g = (.ok none, (q g).2)) :
    Samples P (rejectLoop try_) out (condLaw V S) := by
  obtain ⟨f, hf, hae⟩ := reject_mp hq hS h0
  refine ⟨f, hf, ?_⟩
  filter_upwards [hae] with g hg
  obtain ⟨n, a1, a2, a3⟩ := hg
  refine ⟨n + 1, fun loops hl => ?_⟩
  rw [a3]
  clear a3 hae hf
  induction n generalizing g loops with
  | zero =>
    obtain ⟨k, rfl⟩ : ∃ k, loops = k + 1 := ⟨loops - 1, by omega⟩
    rw [rejectLoop, h1 g a2]
    rfl
  | succ n ih =>
    obtain ⟨k, rfl⟩ : ∃ k, loops = k + 1 := ⟨loops - 1, by omega⟩
    rw [rejectLoop, h2 g (a1 0 (by omega))]
    exact ih (q g).2 (fun m hm => a1 (m + 1) (by omega)) a2 k (by omega)

/-! ### many runs -/
section
open Filter
open scoped Topology
variable {X : Type} [MeasurableSpace X] {P : Measure G} [IsProbabilityMeasure P] {μ : Measure X} [IsProbabilityMeasure μ]

/-- Runs one after the other: results of different runs are independent and their mean converges. -/
theorem runs_law {f : G → X × G} (hf : MeasurePreserving f P (μ.prod P)) {φ : X → ℝ} (hφ : Measurable φ)
    (hi : Integrable φ μ) :
    ∀ᵐ g ∂P, Tendsto (fun n : ℕ => (∑ j ∈ Finset.range n, φ (f (after f j g)).1) / n) atTop (𝓝 (∫ x, φ x ∂μ)) := by
  have h1 : MeasurePreserving (fun g => (f g).1) P μ := measurePreserving_fst.comp hf
  let X' : ℕ → G → ℝ := fun j g => φ (f (after f j g)).1
  have hm : ∀ j, Measurable (X' j) := fun j => hφ.comp (h1.measurable.comp (after_mp hf j).measurable)
  have hint : Integrable (X' 0) P := by
    show Integrable (φ ∘ fun g => (f g).1) P
    exact h1.integrable_comp_of_integrable hi
  have hid : ∀ i, IdentDistrib (X' i) (X' 0) P P := fun i =>
    ⟨(hm i).aemeasurable, (hm 0).aemeasurable, by
      have : X' i = X' 0 ∘ after f i := rfl
      rw [this, ← Measure.map_map (hm 0) (after_mp hf i).measurable, (after_mp hf i).map_eq]⟩
  have h0 : ∀ j, IndepFun (X' 0) (X' (j + 1)) P := by
    intro j
    rw [indepFun_iff_measure_inter_preimage_eq_mul]
    intro A B hA hB
    have e1 : X' 0 ⁻¹' A = f ⁻¹' ((φ ⁻¹' A) ×ˢ Set.univ) := by ext g; simp [X', after]
    have e2 : X' (j + 1) ⁻¹' B = f ⁻¹' (Set.univ ×ˢ (X' j ⁻¹' B)) := by ext g; simp [X', after]
    have e3 : X' 0 ⁻¹' A ∩ X' (j + 1) ⁻¹' B = f ⁻¹' ((φ ⁻¹' A) ×ˢ (X' j ⁻¹' B)) := by rw [e1, e2]; ext g; simp
    rw [e3, e1, e2, hf.measure_preimage ((hφ hA).prod (hm j hB)).nullMeasurableSet,
      hf.measure_preimage ((hφ hA).prod .univ).nullMeasurableSet,
      hf.measure_preimage (MeasurableSet.univ.prod (hm j hB)).nullMeasurableSet]
    simp
  have hlt : ∀ i j, i < j → IndepFun (X' i) (X' j) P := by
    intro i j hij
    obtain ⟨k, rfl⟩ : ∃ k, j = (k + 1) + i := ⟨j - i - 1, by omega⟩
    have e1 : X' i = X' 0 ∘ after f i := rfl
    have e2 : X' (k + 1 + i) = X' (k + 1) ∘ after f i := by
      funext g; simp only [X', Function.comp, after, Function.iterate_add_apply]
    rw [e1, e2, indepFun_iff_measure_inter_preimage_eq_mul]
    intro A B hA hB
    have := (indepFun_iff_measure_inter_preimage_eq_mul.1 (h0 k)) A B hA hB
    rw [Set.preimage_comp, Set.preimage_comp, ← Set.preimage_inter,
      (after_mp hf i).measure_preimage ((hm 0 hA).inter (hm (k + 1) hB)).nullMeasurableSet,
      (after_mp hf i).measure_preimage (hm 0 hA).nullMeasurableSet,
      (after_mp hf i).measure_preimage (hm (k + 1) hB).nullMeasurableSet, this]
  have hp : Pairwise (Function.onFun (fun a b => IndepFun a b P) X') := by
    intro i j hij
    rcases lt_or_gt_of_ne hij with h | h
    · exact hlt i j h
    · exact (hlt j i h).symm
  have := strong_law_ae_real X' hint hp hid
  have e : ∫ x, X' 0 x ∂P = ∫ x, φ x ∂μ := by
    rw [← h1.map_eq, integral_map h1.measurable.aemeasurable hφ.aestronglyMeasurable]; rfl
  rwa [e] at this
end

end Moledyn
