import Verif.Lemmas.Chain
import Verif.Spec.SearchLaw
import Mathlib.Probability.Moments.Basic
/-
A random search as a procedure in rounds.
-/
set_option linter.unusedSectionVars false
namespace Moledyn
open MeasureTheory ProbabilityTheory
open scoped ENNReal NNReal

variable {d : Nat}

/-- a normal number falls into any interval of length `2 ε` not too far away with at least a certain probability. -/
theorem gaussian_hits {v : ℝ≥0} (hv : v ≠ 0) (K : ℝ) {ε : ℝ} (hε : 0 < ε) :
    ∃ p : ℝ≥0∞, 0 < p ∧ ∀ m, |m| ≤ K → p ≤ gaussianReal 0 v {z | |z - m| < ε} := by
  refine ⟨gaussianPDF 0 v (K + ε) * ENNReal.ofReal (2 * ε), ?_, fun m hm => ?_⟩
  · exact ENNReal.mul_pos (gaussianPDF_pos 0 hv _).ne' (by simpa using hε)
  · have e : {z : ℝ | |z - m| < ε} = Set.Ioo (m - ε) (m + ε) := by
      ext z; simp only [Set.mem_ofPred_eq, abs_lt, Set.mem_Ioo]; constructor <;> rintro ⟨a, b⟩ <;> constructor <;> linarith
    rw [gaussianReal_apply 0 hv, e]
    have hvol : ENNReal.ofReal (2 * ε) = volume (Set.Ioo (m - ε) (m + ε)) := by
      rw [Real.volume_Ioo]; congr 1; ring
    rw [hvol, ← setLIntegral_const]
    refine setLIntegral_mono (measurable_gaussianPDF 0 v) fun z hz => ?_
    unfold gaussianPDF
    refine ENNReal.ofReal_le_ofReal ?_
    simp only [gaussianPDFReal_def]
    refine mul_le_mul_of_nonneg_left (Real.exp_le_exp.2 ?_) (by positivity)
    have hK : |z| ≤ K + ε := by
      have h1 : |z - m| ≤ ε := by rw [abs_le]; constructor <;> [linarith [hz.1]; linarith [hz.2]]
      calc |z| = |(z - m) + m| := by ring_nf
        _ ≤ |z - m| + |m| := abs_add_le _ _
        _ ≤ K + ε := by linarith
    have h2 : z ^ 2 ≤ (K + ε) ^ 2 := by
      rw [← sq_abs z]; exact pow_le_pow_left₀ (abs_nonneg z) hK 2
    simp only [sub_zero]
    have hv0 : (0 : ℝ) < v := by positivity
    rw [neg_div, neg_div, neg_le_neg_iff]
    exact div_le_div_of_nonneg_right h2 (by positivity)

theorem box_near (c : Fin d → ℝ) {ε : ℝ} (hε : 0 < ε) {y : Fin d → ℝ} (h : ∀ i, |y i - c i| < ε / (d + 1)) : y ∈ nearSet c ε := by
  show Real.sqrt _ < ε
  rw [Real.sqrt_lt' hε]
  have hd : (0 : ℝ) < d + 1 := by positivity
  have h1 : ∑ i, (y i - c i) ^ 2 ≤ ∑ _i : Fin d, (ε / (d + 1)) ^ 2 :=
    Finset.sum_le_sum fun i _ => by rw [← sq_abs]; exact pow_le_pow_left₀ (abs_nonneg _) (h i).le 2
  rw [Finset.sum_const, Finset.card_univ, Fintype.card_fin, nsmul_eq_mul] at h1
  refine lt_of_le_of_lt h1 ?_
  have h2 : ε = (d + 1) * (ε / (d + 1)) := by field_simp
  have h3 : 0 < ε / (d + 1) := by positivity
  nlinarith [h2, sq_nonneg (d : ℝ), mul_pos h3 h3, (Nat.cast_nonneg d : (0 : ℝ) ≤ d)]

theorem near_meas (c : Fin d → ℝ) (r : ℝ) : MeasurableSet (nearSet c r) := by
  refine (isOpen_lt ?_ continuous_const).measurableSet
  exact Real.continuous_sqrt.comp (continuous_finsetSum _ fun i _ => ((continuous_apply i).sub continuous_const).pow 2)

/-- a normal step from anywhere in a bounded region leads into a given small ball with at least a certain probability. -/
theorem normal_hits {v : ℝ} (hv : 0 < v) (M : ℝ) (c : Fin d → ℝ) {ε : ℝ} (hε : 0 < ε) :
    ∃ p : ℝ≥0∞, 0 < p ∧ ∀ x : Fin d → ℝ, (∀ i, |x i| ≤ M) → p ≤ normalLaw d v {z | x + z ∈ nearSet c ε} := by
  have hv' : v.toNNReal ≠ 0 := by simpa using hv
  have hδ : 0 < ε / (d + 1) := by positivity
  choose p hp h using fun i : Fin d => gaussian_hits hv' (|c i| + M) hδ
  refine ⟨∏ i, p i, ?_, fun x hx => ?_⟩
  · rw [pos_iff_ne_zero]
    exact Finset.prod_ne_zero_iff.2 fun i _ => (hp i).ne'
  · have hsub : (Set.univ.pi fun i => {z : ℝ | |z - (c i - x i)| < ε / (d + 1)}) ⊆ {z | x + z ∈ nearSet c ε} := by
      intro z hz
      refine box_near c hε fun i => ?_
      have := hz i (Set.mem_univ i)
      simp only [Set.mem_ofPred_eq] at this
      rwa [Pi.add_apply, show x i + z i - c i = z i - (c i - x i) by ring]
    refine le_trans ?_ (measure_mono hsub)
    rw [normalLaw, Measure.pi_pi]
    refine Finset.prod_le_prod' fun i _ => h i _ ?_
    calc |c i - x i| ≤ |c i| + |x i| := abs_sub _ _
      _ ≤ |c i| + M := by linarith [hx i]

/-- large normal numbers are rare. -/
theorem gaussian_tail {v : ℝ} (hv : 0 < v) {a : ℝ} (ha : 0 ≤ a) :
    gaussianReal 0 v.toNNReal {z | a < |z|} ≤ ENNReal.ofReal (2 * Real.exp (-(a ^ 2 / (2 * v)))) := by
  have hv' : ((v.toNNReal : ℝ≥0) : ℝ) = v := Real.coe_toNNReal _ hv.le
  have hint : ∀ t : ℝ, Integrable (fun x => Real.exp (t * id x)) (gaussianReal 0 v.toNNReal) := fun t => integrable_exp_mul_gaussianReal t
  have hm : ∀ t : ℝ, mgf id (gaussianReal 0 v.toNNReal) t = Real.exp (v * t ^ 2 / 2) := by
    intro t
    rw [mgf_gaussianReal (p := gaussianReal 0 v.toNNReal) (X := id) (μ := 0) (v := v.toNNReal) (by simp) t, hv']
    simp
  have h1 : (gaussianReal 0 v.toNNReal).real {z | a ≤ id z} ≤ Real.exp (-(a ^ 2 / (2 * v))) := by
    refine (measure_ge_le_exp_mul_mgf a (t := a / v) (by positivity) (hint _)).trans_eq ?_
    rw [hm, ← Real.exp_add]
    congr 1
    field_simp
    ring
  have h2 : (gaussianReal 0 v.toNNReal).real {z | id z ≤ -a} ≤ Real.exp (-(a ^ 2 / (2 * v))) := by
    refine (measure_le_le_exp_mul_mgf (-a) (t := -(a / v)) (by rw [neg_nonpos]; positivity) (hint _)).trans_eq ?_
    rw [hm, ← Real.exp_add]
    congr 1
    field_simp
    ring
  have hsub : {z : ℝ | a < |z|} ⊆ {z | a ≤ id z} ∪ {z | id z ≤ -a} := by
    intro z hz
    rcases lt_abs.1 (show a < |z| from hz) with h | h
    · exact .inl h.le
    · exact .inr (by simp only [Set.mem_ofPred_eq, id]; linarith)
  refine (measure_mono hsub).trans ((measure_union_le _ _).trans ?_)
  rw [two_mul, ENNReal.ofReal_add (Real.exp_pos _).le (Real.exp_pos _).le]
  refine add_le_add ?_ ?_
  · rw [← ofReal_measureReal]; exact ENNReal.ofReal_le_ofReal h1
  · rw [← ofReal_measureReal]; exact ENNReal.ofReal_le_ofReal h2

/-- large steps are rare. -/
theorem normal_tail {v : ℝ} (hv : 0 < v) {a : ℝ} (ha : 0 ≤ a) :
    normalLaw d v {z | ∃ i, a < |z i|} ≤ ENNReal.ofReal (2 * d * Real.exp (-(a ^ 2 / (2 * v)))) := by
  have e : {z : Fin d → ℝ | ∃ i, a < |z i|} = ⋃ i, (fun z => z i) ⁻¹' {z : ℝ | a < |z|} := by ext z; simp
  have hm : MeasurableSet {z : ℝ | a < |z|} := measurableSet_lt measurable_const (by fun_prop)
  rw [e]
  refine (measure_iUnion_fintype_le _ _).trans ?_
  have : ∀ i : Fin d, normalLaw d v ((fun z => z i) ⁻¹' {z : ℝ | a < |z|}) ≤ ENNReal.ofReal (2 * Real.exp (-(a ^ 2 / (2 * v)))) := by
    intro i
    refine le_trans (le_of_eq ?_) (gaussian_tail hv ha)
    exact (measurePreserving_eval (fun _ : Fin d => gaussianReal 0 v.toNNReal) i).measure_preimage hm.nullMeasurableSet
  refine (Finset.sum_le_sum fun i _ => this i).trans ?_
  rw [Finset.sum_const, Finset.card_univ, Fintype.card_fin, nsmul_eq_mul, ← ENNReal.ofReal_natCast, ← ENNReal.ofReal_mul (by positivity)]
  refine ENNReal.ofReal_le_ofReal (le_of_eq ?_)
  ring

variable {G : Type} [MeasurableSpace G] {P : Measure G} [IsProbabilityMeasure P]

/-- one step of the walker. -/
def walkStepAt (put : (Fin d → ℝ) → Fin d → ℝ) (q : G → (Fin d → ℝ) × G) (y : (Fin d → ℝ) × G) : (Fin d → ℝ) × G :=
  (put (y.1 + (q y.2).1), (q y.2).2)

theorem walkStepAt_mp {put : (Fin d → ℝ) → Fin d → ℝ} (hput : Measurable put) {q : G → (Fin d → ℝ) × G} {μ : Measure (Fin d → ℝ)} [IsProbabilityMeasure μ]
    (hq : MeasurePreserving q P (μ.prod P)) (π : Measure (Fin d → ℝ)) [IsFiniteMeasure π] :
    MeasurePreserving (walkStepAt put q) (π.prod P) ((walked put μ π).prod P) := by
  have h1 := (MeasurePreserving.id π).prod hq
  have h2 := (measurePreserving_prodAssoc π μ P).symm
  have hm : Measurable fun p : (Fin d → ℝ) × (Fin d → ℝ) => put (p.1 + p.2) := hput.comp (measurable_fst.add measurable_snd)
  have h3 : MeasurePreserving (fun p : (Fin d → ℝ) × (Fin d → ℝ) => put (p.1 + p.2)) (π.prod μ) (walked put μ π) := ⟨hm, rfl⟩
  have : IsFiniteMeasure (walked put μ π) := by unfold walked; infer_instance
  exact (h3.prod (MeasurePreserving.id P)).comp (h2.comp h1)

instance (put : (Fin d → ℝ) → Fin d → ℝ) (μ : Measure (Fin d → ℝ)) [IsProbabilityMeasure μ] (π : Measure (Fin d → ℝ)) [IsFiniteMeasure π] : IsFiniteMeasure (walked put μ π) := by
  unfold walked; infer_instance

theorem walked_apply {put : (Fin d → ℝ) → Fin d → ℝ} (hput : Measurable put) (μ : Measure (Fin d → ℝ)) [IsProbabilityMeasure μ] (π : Measure (Fin d → ℝ)) [IsFiniteMeasure π]
    {A : Set (Fin d → ℝ)} (hA : MeasurableSet A) :
    walked put μ π A = ∫⁻ x, μ {z | put (x + z) ∈ A} ∂π := by
  have hm : Measurable fun p : (Fin d → ℝ) × (Fin d → ℝ) => put (p.1 + p.2) := hput.comp (measurable_fst.add measurable_snd)
  rw [walked, Measure.map_apply hm hA, Measure.prod_apply (hm hA)]
  rfl

/-- The search as a procedure in rounds. -/
theorem search_rounds {put : (Fin d → ℝ) → Fin d → ℝ} (hput : Measurable put) {q : G → (Fin d → ℝ) × G} {μ : Measure (Fin d → ℝ)} [IsProbabilityMeasure μ]
    (hq : MeasurePreserving q P (μ.prod P)) {S T B : Set (Fin d → ℝ)} (hS : MeasurableSet S) (hT : MeasurableSet T)
    (hB : MeasurableSet B) (hSB : S \ T ⊆ B) {r : ℝ≥0∞} (hr : ∀ x ∈ B, μ {z | put (x + z) ∈ S \ T} ≤ r) [DecidablePred (· ∈ S)] :
    Rounds P B (walkStepAt put q) (walkStepAt put q ⁻¹' ((S \ T)ᶜ ×ˢ Set.univ))
      (fun y => (decide ((walkStepAt put q y).1 ∈ S), (walkStepAt put q y).2))
      (fun π => (walked put μ π).restrict (S \ T)) (fun π => ((walked put μ π).restrict (S \ T)ᶜ).map fun x => decide (x ∈ S)) r := by
  have hstep : Measurable (walkStepAt put q) := by
    have := hq.measurable
    unfold walkStepAt
    fun_prop
  have hdec : Measurable fun x : Fin d → ℝ => decide (x ∈ S) := measurable_to_bool (by
    have : (fun x : Fin d → ℝ => decide (x ∈ S)) ⁻¹' {true} = S := by ext x; simp
    rw [this]; exact hS)
  have hST := hS.diff hT
  refine ⟨hstep, hstep (hST.compl.prod .univ), (hdec.comp (measurable_fst.comp hstep)).prodMk (measurable_snd.comp hstep), ?_, ?_⟩
  · intro π hπ hπB
    have hmp := walkStepAt_mp hput hq π
    refine ⟨inferInstance, ?_, ?_, ?_⟩
    · rw [Measure.restrict_apply hB.compl]
      refine measure_mono_null ?_ (measure_empty (μ := walked put μ π))
      rintro x ⟨a, b⟩
      exact absurd (hSB b) a
    · have e : (walkStepAt put q ⁻¹' ((S \ T)ᶜ ×ˢ Set.univ))ᶜ = walkStepAt put q ⁻¹' ((S \ T) ×ˢ Set.univ) := by
        ext y; simp
      rw [e, ← Measure.restrict_map hstep (hST.prod .univ), hmp.map_eq, ← Measure.prod_restrict, Measure.restrict_univ]
    · rw [Measure.restrict_apply .univ, Set.univ_inter, walked_apply hput μ π hST]
      calc ∫⁻ x, μ {z | put (x + z) ∈ S \ T} ∂π ≤ ∫⁻ _, r ∂π := by
            refine lintegral_mono_ae ?_
            have : ∀ᵐ x ∂π, x ∈ B := by rw [ae_iff]; exact hπB
            filter_upwards [this] with x hx using hr x hx
        _ = r * π Set.univ := by rw [lintegral_const]
  · intro π hπ hπB
    have hmp := walkStepAt_mp hput hq π
    refine ⟨inferInstance, ?_⟩
    have hc : (fun y => (decide ((walkStepAt put q y).1 ∈ S), (walkStepAt put q y).2)) =
        (Prod.map (fun x : Fin d → ℝ => decide (x ∈ S)) id) ∘ walkStepAt put q := rfl
    rw [hc, ← Measure.map_map (hdec.prodMap measurable_id) hstep, ← Measure.restrict_map hstep (hST.compl.prod .univ), hmp.map_eq,
      ← Measure.prod_restrict, Measure.restrict_univ, ← Measure.map_prod_map _ _ hdec measurable_id, Measure.map_id]

theorem last_law (κ : Measure (Fin d → ℝ)) [IsFiniteMeasure κ] {S T : Set (Fin d → ℝ)} (hS : MeasurableSet S)
    [DecidablePred (· ∈ S)] :
    (κ.restrict (S \ T)ᶜ).map (fun x => decide (x ∈ S)) = κ (S ∩ T) • Measure.dirac true + κ Sᶜ • Measure.dirac false := by
  have hdec : Measurable fun x : Fin d → ℝ => decide (x ∈ S) := measurable_to_bool (by
    have : (fun x : Fin d → ℝ => decide (x ∈ S)) ⁻¹' {true} = S := by ext x; simp
    rw [this]; exact hS)
  refine Measure.ext_of_singleton fun b => ?_
  have hm := hdec (measurableSet_singleton b)
  rw [Measure.map_apply hdec (measurableSet_singleton b), Measure.restrict_apply hm]
  cases b
  · have : (fun x : Fin d → ℝ => decide (x ∈ S)) ⁻¹' {false} ∩ (S \ T)ᶜ = Sᶜ := by
      ext x; simp; tauto
    rw [this]; simp
  · have : (fun x : Fin d → ℝ => decide (x ∈ S)) ⁻¹' {true} ∩ (S \ T)ᶜ = S ∩ T := by
      ext x; simp; tauto
    rw [this]; simp

end Moledyn
