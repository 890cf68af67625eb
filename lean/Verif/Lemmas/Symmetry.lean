import Verif.Props.BoundedSearch
import Mathlib.Probability.Distributions.Gaussian.Multivariate
/-
Lemmas about searches in two rooms, one of which is an image of the other.
-/
namespace Moledyn
open MeasureTheory ProbabilityTheory
open scoped ENNReal
variable {d : Nat}

/-- If `τ` carries a walk with its walls into one with a target `A'`, the outcomes have the same distribution. -/
theorem searchLaw_map {put : (Fin d → ℝ) → Fin d → ℝ} {S A A' : Set (Fin d → ℝ)} {μ : Measure (Fin d → ℝ)} [IsProbabilityMeasure μ]
    {τ L : (Fin d → ℝ) → Fin d → ℝ} (hput : Measurable put) (hτ : Measurable τ) (hL : Measurable L) (hμ : μ.map L = μ)
    (hS : MeasurableSet S) (hA' : MeasurableSet A')
    (Good : Measure (Fin d → ℝ) → Prop) (hfin : ∀ π, Good π → IsFiniteMeasure π)
    (hg : ∀ π, Good π → Good ((walked put μ π).restrict (S \ A)))
    (hc : ∀ π, Good π → ∀ᵐ p ∂π.prod μ, put (τ p.1 + L p.2) = τ (put (p.1 + p.2)))
    (hSS : ∀ π, Good π → τ ⁻¹' S =ᵐ[walked put μ π] S) (hAA : ∀ π, Good π → τ ⁻¹' A' =ᵐ[walked put μ π] A)
    {π : Measure (Fin d → ℝ)} (hπ : Good π) : searchLaw put S A' μ (π.map τ) = searchLaw put S A μ π := by
  have hw : ∀ π, Good π → walked put μ (π.map τ) = (walked put μ π).map τ := by
    intro π hπ
    have := hfin π hπ
    have hm : Measurable fun p : (Fin d → ℝ) × (Fin d → ℝ) => put (p.1 + p.2) := hput.comp (measurable_fst.add measurable_snd)
    have e : (π.map τ).prod μ = (π.prod μ).map (Prod.map τ L) := by
      conv_lhs => rw [← hμ]
      exact Measure.map_prod_map π μ hτ hL
    unfold walked
    rw [e, Measure.map_map hm (hτ.prodMap hL), Measure.map_map hτ hm]
    exact Measure.map_congr (hc π hπ)
  have hr : ∀ π, Good π → (walked put μ (π.map τ)).restrict (S \ A') = ((walked put μ π).restrict (S \ A)).map τ := by
    intro π hπ
    rw [hw π hπ, Measure.restrict_map hτ (hS.diff hA')]
    exact congrArg (Measure.map τ) (Measure.restrict_congr_set ((hSS π hπ).diff (hAA π hπ)))
  have hn : ∀ n, ∀ π, Good π → searching put S A' μ (π.map τ) n = (searching put S A μ π n).map τ ∧ Good (searching put S A μ π n) := by
    intro n
    induction n with
    | zero => intro π hπ; exact ⟨rfl, hπ⟩
    | succ n ih =>
      intro π hπ
      obtain ⟨i1, i2⟩ := ih _ (hg π hπ)
      unfold searching at *
      simp only [Function.iterate_succ, Function.comp]
      rw [hr π hπ]
      exact ⟨i1, i2⟩
  have h1 : ∀ n, walked put μ (searching put S A' μ (π.map τ) n) (S ∩ A') = walked put μ (searching put S A μ π n) (S ∩ A) := by
    intro n
    obtain ⟨i1, i2⟩ := hn n π hπ
    rw [i1, hw _ i2, Measure.map_apply hτ (hS.inter hA')]
    exact measure_congr ((hSS _ i2).inter (hAA _ i2))
  have h2 : ∀ n, walked put μ (searching put S A' μ (π.map τ) n) Sᶜ = walked put μ (searching put S A μ π n) Sᶜ := by
    intro n
    obtain ⟨i1, i2⟩ := hn n π hπ
    rw [i1, hw _ i2, Measure.map_apply hτ hS.compl]
    exact measure_congr (hSS _ i2).compl
  unfold searchLaw
  simp only [h1, h2]

/-- The uniform distribution, in an image. -/
theorem uniformLaw_image {S A A' : Set (Fin d → ℝ)} {τ : (Fin d → ℝ) → Fin d → ℝ} (hτ : Measurable τ)
    (hv : (volume.restrict S).map τ = volume.restrict S) (hA : MeasurableSet A) (hA' : MeasurableSet A')
    (hAA : τ ⁻¹' A' =ᵐ[volume.restrict S] A) : uniformLaw (S \ A') = (uniformLaw (S \ A)).map τ ∧ volume (S \ A') = volume (S \ A) := by
  have h1 : volume.restrict (S \ A') = (volume.restrict (S \ A)).map τ := by
    have e : ∀ {B : Set (Fin d → ℝ)}, MeasurableSet B → volume.restrict (S \ B) = (volume.restrict S).restrict Bᶜ := by
      intro B hB
      rw [Measure.restrict_restrict hB.compl, Set.inter_comm]; rfl
    rw [e hA', e hA]
    conv_lhs => rw [← hv]
    rw [Measure.restrict_map hτ hA'.compl]
    exact congrArg (Measure.map τ) (Measure.restrict_congr_set hAA.compl)
  have h2 : volume (S \ A') = volume (S \ A) := by
    have := congrArg (fun m => m Set.univ) h1
    simpa [Measure.map_apply hτ MeasurableSet.univ] using this
  refine ⟨?_, h2⟩
  unfold uniformLaw
  rw [h1, h2, Measure.map_smul]

/-- Linear maps that keep all lengths: the searches for two targets that are images of each other are the same. -/
theorem searchLaw_symm {put : (Fin d → ℝ) → Fin d → ℝ} {S S₀ A A' : Set (Fin d → ℝ)} {μ : Measure (Fin d → ℝ)} [IsProbabilityMeasure μ]
    {φ : (Fin d → ℝ) → Fin d → ℝ} (hput : Measurable put) (hφ : MeasurePreserving φ volume volume) (hμ : μ.map φ = μ)
    (hS : MeasurableSet S) (hS₀ : MeasurableSet S₀) (hA : MeasurableSet A) (hA' : MeasurableSet A') (hc : ∀ x z, put (φ x + φ z) = φ (put (x + z)))
    (hSS : ∀ x, φ x ∈ S ↔ x ∈ S) (hSS₀ : ∀ x, φ x ∈ S₀ ↔ x ∈ S₀) (hAA : ∀ x, φ x ∈ A' ↔ x ∈ A) (hfin : volume S₀ ≠ ⊤) (hpos : volume (S₀ \ A) ≠ 0) :
    searchLaw put S A' μ (uniformLaw (S₀ \ A')) = searchLaw put S A μ (uniformLaw (S₀ \ A)) ∧ volume (S₀ \ A') = volume (S₀ \ A) := by
  obtain ⟨u1, u2⟩ := uniformLaw_image (S := S₀) (A := A) (A' := A') hφ.measurable
    (by
      conv_rhs => rw [← hφ.map_eq, Measure.restrict_map hφ.measurable hS₀]
      congr 2
      ext x; exact (hSS₀ x).symm) hA hA' (Filter.Eventually.of_forall fun x => propext (hAA x))
  refine ⟨?_, u2⟩
  rw [u1]
  refine searchLaw_map hput hφ.measurable hφ.measurable hμ hS hA' IsFiniteMeasure (fun _ h => h) (fun π h => ?_)
    (fun _ _ => Filter.Eventually.of_forall fun p => hc _ _) (fun _ _ => Filter.Eventually.of_forall fun x => propext (hSS x))
    (fun _ _ => Filter.Eventually.of_forall fun x => propext (hAA x)) ?_
  · unfold walked; infer_instance
  · refine ⟨?_⟩
    unfold uniformLaw
    simp only [Measure.smul_apply, Measure.restrict_apply MeasurableSet.univ, Set.univ_inter, smul_eq_mul]
    exact ENNReal.mul_lt_top (ENNReal.inv_lt_top.2 (pos_iff_ne_zero.2 hpos))
      (lt_of_le_of_lt (measure_mono Set.sdiff_subset) (lt_top_iff_ne_top.2 hfin))

/-! ### signed permutations of the axes -/

/-- a permutation of the axes, with signs. -/
def signedPerm (p : Equiv.Perm (Fin d)) (e : Fin d → ℝ) (x : Fin d → ℝ) : Fin d → ℝ := fun i => e i * x (p i)

theorem signedPerm_measurable (p : Equiv.Perm (Fin d)) (e : Fin d → ℝ) : Measurable (signedPerm p e) := by
  unfold signedPerm; fun_prop

theorem signedPerm_pi {ν : Measure ℝ} [SigmaFinite ν] (hν : ν.map (fun x => -x) = ν) (p : Equiv.Perm (Fin d)) (e : Fin d → ℝ) (he : ∀ i, e i = 1 ∨ e i = -1) :
    (Measure.pi fun _ : Fin d => ν).map (signedPerm p e) = Measure.pi fun _ => ν := by
  symm
  refine Measure.pi_eq fun s hs => ?_
  rw [Measure.map_apply (signedPerm_measurable p e) (MeasurableSet.univ_pi hs)]
  have h1 : signedPerm p e ⁻¹' Set.univ.pi s = Set.univ.pi fun j => (fun x => e (p.symm j) * x) ⁻¹' s (p.symm j) := by
    ext x
    simp only [signedPerm, Set.mem_preimage, Set.mem_univ_pi]
    refine ⟨fun h j => ?_, fun h i => ?_⟩
    · simpa using h (p.symm j)
    · simpa using h (p i)
  rw [h1, Measure.pi_pi, ← Equiv.prod_comp p]
  refine Finset.prod_congr rfl fun i _ => ?_
  simp only [Equiv.symm_apply_apply]
  rcases he i with h | h <;> rw [h]
  · simp
  · have e1 : (fun x : ℝ => -1 * x) = fun x => -x := by funext x; ring
    rw [e1]
    conv_rhs => rw [← hν]
    rw [Measure.map_apply measurable_neg (hs i)]

theorem signedPerm_volume (p : Equiv.Perm (Fin d)) (e : Fin d → ℝ) (he : ∀ i, e i = 1 ∨ e i = -1) :
    MeasurePreserving (signedPerm p e) volume volume :=
  ⟨signedPerm_measurable p e, by
    have h := signedPerm_pi (ν := volume) (by
      have := (Measure.measurePreserving_neg (volume : Measure ℝ)).map_eq
      exact this) p e he
    rwa [← volume_pi] at h⟩

/-! ### isometries -/

theorem iso_volume (f : EuclideanSpace ℝ (Fin d) ≃ₗᵢ[ℝ] EuclideanSpace ℝ (Fin d)) :
    MeasurePreserving (fun x : Fin d → ℝ => (f (WithLp.toLp 2 x)).ofLp) volume volume :=
  (PiLp.volume_preserving_ofLp (Fin d)).comp (f.measurePreserving.comp (PiLp.volume_preserving_toLp (Fin d)))

theorem iso_normal (f : EuclideanSpace ℝ (Fin d) ≃ₗᵢ[ℝ] EuclideanSpace ℝ (Fin d)) (v : ℝ) :
    (normalLaw d v).map (fun x : Fin d → ℝ => (f (WithLp.toLp 2 x)).ofLp) = normalLaw d v := by
  have hm : Measurable fun x : Fin d → ℝ => (f (WithLp.toLp 2 x)).ofLp := (iso_volume f).measurable
  have h1 : (Measure.pi fun _ : Fin d => gaussianReal 0 1).map (fun x : Fin d → ℝ => (f (WithLp.toLp 2 x)).ofLp) =
      Measure.pi fun _ : Fin d => gaussianReal 0 1 := by
    have e1 : ((Measure.pi fun _ : Fin d => gaussianReal 0 1).map (WithLp.toLp 2)).map f =
        (Measure.pi fun _ : Fin d => gaussianReal 0 1).map (WithLp.toLp 2) := by
      rw [map_pi_eq_stdGaussian]; exact stdGaussian_map f
    have hto : Measurable (WithLp.toLp 2 : (Fin d → ℝ) → EuclideanSpace ℝ (Fin d)) := (PiLp.volume_preserving_toLp (Fin d)).measurable
    have hof : Measurable (WithLp.ofLp : EuclideanSpace ℝ (Fin d) → Fin d → ℝ) := (PiLp.volume_preserving_ofLp (Fin d)).measurable
    have e2 := congrArg (Measure.map WithLp.ofLp) e1
    rw [Measure.map_map hof f.measurePreserving.measurable, Measure.map_map (hof.comp f.measurePreserving.measurable) hto, Measure.map_map hof hto] at e2
    have e3 : (WithLp.ofLp ∘ (WithLp.toLp 2 : (Fin d → ℝ) → EuclideanSpace ℝ (Fin d))) = id := rfl
    rw [e3, Measure.map_id] at e2
    exact e2
  have hs : Measurable fun (x : Fin d → ℝ) i => Real.sqrt v * x i := by fun_prop
  have h2 : normalLaw d v = (Measure.pi fun _ : Fin d => gaussianReal 0 1).map fun (x : Fin d → ℝ) i => Real.sqrt v * x i := by
    unfold normalLaw
    have : MeasurePreserving (fun (x : Fin d → ℝ) i => Real.sqrt v * x i) (Measure.pi fun _ : Fin d => gaussianReal 0 1)
        (Measure.pi fun _ : Fin d => gaussianReal 0 v.toNNReal) := by
      refine measurePreserving_pi _ _ fun _ => ⟨by fun_prop, ?_⟩
      rw [gaussianReal_map_const_mul]
      congr 1
      · ring
      · ext
        simp only [NNReal.coe_mk, mul_one, Real.coe_toNNReal']
        rcases le_total 0 v with h | h
        · rw [Real.sq_sqrt h, max_eq_left h]
        · rw [Real.sqrt_eq_zero'.2 h, max_eq_right h]; norm_num
    exact this.map_eq.symm
  rw [h2, Measure.map_map hm hs]
  conv_rhs => rw [← h1]
  rw [Measure.map_map hs hm]
  congr 1
  funext x i
  have : (WithLp.toLp 2 fun i => Real.sqrt v * x i) = Real.sqrt v • (WithLp.toLp 2 x : EuclideanSpace ℝ (Fin d)) := by
    ext i; simp
  simp only [Function.comp, this, map_smul, PiLp.smul_apply, smul_eq_mul]


/-! ### the rooms -/

theorem sign_of {n : Nat} {c c' : Fin n → ℝ} {p : Equiv.Perm (Fin n)} {q : Fin n → Prop} (h : ∀ i, q i → |c' i| = |c (p i)|) :
    ∃ e : Fin n → ℝ, (∀ i, e i = 1 ∨ e i = -1) ∧ (∀ i, q i → c' i = e i * c (p i)) ∧ ∀ i, ¬ q i → e i = 1 := by
  classical
  refine ⟨fun i => if q i then (if c' i = c (p i) then 1 else -1) else 1, fun i => ?_, fun i hi => ?_, fun i hi => ?_⟩
  · simp only; split_ifs <;> simp
  · simp only [hi, if_true]
    split_ifs with h1
    · rw [h1, one_mul]
    · rcases abs_eq_abs.1 (h i hi) with h2 | h2
      · exact absurd h2 h1
      · rw [h2]; ring
  · simp only [hi, if_false]

theorem sign_sq {x : ℝ} (h : x = 1 ∨ x = -1) : x ^ 2 = 1 := by rcases h with rfl | rfl <;> norm_num

theorem sign_abs {x : ℝ} (h : x = 1 ∨ x = -1) (y : ℝ) : |x * y| = |y| := by rcases h with rfl | rfl <;> simp

theorem near_iso {φ : (Fin d → ℝ) → Fin d → ℝ} {c c' : Fin d → ℝ} (hc : φ c = c') (h : ∀ x y, ∑ i, (φ x i - φ y i) ^ 2 = ∑ i, (x i - y i) ^ 2) (r : ℝ)
    (x : Fin d → ℝ) : φ x ∈ nearSet c' r ↔ x ∈ nearSet c r := by
  simp only [nearSet, Set.mem_ofPred_eq, ← hc, h]

theorem signedPerm_iso (p : Equiv.Perm (Fin d)) {e : Fin d → ℝ} (he : ∀ i, e i = 1 ∨ e i = -1) (x y : Fin d → ℝ) :
    ∑ i, (signedPerm p e x i - signedPerm p e y i) ^ 2 = ∑ i, (x i - y i) ^ 2 := by
  rw [← Equiv.sum_comp p fun i => (x i - y i) ^ 2]
  refine Finset.sum_congr rfl fun i _ => ?_
  simp only [signedPerm]
  rw [← mul_sub, mul_pow, sign_sq (he i), one_mul]

theorem signedPerm_axis (k : Nat) (p : Equiv.Perm (Fin d)) {e : Fin d → ℝ} (he : ∀ i, e i = 1 ∨ e i = -1) (hp : ∀ i, (p i).1 < k ↔ i.1 < k) (x : Fin d → ℝ) :
    axisSq k (signedPerm p e x) = axisSq k x := by
  unfold axisSq
  rw [← Equiv.sum_comp p fun i => if i.1 < k then x i ^ 2 else 0]
  refine Finset.sum_congr rfl fun i _ => ?_
  simp only [signedPerm, hp i]
  rw [mul_pow, sign_sq (he i), one_mul]

theorem mirrorPut_neg (L x : ℝ) (hL : 0 < L) : mirrorPut L (-x) = -mirrorPut L x := by
  unfold mirrorPut
  split_ifs <;> first | (exfalso; linarith) | linarith

theorem periodicPut_neg (L x : ℝ) (hL : 0 < L) : periodicPut L (-x) = -periodicPut L x := by
  unfold periodicPut
  split_ifs <;> first | (exfalso; linarith) | linarith

theorem cubePut_signed (bc : BoundaryCond) (L : ℝ) (hL : 0 < L) (p : Equiv.Perm (Fin d)) {e : Fin d → ℝ} (he : ∀ i, e i = 1 ∨ e i = -1)
    (hp : ∀ i, bc.mirrored (p i) ↔ bc.mirrored i) (y : Fin d → ℝ) : cubePut bc L (signedPerm p e y) = signedPerm p e (cubePut bc L y) := by
  funext i
  simp only [cubePut, signedPerm]
  by_cases hm : bc.mirrored i
  · rw [if_pos hm, if_pos ((hp i).2 hm)]
    rcases he i with h | h <;> rw [h] <;> simp [mirrorPut_neg, hL]
  · rw [if_neg hm, if_neg (fun h => hm ((hp i).1 h))]
    rcases he i with h | h <;> rw [h] <;> simp [periodicPut_neg, hL]

theorem cylPut_signed (k : Nat) (R L : ℝ) (hL : 0 < L) (p : Equiv.Perm (Fin d)) {e : Fin d → ℝ} (he : ∀ i, e i = 1 ∨ e i = -1)
    (hp : ∀ i, (p i).1 < k ↔ i.1 < k) (y : Fin d → ℝ) : cylPut k R L (signedPerm p e y) = signedPerm p e (cylPut k R L y) := by
  funext i
  have hq := hp i
  have e1 : signedPerm p e (cylPut k R L y) i = e i * cylPut k R L y (p i) := rfl
  have e2 : signedPerm p e y i = e i * y (p i) := rfl
  rw [e1]
  simp only [cylPut, signedPerm_axis k p he hp, e2, hq]
  split_ifs
  · ring
  · rfl
  · rcases he i with h | h <;> rw [h] <;> simp [periodicPut_neg, hL]

theorem sumSq_axis (x : Fin d → ℝ) : ∑ i, x i ^ 2 = axisSq d x := by
  unfold axisSq
  exact Finset.sum_congr rfl fun i _ => by rw [if_pos i.2]

theorem ballPut_cyl (R L : ℝ) (y : Fin d → ℝ) : ballPut R y = cylPut d R L y := by
  funext i
  simp only [ballPut, cylPut, sumSq_axis, i.2, if_true]

theorem ballSet_cyl (R L : ℝ) : Props.ballSet d R = Props.cylSet d d R L := by
  ext x
  simp only [Props.ballSet, Props.cylSet, Set.mem_ofPred_eq, i_lt]
  constructor
  · exact fun h => ⟨h, fun i hi => absurd i.2 (by omega)⟩
  · exact fun h => h.1
where
  i_lt : ∀ x : Fin d → ℝ, (∑ i : Fin d, if i.1 < d then x i ^ 2 else 0) = ∑ i, x i ^ 2 := fun x => (sumSq_axis x).symm

theorem cube_signed (L : ℝ) (p : Equiv.Perm (Fin d)) {e : Fin d → ℝ} (he : ∀ i, e i = 1 ∨ e i = -1) (x : Fin d → ℝ) :
    signedPerm p e x ∈ Props.cubeSet d L ↔ x ∈ Props.cubeSet d L := by
  simp only [Props.cubeSet, signedPerm, Set.mem_ofPred_eq, sign_abs (he _)]
  exact ⟨fun h i => by simpa using h (p.symm i), fun h i => h _⟩

theorem cyl_signed (k : Nat) (R L : ℝ) (p : Equiv.Perm (Fin d)) {e : Fin d → ℝ} (he : ∀ i, e i = 1 ∨ e i = -1) (hp : ∀ i, (p i).1 < k ↔ i.1 < k)
    (x : Fin d → ℝ) : signedPerm p e x ∈ Props.cylSet d k R L ↔ x ∈ Props.cylSet d k R L := by
  have h1 := signedPerm_axis k p he hp x
  unfold axisSq at h1
  simp only [Props.cylSet, Set.mem_ofPred_eq, h1]
  refine and_congr_right fun _ => ?_
  simp only [signedPerm, sign_abs (he _)]
  refine ⟨fun h i hi => ?_, fun h i hi => h _ ?_⟩
  · have := h (p.symm i) (not_lt.1 fun h2 => absurd ((hp (p.symm i)).2 h2) (by simpa using hi))
    simpa using this
  · exact not_lt.1 fun h2 => absurd ((hp i).1 h2) (by omega)

/-! ### a reflection that exchanges two points across the axis -/

theorem mirror_across {k : Nat} {c c' : Fin d → ℝ} (h : axisSq k c' = axisSq k c) (hz : ∀ i : Fin d, k ≤ i.1 → c' i = c i) :
    ∃ φ : (Fin d → ℝ) → Fin d → ℝ, MeasurePreserving φ volume volume ∧ (∀ v, (normalLaw d v).map φ = normalLaw d v) ∧
      (∀ x z, φ (x + z) = φ x + φ z) ∧ φ c = c' ∧ (∀ x y, ∑ i, (φ x i - φ y i) ^ 2 = ∑ i, (x i - y i) ^ 2) ∧
      (∀ x (i : Fin d), k ≤ i.1 → φ x i = x i) ∧ (∀ x, axisSq k (φ x) = axisSq k x) ∧
      ∀ (a : ℝ) (x y : Fin d → ℝ), (∀ i : Fin d, i.1 < k → y i = a * x i) → ∀ i : Fin d, i.1 < k → φ y i = a * φ x i := by
  let u : Fin d → ℝ := c - c'
  let f : EuclideanSpace ℝ (Fin d) ≃ₗᵢ[ℝ] EuclideanSpace ℝ (Fin d) := Submodule.reflection (ℝ ∙ (WithLp.toLp 2 c - WithLp.toLp 2 c' : EuclideanSpace ℝ (Fin d)))ᗮ
  let φ : (Fin d → ℝ) → Fin d → ℝ := fun x => (f (WithLp.toLp 2 x)).ofLp
  have hu : ∀ i : Fin d, k ≤ i.1 → u i = 0 := fun i hi => by simp [u, hz i hi]
  have hadd : ∀ x z, φ (x + z) = φ x + φ z := by
    intro x z
    funext i
    simp only [φ, WithLp.toLp_add, map_add, PiLp.add_apply, Pi.add_apply]
  have hsub : ∀ x z, φ (x - z) = φ x - φ z := by
    intro x z
    funext i
    simp only [φ, WithLp.toLp_sub, map_sub, PiLp.sub_apply, Pi.sub_apply]
  have hnorm : ∀ x, ∑ i, (φ x i) ^ 2 = ∑ i, x i ^ 2 := by
    intro x
    have h1 := EuclideanSpace.real_norm_sq_eq (f (WithLp.toLp 2 x))
    have h2 := EuclideanSpace.real_norm_sq_eq (WithLp.toLp 2 x : EuclideanSpace ℝ (Fin d))
    rw [f.norm_map] at h1
    exact h1.symm.trans h2
  have hex : ∃ κ : ℝ, ∀ x i, φ x i = x i - κ * (∑ j, u j * x j) * u i := by
    refine ⟨2 / ‖(WithLp.toLp 2 c - WithLp.toLp 2 c' : EuclideanSpace ℝ (Fin d))‖ ^ 2, fun x i => ?_⟩
    have hin : inner ℝ (WithLp.toLp 2 c - WithLp.toLp 2 c' : EuclideanSpace ℝ (Fin d)) (WithLp.toLp 2 x) = ∑ j, u j * x j := by
      rw [PiLp.inner_apply]
      exact Finset.sum_congr rfl fun j _ => by simp [u, mul_comm]
    have e : φ x = (-(2 • ((inner ℝ (WithLp.toLp 2 c - WithLp.toLp 2 c' : EuclideanSpace ℝ (Fin d)) (WithLp.toLp 2 x) /
        ‖(WithLp.toLp 2 c - WithLp.toLp 2 c' : EuclideanSpace ℝ (Fin d))‖ ^ 2) •
          (WithLp.toLp 2 c - WithLp.toLp 2 c' : EuclideanSpace ℝ (Fin d))) - WithLp.toLp 2 x)).ofLp := by
      simp only [φ, f, Submodule.reflection_orthogonal_apply, Submodule.reflection_singleton_apply]
      rfl
    rw [e, hin]
    simp [u]
    ring
  obtain ⟨κ, hκ⟩ := hex
  have hlong : ∀ x (i : Fin d), k ≤ i.1 → φ x i = x i := fun x i hi => by rw [hκ, hu i hi]; ring
  have hsplit : ∀ x : Fin d → ℝ, ∑ i, x i ^ 2 = axisSq k x + ∑ i : Fin d, (if i.1 < k then 0 else x i ^ 2) := by
    intro x
    unfold axisSq
    rw [← Finset.sum_add_distrib]
    exact Finset.sum_congr rfl fun i _ => by split_ifs <;> simp
  have hdist : ∀ x y, ∑ i, (φ x i - φ y i) ^ 2 = ∑ i, (x i - y i) ^ 2 := by
    intro x y
    have := hnorm (x - y)
    rw [hsub] at this
    exact this
  refine ⟨φ, iso_volume f, iso_normal f, hadd, ?_, hdist, hlong, fun x => ?_, fun a x y hxy i hi => ?_⟩
  · have hn : ‖(WithLp.toLp 2 c : EuclideanSpace ℝ (Fin d))‖ = ‖(WithLp.toLp 2 c' : EuclideanSpace ℝ (Fin d))‖ := by
      refine (sq_eq_sq₀ (norm_nonneg _) (norm_nonneg _)).1 ?_
      rw [EuclideanSpace.real_norm_sq_eq, EuclideanSpace.real_norm_sq_eq]
      show ∑ i, c i ^ 2 = ∑ i, c' i ^ 2
      rw [hsplit c, hsplit c', h]
      congr 1
      exact Finset.sum_congr rfl fun i _ => by
        split_ifs with h1
        · rfl
        · rw [hz i (by omega)]
    have := Submodule.reflection_sub hn
    exact congrArg WithLp.ofLp this
  · have h1 := hnorm x
    rw [hsplit x, hsplit (φ x)] at h1
    have h2 : (∑ i : Fin d, (if i.1 < k then 0 else φ x i ^ 2)) = ∑ i : Fin d, (if i.1 < k then 0 else x i ^ 2) :=
      Finset.sum_congr rfl fun i _ => by
        split_ifs with h1
        · rfl
        · rw [hlong x i (by omega)]
    linarith
  · rw [hκ, hκ, hxy i hi]
    have e : ∑ j, u j * y j = a * ∑ j, u j * x j := by
      rw [Finset.mul_sum]
      refine Finset.sum_congr rfl fun j _ => ?_
      by_cases hj : j.1 < k
      · rw [hxy j hj]; ring
      · rw [hu j (by omega)]; ring
    rw [e]; ring

/-- The cylinder has the symmetry of such a map. -/
theorem cyl_across {k : Nat} {φ : (Fin d → ℝ) → Fin d → ℝ} (hlong : ∀ x (i : Fin d), k ≤ i.1 → φ x i = x i)
    (hax : ∀ x, axisSq k (φ x) = axisSq k x)
    (hmul : ∀ (a : ℝ) (x y : Fin d → ℝ), (∀ i : Fin d, i.1 < k → y i = a * x i) → ∀ i : Fin d, i.1 < k → φ y i = a * φ x i) (R L : ℝ) :
    (∀ y, cylPut k R L (φ y) = φ (cylPut k R L y)) ∧ ∀ x, φ x ∈ Props.cylSet d k R L ↔ x ∈ Props.cylSet d k R L := by
  constructor
  · intro y
    funext i
    by_cases hi : i.1 < k
    · by_cases hR : R < Real.sqrt (axisSq k y)
      · have h1 := hmul ((2 * R - Real.sqrt (axisSq k y)) / Real.sqrt (axisSq k y)) y (cylPut k R L y)
          (fun j hj => by simp only [cylPut, hj, if_true, hR]; ring) i hi
        rw [h1]
        simp only [cylPut, hax, if_pos hi, if_pos hR]
        ring
      · have h1 := hmul 1 y (cylPut k R L y) (fun j hj => by simp only [cylPut, hj, if_true, hR, if_false]; ring) i hi
        rw [h1]
        simp only [cylPut, hax, if_pos hi, if_neg hR]
        ring
    · rw [hlong _ i (by omega)]
      simp only [cylPut, if_neg hi]
      rw [hlong _ i (by omega)]
  · intro x
    have h1 := hax x
    unfold axisSq at h1
    simp only [Props.cylSet, Set.mem_ofPred_eq, h1]
    refine and_congr_right fun _ => forall_congr' fun i => forall_congr' fun hi => ?_
    rw [hlong x i hi]

end Moledyn
