import Verif.Lemmas.Law
/-
A given sequence of draws that is not impossible comes sooner or later.
-/
namespace Moledyn
open MeasureTheory
open scoped ENNReal
set_option linter.unusedSectionVars false
variable {G X : Type} [MeasurableSpace G] [MeasurableSpace X] {P : Measure G} [IsProbabilityMeasure P] {μ : Measure X}
  [IsProbabilityMeasure μ] {q : G → X × G}

/-- the generator after `k` draws. -/
def later (q : G → X × G) (k : ℕ) (g : G) : G := (fun g => (q g).2)^[k] g

theorem later_add (q : G → X × G) (j k : ℕ) (g : G) : later q (j + k) g = later q k (later q j g) := by
  unfold later
  rw [Nat.add_comm, Function.iterate_add_apply]

theorem later_succ (q : G → X × G) (k : ℕ) (g : G) : later q (k + 1) g = later q k (q g).2 := rfl

theorem later_succ' (q : G → X × G) (k : ℕ) (g : G) : later q (k + 1) g = (q (later q k g)).2 := by
  rw [later_add]; rfl

/-- the next `L` draws follow the word `W`. -/
def FollowsWord (q : G → X × G) (W : ℕ → Set X) (L : ℕ) (g : G) : Prop := ∀ k < L, (q (later q k g)).1 ∈ W k

theorem follows_succ (W : ℕ → Set X) (L : ℕ) (g : G) :
    FollowsWord q W (L + 1) g ↔ (q g).1 ∈ W 0 ∧ FollowsWord q (fun k => W (k + 1)) L (q g).2 := by
  constructor
  · intro h
    exact ⟨h 0 (by omega), fun k hk => h (k + 1) (by omega)⟩
  · rintro ⟨h0, h⟩ k hk
    cases k with
    | zero => exact h0
    | succ k => exact h k (by omega)

theorem later_mp (h : MeasurePreserving q P (μ.prod P)) (k : ℕ) : MeasurePreserving (later q k) P P :=
  (measurePreserving_snd.comp h).iterate k

theorem follows_meas (h : MeasurePreserving q P (μ.prod P)) {W : ℕ → Set X} (hW : ∀ k, MeasurableSet (W k)) (L : ℕ) :
    MeasurableSet {g | FollowsWord q W L g} := by
  have : {g | FollowsWord q W L g} = ⋂ k, ⋂ _ : k < L, (fun g => (q (later q k g)).1) ⁻¹' W k := by
    ext g; simp [FollowsWord]
  rw [this]
  exact MeasurableSet.iInter fun k => MeasurableSet.iInter fun _ =>
    (measurable_fst.comp (h.measurable.comp (later_mp h k).measurable)) (hW k)

theorem follows_prob (h : MeasurePreserving q P (μ.prod P)) (L : ℕ) : ∀ {W : ℕ → Set X}, (∀ k, MeasurableSet (W k)) →
    ∀ {B : Set G}, MeasurableSet B → P {g | FollowsWord q W L g ∧ later q L g ∈ B} = (∏ k ∈ Finset.range L, μ (W k)) * P B := by
  induction L with
  | zero =>
    intro W hW B hB
    simp [FollowsWord, later]
  | succ L ih =>
    intro W hW B hB
    have e : {g | FollowsWord q W (L + 1) g ∧ later q (L + 1) g ∈ B} =
        q ⁻¹' (W 0 ×ˢ {g | FollowsWord q (fun k => W (k + 1)) L g ∧ later q L g ∈ B}) := by
      ext g
      simp only [Set.mem_ofPred_eq, Set.mem_preimage, Set.mem_prod, follows_succ, later_succ, and_assoc]
    have hm : MeasurableSet {g | FollowsWord q (fun k => W (k + 1)) L g ∧ later q L g ∈ B} :=
      (follows_meas h (fun k => hW (k + 1)) L).inter ((later_mp h L).measurable hB)
    rw [e, h.measure_preimage ((hW 0).prod hm).nullMeasurableSet, Measure.prod_prod, ih (fun k => hW (k + 1)) hB,
      Finset.prod_range_succ', mul_comm (∏ k ∈ Finset.range L, μ (W (k + 1))) (μ (W 0)), mul_assoc]

/-- none of the first `K` blocks of `L` draws follows the word. -/
def Misses (q : G → X × G) (W : ℕ → Set X) (L K : ℕ) (g : G) : Prop := ∀ b < K, ¬ FollowsWord q W L (later q (b * L) g)

theorem misses_succ (W : ℕ → Set X) (L K : ℕ) (g : G) :
    Misses q W L (K + 1) g ↔ ¬ FollowsWord q W L g ∧ Misses q W L K (later q L g) := by
  constructor
  · intro h
    refine ⟨by simpa [later] using h 0 (by omega), fun b hb => ?_⟩
    have := h (b + 1) (by omega)
    rwa [Nat.succ_mul, Nat.add_comm, later_add] at this
  · rintro ⟨h0, h⟩ b hb
    cases b with
    | zero => simpa [later] using h0
    | succ b =>
      rw [Nat.succ_mul, Nat.add_comm, later_add]
      exact h b (by omega)

theorem misses_prob (h : MeasurePreserving q P (μ.prod P)) {W : ℕ → Set X} (hW : ∀ k, MeasurableSet (W k)) (L K : ℕ) :
    MeasurableSet {g | Misses q W L K g} ∧ P {g | Misses q W L K g} = (1 - ∏ k ∈ Finset.range L, μ (W k)) ^ K := by
  induction K with
  | zero => simp [Misses]
  | succ K ih =>
    obtain ⟨ihm, ihp⟩ := ih
    have e : {g | Misses q W L (K + 1) g} =
        (later q L ⁻¹' {g | Misses q W L K g}) \ {g | FollowsWord q W L g ∧ later q L g ∈ {g | Misses q W L K g}} := by
      ext g
      simp only [Set.mem_ofPred_eq, misses_succ, Set.mem_sdiff, Set.mem_preimage]
      tauto
    have hm1 := (later_mp h L).measurable ihm
    have hm2 : MeasurableSet {g | FollowsWord q W L g ∧ later q L g ∈ {g | Misses q W L K g}} := (follows_meas h hW L).inter hm1
    refine ⟨e ▸ hm1.diff hm2, ?_⟩
    have hsub : {g | FollowsWord q W L g ∧ later q L g ∈ {g | Misses q W L K g}} ⊆ later q L ⁻¹' {g | Misses q W L K g} := fun g hg => hg.2
    rw [e, measure_sdiff hsub hm2.nullMeasurableSet (measure_ne_top _ _), follows_prob h L hW ihm,
      (later_mp h L).measure_preimage ihm.nullMeasurableSet, ihp, pow_succ', ENNReal.sub_mul (fun _ _ => ENNReal.pow_ne_top (by simp)), one_mul]

/-- With probability one the word comes. -/
theorem word_comes (h : MeasurePreserving q P (μ.prod P)) {W : ℕ → Set X} (hW : ∀ k, MeasurableSet (W k)) {L : ℕ}
    (hp : ∀ k < L, μ (W k) ≠ 0) : ∀ᵐ g ∂P, ∃ b, FollowsWord q W L (later q (b * L) g) := by
  have hr : (1 - ∏ k ∈ Finset.range L, μ (W k)) < 1 := by
    refine ENNReal.sub_lt_self (by simp) one_ne_zero ?_
    exact Finset.prod_ne_zero_iff.2 fun k hk => hp k (Finset.mem_range.1 hk)
  rw [ae_iff]
  refine le_antisymm (ge_of_tendsto' (ENNReal.tendsto_pow_atTop_nhds_zero_of_lt_one hr) fun K => ?_) bot_le
  rw [← (misses_prob h hW L K).2]
  refine measure_mono fun g hg b _ hf => hg ⟨b, hf⟩
end Moledyn
