import Verif.Props.PushReach
import Verif.Props.ListLaw
import Verif.Props.PrunedLaw
import Verif.Props.Accuracy
/-
C115: exactly which results the programs with constant time steps may report.
-/
namespace Moledyn.Props
open Moledyn MeasureTheory ProbabilityTheory Filter Topology
open scoped ENNReal NNReal
set_option linter.unusedSectionVars false
variable {G : Type} [MeasurableSpace G]

/-- how often a program whose report is determined by `R` has a certain report. -/
theorem says_prob {X β : Type} [MeasurableSpace X] [DiscreteMeasurableSpace X] {P : Measure G} {μ : Measure X} {x : G → X} (hx : MeasurePreserving x P μ)
    {res : ℕ → G → Option β} {R : X → β → Prop} (hR : ∀ y r r', R y r → R y r' → r = r')
    (hae : ∀ᵐ g ∂P, ∃ N, ∀ loops ≥ N, ∃ r, res loops g = some r ∧ R (x g) r) (r : β) :
    P {g | ∃ N, ∀ loops ≥ N, res loops g = some r} = μ {y | R y r} := by
  rw [← hx.measure_preimage (MeasurableSet.of_discrete).nullMeasurableSet]
  refine measure_congr ?_
  filter_upwards [hae] with g ⟨N, hN⟩
  refine propext ⟨?_, fun hh => ⟨N, fun loops hl => ?_⟩⟩
  · rintro ⟨M, hM⟩
    obtain ⟨r', h1, h2⟩ := hN (max N M) (le_max_left _ _)
    rw [hM (max N M) (le_max_right _ _)] at h1
    show R (x g) r
    rwa [Option.some.inj h1]
  · obtain ⟨r', h1, h2⟩ := hN loops hl
    rw [h1, hR _ _ _ hh h2]

/-- the probability of certain outcomes of independent searches. -/
theorem pi_singleton_ne {n : ℕ} {ρ : Measure (ℕ × Bool)} [IsProbabilityMeasure ρ] (z : Fin n → ℕ × Bool) (hz : ∀ i, ρ {z i} ≠ 0) :
    (Measure.pi fun _ : Fin n => ρ) {z} ≠ 0 := by
  rw [Measure.pi_singleton]
  exact Finset.prod_ne_zero_iff.2 fun i _ => hz i

theorem pi_all {X : Type} [MeasurableSpace X] {n : ℕ} {ρ : Measure X} [IsProbabilityMeasure ρ] {p : X → Prop} (h : ∀ᵐ y ∂ρ, p y) :
    ∀ᵐ x ∂(Measure.pi fun _ : Fin n => ρ), ∀ i, p (x i) := by
  rw [ae_all_iff]
  exact fun i => (measurePreserving_eval (fun _ : Fin n => ρ) i).quasiMeasurePreserving.ae h

section
variable (rng : RngOps G ℝ) (P : Measure G) (h : IdealRng rng P) (sys : SysOps G ℝ) (d : Nat) (S₀ S : Set (Fin d → ℝ))
  (room : Room P sys d S₀) (hbd : ∃ M, ∀ x ∈ S₀, ∀ i, |x i| ≤ M) (put : (Fin d → ℝ) → Fin d → ℝ) (w : Walls sys S put)
  (c : Fin d → ℝ) (t : BulkTarget ℝ) (ht : t.targetPos = List.ofFn c) (hpos : volume (S₀ \ nearSet c t.targetSize) ≠ 0)
  (hin : ∃ c' ε, 0 < ε ∧ nearSet c' ε ⊆ S ∩ nearSet c t.targetSize) (hout : ∃ c' ε, 0 < ε ∧ nearSet c' ε ⊆ S \ nearSet c t.targetSize)
  (D dt : ℝ) (hD : 0 < D) (hdt : 0 < dt) (ρ : Measure (ℕ × Bool))
  (hρ : ρ = searchLaw put S (nearSet c t.targetSize) (normalLaw _ (2 * D * dt)) (uniformLaw (S₀ \ nearSet c t.targetSize)))

include w hD hdt in
private theorem walked_ne (π : Measure (Fin d → ℝ)) [IsFiniteMeasure π] (hπ : π ≠ 0) {A : Set (Fin d → ℝ)} (hA : MeasurableSet A)
    (hin : ∃ c' ε, 0 < ε ∧ ∀ y ∈ nearSet c' ε, put y ∈ A) : walked put (normalLaw d (2 * D * dt)) π A ≠ 0 := by
  have hv : 0 < 2 * D * dt := by positivity
  obtain ⟨c', ε, hε, hsub⟩ := hin
  rw [walked_apply w.measurable _ _ hA]
  have hm : Measurable fun x : Fin d → ℝ => normalLaw d (2 * D * dt) {z | put (x + z) ∈ A} :=
    measurable_measure_prodMk_left (ν := normalLaw d (2 * D * dt)) (s := {p : (Fin d → ℝ) × (Fin d → ℝ) | put (p.1 + p.2) ∈ A})
      ((w.measurable.comp (measurable_fst.add measurable_snd)) hA)
  intro h0
  rw [lintegral_eq_zero_iff hm] at h0
  refine hπ (Measure.measure_univ_eq_zero.1 ?_)
  refine measure_mono_null (fun x _ => ?_) h0
  show ¬ normalLaw d (2 * D * dt) {z | put (x + z) ∈ A} = 0
  obtain ⟨p, hp, hh⟩ := normal_hits hv (∑ k, |x k|) c' hε
  have h1 := hh x fun k => Finset.single_le_sum (f := fun k => |x k|) (fun _ _ => abs_nonneg _) (Finset.mem_univ k)
  exact (hp.trans_le (h1.trans (measure_mono fun z hz => hsub _ hz))).ne'

include h room hbd w ht hpos hin hout hD hdt hρ

/-- A search may end in any turn, in both ways; and it takes a step at least. -/
theorem C115_turns (k : ℕ) (v : Bool) : ρ {(k, v)} ≠ 0 ↔ 1 ≤ k := by
  have hTm := near_meas c t.targetSize
  have hfin : volume (S₀ \ nearSet c t.targetSize) ≠ ∞ := ne_top_of_le_ne_top room.volume_finite (measure_mono Set.sdiff_subset)
  have hprob := uniformLaw_prob hpos hfin
  have hgo : ∀ n, IsFiniteMeasure (searching put S (nearSet c t.targetSize) (normalLaw _ (2 * D * dt)) (uniformLaw (S₀ \ nearSet c t.targetSize)) n) ∧
      searching put S (nearSet c t.targetSize) (normalLaw _ (2 * D * dt)) (uniformLaw (S₀ \ nearSet c t.targetSize)) n ≠ 0 := by
    intro n
    induction n with
    | zero => exact ⟨inferInstanceAs (IsFiniteMeasure (uniformLaw (S₀ \ nearSet c t.targetSize))), IsProbabilityMeasure.ne_zero (uniformLaw (S₀ \ nearSet c t.targetSize))⟩
    | succ n ih =>
      obtain ⟨i1, i2⟩ := ih
      have e : searching put S (nearSet c t.targetSize) (normalLaw _ (2 * D * dt)) (uniformLaw (S₀ \ nearSet c t.targetSize)) (n + 1) =
          (walked put (normalLaw _ (2 * D * dt)) (searching put S (nearSet c t.targetSize) (normalLaw _ (2 * D * dt))
            (uniformLaw (S₀ \ nearSet c t.targetSize)) n)).restrict (S \ nearSet c t.targetSize) := by
        simp only [searching, Function.iterate_succ_apply']
      rw [e]
      constructor
      · have : IsFiniteMeasure (walked put (normalLaw d (2 * D * dt)) (searching put S (nearSet c t.targetSize) (normalLaw _ (2 * D * dt))
            (uniformLaw (S₀ \ nearSet c t.targetSize)) n)) := by
          unfold walked
          infer_instance
        infer_instance
      · intro h0
        obtain ⟨c', ε, hε, hsub⟩ := hout
        refine walked_ne sys d S put w D dt hD hdt _ i2 (w.room_measurable.diff hTm) ⟨c', ε, hε, fun y hy => ?_⟩ (Measure.restrict_eq_zero.1 h0)
        rw [w.inside y (hsub hy).1]
        exact hsub hy
  constructor
  · intro hne
    by_contra hk
    obtain rfl : k = 0 := by omega
    refine hne ?_
    rw [hρ, searchLaw, Measure.sum_apply _ (measurableSet_singleton _)]
    simp
  · intro hk h0
    obtain ⟨n, rfl⟩ : ∃ n, k = n + 1 := ⟨k - 1, by omega⟩
    have hge : walked put (normalLaw _ (2 * D * dt)) (searching put S (nearSet c t.targetSize) (normalLaw _ (2 * D * dt)) (uniformLaw (S₀ \ nearSet c t.targetSize)) n)
        (bif v then S ∩ nearSet c t.targetSize else Sᶜ) ≤ ρ {(n + 1, v)} := by
      rw [hρ, searchLaw, Measure.sum_apply _ (measurableSet_singleton _)]
      refine le_trans ?_ (ENNReal.le_tsum n)
      cases v <;> simp
    obtain ⟨i1, i2⟩ := hgo n
    rw [h0] at hge
    cases v with
    | false =>
      exact walked_ne sys d S put w D dt hD hdt _ i2 w.room_measurable.compl w.tooFar (le_antisymm hge bot_le)
    | true =>
      obtain ⟨c', ε, hε, hsub⟩ := hin
      refine walked_ne sys d S put w D dt hD hdt _ i2 (w.room_measurable.inter hTm) ⟨c', ε, hε, fun y hy => ?_⟩ (le_antisymm hge bot_le)
      rw [w.inside y (hsub hy).1]
      exact hsub hy

omit h room hbd w ht hpos hin hout hD hdt hρ in
private theorem ae_step (hk : ∀ k v, ρ {((k : ℕ), (v : Bool))} ≠ 0 ↔ 1 ≤ k) : ∀ᵐ y ∂ρ, 1 ≤ y.1 := by
  rw [ae_iff]
  have e : {y : ℕ × Bool | ¬ 1 ≤ y.1} = {(0, true)} ∪ {(0, false)} := by
    ext ⟨k, v⟩
    cases v <;> simp
  rw [e]
  refine measure_union_null ?_ ?_ <;> by_contra hne
  · exact absurd ((hk 0 true).1 hne) (by omega)
  · exact absurd ((hk 0 false).1 hne) (by omega)

/-- What tests/single_ptl_rts.rs may report for a search: a positive multiple of the time step, any of them; or that a step was too large. -/
theorem C115_search (r : Res ℝ) :
    P {g | ∃ N, ∀ loops ≥ N, (oneSearcher rng sys t.ops loops loops loops (.brownian D) dt g).map Prod.fst = some r} ≠ 0 ↔
      r = .err .tooLargeTimeStep ∨ ∃ k : ℕ, 1 ≤ k ∧ r = .ok (k * dt) := by
  have := h.prob
  have hk := C115_turns rng P h sys d S₀ S room hbd put w c t ht hpos hin hout D dt hD hdt ρ hρ
  obtain ⟨hy, hprob, -⟩ := C77_search rng P h sys d S₀ S room hbd put w c t ht hpos D dt hD hdt
  rw [← hρ] at hy hprob
  have e := yields_prob hy {r}
  simp only [Set.mem_singleton_iff, exists_eq_left] at e
  rw [e]
  constructor
  · intro hne
    by_contra hno
    refine hne (measure_mono_null (fun z hz => ?_) (ae_iff.1 (ae_step ρ hk)))
    obtain ⟨k, v⟩ := z
    have hz : reported dt (k, v) = r := hz
    intro h1
    refine hno ?_
    cases v with
    | false => exact .inl hz.symm
    | true => exact .inr ⟨k, h1, hz.symm⟩
  · rintro (rfl | ⟨k, h1, rfl⟩)
    · exact fun h0 => (hk 1 false).2 le_rfl (measure_mono_null (by rintro _ rfl; rfl) h0)
    · exact fun h0 => (hk k true).2 h1 (measure_mono_null (by rintro _ rfl; rfl) h0)

/-- The mean over `n` searches: `k dt / n` for any `k` from `n` on, or the error. -/
theorem C115_mean (n : ℕ) (hn : 0 < n) (r : Res ℝ) :
    P {g | ∃ N, ∀ loops ≥ N, (ensembleMean (oneSearcher rng sys t.ops loops loops loops (.brownian D) dt) n g).map Prod.fst = some r} ≠ 0 ↔
      r = .err .tooLargeTimeStep ∨ ∃ k : ℕ, n ≤ k ∧ r = .ok (k * dt / n) := by
  have := h.prob
  have hk := C115_turns rng P h sys d S₀ S room hbd put w c t ht hpos hin hout D dt hD hdt ρ hρ
  obtain ⟨-, hprob, -⟩ := C77_search rng P h sys d S₀ S room hbd put w c t ht hpos D dt hD hdt
  rw [← hρ] at hprob
  obtain ⟨x, hx, hae⟩ := C77_ensemble rng P h sys d S₀ S room hbd put w c t ht hpos D dt hD hdt ρ hρ n
  rw [says_prob hx (res := fun loops g => (ensembleMean (oneSearcher rng sys t.ops loops loops loops (.brownian D) dt) n g).map Prod.fst)
    (R := fun y r => ((∀ i, (y i).2 = true) → r = .ok ((∑ i, (y i).1 * dt) / n)) ∧ ((∃ i, (y i).2 = false) → r = .err .tooLargeTimeStep))
    (fun y r r' h1 h2 => by
      by_cases hy : ∀ i, (y i).2 = true
      · rw [h1.1 hy, h2.1 hy]
      · simp only [not_forall, Bool.not_eq_true] at hy
        rw [h1.2 hy, h2.2 hy])
    (by
      filter_upwards [hae] with g ⟨N, hN⟩
      refine ⟨N, fun loops hl => ?_⟩
      by_cases hy : ∀ i, (x g i).2 = true
      · exact ⟨_, ((hN loops hl).1 hy).1, fun _ => rfl, fun ⟨i, hi⟩ => by simp [hy i] at hi⟩
      · simp only [not_forall, Bool.not_eq_true] at hy
        exact ⟨_, ((hN loops hl).2 hy).1, fun hh => by obtain ⟨i, hi⟩ := hy; simp [hh i] at hi, fun _ => rfl⟩)]
  constructor
  · intro hne
    by_contra hno
    refine hne (measure_mono_null (fun z hz => ?_) (ae_iff.1 (pi_all (n := n) (ae_step ρ hk))))
    intro h1
    refine hno ?_
    by_cases hy : ∀ i, (z i).2 = true
    · refine .inr ⟨∑ i, (z i).1, ?_, ?_⟩
      · calc n = ∑ _i : Fin n, 1 := by simp
          _ ≤ _ := Finset.sum_le_sum fun i _ => h1 i
      · rw [hz.1 hy, ← Finset.sum_mul]
        push_cast
        rfl
    · simp only [not_forall, Bool.not_eq_true] at hy
      exact .inl (hz.2 hy)
  · rintro (rfl | ⟨k, h1, rfl⟩) h0
    · refine pi_singleton_ne (n := n) (ρ := ρ) (fun _ => (1, false)) (fun i => (hk 1 false).2 le_rfl) (measure_mono_null ?_ h0)
      rintro _ rfl
      exact ⟨fun hh => by simpa using hh ⟨0, hn⟩, fun _ => rfl⟩
    · refine pi_singleton_ne (n := n) (ρ := ρ) (fun i => (if i.1 = 0 then k - (n - 1) else 1, true)) (fun i => (hk _ true).2 ?_) (measure_mono_null ?_ h0)
      · split_ifs <;> omega
      · rintro _ rfl
        refine ⟨fun _ => ?_, fun ⟨i, hi⟩ => by simp at hi⟩
        obtain ⟨m, rfl⟩ : ∃ m, n = m + 1 := ⟨n - 1, by omega⟩
        rw [← Finset.sum_mul, Fin.sum_univ_succ]
        simp only [Fin.val_zero, if_true, Fin.val_succ, Nat.add_eq_zero_iff, one_ne_zero, and_false, if_false, Nat.cast_one, Finset.sum_const,
          Finset.card_univ, Fintype.card_fin, nsmul_eq_mul, mul_one, Nat.add_sub_cancel]
        rw [Nat.cast_sub (by omega)]
        congr 2
        ring

/-- The first of `n` searchers that are followed one after the other (tests/rts_n_searcher.rs): a positive multiple of the time step, cut at the
greatest number there is; or the error. -/
theorem C115_fastest (n : ℕ) (hn : 0 < n) (r : Res ℝ) :
    P {g | ∃ N, ∀ loops ≥ N, (nSearchersFpt rng sys t.ops loops loops loops (.brownian D) dt n g).map Prod.fst = some r} ≠ 0 ↔
      r = .err .tooLargeTimeStep ∨ ∃ k : ℕ, 1 ≤ k ∧ r = .ok (min (k * dt) Fl.maxVal) := by
  have := h.prob
  have hk := C115_turns rng P h sys d S₀ S room hbd put w c t ht hpos hin hout D dt hD hdt ρ hρ
  obtain ⟨-, hprob, -⟩ := C77_search rng P h sys d S₀ S room hbd put w c t ht hpos D dt hD hdt
  rw [← hρ] at hprob
  obtain ⟨x, hx, hae⟩ := C77_ensemble rng P h sys d S₀ S room hbd put w c t ht hpos D dt hD hdt ρ hρ n
  have huniq : ∀ (y : Fin n → ℕ × Bool) (m m' : ℝ), (m ≤ Fl.maxVal ∧ (∀ i, m ≤ (y i).1 * dt) ∧ (m = Fl.maxVal ∨ ∃ i, m = (y i).1 * dt)) →
      (m' ≤ Fl.maxVal ∧ (∀ i, m' ≤ (y i).1 * dt) ∧ (m' = Fl.maxVal ∨ ∃ i, m' = (y i).1 * dt)) → m ≤ m' := by
    rintro y m m' ⟨a1, a2, -⟩ ⟨-, -, rfl | ⟨i, rfl⟩⟩
    · exact a1
    · exact a2 i
  rw [says_prob hx (res := fun loops g => (nSearchersFpt rng sys t.ops loops loops loops (.brownian D) dt n g).map Prod.fst)
    (R := fun y r => ((∀ i, (y i).2 = true) → ∃ m, r = .ok m ∧ (m ≤ Fl.maxVal ∧ (∀ i, m ≤ (y i).1 * dt) ∧ (m = Fl.maxVal ∨ ∃ i, m = (y i).1 * dt))) ∧
      ((∃ i, (y i).2 = false) → r = .err .tooLargeTimeStep))
    (fun y r r' h1 h2 => by
      by_cases hy : ∀ i, (y i).2 = true
      · obtain ⟨m, rfl, hm⟩ := h1.1 hy
        obtain ⟨m', rfl, hm'⟩ := h2.1 hy
        rw [le_antisymm (huniq y m m' hm hm') (huniq y m' m hm' hm)]
      · simp only [not_forall, Bool.not_eq_true] at hy
        rw [h1.2 hy, h2.2 hy])
    (by
      filter_upwards [hae] with g ⟨N, hN⟩
      refine ⟨N, fun loops hl => ?_⟩
      by_cases hy : ∀ i, (x g i).2 = true
      · obtain ⟨m, e, hm⟩ := ((hN loops hl).1 hy).2
        exact ⟨_, e, fun _ => ⟨m, rfl, hm⟩, fun ⟨i, hi⟩ => by simp [hy i] at hi⟩
      · simp only [not_forall, Bool.not_eq_true] at hy
        exact ⟨_, ((hN loops hl).2 hy).2, fun hh => by obtain ⟨i, hi⟩ := hy; simp [hh i] at hi, fun _ => rfl⟩)]
  constructor
  · intro hne
    by_contra hno
    refine hne (measure_mono_null (fun z hz => ?_) (ae_iff.1 (pi_all (n := n) (ae_step ρ hk))))
    intro h1
    refine hno ?_
    by_cases hy : ∀ i, (z i).2 = true
    · obtain ⟨m, rfl, a1, a2, rfl | ⟨i, rfl⟩⟩ := hz.1 hy
      · exact .inr ⟨(z ⟨0, hn⟩).1, h1 _, by rw [min_eq_right (a2 _)]⟩
      · exact .inr ⟨(z i).1, h1 _, by rw [min_eq_left a1]⟩
    · simp only [not_forall, Bool.not_eq_true] at hy
      exact .inl (hz.2 hy)
  · rintro (rfl | ⟨k, h1, rfl⟩) h0
    · refine pi_singleton_ne (n := n) (ρ := ρ) (fun _ => (1, false)) (fun i => (hk 1 false).2 le_rfl) (measure_mono_null ?_ h0)
      rintro _ rfl
      exact ⟨fun hh => by simpa using hh ⟨0, hn⟩, fun _ => rfl⟩
    · refine pi_singleton_ne (n := n) (ρ := ρ) (fun _ => (k, true)) (fun i => (hk k true).2 h1) (measure_mono_null ?_ h0)
      rintro _ rfl
      refine ⟨fun _ => ⟨_, rfl, min_le_right _ _, fun _ => min_le_left _ _, ?_⟩, fun ⟨i, hi⟩ => by simp at hi⟩
      rcases min_choice ((k : ℝ) * dt) Fl.maxVal with e | e
      · exact .inr ⟨⟨0, hn⟩, e⟩
      · exact .inl e

/-- The same of the program that gives up searchers that cannot win any more (tests/test_setup.rs), whatever the buffer contains. -/
theorem C115_pruned (n : ℕ) (hn : 0 < n) (buf : Pos ℝ) (hb : buf.length = d) (r : Res ℝ) :
    P {g | ∃ N, ∀ loops ≥ N, (prunedRun rng sys t.ops loops loops loops (.brownian D) dt n (buf, g)).map Prod.fst = some r} ≠ 0 ↔
      r = .err .tooLargeTimeStep ∨ ∃ k : ℕ, 1 ≤ k ∧ r = .ok (min (k * dt) Fl.maxVal) := by
  have := h.prob
  have hk := C115_turns rng P h sys d S₀ S room hbd put w c t ht hpos hin hout D dt hD hdt ρ hρ
  obtain ⟨-, hprob, -⟩ := C77_search rng P h sys d S₀ S room hbd put w c t ht hpos D dt hD hdt
  rw [← hρ] at hprob
  obtain ⟨f, hf, hae⟩ := C102_law rng P h sys d S₀ S room hbd put w c t ht hpos D dt hD hdt ρ hρ n
  set M := ⌈(Fl.maxVal : ℝ) / dt⌉₊ with hM
  have hMax : (Fl.maxVal : ℝ) ≤ M * dt := by
    rw [← div_le_iff₀ hdt]
    exact Nat.le_ceil _
  have hM1 : 1 ≤ M := Nat.ceil_pos.2 (div_pos (by simp only [Fl.maxVal]; exact sub_pos.2 (pow_lt_pow_right₀ (by norm_num) (by norm_num))) hdt)
  have hrm : Measurable fun x : Fin n → ℕ × Bool => race M (List.ofFn x) := .of_discrete
  have : IsProbabilityMeasure (raceLaw ρ M n) := Measure.isProbabilityMeasure_map hrm.aemeasurable
  rw [says_prob (measurePreserving_fst.comp hf) (res := fun loops g => (prunedRun rng sys t.ops loops loops loops (.brownian D) dt n (buf, g)).map Prod.fst)
    (R := fun y r => r = written dt y) (fun y r r' h1 h2 => h1.trans h2.symm)
    (by
      filter_upwards [hae] with g ⟨N, hN⟩
      refine ⟨N, fun loops hl => ?_⟩
      obtain ⟨buf', -, e⟩ := hN loops hl buf hb
      exact ⟨_, by rw [e]; rfl, rfl⟩), raceLaw, Measure.map_apply hrm .of_discrete]
  have hmem : ∀ (ys : List (ℕ × Bool)) (m : ℕ), (race m ys = (m, true)) ∨ race m ys ∈ ys := by
    intro ys
    induction ys with
    | nil => exact fun m => .inl rfl
    | cons y ys ih =>
      obtain ⟨k, v⟩ := y
      intro m
      rw [race]
      split_ifs with h1 h2
      · subst h2
        rcases ih k with e | e
        · rw [e]; exact .inr (by simp)
        · exact .inr (by simp [e])
      · simp only [Bool.not_eq_true] at h2
        subst h2
        exact .inr (by simp)
      · rcases ih m with e | e
        · exact .inl e
        · exact .inr (by simp [e])
  constructor
  · intro hne
    by_contra hno
    refine hne (measure_mono_null (fun z hz => ?_) (ae_iff.1 (pi_all (n := n) (ae_step ρ hk))))
    intro h1
    refine hno ?_
    have hz : r = written dt (race M (List.ofFn z)) := hz
    have hstep : 1 ≤ (race M (List.ofFn z)).1 := by
      rcases hmem (List.ofFn z) M with e | e
      · rw [e]; exact hM1
      · obtain ⟨i, hi⟩ := List.mem_ofFn.1 e
        rw [← hi]
        exact h1 i
    generalize race M (List.ofFn z) = y at hz hstep
    obtain ⟨k, v⟩ := y
    cases v with
    | false => exact .inl hz
    | true => exact .inr ⟨k, hstep, hz⟩
  · have hrace : ∀ (n k : ℕ), race k (List.replicate n (k, true)) = (k, true) := by
      intro n
      induction n with
      | zero => exact fun k => rfl
      | succ n ih => exact fun k => by rw [List.replicate_succ, race, if_pos le_rfl, if_pos rfl, ih]
    have hlate : ∀ (n k m : ℕ), m < k → race m (List.replicate n (k, true)) = (m, true) := by
      intro n
      induction n with
      | zero => exact fun k m _ => rfl
      | succ n ih => exact fun k m hkm => by rw [List.replicate_succ, race, if_neg (by omega), ih _ _ hkm]
    obtain ⟨m, rfl⟩ : ∃ m, n = m + 1 := ⟨n - 1, by omega⟩
    rintro (rfl | ⟨k, h1, rfl⟩) h0
    · refine pi_singleton_ne (n := m + 1) (ρ := ρ) (fun _ => (1, false)) (fun i => (hk 1 false).2 le_rfl) (measure_mono_null ?_ h0)
      rintro _ rfl
      show _ = written dt (race M (List.ofFn fun _ : Fin (m + 1) => (1, false)))
      rw [List.ofFn_const, List.replicate_succ, race, if_pos hM1, if_neg (by simp)]
      rfl
    · refine pi_singleton_ne (n := m + 1) (ρ := ρ) (fun _ => (k, true)) (fun i => (hk k true).2 h1) (measure_mono_null ?_ h0)
      rintro _ rfl
      show _ = written dt (race M (List.ofFn fun _ : Fin (m + 1) => (k, true)))
      rw [List.ofFn_const]
      by_cases hkM : k ≤ M
      · rw [List.replicate_succ, race, if_pos hkM, if_pos rfl, hrace]
        rfl
      · rw [hlate _ _ _ (by omega)]
        have h2 : (M : ℝ) * dt ≤ k * dt := mul_le_mul_of_nonneg_right (by exact_mod_cast (by omega : M ≤ k)) hdt.le
        simp only [written, if_true, min_eq_right hMax, min_eq_right (hMax.trans h2)]

omit h room hbd w ht hpos hin hout hD hdt hρ in
private theorem first_ne [IsProbabilityMeasure ρ] (hk : ∀ k v, ρ {((k : ℕ), (v : Bool))} ≠ 0 ↔ 1 ≤ k) (n : ℕ) :
    (∀ k v, 1 ≤ k → ((Measure.pi fun _ : Fin (n + 1) => ρ).map (firstOf n)) {(k, v)} ≠ 0) ∧
      ∀ᵐ y ∂((Measure.pi fun _ : Fin (n + 1) => ρ).map (firstOf n)), 1 ≤ y.1 := by
  have hfm : Measurable (firstOf n) := .of_discrete
  refine ⟨fun k v h1 h0 => ?_, ?_⟩
  · rw [Measure.map_apply hfm (measurableSet_singleton _)] at h0
    refine pi_singleton_ne (n := n + 1) (ρ := ρ) (fun _ => (k, v)) (fun i => (hk k v).2 h1) (measure_mono_null ?_ h0)
    rintro _ rfl
    obtain ⟨i, hi, -⟩ := C104_first n fun _ => (k, v)
    exact hi
  · rw [ae_map_iff hfm.aemeasurable .of_discrete]
    filter_upwards [pi_all (n := n + 1) (ae_step ρ hk)] with z hz
    obtain ⟨i, hi, -⟩ := C104_first n z
    rw [hi]
    exact hz i

/-- Searchers that take turns (tests/n_ptl_rts_iterator.rs): a positive multiple of the time step, or the error. -/
theorem C115_taking_turns (n : ℕ) (r : Res ℝ) :
    P {g | ∃ N, ∀ loops ≥ N, (indepRun rng sys t.ops loops loops loops loops (.brownian D) dt (n + 1) g).map Prod.fst = some r} ≠ 0 ↔
      r = .err .tooLargeTimeStep ∨ ∃ k : ℕ, 1 ≤ k ∧ r = .ok (k * dt) := by
  have := h.prob
  have hk := C115_turns rng P h sys d S₀ S room hbd put w c t ht hpos hin hout D dt hD hdt ρ hρ
  obtain ⟨-, hprob, -⟩ := C77_search rng P h sys d S₀ S room hbd put w c t ht hpos D dt hD hdt
  rw [← hρ] at hprob
  obtain ⟨f1, f2⟩ := first_ne ρ hk n
  have hfm : Measurable (firstOf n) := .of_discrete
  have : IsProbabilityMeasure ((Measure.pi fun _ : Fin (n + 1) => ρ).map (firstOf n)) := Measure.isProbabilityMeasure_map hfm.aemeasurable
  have e := yields_prob (C104_law rng P h sys d S₀ S room hbd put w c t ht hpos D dt hD hdt ρ hρ n).1 {r}
  simp only [Set.mem_singleton_iff, exists_eq_left] at e
  rw [e]
  constructor
  · intro hne
    by_contra hno
    refine hne (measure_mono_null (fun z hz => ?_) (ae_iff.1 f2))
    obtain ⟨k, v⟩ := z
    have hz : reported dt (k, v) = r := hz
    intro h1
    refine hno ?_
    cases v with
    | false => exact .inl hz.symm
    | true => exact .inr ⟨k, h1, hz.symm⟩
  · rintro (rfl | ⟨k, h1, rfl⟩)
    · exact fun h0 => f1 1 false le_rfl (measure_mono_null (by rintro _ rfl; rfl) h0)
    · exact fun h0 => f1 k true h1 (measure_mono_null (by rintro _ rfl; rfl) h0)

/-- The files tests/arguments.rs may leave after `k` ensembles: multiples of the time step, from 0 up to `tmax`, one for each ensemble; or
fewer of them, and the error.  Every such file is possible. -/
theorem C115_files (hd : sys.DrawsInside d) (ho : sys.OutsideDim d) (tmax : ℝ) (clock : ConstStep ℝ) (hc : ConstStep.convertFrom dt tmax = .ok clock)
    (agentType : AgentType) (itype : InitType ℝ) (n k : ℕ) (lines : List ℝ) (r : Res Unit) :
    P {g | ∃ N, ∀ loops ≥ N, (expLoop (listRun rng sys t.ops loops loops loops loops clock) k
      (listStart (IndepAgent.convertFrom agentType (.brownian D) itype (n + 1)) d g)).map Prod.fst = some (lines, r)} ≠ 0 ↔
      (∀ y ∈ lines, ∃ j : ℕ, j ≤ ⌊clock.tmax / dt⌋₊ ∧ y = j * dt) ∧
        (lines.length = k ∧ r = .ok () ∨ lines.length < k ∧ r = .err .tooLargeTimeStep) := by
  have := h.prob
  have hk := C115_turns rng P h sys d S₀ S room hbd put w c t ht hpos hin hout D dt hD hdt ρ hρ
  obtain ⟨-, hprob, -⟩ := C77_search rng P h sys d S₀ S room hbd put w c t ht hpos D dt hD hdt
  rw [← hρ] at hprob
  obtain ⟨f1, f2⟩ := first_ne ρ hk n
  have hfm : Measurable (firstOf n) := .of_discrete
  have hF : IsProbabilityMeasure ((Measure.pi fun _ : Fin (n + 1) => ρ).map (firstOf n)) := Measure.isProbabilityMeasure_map hfm.aemeasurable
  obtain ⟨x, hx, hae⟩ := C112_program rng P h sys d S₀ S room hbd put w c t ht hpos hd ho D dt tmax hD hdt clock hc agentType itype n ρ hρ k
  generalize (Measure.pi fun _ : Fin (n + 1) => ρ).map (firstOf n) = F at f1 f2 hF hx
  have hlm : Measurable (limited (⌊clock.tmax / dt⌋₊ + 1)) := .of_discrete
  have hL : IsProbabilityMeasure (F.map (limited (⌊clock.tmax / dt⌋₊ + 1))) := Measure.isProbabilityMeasure_map hlm.aemeasurable
  have e := says_prob hx (res := fun loops g => (expLoop (listRun rng sys t.ops loops loops loops loops clock) k
      (listStart (IndepAgent.convertFrom agentType (.brownian D) itype (n + 1)) d g)).map Prod.fst)
    (R := fun y r => r = linesReported (fun k => ((k : ℝ) - 1) * dt) (List.ofFn y)) (fun y r r' h1 h2 => h1.trans h2.symm)
    (by
      filter_upwards [hae] with g ⟨N, hN⟩
      exact ⟨N, fun loops hl => ⟨_, hN loops hl, rfl⟩⟩) (lines, r)
  rw [e]
  set M := ⌊clock.tmax / dt⌋₊ with hM
  have g1 : ∀ j : ℕ, 1 ≤ j → j ≤ M + 1 → ∀ v : Bool, (F.map (limited (M + 1))) {(j, if v then .found else .tooFar)} ≠ 0 := by
    intro j h1 h2 v h0
    rw [Measure.map_apply hlm (measurableSet_singleton _)] at h0
    refine f1 j v h1 (measure_mono_null ?_ h0)
    rintro _ rfl
    show limited (M + 1) (j, v) = _
    unfold limited
    rw [if_pos h2]
  have g2 : ∀ᵐ y ∂(F.map (limited (M + 1))), 1 ≤ y.1 ∧ y.1 ≤ M + 1 := by
    rw [ae_map_iff hlm.aemeasurable .of_discrete]
    filter_upwards [f2] with y hy
    unfold limited
    by_cases h1 : y.1 ≤ M + 1
    · rw [if_pos h1]
      exact ⟨hy, h1⟩
    · rw [if_neg h1]
      exact ⟨by simp, le_rfl⟩
  have g3 : ∀ z : List (ℕ × Ending), (∀ y ∈ z, 1 ≤ y.1 ∧ y.1 ≤ M + 1) →
      (∀ y ∈ (linesReported (fun k => ((k : ℝ) - 1) * dt) z).1, ∃ j : ℕ, j ≤ M ∧ y = j * dt) ∧
        ((linesReported (fun k => ((k : ℝ) - 1) * dt) z).1.length = z.length ∧ (linesReported (fun k => ((k : ℝ) - 1) * dt) z).2 = .ok () ∨
          (linesReported (fun k => ((k : ℝ) - 1) * dt) z).1.length < z.length ∧ (linesReported (fun k => ((k : ℝ) - 1) * dt) z).2 = .err .tooLargeTimeStep) := by
    intro z
    induction z with
    | nil => exact fun _ => ⟨by simp [linesReported], .inl ⟨rfl, rfl⟩⟩
    | cons y z ih =>
      intro hz
      obtain ⟨i1, i2⟩ := ih fun y hy => hz y (by simp [hy])
      obtain ⟨j, e⟩ := y
      obtain ⟨a1, a2⟩ := hz (j, e) (by simp)
      simp only at a1 a2
      cases e with
      | found =>
        refine ⟨?_, ?_⟩
        · simp only [linesReported, pushReported, List.mem_cons, forall_eq_or_imp]
          refine ⟨⟨j - 1, by omega, ?_⟩, i1⟩
          rw [Nat.cast_sub a1, Nat.cast_one]
        · simp only [linesReported, pushReported, List.length_cons]
          rcases i2 with ⟨b1, b2⟩ | ⟨b1, b2⟩
          · exact .inl ⟨by omega, b2⟩
          · exact .inr ⟨by omega, b2⟩
      | clock =>
        refine ⟨?_, ?_⟩
        · simp only [linesReported, pushReported, List.mem_cons, forall_eq_or_imp]
          exact ⟨⟨0, by omega, by simp⟩, i1⟩
        · simp only [linesReported, pushReported, List.length_cons]
          rcases i2 with ⟨b1, b2⟩ | ⟨b1, b2⟩
          · exact .inl ⟨by omega, b2⟩
          · exact .inr ⟨by omega, b2⟩
      | tooFar =>
        exact ⟨by simp [linesReported, pushReported], .inr ⟨by simp [linesReported, pushReported], by simp [linesReported, pushReported]⟩⟩
  constructor
  · intro hne
    by_contra hno
    refine hne (measure_mono_null (fun z hz => ?_) (ae_iff.1 (pi_all (n := k) g2)))
    intro h1
    refine hno ?_
    have hz : (lines, r) = linesReported (fun k => ((k : ℝ) - 1) * dt) (List.ofFn z) := hz
    have h3 := g3 (List.ofFn z) fun y hy => by
      obtain ⟨i, rfl⟩ := List.mem_ofFn.1 hy
      exact h1 i
    rw [← hz, List.length_ofFn] at h3
    exact h3
  · rintro ⟨h1, h2⟩ h0
    choose! j hj1 hj2 using h1
    -- outcomes that lead to this file
    set z : Fin k → ℕ × Ending := fun i => if hi : i.1 < lines.length then (j lines[i.1] + 1, .found) else (1, .tooFar) with hz
    have hz1 : (Measure.pi fun _ : Fin k => F.map (limited (M + 1))) {z} ≠ 0 := by
      rw [Measure.pi_singleton]
      refine Finset.prod_ne_zero_iff.2 fun i _ => ?_
      simp only [hz]
      split_ifs with hi
      · exact g1 _ (by omega) (by have := hj1 _ (List.getElem_mem hi); omega) true
      · exact g1 1 le_rfl (by omega) false
    refine hz1 (measure_mono_null ?_ h0)
    rintro _ rfl
    show (lines, r) = linesReported (fun k => ((k : ℝ) - 1) * dt) (List.ofFn z)
    have e1 : List.ofFn z = lines.map (fun y => (j y + 1, Ending.found)) ++ List.replicate (k - lines.length) (1, .tooFar) := by
      refine List.ext_getElem (by simp; omega) fun i a1 a2 => ?_
      rw [List.getElem_ofFn, List.getElem_append]
      simp only [hz, List.length_map]
      split_ifs with hi
      · simp
      · simp
    rw [e1]
    have e2 : ∀ (l : List ℝ) (m : ℕ) (r : Res Unit), (∀ y ∈ l, y = j y * dt) → (m = 0 ∧ r = .ok () ∨ 0 < m ∧ r = .err .tooLargeTimeStep) →
        (l, r) = linesReported (fun k => ((k : ℝ) - 1) * dt) (l.map (fun y => (j y + 1, Ending.found)) ++ List.replicate m (1, .tooFar)) := by
      intro l
      induction l with
      | nil =>
        rintro m r - (⟨rfl, rfl⟩ | ⟨hm, rfl⟩)
        · rfl
        · obtain ⟨m, rfl⟩ : ∃ i, m = i + 1 := ⟨m - 1, by omega⟩
          rfl
      | cons y l ih =>
        intro m r hl hm
        have h3 := ih m r (fun y hy => hl y (by simp [hy])) hm
        simp only [List.map_cons, List.cons_append, linesReported, pushReported, ← h3]
        have := hl y (by simp)
        push_cast
        rw [add_sub_cancel_right, ← this]
    refine e2 lines _ r hj2 ?_
    rcases h2 with ⟨a1, a2⟩ | ⟨a1, a2⟩
    · exact .inl ⟨by omega, a2⟩
    · exact .inr ⟨by omega, a2⟩

end

private theorem disc_out : nearSet ![(5 : ℝ), 0] 1 ⊆ ballSet 2 10 \ nearSet (fun _ : Fin 2 => (0 : ℝ)) 1 := by
  intro x hx
  have h1 : Real.sqrt (∑ i, (x i - (![5, 0] : Fin 2 → ℝ) i) ^ 2) < 1 := hx
  rw [Real.sqrt_lt' one_pos] at h1
  simp only [Fin.sum_univ_two, Matrix.cons_val_zero, Matrix.cons_val_one] at h1
  refine ⟨?_, fun h2 => ?_⟩
  · show ∑ i, x i ^ 2 ≤ (10 : ℝ) ^ 2
    simp only [Fin.sum_univ_two]
    nlinarith [sq_nonneg (x 0), sq_nonneg (x 1)]
  · have h2 : Real.sqrt (∑ i, (x i - 0) ^ 2) < 1 := h2
    rw [Real.sqrt_lt' one_pos] at h2
    simp only [Fin.sum_univ_two, sub_zero] at h2
    nlinarith [sq_nonneg (x 0), sq_nonneg (x 1)]

/-- An ideal generator, a disc of radius 10 with a target of radius 1 in its middle, `D = 1`, `dt = 1/100`.  A search may take just a thousand
steps; the mean of four searches may be 41 quarters of a step, but not 3; four searchers may fail; and tests/arguments.rs with
three searchers and `tmax = 1` may leave a file with the lines `1/2`, `0`, `1/2`, but no file with the line 2. -/
example : let s : Circ ℝ := ⟨.continuousCircular, .reflection, 10, 2⟩
    let target : TargetOps ℝ := (BulkTarget.new (List.ofFn fun _ : Fin 2 => (0 : ℝ)) 1).ops
    ∃ clock : ConstStep ℝ, ConstStep.convertFrom (1 / 100) 1 = .ok clock ∧
    tapeLaw {g | ∃ N, ∀ loops ≥ N, (oneSearcher tapeRng (s.ops tapeRng) target loops loops loops (.brownian 1) (1 / 100) g).map Prod.fst = some (.ok 10)} ≠ 0 ∧
    tapeLaw {g | ∃ N, ∀ loops ≥ N, (ensembleMean (oneSearcher tapeRng (s.ops tapeRng) target loops loops loops (.brownian 1) (1 / 100)) 4 g).map Prod.fst =
      some (.ok (41 / 400))} ≠ 0 ∧
    tapeLaw {g | ∃ N, ∀ loops ≥ N, (ensembleMean (oneSearcher tapeRng (s.ops tapeRng) target loops loops loops (.brownian 1) (1 / 100)) 4 g).map Prod.fst =
      some (.ok (3 / 400))} = 0 ∧
    tapeLaw {g | ∃ N, ∀ loops ≥ N, (nSearchersFpt tapeRng (s.ops tapeRng) target loops loops loops (.brownian 1) (1 / 100) 4 g).map Prod.fst =
      some (.err .tooLargeTimeStep)} ≠ 0 ∧
    ∃ p : List ℝ → Res Unit → ℝ≥0∞, (∀ lines r, p lines r = tapeLaw {g | ∃ N, ∀ loops ≥ N,
        (expLoop (listRun tapeRng (s.ops tapeRng) target loops loops loops loops clock) lines.length
          (listStart (IndepAgent.convertFrom .continuousPassiveIndependent (.brownian 1) .uniform 3) 2 g)).map Prod.fst = some (lines, r)}) ∧
      p [1 / 2, 0, 1 / 2] (.ok ()) ≠ 0 ∧ p [2, 0, 1] (.ok ()) = 0 := by
  intro s target
  have hs : Circ.new (10 : ℝ) 2 = .ok s := by unfold Circ.new; rw [if_neg (by simp)]
  have w := (C77_walls tapeRng).2.1 10 2 s hs
  have room := (C73_systems tapeRng tapeLaw tape_ideal).2.1 s (by norm_num [s])
  have hin : ∃ c' ε, 0 < ε ∧ nearSet c' ε ⊆ ballSet 2 10 ∩ nearSet (fun _ : Fin 2 => (0 : ℝ)) 1 := ⟨fun _ => 0, 1, by norm_num, disc_target⟩
  have hout : ∃ c' ε, 0 < ε ∧ nearSet c' ε ⊆ ballSet 2 10 \ nearSet (fun _ : Fin 2 => (0 : ℝ)) 1 := ⟨![5, 0], 1, by norm_num, disc_out⟩
  have hc : ConstStep.convertFrom (1 / 100 : ℝ) 1 = .ok ⟨.constant (1 / 100), 0, 1 / 100, 1⟩ := by
    unfold ConstStep.convertFrom
    rw [if_neg (by simp), if_neg (by simp [fl_lit]; norm_num)]
    simp
  have a1 := C115_search tapeRng tapeLaw tape_ideal _ 2 _ _ room w.bounded _ w (fun _ => 0) (BulkTarget.new (List.ofFn fun _ : Fin 2 => (0 : ℝ)) 1) rfl disc_example hin hout
    1 (1 / 100) one_pos (by norm_num) _ rfl
  have a2 := C115_mean tapeRng tapeLaw tape_ideal _ 2 _ _ room w.bounded _ w (fun _ => 0) (BulkTarget.new (List.ofFn fun _ : Fin 2 => (0 : ℝ)) 1) rfl disc_example hin hout
    1 (1 / 100) one_pos (by norm_num) _ rfl 4 (by norm_num)
  have a3 := C115_fastest tapeRng tapeLaw tape_ideal _ 2 _ _ room w.bounded _ w (fun _ => 0) (BulkTarget.new (List.ofFn fun _ : Fin 2 => (0 : ℝ)) 1) rfl disc_example hin hout
    1 (1 / 100) one_pos (by norm_num) _ rfl 4 (by norm_num)
  have a4 := C115_files tapeRng tapeLaw tape_ideal _ 2 _ _ room w.bounded _ w (fun _ => 0) (BulkTarget.new (List.ofFn fun _ : Fin 2 => (0 : ℝ)) 1) rfl disc_example hin hout
    1 (1 / 100) one_pos (by norm_num) _ rfl (C37_systems_draw_inside.1 tapeRng s) ((C37_systems_outside_dim tapeRng).2.1 s) 1 _ hc .continuousPassiveIndependent .uniform 2
  refine ⟨_, hc, (a1 _).2 (.inr ⟨1000, by norm_num, by norm_num⟩), (a2 _).2 (.inr ⟨41, by norm_num, by norm_num⟩), ?_, (a3 _).2 (.inl rfl), _, fun _ _ => rfl,
    (a4 _ _ _).2 ⟨?_, .inl ⟨rfl, rfl⟩⟩, ?_⟩
  · by_contra hne
    rcases (a2 _).1 hne with e | ⟨k, h1, e⟩
    · simp at e
    · have e := Res.ok.inj e
      have h1 : (4 : ℝ) ≤ k := by exact_mod_cast h1
      push_cast at e
      linarith
  · intro y hy
    simp only [List.mem_cons, List.not_mem_nil, or_false] at hy
    rcases hy with rfl | rfl | rfl
    · exact ⟨50, Nat.le_floor (by norm_num), by norm_num⟩
    · exact ⟨0, by omega, by norm_num⟩
    · exact ⟨50, Nat.le_floor (by norm_num), by norm_num⟩
  · by_contra hne
    obtain ⟨j, h1, e⟩ := ((a4 _ _ _).1 hne).1 2 (by simp)
    have h2 := (Nat.le_floor_iff (by norm_num)).1 h1
    have h3 : (j : ℝ) ≤ 100 := h2.trans (by norm_num)
    linarith

end Moledyn.Props
