import Verif.Lemmas.TurnRace
import Verif.Props.PushLaw
import Verif.Props.NoMerging
/-
C113: searchers that do not notice each other, in examples/mfpt_exp.rs and tests/large_n_simulation.rs.
-/
namespace Moledyn.Props
open Moledyn LList MeasureTheory ProbabilityTheory Filter
open scoped ENNReal NNReal Topology
set_option linter.unusedSectionVars false
variable {G : Type} [MeasurableSpace G]

/-- how often a program ends with a certain report. -/
theorem yields_prob {α X : Type} [MeasurableSpace X] [DiscreteMeasurableSpace X] {P : Measure G} [IsProbabilityMeasure P] {prog : Nat → G → Option (Res α × G)}
    {out : X → Res α} {μ : Measure X} [SFinite μ] (h : Yields P prog out μ) (A : Set (Res α)) :
    P {g | ∃ r ∈ A, ∃ N, ∀ loops ≥ N, (prog loops g).map Prod.fst = some r} = μ {y | out y ∈ A} := by
  obtain ⟨f, hf, hae⟩ := h
  have h1 : MeasurePreserving (fun g => (f g).1) P μ := measurePreserving_fst.comp hf
  rw [← h1.measure_preimage (MeasurableSet.of_discrete).nullMeasurableSet]
  refine measure_congr ?_
  filter_upwards [hae] with g ⟨N, hN⟩
  refine propext ⟨?_, fun hh => ?_⟩
  · rintro ⟨r, hr, M, hM⟩
    have e := hM (max N M) (le_max_right _ _)
    rw [hN (max N M) (le_max_left _ _)] at e
    have e : out (f g).1 = r := Option.some.inj e
    show out (f g).1 ∈ A
    rwa [e]
  · exact ⟨out (f g).1, hh, N, fun loops hl => by rw [hN loops hl]; rfl⟩

theorem firstEnd_mem : ∀ (n : ℕ) (ys : Fin (n + 1) → ℕ × Ending), ∃ i, firstEnd n ys = ys i := by
  intro n
  induction n with
  | zero => intro ys; exact ⟨0, rfl⟩
  | succ n ih =>
    intro ys
    obtain ⟨i, hi⟩ := ih fun i => ys i.succ
    rw [firstEnd]
    split_ifs
    · exact ⟨0, rfl⟩
    · exact ⟨i.succ, hi⟩

/-! ### the processes -/

section
variable {d : ℕ} (μ : Measure (Fin d → ℝ)) [IsProbabilityMeasure μ] (π : Measure (Fin d → ℝ)) [IsProbabilityMeasure π] {K : ℕ} (hK : 1 ≤ K)
include hK

/-- The process of searchers without a force between them is a race of searchers that are alone (whatever force those have). -/
theorem C113_push (W : PushWorld d) (hput : Measurable W.put) (hf : Measurable W.force) (hroom : MeasurableSet W.room) (htarget : MeasurableSet W.target)
    (hclk : ∀ k, (W.clk k).isNone ↔ K ≤ k) (n : ℕ) :
    pushLaw { W with force := fun _ => 0 } μ (Measure.pi fun _ : Fin (n + 1) => π) =
      (Measure.pi fun _ : Fin (n + 1) => pushLaw W μ (Measure.pi fun _ : Fin 1 => π)).map (firstEnd n) := by
  rw [push_turnLaw W hput hf hroom htarget hclk (fun x i k => (C108_forces W.force x).2.1 rfl i k) μ,
    push_turnLaw { W with force := fun _ => 0 } hput measurable_const hroom htarget hclk (fun x i k => by simp [forceOn]) μ]
  exact turn_race (freeTo_meas hput) hroom htarget μ π K hK n

/-- The process of merging searchers that never come close enough to merge is a race of searchers that are alone (whatever
their radius and exponent). -/
theorem C113_merge (W W' : MergeWorld d) (h1 : W'.put = W.put) (h2 : W'.room = W.room) (h3 : W'.target = W.target) (h4 : W'.clk = W.clk) (h5 : W'.dif 1 = W.dif 1)
    (hr : W'.reach ≤ 0) (hput : Measurable W.put) (hroom : MeasurableSet W.room) (htarget : MeasurableSet W.target)
    (hclk : ∀ k, (W.clk k).isNone ↔ K ≤ k) (n : ℕ) :
    mergeLaw W' μ (Measure.pi fun _ : Fin (n + 1) => π) =
      (Measure.pi fun _ : Fin (n + 1) => mergeLaw W μ (Measure.pi fun _ : Fin 1 => π)).map (firstEnd n) := by
  rw [merge_turnLaw W hput hroom htarget hclk (.inr rfl) μ, merge_turnLaw W' (by rwa [h1]) (by rwa [h2]) (by rwa [h3]) (by rw [h4]; exact hclk) (.inl hr) μ]
  have e : aloneTo W' = aloneTo W := by unfold aloneTo; rw [h1, h4, h5]
  rw [e, h2, h3]
  exact turn_race (aloneTo_meas hput) hroom htarget μ π K hK n
end

/-! ### examples/mfpt_exp.rs -/

section
variable (rng : RngOps G ℝ) (P : Measure G) (ν : Measure ℝ) (h : IndepRng rng P ν) (hν : IsProbabilityMeasure ν)
  (sys : SysOps G ℝ) (d : Nat) (S₀ S : Set (Fin d → ℝ)) (room : Room P sys d S₀)
  (put : (Fin d → ℝ) → Fin d → ℝ) (w : Walls sys S put)
  (c : Fin d → ℝ) (t : BulkTarget ℝ) (ht : t.targetPos = List.ofFn c) (hpos : volume (S₀ \ nearSet c t.targetSize) ≠ 0)
  (clock : ExpStep ℝ) (hc : clock.Fresh) (a b : ℝ) (l : ℕ) (hty : clock.titype = .exponential a b l) (ha : 0 < a) (hinc : 1 ≤ clock.inc)
  (limit : ℝ) (hl : 0 < limit) (D : ℝ)
include h hν room w ht hpos hc hty ha hinc hl

theorem later_end (htm : a ≤ clock.tmax) : ∃ K, 1 ≤ K ∧ ∀ k, (laterTurns a b clock.inc l clock.tmax k).isNone ↔ K ≤ k := by
  have hab : a ≤ b := by
    obtain ⟨a', b', l', h1, -, h2, -⟩ := exp_fresh_real hc
    rw [hty] at h1
    obtain ⟨rfl, rfl, rfl⟩ := by simpa using h1
    exact h2
  have hnone : ∀ k, laterTurns a b clock.inc l clock.tmax k = none ↔ clock.tmax < expTime a b clock.inc l (k + 1) := by
    intro k
    unfold laterTurns expTurns
    split_ifs with hh
    · simp [hh]
    · simpa using hh
  refine clock_end ?_ ?_ fun k hk => ?_
  · rw [← Option.not_isNone, Bool.not_eq_true', ← Bool.not_eq_true, Option.isNone_iff_eq_none, hnone]
    simp [expTime, expStepSize, hab, htm]
  · obtain ⟨K, hK⟩ := exists_nat_gt (clock.tmax / a)
    refine ⟨K, (hnone K).2 ?_⟩
    have h2 := expTime_ge a b clock.inc l ha.le hinc hab (K + 1)
    rw [div_lt_iff₀ ha] at hK
    push_cast at h2
    linarith
  · rw [hnone] at hk ⊢
    exact hk.trans_le (expTime_mono a b clock.inc l ha.le hinc hab (by omega))

/-- examples/mfpt_exp.rs with searchers that do not push each other (strength 0), in any of the systems and with any
independent numbers: an ensemble of `n + 1` searchers has the outcome of the one that ends first of `n + 1` independent
ensembles of a single searcher (of any strength, which has no effect).  That it ends after turn `k` (or is given up after turn
`k`) has the probability that this happens to a single searcher, to the power `n + 1`. -/
theorem C113_exp (htm : a ≤ clock.tmax) : ∃ ρ : Measure (ℕ × Ending), IsProbabilityMeasure ρ ∧
    (∀ gamma strength itype v, ExpAgent.convertFrom (.brownian D) itype gamma d strength 1 = .ok v →
      Yields P (fun loops g => (expRun rng sys t.ops limit loops loops loops loops clock (expStart v d g)).map fun r => (r.1, r.2.rng))
        (pushReported fun k => expTime a b clock.inc l k) ρ) ∧
    (∀ gamma itype n v, ExpAgent.convertFrom (.brownian D) itype gamma d 0 (n + 1) = .ok v →
      Yields P (fun loops g => (expRun rng sys t.ops limit loops loops loops loops clock (expStart v d g)).map fun r => (r.1, r.2.rng))
        (pushReported fun k => expTime a b clock.inc l k) ((Measure.pi fun _ : Fin (n + 1) => ρ).map (firstEnd n))) ∧
    (∀ n k, (Measure.pi fun _ : Fin (n + 1) => ρ).map (firstEnd n) {z | k < z.1 ∨ k = z.1 ∧ z.2 = .clock} = ρ {z | k < z.1 ∨ k = z.1 ∧ z.2 = .clock} ^ (n + 1)) ∧
    (∀ n, (Measure.pi fun _ : Fin (n + 1) => ρ).map (firstEnd n) {z | z.2 = .clock} = ρ {z | z.2 = .clock} ^ (n + 1)) ∧
    ∃ K, ∀ᵐ z ∂ρ, 1 ≤ z.1 ∧ z.1 ≤ K ∧ (z.2 = .clock → z.1 = K) := by
  have hfin : volume (S₀ \ nearSet c t.targetSize) ≠ ∞ := ne_top_of_le_ne_top room.volume_finite (measure_mono Set.sdiff_subset)
  have hprob := uniformLaw_prob hpos hfin
  have := h.prob
  obtain ⟨K, hK, hclk⟩ := later_end rng P ν h hν sys d S₀ S room put w c t ht hpos clock hc a b l hty ha hinc limit hl htm
  set clk := laterTurns a b clock.inc l clock.tmax with hclk'
  set W : PushWorld d := ⟨put, S, nearSet c t.targetSize, D, fun _ => 0, limit, clk⟩ with hW
  have hm := near_meas c t.targetSize
  have hone : ∀ gamma strength, pushLaw ⟨put, S, nearSet c t.targetSize, D, expForce gamma strength, limit, clk⟩ (Measure.pi fun _ : Fin d => ν)
      (Measure.pi fun _ : Fin 1 => uniformLaw (S₀ \ nearSet c t.targetSize)) = turnLaw (freeTo W) S (nearSet c t.targetSize) K 1 (Measure.pi fun _ : Fin d => ν)
        (Measure.pi fun _ : Fin 1 => uniformLaw (S₀ \ nearSet c t.targetSize)) := by
    intro gamma strength
    exact push_turnLaw ⟨put, S, nearSet c t.targetSize, D, expForce gamma strength, limit, clk⟩ w.measurable (by unfold expForce; fun_prop) w.room_measurable hm hclk
      (fun x i k => (C108_forces _ x).2.1 rfl i k) _ _
  set ρ := turnLaw (freeTo W) S (nearSet c t.targetSize) K 1 (Measure.pi fun _ : Fin d => ν) (Measure.pi fun _ : Fin 1 => uniformLaw (S₀ \ nearSet c t.targetSize)) with hρ
  have hp : IsProbabilityMeasure ρ := turnLaw_prob _ _ (freeTo_meas (W := W) w.measurable) w.room_measurable hm hK
  have hg := one_given_up (Measure.pi fun _ : Fin d => ν) (uniformLaw (S₀ \ nearSet c t.targetSize)) (freeTo_meas (W := W) w.measurable) w.room_measurable hm hK
  refine ⟨ρ, hp, fun gamma strength itype v hv => ?_, fun gamma itype n v hv => ?_, fun n k => ?_, fun n => ?_, K, ?_⟩
  · exact (C108_law rng P ν h hν sys d S₀ S room put w c t ht hpos clock hc a b l hty ha hinc limit hl D gamma strength itype 1 (by norm_num) v hv htm ρ
      (hone gamma strength).symm).2.1
  · refine (C108_law rng P ν h hν sys d S₀ S room put w c t ht hpos clock hc a b l hty ha hinc limit hl D gamma 0 itype (n + 1) (by omega) v hv htm _ ?_).2.1
    have e : expForce gamma 0 = fun _ => 0 := by funext r; simp [expForce]
    rw [e, ← hone 1 0]
    exact (C113_push (Measure.pi fun _ : Fin d => ν) (uniformLaw (S₀ \ nearSet c t.targetSize)) hK ⟨put, S, nearSet c t.targetSize, D, expForce 1 0, limit, clk⟩
      w.measurable (by unfold expForce; fun_prop) w.room_measurable hm hclk n).symm
  · rw [Measure.map_apply .of_discrete .of_discrete]
    exact first_after ρ n k
  · rw [Measure.map_apply .of_discrete .of_discrete]
    exact first_given_up ρ hg n
  · have h1 : ∀ᵐ z ∂ρ, z.1 ≠ 0 ∧ z.1 ≤ K := by
      rw [ae_iff]
      refine null_of fun z hz => ?_
      have hz : ¬ (z.1 ≠ 0 ∧ z.1 ≤ K) := hz
      refine turn_else (freeTo_meas (W := W) w.measurable) w.room_measurable hm _ _ K hK (n := 0) ?_ (.inr (by omega))
      rintro rfl
      exact hz ⟨by show K ≠ 0; omega, le_rfl⟩
    filter_upwards [h1, hg] with z hz hz2
    refine ⟨by omega, hz.2, fun hcl => ?_⟩
    rcases hz2.1 hcl with h3 | ⟨h3, -⟩ <;> omega

/-- The probability that an ensemble of `n + 1` searchers without strength writes 0 is the one of an ensemble of a single
searcher, to the power `n + 1`; so with enough searchers it is as small as one likes, unless a single searcher never ends
before the clock. -/
theorem C113_zeros (htm : a ≤ clock.tmax) : ∃ q : ℝ≥0∞,
    (∀ gamma strength itype v, ExpAgent.convertFrom (.brownian D) itype gamma d strength 1 = .ok v →
      P {g | ∃ N, ∀ loops ≥ N, (expRun rng sys t.ops limit loops loops loops loops clock (expStart v d g)).map Prod.fst = some (.ok 0)} = q) ∧
    (∀ gamma itype n v, ExpAgent.convertFrom (.brownian D) itype gamma d 0 (n + 1) = .ok v →
      P {g | ∃ N, ∀ loops ≥ N, (expRun rng sys t.ops limit loops loops loops loops clock (expStart v d g)).map Prod.fst = some (.ok 0)} = q ^ (n + 1)) ∧
    q ≤ 1 ∧ (q ≠ 1 → Tendsto (fun n : ℕ => q ^ (n + 1)) atTop (𝓝 0)) := by
  obtain ⟨ρ, hp, h1, h2, -, h4, K, h5⟩ := C113_exp rng P ν h hν sys d S₀ S room put w c t ht hpos clock hc a b l hty ha hinc limit hl D htm
  have := h.prob
  have hab : a ≤ b := by
    obtain ⟨a', b', l', h1, -, h2, -⟩ := exp_fresh_real hc
    rw [hty] at h1
    obtain ⟨rfl, rfl, rfl⟩ := by simpa using h1
    exact h2
  have hzero : ∀ ψ : Measure (ℕ × Ending), (∀ᵐ z ∂ψ, 1 ≤ z.1) →
      ψ {y | pushReported (fun k => expTime a b clock.inc l k) y ∈ ({.ok 0} : Set (Res ℝ))} = ψ {y | y.2 = .clock} := by
    intro ψ hψ
    refine measure_congr ?_
    filter_upwards [hψ] with z hz
    obtain ⟨k, e⟩ := z
    have hk : expTime a b clock.inc l k ≠ 0 := by
      have h2 := expTime_ge a b clock.inc l ha.le hinc hab k
      have h3 : (1 : ℝ) ≤ k := by exact_mod_cast hz
      have : a ≤ k * a := by nlinarith
      linarith
    refine propext ?_
    show pushReported _ (k, e) = .ok 0 ↔ e = .clock
    cases e <;> simp [pushReported, hk]
  have hset : ∀ v, {g | ∃ N, ∀ loops ≥ N, (expRun rng sys t.ops limit loops loops loops loops clock (expStart v d g)).map Prod.fst = some (.ok 0)} =
      {g | ∃ r ∈ ({.ok 0} : Set (Res ℝ)), ∃ N, ∀ loops ≥ N,
        (((fun loops g => (expRun rng sys t.ops limit loops loops loops loops clock (expStart v d g)).map fun r => (r.1, r.2.rng)) loops g)).map Prod.fst = some r} := by
    intro v
    ext g
    simp only [Set.mem_singleton_iff, exists_eq_left, Option.map_map, Set.mem_ofPred_eq]
    rfl
  have hmem : ∀ (n : ℕ) (ys : Fin (n + 1) → ℕ × Ending), ∃ i, firstEnd n ys = ys i := firstEnd_mem
  refine ⟨ρ {z | z.2 = .clock}, fun gamma strength itype v hv => ?_, fun gamma itype n v hv => ?_, prob_le_one, fun hq => ?_⟩
  · rw [hset, yields_prob (h1 gamma strength itype v hv), hzero ρ (h5.mono fun z hz => hz.1)]
  · have hpm : IsProbabilityMeasure ((Measure.pi fun _ : Fin (n + 1) => ρ).map (firstEnd n)) := Measure.isProbabilityMeasure_map Measurable.of_discrete.aemeasurable
    rw [hset, yields_prob (h2 gamma itype n v hv), hzero, h4]
    rw [ae_map_iff Measurable.of_discrete.aemeasurable (p := fun z : ℕ × Ending => 1 ≤ z.1) .of_discrete]
    have hall : ∀ᵐ ys ∂(Measure.pi fun _ : Fin (n + 1) => ρ), ∀ i, 1 ≤ (ys i).1 := by
      rw [ae_all_iff]
      intro i
      exact (measurePreserving_eval (fun _ : Fin (n + 1) => ρ) i).quasiMeasurePreserving.ae (h5.mono fun z hz => hz.1)
    filter_upwards [hall] with ys hys
    obtain ⟨i, hi⟩ := hmem n ys
    rw [hi]
    exact hys i
  · exact (ENNReal.tendsto_pow_atTop_nhds_zero_of_lt_one (lt_of_le_of_ne prob_le_one hq)).comp (tendsto_add_atTop_nat 1)
end

/-! ### the times, in a ball -/

section
variable (rng : RngOps G ℝ) (P : Measure G) (h : IdealRng rng P) (d : Nat) (R : ℝ) (s : Circ ℝ) (hs : Circ.new R d = .ok s)
  (c : Fin d → ℝ) (r : ℝ) (hpos : volume (ballSet d R \ nearSet c r) ≠ 0)
  (clock : ExpStep ℝ) (hc : clock.Fresh) (a b : ℝ) (l : ℕ) (hty : clock.titype = .exponential a b l) (ha : 0 < a) (hinc : 1 ≤ clock.inc) (htm : a ≤ clock.tmax)
  (limit : ℝ) (hl : 0 < limit) (hl2 : limit ≤ 2 * R) (D : ℝ)
include h hs hpos hc hty ha hinc htm hl hl2

/-- examples/mfpt_exp.rs in a ball with an ideal generator and no step longer than the diameter: the probability that `n + 1`
searchers without strength have not found the target up to the time `x` (a later time is written, or 0) is the one for a single
searcher, to the power `n + 1`. -/
theorem C113_times (x : ℝ) (hx : 0 ≤ x) : ∃ q : ℝ≥0∞,
    (∀ gamma strength itype v, ExpAgent.convertFrom (.brownian D) itype gamma d strength 1 = .ok v →
      P {g | ∃ y, (y = 0 ∨ x < y) ∧ ∃ N, ∀ loops ≥ N,
        (expRun rng (s.ops rng) (BulkTarget.new (List.ofFn c) r).ops limit loops loops loops loops clock (expStart v d g)).map Prod.fst = some (.ok y)} = q) ∧
    ∀ gamma itype n v, ExpAgent.convertFrom (.brownian D) itype gamma d 0 (n + 1) = .ok v →
      P {g | ∃ y, (y = 0 ∨ x < y) ∧ ∃ N, ∀ loops ≥ N,
        (expRun rng (s.ops rng) (BulkTarget.new (List.ofFn c) r).ops limit loops loops loops loops clock (expStart v d g)).map Prod.fst = some (.ok y)} = q ^ (n + 1) := by
  have := h.prob
  obtain ⟨hR, hd, hsz, hdim⟩ := new_circ hs
  have w := (C77_walls rng).2.1 R d s hs
  have room := (C73_systems rng P h).2.1 s (by rw [hsz]; exact hR)
  rw [hsz] at room
  subst hdim
  have hν : IsProbabilityMeasure (gaussianReal 0 1) := inferInstance
  have hab : a ≤ b := by
    obtain ⟨a', b', l', h1, -, h2, -⟩ := exp_fresh_real hc
    rw [hty] at h1
    obtain ⟨rfl, rfl, rfl⟩ := by simpa using h1
    exact h2
  obtain ⟨ρ, hp, h1, h2, h3, h4, K, h5⟩ := C113_exp rng P (gaussianReal 0 1) h hν _ s.dim _ _ room _ w c (BulkTarget.new (List.ofFn c) r) rfl hpos clock hc a b l hty
    ha hinc limit hl D htm
  have hlaw : ∀ gamma strength itype n v, 0 < n → ExpAgent.convertFrom (.brownian D) itype gamma s.dim strength n = .ok v → ∀ ψ : Measure (ℕ × Ending), SFinite ψ →
      Yields P (fun loops g => (expRun rng (s.ops rng) (BulkTarget.new (List.ofFn c) r).ops limit loops loops loops loops clock (expStart v s.dim g)).map fun r => (r.1, r.2.rng))
        (pushReported fun k => expTime a b clock.inc l k) ψ → ψ {y | y.2 = .tooFar} = 0 := by
    intro gamma strength itype n v hn hv ψ hψ hy
    obtain ⟨e1, e2, -, -⟩ := C108_ball rng P h s.dim R s hs c r hpos clock hc a b l hty ha hinc htm limit hl hl2 D gamma strength itype n hn v hv _ rfl
    obtain ⟨-, e3, -⟩ := C108_law rng P (gaussianReal 0 1) h hν _ s.dim _ _ room _ w c (BulkTarget.new (List.ofFn c) r) rfl hpos clock hc a b l hty ha hinc limit hl
      D gamma strength itype n hn v hv htm _ rfl
    have hu := yields_unique hy e3 {.err .tooLargeTimeStep}
    have hpre : (pushReported fun k => expTime a b clock.inc l k) ⁻¹' {.err .tooLargeTimeStep} = {y | y.2 = .tooFar} := by
      ext ⟨k, e⟩
      cases e <;> simp [pushReported]
    rw [hpre] at hu
    rw [hu]
    exact e2
  obtain ⟨k, hk, hkK⟩ : ∃ k, k ≤ K ∧ ∀ j, j ≤ K → (x < expTime a b clock.inc l j ↔ k < j) := by
    refine ⟨Nat.findGreatest (fun j => expTime a b clock.inc l j ≤ x) K, Nat.findGreatest_le K, fun j hj => ?_⟩
    rw [← not_le, ← not_le (a := j), not_iff_not]
    constructor
    · exact fun hh => Nat.le_findGreatest hj hh
    · intro hh
      refine (expTime_mono a b clock.inc l ha.le hinc hab hh).trans ?_
      exact Nat.findGreatest_spec (P := fun j => expTime a b clock.inc l j ≤ x) (m := 0) (Nat.zero_le K) (by simpa [expTime] using hx)
  have hset : ∀ v, {g | ∃ y, (y = 0 ∨ x < y) ∧ ∃ N, ∀ loops ≥ N,
        (expRun rng (s.ops rng) (BulkTarget.new (List.ofFn c) r).ops limit loops loops loops loops clock (expStart v s.dim g)).map Prod.fst = some (.ok y)} =
      {g | ∃ r' ∈ ({q | ∃ y, (y = 0 ∨ x < y) ∧ q = .ok y} : Set (Res ℝ)), ∃ N, ∀ loops ≥ N,
        (((fun loops g => (expRun rng (s.ops rng) (BulkTarget.new (List.ofFn c) r).ops limit loops loops loops loops clock (expStart v s.dim g)).map
          fun r => (r.1, r.2.rng)) loops g)).map Prod.fst = some r'} := by
    intro v
    ext g
    simp only [Option.map_map, Set.mem_ofPred_eq]
    constructor
    · rintro ⟨y, hy, hN⟩
      exact ⟨.ok y, ⟨y, hy, rfl⟩, hN⟩
    · rintro ⟨_, ⟨y, hy, rfl⟩, hN⟩
      exact ⟨y, hy, hN⟩
  have hout : ∀ ψ : Measure (ℕ × Ending), ψ {y | y.2 = .tooFar} = 0 → (∀ᵐ z ∂ψ, 1 ≤ z.1 ∧ z.1 ≤ K ∧ (z.2 = .clock → z.1 = K)) →
      ψ {y | pushReported (fun k => expTime a b clock.inc l k) y ∈ ({q | ∃ y, (y = 0 ∨ x < y) ∧ q = .ok y} : Set (Res ℝ))} =
        ψ {z | k < z.1 ∨ k = z.1 ∧ z.2 = .clock} := by
    intro ψ hf hψ
    have hf' : ∀ᵐ z ∂ψ, z.2 ≠ .tooFar := by rw [ae_iff]; simpa using hf
    refine measure_congr ?_
    filter_upwards [hψ, hf'] with z hz hzf
    obtain ⟨j, e⟩ := z
    obtain ⟨z1, z2, z3⟩ := hz
    have hj : expTime a b clock.inc l j ≠ 0 := by
      have h2 := expTime_ge a b clock.inc l ha.le hinc hab j
      have h3 : (1 : ℝ) ≤ j := by exact_mod_cast z1
      have : a ≤ j * a := by nlinarith
      linarith
    refine propext ?_
    show (∃ y, (y = 0 ∨ x < y) ∧ pushReported (fun k => expTime a b clock.inc l k) (j, e) = .ok y) ↔ (k < j ∨ k = j ∧ e = .clock)
    cases e with
    | found =>
      simp only [pushReported, Res.ok.injEq, reduceCtorEq, and_false, or_false]
      rw [← hkK j z2]
      constructor
      · rintro ⟨y, hy, rfl⟩
        exact hy.resolve_left hj
      · intro hh
        exact ⟨_, .inr hh, rfl⟩
    | tooFar => exact absurd rfl hzf
    | clock =>
      have : j = K := z3 rfl
      simp only [pushReported, Res.ok.injEq, and_true]
      constructor
      · intro _
        omega
      · intro _
        exact ⟨0, .inl rfl, rfl⟩
  have hmem : ∀ (n : ℕ) (ys : Fin (n + 1) → ℕ × Ending), ∃ i, firstEnd n ys = ys i := firstEnd_mem
  refine ⟨ρ {z | k < z.1 ∨ k = z.1 ∧ z.2 = .clock}, fun gamma strength itype v hv => ?_, fun gamma itype n v hv => ?_⟩
  · have hy := h1 gamma strength itype v hv
    rw [hset, yields_prob hy, hout ρ (hlaw gamma strength itype 1 v (by norm_num) hv ρ inferInstance hy) h5]
  · have hpm : IsProbabilityMeasure ((Measure.pi fun _ : Fin (n + 1) => ρ).map (firstEnd n)) := Measure.isProbabilityMeasure_map Measurable.of_discrete.aemeasurable
    have hy := h2 gamma itype n v hv
    rw [hset, yields_prob hy, hout _ (hlaw gamma 0 itype (n + 1) v (by omega) hv _ inferInstance hy), h3]
    rw [ae_map_iff Measurable.of_discrete.aemeasurable (p := fun z : ℕ × Ending => 1 ≤ z.1 ∧ z.1 ≤ K ∧ (z.2 = .clock → z.1 = K)) .of_discrete]
    have hall : ∀ᵐ ys ∂(Measure.pi fun _ : Fin (n + 1) => ρ), ∀ i, 1 ≤ (ys i).1 ∧ (ys i).1 ≤ K ∧ ((ys i).2 = .clock → (ys i).1 = K) := by
      rw [ae_all_iff]
      intro i
      exact (measurePreserving_eval (fun _ : Fin (n + 1) => ρ) i).quasiMeasurePreserving.ae h5
    filter_upwards [hall] with ys hys
    obtain ⟨i, hi⟩ := hmem n ys
    rw [hi]
    exact hys i
end

/-! ### tests/large_n_simulation.rs -/

section
variable (rng : RngOps G ℝ) (P : Measure G) (ν : Measure ℝ) (h : IndepRng rng P ν) (hν : IsProbabilityMeasure ν)
  (sys : SysOps G ℝ) (d : Nat) (S₀ S : Set (Fin d → ℝ)) (room : Room P sys d S₀)
  (put : (Fin d → ℝ) → Fin d → ℝ) (w : Walls sys S put)
  (c : Fin d → ℝ) (t : BulkTarget ℝ) (ht : t.targetPos = List.ofFn c) (hpos : volume (S₀ \ nearSet c t.targetSize) ≠ 0)
  (clock : ExpStep ℝ) (hc : clock.Fresh) (a b : ℝ) (l : ℕ) (hty : clock.titype = .exponential a b l) (ha : 0 < a) (hinc : 1 ≤ clock.inc) (htm : 0 ≤ clock.tmax)
include h hν room w ht hpos hc hty ha hinc htm

/-- tests/large_n_simulation.rs with searchers that are points (radius 0, or less), in any of the systems and with any
independent numbers: a search by `n + 1` searchers has the outcome of the one that ends first of `n + 1` independent searches
by a single searcher (of any radius and exponent).  The clock ends before the target is found (`UnexpectedEnd`) with the
probability that this happens to a single searcher, to the power `n + 1`.  The whole program reports a mean over `num` searches
with the probability that the first of `n + 1` independent single searches to end finds the target, to the power `num`. -/
theorem C113_points : ∃ ρ : Measure (ℕ × Ending), IsProbabilityMeasure ρ ∧
    (∀ radius alpha v, MergeTeam d radius alpha v → v.length = 1 →
      Yields P (fun loops g => (largeNRun rng sys t.ops loops loops loops loops (from' v, clock, g)).map fun r => (r.1, r.2.2.2))
        (mergeReported fun k => expTime a b clock.inc l (k - 1)) ρ ∧
      P {g | ∃ N, ∀ loops ≥ N, (largeNRun rng sys t.ops loops loops loops loops (from' v, clock, g)).map Prod.fst = some (.err .unexpectedEnd)} =
        ρ {z | z.2 = .clock}) ∧
    (∀ radius alpha n v, radius ≤ 0 → MergeTeam d radius alpha v → v.length = n + 1 →
      Yields P (fun loops g => (largeNRun rng sys t.ops loops loops loops loops (from' v, clock, g)).map fun r => (r.1, r.2.2.2))
        (mergeReported fun k => expTime a b clock.inc l (k - 1)) ((Measure.pi fun _ : Fin (n + 1) => ρ).map (firstEnd n)) ∧
      P {g | ∃ N, ∀ loops ≥ N, (largeNRun rng sys t.ops loops loops loops loops (from' v, clock, g)).map Prod.fst = some (.err .unexpectedEnd)} =
        ρ {z | z.2 = .clock} ^ (n + 1)) ∧
    (∀ n k, (Measure.pi fun _ : Fin (n + 1) => ρ).map (firstEnd n) {z | k < z.1 ∨ k = z.1 ∧ z.2 = .clock} = ρ {z | k < z.1 ∨ k = z.1 ∧ z.2 = .clock} ^ (n + 1)) ∧
    (LibrarySystem rng sys → sys.DrawsInside d → sys.OutsideDim d → ∀ radius alpha n num D, radius ≤ 0 →
      P {g | ∃ m N, ∀ loops ≥ N, (largeNProgram rng sys t.ops loops loops loops loops (.brownian D) radius alpha clock (n + 1) num g).map Prod.fst = some (.ok m)} =
        (Measure.pi fun _ : Fin (n + 1) => ρ) {ys | (firstEnd n ys).2 = .found} ^ num) := by
  have hfin : volume (S₀ \ nearSet c t.targetSize) ≠ ∞ := ne_top_of_le_ne_top room.volume_finite (measure_mono Set.sdiff_subset)
  have hprob := uniformLaw_prob hpos hfin
  have := h.prob
  have hab : a ≤ b := by
    obtain ⟨a', b', l', h1, -, h2, -⟩ := exp_fresh_real hc
    rw [hty] at h1
    obtain ⟨rfl, rfl, rfl⟩ := by simpa using h1
    exact h2
  set clk := expTurns a b clock.inc l clock.tmax with hclk'
  have hnone : ∀ k, clk k = none ↔ clock.tmax < expTime a b clock.inc l k := by
    intro k
    rw [hclk']
    unfold expTurns
    split_ifs with hh
    · simp [hh]
    · simpa using hh
  obtain ⟨K, hK, hclk⟩ : ∃ K, 1 ≤ K ∧ ∀ k, (clk k).isNone ↔ K ≤ k := by
    refine clock_end ?_ ?_ fun k hk => ?_
    · rw [← Option.not_isNone, Bool.not_eq_true', ← Bool.not_eq_true, Option.isNone_iff_eq_none, hnone]
      simpa [expTime] using htm
    · obtain ⟨K, hK⟩ := exists_nat_gt (clock.tmax / a)
      refine ⟨K, (hnone K).2 ?_⟩
      have h2 := expTime_ge a b clock.inc l ha.le hinc hab K
      rw [div_lt_iff₀ ha] at hK
      linarith
    · rw [hnone] at hk ⊢
      exact hk.trans_le (expTime_mono a b clock.inc l ha.le hinc hab (by omega))
  have hm := near_meas c t.targetSize
  set W : MergeWorld d := worldOf put S (nearSet c t.targetSize) 1 0 0 clk with hW
  have hdif : ∀ radius alpha, (worldOf put S (nearSet c t.targetSize) 1 alpha radius clk).dif 1 = W.dif 1 := fun radius alpha => by simp [hW, slowedTo]
  have hone : ∀ radius alpha, mergeLaw (worldOf put S (nearSet c t.targetSize) 1 alpha radius clk) (Measure.pi fun _ : Fin d => ν)
      (Measure.pi fun _ : Fin 1 => uniformLaw (S₀ \ nearSet c t.targetSize)) = turnLaw (aloneTo W) S (nearSet c t.targetSize) K 1 (Measure.pi fun _ : Fin d => ν)
        (Measure.pi fun _ : Fin 1 => uniformLaw (S₀ \ nearSet c t.targetSize)) := by
    intro radius alpha
    rw [merge_turnLaw (worldOf put S (nearSet c t.targetSize) 1 alpha radius clk) w.measurable w.room_measurable hm hclk (.inr rfl)]
    congr 1
  set ρ := turnLaw (aloneTo W) S (nearSet c t.targetSize) K 1 (Measure.pi fun _ : Fin d => ν) (Measure.pi fun _ : Fin 1 => uniformLaw (S₀ \ nearSet c t.targetSize)) with hρ
  have hp : IsProbabilityMeasure ρ := turnLaw_prob _ _ (aloneTo_meas (W := W) w.measurable) w.room_measurable hm hK
  have hg := one_given_up (Measure.pi fun _ : Fin d => ν) (uniformLaw (S₀ \ nearSet c t.targetSize)) (aloneTo_meas (W := W) w.measurable) w.room_measurable hm hK
  have hmany : ∀ radius alpha n, radius ≤ 0 → (Measure.pi fun _ : Fin (n + 1) => ρ).map (firstEnd n) =
      mergeLaw (worldOf put S (nearSet c t.targetSize) 1 alpha radius clk) (Measure.pi fun _ : Fin d => ν)
        (Measure.pi fun _ : Fin (n + 1) => uniformLaw (S₀ \ nearSet c t.targetSize)) := by
    intro radius alpha n hr
    rw [← hone 0 0]
    exact (C113_merge (Measure.pi fun _ : Fin d => ν) (uniformLaw (S₀ \ nearSet c t.targetSize)) hK W
      (worldOf put S (nearSet c t.targetSize) 1 alpha radius clk) rfl rfl rfl rfl (hdif radius alpha)
      (by show 2 * radius ≤ 0; linarith) w.measurable w.room_measurable hm hclk n).symm
  have hpm : ∀ n, IsProbabilityMeasure ((Measure.pi fun _ : Fin (n + 1) => ρ).map (firstEnd n)) :=
    fun n => Measure.isProbabilityMeasure_map Measurable.of_discrete.aemeasurable
  have hset : ∀ v, {g | ∃ N, ∀ loops ≥ N, (largeNRun rng sys t.ops loops loops loops loops (from' v, clock, g)).map Prod.fst = some (.err .unexpectedEnd)} =
      {g | ∃ r ∈ ({.err .unexpectedEnd} : Set (Res ℝ)), ∃ N, ∀ loops ≥ N,
        (((fun loops g => (largeNRun rng sys t.ops loops loops loops loops (from' v, clock, g)).map fun r => (r.1, r.2.2.2)) loops g)).map Prod.fst = some r} := by
    intro v
    ext g
    simp only [Set.mem_singleton_iff, exists_eq_left, Option.map_map, Set.mem_ofPred_eq]
    rfl
  have hpre : {y | mergeReported (fun k => expTime a b clock.inc l (k - 1)) y ∈ ({.err .unexpectedEnd} : Set (Res ℝ))} = {y | y.2 = .clock} := by
    ext ⟨k, e⟩
    cases e <;> simp [mergeReported]
  refine ⟨ρ, hp, fun radius alpha v hv hv1 => ?_, fun radius alpha n v hr hv hvn => ?_, fun n k => ?_, fun hsys hdr hod radius alpha n num D hr => ?_⟩
  · have hy := (C107_law rng P ν h hν sys d S₀ S room put w c t ht hpos clock hc a b l hty ha hinc htm radius alpha 1 (by norm_num) ρ (hone radius alpha).symm).2.1 v hv hv1
    exact ⟨hy, by rw [hset, yields_prob hy, hpre]⟩
  · have hy := (C107_law rng P ν h hν sys d S₀ S room put w c t ht hpos clock hc a b l hty ha hinc htm radius alpha (n + 1) (by omega) _
      (hmany radius alpha n hr)).2.1 v hv hvn
    refine ⟨hy, ?_⟩
    have := hpm n
    rw [hset, yields_prob hy, hpre, Measure.map_apply .of_discrete .of_discrete]
    exact first_given_up ρ hg n
  · rw [Measure.map_apply .of_discrete .of_discrete]
    exact first_after ρ n k
  · have hrep := C107_program rng P ν h hν sys d S₀ S room put w c t ht hpos clock hc a b l hty ha hinc htm radius alpha (n + 1) (by omega) _
      (hmany radius alpha n hr) hsys hdr hod num D
    have := hpm n
    rw [reports_success hrep, Measure.map_apply .of_discrete .of_discrete]
    rfl
end

/-! ### examples -/

/-- the clock of examples/mfpt_exp.rs. -/
theorem exp_clock_example : ∃ clock, ExpStep.new (1 / 10 ^ 10 : ℝ) (1 / 10 ^ 5) 10 = .ok clock ∧ clock.titype = .exponential (1 / 10 ^ 10) (1 / 10 ^ 5) 10 ∧
    1 ≤ clock.inc ∧ (1 / 10 ^ 10 : ℝ) ≤ clock.tmax := by
  have hc : ∃ clock, ExpStep.new (1 / 10 ^ 10 : ℝ) (1 / 10 ^ 5) 10 = .ok clock := by
    unfold ExpStep.new
    rw [if_neg]
    · exact ⟨_, rfl⟩
    · simp only [fl_lt, fl_lit, Bool.or_eq_true, decide_eq_true_eq, not_or, not_lt, beq_iff_eq]
      push_cast
      norm_num
  obtain ⟨clock, hc⟩ := hc
  have e : clock = { titype := .exponential (1 / 10 ^ 10) (1 / 10 ^ 5) 10, current := Fl.zero, dt := 1 / 10 ^ 10, inc := clock.inc, tmax := Fl.maxVal, count := 0 } := by
    have hc' := hc
    unfold ExpStep.new at hc'
    split at hc' <;> simp only [reduceCtorEq, Res.ok.injEq] at hc'
    rw [← hc']
  refine ⟨clock, hc, by rw [e], ?_, ?_⟩
  · unfold ExpStep.new at hc
    split at hc <;> simp only [reduceCtorEq, Res.ok.injEq] at hc
    rw [← hc]
    simp only
    split_ifs with h1
    · simp only [fl_lit]; norm_num
    · simp only [fl_ofNat, fl_two]; norm_num
    · simp only [fl_lit]; norm_num
  · rw [e]
    have h1 : ∀ m k : ℕ, m < k → (1 : ℝ) ≤ (2 : ℝ) ^ k - 2 ^ m := by
      intro m k hmk
      have h2 : (2 : ℝ) ^ (m + 1) ≤ 2 ^ k := pow_le_pow_right₀ (by norm_num) hmk
      have h3 : (1 : ℝ) ≤ 2 ^ m := one_le_pow₀ (by norm_num)
      rw [pow_succ] at h2
      linarith
    exact (by norm_num : (1 / 10 ^ 10 : ℝ) ≤ 1).trans (h1 971 1024 (by omega))

/-- With an ideal generator: five searchers without strength in a disc, and one with strength 3. -/
example : let s : Circ ℝ := ⟨.continuousCircular, .reflection, 10, 2⟩
    ∃ clock v v1, ExpStep.new (1 / 10 ^ 10 : ℝ) (1 / 10 ^ 5) 10 = .ok clock ∧ ExpAgent.convertFrom (.brownian (1 : ℝ)) .uniform 2 2 0 5 = .ok v ∧
      ExpAgent.convertFrom (.brownian (1 : ℝ)) .uniform 2 2 3 1 = .ok v1 ∧
      tapeLaw {g | ∃ y, (y = 0 ∨ 1 < y) ∧ ∃ N, ∀ loops ≥ N, (expRun tapeRng (s.ops tapeRng) (BulkTarget.new (List.ofFn fun _ : Fin 2 => (0 : ℝ)) 1).ops (moveLimit 1 2)
        loops loops loops loops clock (expStart v 2 g)).map Prod.fst = some (.ok y)} =
      tapeLaw {g | ∃ y, (y = 0 ∨ 1 < y) ∧ ∃ N, ∀ loops ≥ N, (expRun tapeRng (s.ops tapeRng) (BulkTarget.new (List.ofFn fun _ : Fin 2 => (0 : ℝ)) 1).ops (moveLimit 1 2)
        loops loops loops loops clock (expStart v1 2 g)).map Prod.fst = some (.ok y)} ^ 5 := by
  intro s
  obtain ⟨clock, hc, hty, hinc, htm⟩ := exp_clock_example
  have hv : ∀ strength n, ∃ v, ExpAgent.convertFrom (.brownian (1 : ℝ)) .uniform 2 2 strength n = .ok v := by
    intro strength n
    unfold ExpAgent.convertFrom
    simp only
    rw [if_neg (by simp [AgentCore.initPos])]
    exact ⟨_, rfl⟩
  obtain ⟨v, hv5⟩ := hv 0 5
  obtain ⟨v1, hv1⟩ := hv 3 1
  obtain ⟨l1, l2, l3⟩ := C108_limit (r := 1) (gamma := 2) (R := 10) (by norm_num) (by norm_num) (by norm_num)
  have hs : Circ.new (10 : ℝ) 2 = .ok s := by unfold Circ.new; rw [if_neg (by simp)]
  obtain ⟨q, q1, q2⟩ := C113_times tapeRng tapeLaw tape_ideal 2 10 s hs (fun _ => 0) 1 disc_example clock (.new hc) _ _ _ hty (by positivity) hinc htm
    _ l2 l3 1 1 (by norm_num)
  refine ⟨clock, v, v1, hc, hv5, hv1, ?_⟩
  rw [q1 2 3 .uniform v1 hv1]
  exact q2 2 .uniform 4 v hv5

/-- With an ideal generator: seven points in a disc, and a searcher of radius 1/20. -/
example : let s : Circ ℝ := ⟨.continuousCircular, .reflection, 10, 2⟩
    let agent : ℝ → MergeAgent ℝ := fun radius => ⟨.continuousPassiveInteracting, .brownian 1, .uniform, 2, List.ofFn fun _ : Fin 2 => 3, radius, 1, 1⟩
    ∃ clock, ExpStep.new (1 / 10 ^ 10 : ℝ) (1 / 10 ^ 5) 10 = .ok clock ∧
      tapeLaw {g | ∃ N, ∀ loops ≥ N, (largeNRun tapeRng (s.ops tapeRng) (BulkTarget.new (List.ofFn fun _ : Fin 2 => (0 : ℝ)) 1).ops loops loops loops loops
        (from' (List.replicate 7 (agent 0)), clock, g)).map Prod.fst = some (.err .unexpectedEnd)} =
      tapeLaw {g | ∃ N, ∀ loops ≥ N, (largeNRun tapeRng (s.ops tapeRng) (BulkTarget.new (List.ofFn fun _ : Fin 2 => (0 : ℝ)) 1).ops loops loops loops loops
        (from' [agent (1 / 20)], clock, g)).map Prod.fst = some (.err .unexpectedEnd)} ^ 7 := by
  intro s agent
  obtain ⟨clock, hc, hty, hinc, htm⟩ := exp_clock_example
  have hs : Circ.new (10 : ℝ) 2 = .ok s := by unfold Circ.new; rw [if_neg (by simp)]
  have w := (C77_walls tapeRng).2.1 10 2 s hs
  have room := (C73_systems tapeRng tapeLaw tape_ideal).2.1 s (by norm_num [s])
  obtain ⟨ρ, -, h1, h2, -⟩ := C113_points tapeRng tapeLaw (gaussianReal 0 1) tape_ideal inferInstance _ 2 _ _ room _ w (fun _ => 0)
    (BulkTarget.new (List.ofFn fun _ : Fin 2 => (0 : ℝ)) 1) rfl disc_example clock (.new hc) _ _ _ hty (by positivity) hinc ((by positivity : (0 : ℝ) ≤ _).trans htm)
  refine ⟨clock, hc, ?_⟩
  rw [(h1 (1 / 20) 1 [agent (1 / 20)] (fun a ha => by rw [List.mem_singleton.1 ha]; exact ⟨1, _, 1, rfl⟩) rfl).2]
  exact (h2 0 1 6 (List.replicate 7 (agent 0)) le_rfl (fun a ha => by rw [(List.mem_replicate.1 ha).2]; exact ⟨1, _, 1, rfl⟩) (by simp)).2

end Moledyn.Props
