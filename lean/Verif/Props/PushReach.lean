import Verif.Lemmas.PushReach
import Verif.Lemmas.MergeReach
import Verif.Props.TurnRace
import Verif.Props.BoundedSearch
/-
C114: exactly which numbers examples/mfpt_exp.rs, tests/large_n_simulation.rs and tests/merge_fpt.rs may report.
-/
namespace Moledyn.Props
open Moledyn LList MeasureTheory ProbabilityTheory Filter
open scoped ENNReal NNReal Topology
set_option linter.unusedSectionVars false
variable {G : Type} [MeasurableSpace G]

theorem lines_written {time : ℕ → ℝ} : ∀ (l : List (ℕ × Ending)) (ys : List ℝ),
    linesReported time l = (ys, .ok ()) ↔ l.map (pushReported time) = ys.map Res.ok
  | [], ys => by cases ys <;> simp [linesReported]
  | z :: l, [] => by
    unfold linesReported
    cases h : pushReported time z with
    | ok t => simp
    | err e => simp [h]
    | panic => simp [h]
  | z :: l, y :: ys => by
    have ih := lines_written (time := time) l ys
    unfold linesReported
    cases h : pushReported time z with
    | ok t =>
      simp only [List.map_cons, h, List.cons.injEq, Res.ok.injEq, Prod.mk.injEq, ← ih]
      constructor
      · rintro ⟨⟨rfl, h1⟩, h2⟩
        exact ⟨rfl, Prod.ext h1 h2⟩
      · rintro ⟨rfl, h1⟩
        rw [h1]
        exact ⟨⟨rfl, rfl⟩, rfl⟩
    | err e => simp [h]
    | panic => simp [h]

section
variable (rng : RngOps G ℝ) (P : Measure G) (h : IdealRng rng P)
  (sys : SysOps G ℝ) (d : Nat) (S₀ S : Set (Fin d → ℝ)) (room : Room P sys d S₀)
  (put : (Fin d → ℝ) → Fin d → ℝ) (w : Walls sys S put)
  (c : Fin d → ℝ) (t : BulkTarget ℝ) (ht : t.targetPos = List.ofFn c)
  (Q : Set (Fin d → ℝ)) (hQ : Q ⊆ S₀ ∩ S) (hconv : Convex ℝ Q) (hin : volume (Q ∩ nearSet c t.targetSize) ≠ 0) (hout : volume (Q \ nearSet c t.targetSize) ≠ 0)
  (clock : ExpStep ℝ) (hc : clock.Fresh) (a b : ℝ) (l : ℕ) (hty : clock.titype = .exponential a b l) (ha : 0 < a) (hinc : 1 ≤ clock.inc) (htm : a ≤ clock.tmax)
  (limit : ℝ) (hl : 0 < limit) (D : ℝ) (hD : 0 < D)
include h room w ht hQ hconv hin hout hc hty ha hinc htm hl hD

/-- The process of `C108_law`, with ideal numbers, if a convex part of the room is partly inside and partly outside the target:
the target may be found in any turn the clock has, and the clock may end first.  This holds for any number of searchers, any
force between them, and any limit for the steps. -/
theorem C114_outcomes (gamma strength : ℝ) (n : ℕ) (hn : 0 < n) (ρ : Measure (ℕ × Ending))
    (hρ : ρ = pushLaw ⟨put, S, nearSet c t.targetSize, D, expForce gamma strength, limit, laterTurns a b clock.inc l clock.tmax⟩
      (Measure.pi fun _ : Fin d => gaussianReal 0 1) (Measure.pi fun _ : Fin n => uniformLaw (S₀ \ nearSet c t.targetSize))) :
    (∀ k, 1 ≤ k → expTime a b clock.inc l k ≤ clock.tmax → ρ {(k, .found)} ≠ 0) ∧
    ∃ k, 1 ≤ k ∧ expTime a b clock.inc l k ≤ clock.tmax ∧ clock.tmax < expTime a b clock.inc l (k + 1) ∧ ρ {(k, .clock)} ≠ 0 := by
  have hab : a ≤ b := by
    obtain ⟨a', b', l', h1, -, h2, -⟩ := exp_fresh_real hc
    rw [hty] at h1
    obtain ⟨rfl, rfl, rfl⟩ := by simpa using h1
    exact h2
  have hpos : volume (S₀ \ nearSet c t.targetSize) ≠ 0 := fun h0 => hout (measure_mono_null (Set.sdiff_subset_sdiff_left (hQ.trans Set.inter_subset_left)) h0)
  have hfin : volume (S₀ \ nearSet c t.targetSize) ≠ ∞ := ne_top_of_le_ne_top room.volume_finite (measure_mono Set.sdiff_subset)
  obtain ⟨K, hK1, hK⟩ := later_end rng P (gaussianReal 0 1) h inferInstance sys d S₀ S room put w c t ht hpos clock hc a b l hty ha hinc limit hl htm
  have hlater : ∀ k, (laterTurns a b clock.inc l clock.tmax k).isNone ↔ clock.tmax < expTime a b clock.inc l (k + 1) := by
    intro k
    unfold laterTurns expTurns
    split_ifs with hh
    · simpa using hh
    · simpa using hh
  have hclk : ∀ k < K, ∃ dt, 0 < dt ∧ laterTurns a b clock.inc l clock.tmax k = some dt := by
    intro k hk
    have h1 : ¬ (laterTurns a b clock.inc l clock.tmax k).isNone := fun h1 => absurd ((hK k).1 h1) (by omega)
    rw [hlater, not_lt] at h1
    refine ⟨expStepSize a b clock.inc l (k + 1), ha.trans_le (expStepSize_ge a b clock.inc l ha.le hinc hab _), ?_⟩
    unfold laterTurns expTurns
    rw [if_pos h1]
  obtain ⟨u, x, ε, hε, hu, hx, hux⟩ := border hconv hin hout hl
  have hlim : 2 * ε ≤ limit := by have := lengthOf_nonneg (x - u); linarith
  have hstart : (Measure.pi fun _ : Fin n => uniformLaw (S₀ \ nearSet c t.targetSize)) {x | ∀ i, x i ∈ nearSet u ε} ≠ 0 := by
    have e : {x : Fin n → Fin d → ℝ | ∀ i, x i ∈ nearSet u ε} = Set.univ.pi fun _ => nearSet u ε := by ext x; simp
    have := uniformLaw_prob hpos hfin
    rw [e, Measure.pi_pi, Finset.prod_const]
    refine pow_ne_zero _ ?_
    unfold uniformLaw
    rw [Measure.smul_apply, Measure.restrict_apply (near_meas u ε), Set.inter_eq_self_of_subset_left
      (hu.trans (Set.sdiff_subset_sdiff_left (hQ.trans Set.inter_subset_left))), smul_eq_mul]
    refine mul_ne_zero (ENNReal.inv_ne_zero.2 hfin) ?_
    exact ((near_open u ε).measure_pos volume ⟨u, near_self u hε⟩).ne'
  have hf : Measurable (expForce gamma strength) := by unfold expForce; fun_prop
  set W : PushWorld d := ⟨put, S, nearSet c t.targetSize, D, expForce gamma strength, limit, laterTurns a b clock.inc l clock.tmax⟩ with hW
  have hT : Measurable fun p : PushState n d × (Fin d → ℝ) => pushMove W p.1 p.2 :=
    pushMove_meas (W := W) w.measurable hf w.room_measurable (near_meas c t.targetSize)
  have hu' : nearSet u ε ⊆ W.room \ W.target := fun y hy => ⟨(hQ (hu hy).1).2, (hu hy).2⟩
  have hx' : nearSet x ε ⊆ W.room ∩ W.target := fun y hy => ⟨(hQ (hx hy).1).2, (hx hy).2⟩
  refine ⟨fun k hk1 hk => ?_, K, hK1, ?_, ?_, ?_⟩
  · obtain ⟨k, rfl⟩ : ∃ j, k = j + 1 := ⟨k - 1, by omega⟩
    have hkK : k < K := by
      by_contra hge
      have h1 := (hlater k).1 ((hK k).2 (by omega))
      linarith
    rw [hρ]
    exact found_possible hT _ hD hclk u hε hu' w.inside hlim hstart hn x hε hx' (by show _ ≤ limit; linarith) hkK
  · have h1 : ¬ (laterTurns a b clock.inc l clock.tmax (K - 1)).isNone := fun h1 => absurd ((hK _).1 h1) (by omega)
    rw [hlater, not_lt, Nat.sub_add_cancel hK1] at h1
    exact h1
  · exact (hlater K).1 ((hK K).2 le_rfl)
  · rw [hρ]
    exact clock_possible hT _ hD hclk u hε hu' w.inside hlim hstart hn (by omega) (Option.isNone_iff_eq_none.1 ((hK K).2 le_rfl))

private theorem may_write (gamma strength : ℝ) (itype : InitType ℝ) (n : ℕ) (hn : 0 < n) (v : List (ExpAgent ℝ))
    (hv : ExpAgent.convertFrom (.brownian D) itype gamma d strength n = .ok v) : ∃ ρ : Measure (ℕ × Ending), IsProbabilityMeasure ρ ∧
    ρ = pushLaw ⟨put, S, nearSet c t.targetSize, D, expForce gamma strength, limit, laterTurns a b clock.inc l clock.tmax⟩
      (Measure.pi fun _ : Fin d => gaussianReal 0 1) (Measure.pi fun _ : Fin n => uniformLaw (S₀ \ nearSet c t.targetSize)) ∧
    (∀ y : ℝ, P {g | ∃ N, ∀ loops ≥ N, (expRun rng sys t.ops limit loops loops loops loops clock (expStart v d g)).map Prod.fst = some (.ok y)} =
      ρ {z | pushReported (fun k => expTime a b clock.inc l k) z = .ok y}) ∧
    ∀ y : ℝ, ρ {z | pushReported (fun k => expTime a b clock.inc l k) z = .ok y} ≠ 0 ↔ y = 0 ∨ ∃ k, 1 ≤ k ∧ y = expTime a b clock.inc l k ∧ y ≤ clock.tmax := by
  have := h.prob
  have hpos : volume (S₀ \ nearSet c t.targetSize) ≠ 0 := fun h0 => hout (measure_mono_null (Set.sdiff_subset_sdiff_left (hQ.trans Set.inter_subset_left)) h0)
  obtain ⟨b1, b2, b3⟩ := C108_law rng P (gaussianReal 0 1) h inferInstance sys d S₀ S room put w c t ht hpos clock hc a b l hty ha hinc limit hl D gamma strength itype n hn v hv
    htm _ rfl
  obtain ⟨o1, k0, o2, o3, o4, o5⟩ := C114_outcomes rng P h sys d S₀ S room put w c t ht Q hQ hconv hin hout clock hc a b l hty ha hinc htm limit hl D hD gamma strength n hn _ rfl
  generalize hρ : pushLaw ⟨put, S, nearSet c t.targetSize, D, expForce gamma strength, limit, laterTurns a b clock.inc l clock.tmax⟩
      (Measure.pi fun _ : Fin d => gaussianReal 0 1) (Measure.pi fun _ : Fin n => uniformLaw (S₀ \ nearSet c t.targetSize)) = ρ at b1 b2 b3 o1 o5
  refine ⟨ρ, b1, rfl, fun y => ?_, fun y => ⟨fun hy => ?_, ?_⟩⟩
  · have e := yields_prob b2 {.ok y}
    simp only [Set.mem_singleton_iff, exists_eq_left, Option.map_map] at e
    exact e
  · by_contra hne
    refine hy (measure_mono_null (fun z hz => ?_) (ae_iff.1 b3))
    obtain ⟨k, e⟩ := z
    have hz : pushReported (fun k => expTime a b clock.inc l k) (k, e) = .ok y := hz
    intro hh
    refine hne ?_
    cases e with
    | found =>
      simp only [pushReported, Res.ok.injEq] at hz
      exact .inr ⟨k, hh.1, hz.symm, hz ▸ hh.2.1⟩
    | tooFar => simp [pushReported] at hz
    | clock =>
      simp only [pushReported, Res.ok.injEq] at hz
      exact .inl hz.symm
  · rintro (rfl | ⟨k, hk1, rfl, hk⟩)
    · refine fun h0 => o5 (measure_mono_null ?_ h0)
      rintro _ rfl
      rfl
    · refine fun h0 => o1 k hk1 hk (measure_mono_null ?_ h0)
      rintro _ rfl
      rfl

/-- What an ensemble of examples/mfpt_exp.rs may write: 0 and the times of the turns the clock has, from the first on, up to its
limit.  Each of them is written with a positive probability, and nothing else is written; this holds for any number of searchers
and any force between them. -/
theorem C114_numbers (gamma strength : ℝ) (itype : InitType ℝ) (n : ℕ) (hn : 0 < n) (v : List (ExpAgent ℝ))
    (hv : ExpAgent.convertFrom (.brownian D) itype gamma d strength n = .ok v) (y : ℝ) :
    P {g | ∃ N, ∀ loops ≥ N, (expRun rng sys t.ops limit loops loops loops loops clock (expStart v d g)).map Prod.fst = some (.ok y)} ≠ 0 ↔
      y = 0 ∨ ∃ k, 1 ≤ k ∧ y = expTime a b clock.inc l k ∧ y ≤ clock.tmax := by
  obtain ⟨ρ, -, -, h2, h3⟩ := may_write rng P h sys d S₀ S room put w c t ht Q hQ hconv hin hout clock hc a b l hty ha hinc htm limit hl D hD gamma strength itype n hn v hv
  rw [h2, h3]

/-- What the program may write for `k` ensembles: any `k` such numbers, in any order.  The probability of certain lines is the
product of those of the single lines. -/
theorem C114_lines (hod : sys.OutsideDim d) (gamma strength : ℝ) (itype : InitType ℝ) (n : ℕ) (hn : 0 < n) (v : List (ExpAgent ℝ))
    (hv : ExpAgent.convertFrom (.brownian D) itype gamma d strength n = .ok v) (k : ℕ) (y : Fin k → ℝ) (p : ℝ≥0∞)
    (hp : p = P {g | ∃ N, ∀ loops ≥ N, (expLoop (expRun rng sys t.ops limit loops loops loops loops clock) k (expStart v d g)).map Prod.fst =
      some (List.ofFn y, .ok ())}) :
    p = ∏ i, P {g | ∃ N, ∀ loops ≥ N, (expRun rng sys t.ops limit loops loops loops loops clock (expStart v d g)).map Prod.fst = some (.ok (y i))} ∧
    (p ≠ 0 ↔ ∀ i, y i = 0 ∨ ∃ j, 1 ≤ j ∧ y i = expTime a b clock.inc l j ∧ y i ≤ clock.tmax) := by
  have := h.prob
  have hpos : volume (S₀ \ nearSet c t.targetSize) ≠ 0 := fun h0 => hout (measure_mono_null (Set.sdiff_subset_sdiff_left (hQ.trans Set.inter_subset_left)) h0)
  obtain ⟨ρ, h0, hρ, h2, h3⟩ := may_write rng P h sys d S₀ S room put w c t ht Q hQ hconv hin hout clock hc a b l hty ha hinc htm limit hl D hD gamma strength itype n hn v hv
  obtain ⟨x, hx, hae⟩ := C108_program rng P (gaussianReal 0 1) h inferInstance sys d S₀ S room put w c t ht hpos clock hc a b l hty ha hinc limit hl D gamma strength itype n hn v hv
    hod htm ρ hρ k
  have e : p = Measure.pi (fun _ : Fin k => ρ) (Set.univ.pi fun i => {z | pushReported (fun k => expTime a b clock.inc l k) z = .ok (y i)}) := by
    rw [← hx.measure_preimage (MeasurableSet.univ_pi fun _ => .of_discrete).nullMeasurableSet, hp]
    refine measure_congr ?_
    filter_upwards [hae] with g ⟨N, hN⟩
    have key : linesReported (fun k => expTime a b clock.inc l k) (List.ofFn (x g)) = (List.ofFn y, .ok ()) ↔
        ∀ i, pushReported (fun k => expTime a b clock.inc l k) (x g i) = .ok (y i) := by
      rw [lines_written, List.map_ofFn, List.map_ofFn, List.ofFn_inj]
      exact funext_iff
    refine propext ⟨?_, fun hh => ?_⟩
    · rintro ⟨M, hM⟩ i -
      have e1 := (hN (max N M) (le_max_left _ _)).symm.trans (hM _ (le_max_right _ _))
      exact key.1 (Option.some.inj e1) i
    · exact ⟨N, fun loops hl' => by rw [hN loops hl', key.2 fun i => hh i (Set.mem_univ i)]⟩
  have e2 : p = ∏ i, P {g | ∃ N, ∀ loops ≥ N, (expRun rng sys t.ops limit loops loops loops loops clock (expStart v d g)).map Prod.fst = some (.ok (y i))} := by
    rw [e, Measure.pi_pi]
    exact Finset.prod_congr rfl fun i _ => (h2 (y i)).symm
  refine ⟨e2, ?_⟩
  rw [e2, Finset.prod_ne_zero_iff]
  refine ⟨fun hh i => (h3 _).1 (h2 (y i) ▸ hh i (Finset.mem_univ i)), fun hh i _ => ?_⟩
  rw [h2]
  exact (h3 _).2 (hh i)

/-- Searchers without strength: an ensemble of `n + 1` writes 0 with the probability `q ^ (n + 1)`, where `0 < q < 1`; with more
and more searchers this tends to 0, but it never is 0. -/
theorem C114_zeros : ∃ q : ℝ≥0∞, 0 < q ∧ q < 1 ∧ Tendsto (fun n : ℕ => q ^ (n + 1)) atTop (𝓝 0) ∧
    (∀ gamma strength itype v, ExpAgent.convertFrom (.brownian D) itype gamma d strength 1 = .ok v →
      P {g | ∃ N, ∀ loops ≥ N, (expRun rng sys t.ops limit loops loops loops loops clock (expStart v d g)).map Prod.fst = some (.ok 0)} = q) ∧
    ∀ gamma itype n v, ExpAgent.convertFrom (.brownian D) itype gamma d 0 (n + 1) = .ok v →
      P {g | ∃ N, ∀ loops ≥ N, (expRun rng sys t.ops limit loops loops loops loops clock (expStart v d g)).map Prod.fst = some (.ok 0)} = q ^ (n + 1) := by
  have := h.prob
  have hpos : volume (S₀ \ nearSet c t.targetSize) ≠ 0 := fun h0 => hout (measure_mono_null (Set.sdiff_subset_sdiff_left (hQ.trans Set.inter_subset_left)) h0)
  obtain ⟨q, q1, q2, q3, q4⟩ := C113_zeros rng P (gaussianReal 0 1) h inferInstance sys d S₀ S room put w c t ht hpos clock hc a b l hty ha hinc limit hl D htm
  obtain ⟨v, hv⟩ : ∃ v, ExpAgent.convertFrom (.brownian D) (.uniform : InitType ℝ) 1 d 0 1 = .ok v := by
    unfold ExpAgent.convertFrom
    simp only
    rw [if_neg (by simp [AgentCore.initPos])]
    exact ⟨_, rfl⟩
  obtain ⟨ρ, h0, hρ, h2, h3⟩ := may_write rng P h sys d S₀ S room put w c t ht Q hQ hconv hin hout clock hc a b l hty ha hinc htm limit hl D hD 1 0 .uniform 1 one_pos v hv
  have hq := q1 1 0 .uniform v hv
  have hq0 : q ≠ 0 := by
    rw [← hq, h2, h3]
    exact .inl rfl
  have ha1 : a ≠ 0 := ha.ne'
  have e1 : expTime a b clock.inc l 1 = a := by
    have hab : a ≤ b := by
      obtain ⟨a', b', l', h1, -, h2, -⟩ := exp_fresh_real hc
      rw [hty] at h1
      obtain ⟨rfl, rfl, rfl⟩ := by simpa using h1
      exact h2
    simp [expTime, expStepSize, hab]
  have hq1 : q ≠ 1 := by
    intro h1
    rw [← hq, h2] at h1
    have hm : MeasurableSet {z | pushReported (fun k => expTime a b clock.inc l k) z = (.ok 0 : Res ℝ)} := .of_discrete
    have hc' := (prob_compl_eq_zero_iff hm).2 h1
    refine (h3 a).2 (.inr ⟨1, le_rfl, e1.symm, htm⟩) (measure_mono_null (fun z hz => ?_) hc')
    intro hz0
    have hz : pushReported (fun k => expTime a b clock.inc l k) z = .ok a := hz
    have hz0 : pushReported (fun k => expTime a b clock.inc l k) z = .ok 0 := hz0
    rw [hz] at hz0
    exact ha1 (Res.ok.inj hz0)
  exact ⟨q, pos_iff_ne_zero.2 hq0, lt_of_le_of_ne q3 hq1, q4 hq1, q1, q2⟩
end

/-! ### merging searchers -/

/-- a clock that never ends does not end the search. -/
theorem merge_outcomes_ne {d n : ℕ} {μ : Measure (Fin d → ℝ)} [IsProbabilityMeasure μ] {π : Measure (Fin n → Fin d → ℝ)} {put : (Fin d → ℝ) → Fin d → ℝ} {S T : Set (Fin d → ℝ)}
    (hput : Measurable put) (hS : MeasurableSet S) (hTm : MeasurableSet T) (D alpha radius dt : ℝ) :
    ∀ᵐ y ∂mergeLaw (worldOf put S T D alpha radius fun _ => some dt) μ π, 1 ≤ y.1 ∧ y.2 ≠ .clock := by
  rw [ae_iff]
  refine endLaw_inv (on := searchesOn n d) mergeStart_meas (mergeMove_meas (W := worldOf put S T D alpha radius fun _ => some dt) hput hS hTm) mergeOutcome_meas
    (I := {x | x.1.over ≠ some .clock}) (measurable_fst (MeasurableSet.of_discrete (s := {c : MergeCtl n | c.over ≠ some .clock})))
    (C := {y | 1 ≤ y.1 ∧ y.2 ≠ .clock}) .of_discrete (fun y => by simp [mergeStart]) (fun x hx z => move_clock _ (fun _ => rfl) x z hx) (fun x hx hon => ?_)
  have hx : x.1.over ≠ some .clock := hx
  have hon : ¬ x.1.over = none := hon
  obtain ⟨e, he⟩ := Option.ne_none_iff_exists'.1 hon
  rw [he] at hx
  have hx : e ≠ .clock := fun h => hx (by rw [h])
  exact ⟨by simp [mergeOutcome, he, hx], by simpa [mergeOutcome, he] using hx⟩

section
variable (rng : RngOps G ℝ) (P : Measure G) (h : IdealRng rng P)
  (sys : SysOps G ℝ) (d : Nat) (S₀ S : Set (Fin d → ℝ)) (room : Room P sys d S₀)
  (put : (Fin d → ℝ) → Fin d → ℝ) (w : Walls sys S put)
  (c : Fin d → ℝ) (t : BulkTarget ℝ) (ht : t.targetPos = List.ofFn c)
  (Q : Set (Fin d → ℝ)) (hQ : Q ⊆ S₀ ∩ S) (hconv : Convex ℝ Q) (hin : volume (Q ∩ nearSet c t.targetSize) ≠ 0) (hout : volume (Q \ nearSet c t.targetSize) ≠ 0)
  (alpha radius : ℝ) (n : ℕ) (hn : 0 < n)
include h room w ht hQ hconv hin hout hn

/-- The process of merging searchers (of any radius and exponent), with ideal numbers: in every turn the target may be found, and
a step may be too large; and if the clock ends after `K` turns, it may end first. -/
theorem C114_merging (D : ℝ) (hD : 0 < D) (clk : ℕ → Option ℝ) (K : ℕ) (hclk : ∀ k < K, ∃ dt, 0 < dt ∧ clk k = some dt) (ρ : Measure (ℕ × Ending))
    (hρ : ρ = mergeLaw (worldOf put S (nearSet c t.targetSize) D alpha radius clk) (Measure.pi fun _ : Fin d => gaussianReal 0 1)
      (Measure.pi fun _ : Fin n => uniformLaw (S₀ \ nearSet c t.targetSize))) :
    (∀ k, 1 ≤ k → k ≤ K → ρ {(k, .found)} ≠ 0 ∧ ρ {(k, .tooFar)} ≠ 0) ∧ (0 < K → clk K = none → ρ {(K, .clock)} ≠ 0) := by
  have hpos : volume (S₀ \ nearSet c t.targetSize) ≠ 0 := fun h0 => hout (measure_mono_null (Set.sdiff_subset_sdiff_left (hQ.trans Set.inter_subset_left)) h0)
  have hfin : volume (S₀ \ nearSet c t.targetSize) ≠ ∞ := ne_top_of_le_ne_top room.volume_finite (measure_mono Set.sdiff_subset)
  have hprob := uniformLaw_prob hpos hfin
  obtain ⟨u, x, ε, hε, hu, hx, -⟩ := border hconv hin hout one_pos
  set W : MergeWorld d := worldOf put S (nearSet c t.targetSize) D alpha radius clk with hW
  have hT : Measurable fun p : MergeState n d × (Fin d → ℝ) => mergeMove W p.1 p.2 :=
    mergeMove_meas w.measurable w.room_measurable (near_meas c t.targetSize)
  have hu' : nearSet u ε ⊆ W.room \ W.target := fun y hy => ⟨(hQ (hu hy).1).2, (hu hy).2⟩
  have hx' : nearSet x ε ⊆ W.room ∩ W.target := fun y hy => ⟨(hQ (hx hy).1).2, (hx hy).2⟩
  have hdif : ∀ m, 1 ≤ m → 0 < W.dif m := fun m hm => slowed_pos hD hm
  obtain ⟨f, η, hη, hf⟩ := w.tooFar
  refine ⟨fun k h1 hk => ?_, fun hK hend => ?_⟩
  · obtain ⟨k, rfl⟩ : ∃ j, k = j + 1 := ⟨k - 1, by omega⟩
    rw [hρ]
    exact ⟨(merge_end_possible hT _ hdif hclk u hε hu' w.inside hn hk x hε).2 hx', (merge_end_possible hT _ hdif hclk u hε hu' w.inside hn hk f hη).1 hf⟩
  · rw [hρ]
    exact merge_clock_possible hT _ hdif hclk u hε hu' w.inside hn hK hend

/-- What one ensemble of tests/merge_fpt.rs may report: a positive multiple of the time step, any of them with a positive
probability; or that a step was too large. -/
theorem C114_merge_fpt (hbd : ∃ M, ∀ x ∈ S₀, ∀ i, |x i| ≤ M) (D dt : ℝ) (hD : 0 < D) (hdt : 0 < dt) (r : Res ℝ) :
    P {g | ∃ N, ∀ loops ≥ N, (mergeRun rng sys t.ops loops loops loops loops (.brownian D) radius alpha dt n g).map Prod.fst = some r} ≠ 0 ↔
      r = .err .tooLargeTimeStep ∨ ∃ k : ℕ, 1 ≤ k ∧ r = .ok (k * dt) := by
  have := h.prob
  have hpos : volume (S₀ \ nearSet c t.targetSize) ≠ 0 := fun h0 => hout (measure_mono_null (Set.sdiff_subset_sdiff_left (hQ.trans Set.inter_subset_left)) h0)
  have hfin : volume (S₀ \ nearSet c t.targetSize) ≠ ∞ := ne_top_of_le_ne_top room.volume_finite (measure_mono Set.sdiff_subset)
  have hprob := uniformLaw_prob hpos hfin
  have hW1 : normalLaw d 1 = Measure.pi fun _ : Fin d => gaussianReal 0 1 := by simp [normalLaw]
  obtain ⟨b1, b2, -⟩ := C106_law rng P h sys d S₀ S room hbd put w c t ht hpos D dt alpha radius hD hdt n hn _ rfl
  have hm := fun K => C114_merging rng P h sys d S₀ S room put w c t ht Q hQ hconv hin hout alpha radius n hn D hD (fun _ => some dt) K (fun _ _ => ⟨dt, hdt, rfl⟩) _ rfl
  rw [hW1] at b1 b2
  have b3 := merge_outcomes_ne (n := n) (μ := Measure.pi fun _ : Fin d => gaussianReal 0 1) (π := Measure.pi fun _ : Fin n => uniformLaw (S₀ \ nearSet c t.targetSize))
    w.measurable w.room_measurable (near_meas c t.targetSize) D alpha radius dt
  generalize mergeLaw (worldOf put S (nearSet c t.targetSize) D alpha radius fun _ => some dt) (Measure.pi fun _ : Fin d => gaussianReal 0 1)
      (Measure.pi fun _ : Fin n => uniformLaw (S₀ \ nearSet c t.targetSize)) = ρ at b1 b2 b3 hm
  have e := yields_prob b2 {r}
  simp only [Set.mem_singleton_iff, exists_eq_left] at e
  rw [e]
  constructor
  · intro hne
    by_contra hno
    refine hne (measure_mono_null (fun z hz => ?_) (ae_iff.1 b3))
    obtain ⟨k, e⟩ := z
    have hz : mergeReported (fun k => k * dt) (k, e) = r := hz
    rintro ⟨h1, h2⟩
    refine hno ?_
    cases e with
    | found => exact .inr ⟨k, h1, hz.symm⟩
    | tooFar => exact .inl hz.symm
    | clock => exact absurd rfl h2
  · rintro (rfl | ⟨k, hk, rfl⟩)
    · exact fun h0 => ((hm 1).1 1 le_rfl le_rfl).2 (measure_mono_null (by rintro _ rfl; rfl) h0)
    · exact fun h0 => ((hm k).1 k hk le_rfl).1 (measure_mono_null (by rintro _ rfl; rfl) h0)

/-- What one search of tests/large_n_simulation.rs may report: the times of the turns of the clock, from 0 up to its limit; that a
step was too large; or that the clock has ended.  Each of them with a positive probability, and nothing else, whatever the team
(of `n` searchers) was left like by the search before. -/
theorem C114_large_n (clock : ExpStep ℝ) (hc : clock.Fresh) (a b : ℝ) (l : ℕ) (hty : clock.titype = .exponential a b l) (ha : 0 < a) (hinc : 1 ≤ clock.inc)
    (htm : 0 ≤ clock.tmax) (v : List (MergeAgent ℝ)) (hv : MergeTeam d radius alpha v) (hvn : v.length = n) (r : Res ℝ) :
    P {g | ∃ N, ∀ loops ≥ N, (largeNRun rng sys t.ops loops loops loops loops (from' v, clock, g)).map Prod.fst = some r} ≠ 0 ↔
      r = .err .tooLargeTimeStep ∨ r = .err .unexpectedEnd ∨ ∃ k : ℕ, expTime a b clock.inc l k ≤ clock.tmax ∧ r = .ok (expTime a b clock.inc l k) := by
  have := h.prob
  have hab : a ≤ b := by
    obtain ⟨a', b', l', h1, -, h2, -⟩ := exp_fresh_real hc
    rw [hty] at h1
    obtain ⟨rfl, rfl, rfl⟩ := by simpa using h1
    exact h2
  have hpos : volume (S₀ \ nearSet c t.targetSize) ≠ 0 := fun h0 => hout (measure_mono_null (Set.sdiff_subset_sdiff_left (hQ.trans Set.inter_subset_left)) h0)
  have hnone : ∀ k, (expTurns a b clock.inc l clock.tmax k).isNone ↔ clock.tmax < expTime a b clock.inc l k := by
    intro k
    unfold expTurns
    split_ifs with hh
    · simpa using hh
    · simpa using hh
  obtain ⟨K, hK1, hK⟩ : ∃ K, 1 ≤ K ∧ ∀ k, (expTurns a b clock.inc l clock.tmax k).isNone ↔ K ≤ k := by
    refine clock_end ?_ ?_ fun k hk => ?_
    · rw [← Option.not_isNone, Bool.not_eq_true', ← Bool.not_eq_true, hnone]
      simpa [expTime] using htm
    · obtain ⟨K, hK⟩ := exists_nat_gt (clock.tmax / a)
      refine ⟨K, ?_⟩
      rw [← Option.isNone_iff_eq_none, hnone]
      have h2 := expTime_ge a b clock.inc l ha.le hinc hab K
      rw [div_lt_iff₀ ha] at hK
      linarith
    · rw [← Option.isNone_iff_eq_none, hnone] at hk ⊢
      exact hk.trans_le (expTime_mono a b clock.inc l ha.le hinc hab (by omega))
  have hclk : ∀ k < K, ∃ dt, 0 < dt ∧ expTurns a b clock.inc l clock.tmax k = some dt := by
    intro k hk
    have h1 : ¬ (expTurns a b clock.inc l clock.tmax k).isNone := fun h1 => absurd ((hK k).1 h1) (by omega)
    rw [hnone, not_lt] at h1
    refine ⟨expStepSize a b clock.inc l k, ha.trans_le (expStepSize_ge a b clock.inc l ha.le hinc hab _), ?_⟩
    unfold expTurns
    rw [if_pos h1]
  obtain ⟨o1, o2⟩ := C114_merging rng P h sys d S₀ S room put w c t ht Q hQ hconv hin hout alpha radius n hn 1 one_pos _ K hclk _ rfl
  have o3 := o2 (by omega) (Option.isNone_iff_eq_none.1 ((hK K).2 le_rfl))
  obtain ⟨b1, b2, b3⟩ := C107_law rng P (gaussianReal 0 1) h inferInstance sys d S₀ S room put w c t ht hpos clock hc a b l hty ha hinc htm radius alpha n hn _ rfl
  have b2 := b2 v hv hvn
  generalize mergeLaw (worldOf put S (nearSet c t.targetSize) 1 alpha radius (expTurns a b clock.inc l clock.tmax)) (Measure.pi fun _ : Fin d => gaussianReal 0 1)
      (Measure.pi fun _ : Fin n => uniformLaw (S₀ \ nearSet c t.targetSize)) = ρ at b1 b2 b3 o1 o3
  have e := yields_prob b2 {r}
  simp only [Set.mem_singleton_iff, exists_eq_left, Option.map_map] at e
  have e' : P {g | ∃ N, ∀ loops ≥ N, (largeNRun rng sys t.ops loops loops loops loops (from' v, clock, g)).map Prod.fst = some r} =
    ρ {y | mergeReported (fun k => expTime a b clock.inc l (k - 1)) y = r} := e
  rw [e']
  constructor
  · intro hne
    by_contra hno
    refine hne (measure_mono_null (fun z hz => ?_) (ae_iff.1 b3))
    obtain ⟨k, e⟩ := z
    have hz : mergeReported (fun k => expTime a b clock.inc l (k - 1)) (k, e) = r := hz
    rintro ⟨h1, h2, h3⟩
    refine hno ?_
    cases e with
    | found => exact .inr (.inr ⟨k - 1, h2, hz.symm⟩)
    | tooFar => exact .inl hz.symm
    | clock => exact .inr (.inl hz.symm)
  · rintro (rfl | rfl | ⟨k, hk, rfl⟩)
    · exact fun h0 => (o1 1 le_rfl hK1).2 (measure_mono_null (by rintro _ rfl; rfl) h0)
    · exact fun h0 => o3 (measure_mono_null (by rintro _ rfl; rfl) h0)
    · have hkK : k < K := by
        by_contra hge
        have h1 := (hnone k).1 ((hK k).2 (by omega))
        linarith
      exact fun h0 => (o1 (k + 1) (by omega) (by omega)).1 (measure_mono_null (by rintro _ rfl; rfl) h0)
end

/-- The rooms of the systems: in a cube and a ball it is enough that the target covers a part of the room, but not all of it;
in a cylinder (where searchers are put into a room of twice the length) this is needed for the room. -/
theorem C114_rooms (n k : ℕ) (R L : ℝ) :
    (cubeSet n L ⊆ cubeSet n L ∩ cubeSet n L ∧ Convex ℝ (cubeSet n L)) ∧ (ballSet n R ⊆ ballSet n R ∩ ballSet n R ∧ Convex ℝ (ballSet n R)) ∧
    (0 ≤ L → cylSet n k R L ⊆ cylSet n k R (2 * L) ∩ cylSet n k R L ∧ Convex ℝ (cylSet n k R L)) :=
  ⟨⟨fun _ hx => ⟨hx, hx⟩, cube_convex n L⟩, ⟨fun _ hx => ⟨hx, hx⟩, ball_convex n R⟩,
    fun hL => ⟨fun _ hx => ⟨⟨hx.1, fun i hi => (hx.2 i hi).trans (by linarith)⟩, hx⟩, cyl_convex n k R L⟩⟩

theorem disc_part : volume (ballSet 2 10 ∩ nearSet (fun _ : Fin 2 => (0 : ℝ)) 1) ≠ 0 := by
  have hsub : nearSet (fun _ : Fin 2 => (0 : ℝ)) 1 ⊆ ballSet 2 10 ∩ nearSet (fun _ : Fin 2 => (0 : ℝ)) 1 := by
    refine fun x hx => ⟨?_, hx⟩
    have h1 : Real.sqrt (∑ i, (x i - 0) ^ 2) < 1 := hx
    rw [Real.sqrt_lt' one_pos] at h1
    simp only [sub_zero] at h1
    show ∑ i, x i ^ 2 ≤ (10 : ℝ) ^ 2
    have h2 : ((1 : ℝ)) ^ 2 ≤ 10 ^ 2 := by norm_num
    exact h1.le.trans h2
  exact fun h0 => ((near_open _ _).measure_pos volume ⟨_, near_self (fun _ : Fin 2 => (0 : ℝ)) one_pos⟩).ne' (measure_mono_null hsub h0)

/-- With an ideal generator: five searchers in a disc that push each other away.  They may write 0, and they may write `1e-10`, and
three ensembles may write 0, `1e-10`, 0; but they never write 1/2 of that. -/
example : let s : Circ ℝ := ⟨.continuousCircular, .reflection, 10, 2⟩
    ∃ clock v, ExpStep.new (1 / 10 ^ 10 : ℝ) (1 / 10 ^ 5) 10 = .ok clock ∧ ExpAgent.convertFrom (.brownian (1 : ℝ)) .uniform 2 2 3 5 = .ok v ∧
      ∃ p : ℝ → ℝ≥0∞, (∀ y, p y = tapeLaw {g | ∃ N, ∀ loops ≥ N, (expRun tapeRng (s.ops tapeRng) (BulkTarget.new (List.ofFn fun _ : Fin 2 => (0 : ℝ)) 1).ops
          (moveLimit 1 2) loops loops loops loops clock (expStart v 2 g)).map Prod.fst = some (.ok y)}) ∧
        p 0 ≠ 0 ∧ p (1 / 10 ^ 10) ≠ 0 ∧ p (1 / 2 * (1 / 10 ^ 10)) = 0 ∧
        tapeLaw {g | ∃ N, ∀ loops ≥ N, (expLoop (expRun tapeRng (s.ops tapeRng) (BulkTarget.new (List.ofFn fun _ : Fin 2 => (0 : ℝ)) 1).ops
          (moveLimit 1 2) loops loops loops loops clock) 3 (expStart v 2 g)).map Prod.fst = some (List.ofFn ![0, 1 / 10 ^ 10, 0], .ok ())} ≠ 0 := by
  intro s
  obtain ⟨clock, hc, hty, hinc, htm⟩ := exp_clock_example
  obtain ⟨v, hv⟩ : ∃ v, ExpAgent.convertFrom (.brownian (1 : ℝ)) .uniform 2 2 3 5 = .ok v := by
    unfold ExpAgent.convertFrom
    simp only
    rw [if_neg (by simp [AgentCore.initPos])]
    exact ⟨_, rfl⟩
  obtain ⟨-, l2, -⟩ := C108_limit (r := 1) (gamma := 2) (R := 10) (by norm_num) (by norm_num) (by norm_num)
  have hs : Circ.new (10 : ℝ) 2 = .ok s := by unfold Circ.new; rw [if_neg (by simp)]
  have w := (C77_walls tapeRng).2.1 10 2 s hs
  have room := (C73_systems tapeRng tapeLaw tape_ideal).2.1 s (by norm_num [s])
  have hin := disc_part
  have e1 : expTime (1 / 10 ^ 10 : ℝ) (1 / 10 ^ 5) clock.inc 10 1 = 1 / 10 ^ 10 := by
    have : (1 / 10 ^ 10 : ℝ) ≤ 1 / 10 ^ 5 := by norm_num
    simp only [expTime, expStepSize, Nat.reduceDiv, pow_zero, mul_one, zero_add]
    exact min_eq_left this
  have key := C114_numbers tapeRng tapeLaw tape_ideal _ 2 _ _ room _ w (fun _ => 0) (BulkTarget.new (List.ofFn fun _ : Fin 2 => (0 : ℝ)) 1) rfl _
    (C114_rooms 2 0 10 0).2.1.1 (C114_rooms 2 0 10 0).2.1.2 hin disc_example clock (.new hc) _ _ _ hty (by positivity) hinc htm _ l2 1 one_pos 2 3 .uniform 5 (by norm_num) v hv
  refine ⟨clock, v, hc, hv, _, fun _ => rfl, (key 0).2 (.inl rfl), (key _).2 (.inr ⟨1, le_rfl, e1.symm, htm⟩), ?_, ?_⟩
  · by_contra hne
    rcases (key _).1 hne with h0 | ⟨k, hk, h1, -⟩
    · norm_num at h0
    · have h2 := expTime_ge (1 / 10 ^ 10 : ℝ) (1 / 10 ^ 5) clock.inc 10 (by positivity) hinc (by norm_num) k
      rw [← h1] at h2
      have h3 : (1 : ℝ) ≤ k := by exact_mod_cast hk
      nlinarith
  · refine ((C114_lines tapeRng tapeLaw tape_ideal _ 2 _ _ room _ w (fun _ => 0) (BulkTarget.new (List.ofFn fun _ : Fin 2 => (0 : ℝ)) 1) rfl _
      (C114_rooms 2 0 10 0).2.1.1 (C114_rooms 2 0 10 0).2.1.2 hin disc_example clock (.new hc) _ _ _ hty (by positivity) hinc htm _ l2 1 one_pos
      ((C37_systems_outside_dim tapeRng).2.1 s) 2 3 .uniform 5 (by norm_num) v hv 3 _ _ rfl).2).2 fun i => ?_
    fin_cases i
    · exact .inl rfl
    · exact .inr ⟨1, le_rfl, e1.symm, htm⟩
    · exact .inl rfl

/-- With an ideal generator: four merging searchers in a disc may need exactly a thousand steps of 1/100, but not half a step; and a search
of tests/large_n_simulation.rs may report the time 0. -/
example : let s : Circ ℝ := ⟨.continuousCircular, .reflection, 10, 2⟩
    let agent : MergeAgent ℝ := ⟨.continuousPassiveInteracting, .brownian 1, .uniform, 2, List.ofFn fun _ : Fin 2 => 3, 1 / 20, 1, 1⟩
    ∃ clock, ExpStep.new (1 / 10 ^ 10 : ℝ) (1 / 10 ^ 5) 10 = .ok clock ∧ ∃ p : ℝ → ℝ≥0∞, (∀ y, p y = tapeLaw {g | ∃ N, ∀ loops ≥ N,
        (mergeRun tapeRng (s.ops tapeRng) (BulkTarget.new (List.ofFn fun _ : Fin 2 => (0 : ℝ)) 1).ops loops loops loops loops (.brownian 1) (1 / 20) 1 (1 / 100) 4 g).map
          Prod.fst = some (.ok y)}) ∧ p 10 ≠ 0 ∧ p (1 / 200) = 0 ∧
      tapeLaw {g | ∃ N, ∀ loops ≥ N, (largeNRun tapeRng (s.ops tapeRng) (BulkTarget.new (List.ofFn fun _ : Fin 2 => (0 : ℝ)) 1).ops loops loops loops loops
        (from' (List.replicate 7 agent), clock, g)).map Prod.fst = some (.ok 0)} ≠ 0 := by
  intro s agent
  obtain ⟨clock, hc, hty, hinc, htm⟩ := exp_clock_example
  have hs : Circ.new (10 : ℝ) 2 = .ok s := by unfold Circ.new; rw [if_neg (by simp)]
  have w := (C77_walls tapeRng).2.1 10 2 s hs
  have room := (C73_systems tapeRng tapeLaw tape_ideal).2.1 s (by norm_num [s])
  have key := fun y => C114_merge_fpt tapeRng tapeLaw tape_ideal _ 2 _ _ room _ w (fun _ => 0) (BulkTarget.new (List.ofFn fun _ : Fin 2 => (0 : ℝ)) 1) rfl _
    (C114_rooms 2 0 10 0).2.1.1 (C114_rooms 2 0 10 0).2.1.2 disc_part disc_example 1 (1 / 20) 4 (by norm_num) w.bounded 1 (1 / 100) one_pos (by norm_num) (.ok y)
  refine ⟨clock, hc, _, fun _ => rfl, (key 10).2 (.inr ⟨1000, by norm_num, by norm_num⟩), ?_, ?_⟩
  · by_contra hne
    rcases (key _).1 hne with h0 | ⟨k, hk, h1⟩
    · simp at h0
    · have h1 := Res.ok.inj h1
      have h3 : (1 : ℝ) ≤ k := by exact_mod_cast hk
      linarith
  · refine (C114_large_n tapeRng tapeLaw tape_ideal _ 2 _ _ room _ w (fun _ => 0) (BulkTarget.new (List.ofFn fun _ : Fin 2 => (0 : ℝ)) 1) rfl _
      (C114_rooms 2 0 10 0).2.1.1 (C114_rooms 2 0 10 0).2.1.2 disc_part disc_example 1 (1 / 20) 7 (by norm_num) clock (.new hc) _ _ _ hty (by positivity) hinc
      ((by positivity : (0 : ℝ) ≤ _).trans htm) (List.replicate 7 agent) (fun a ha => by rw [(List.mem_replicate.1 ha).2]; exact ⟨1, _, 1, rfl⟩) (by simp) _).2
      (.inr (.inr ⟨0, ?_, ?_⟩))
    · simp only [expTime]
      exact (by positivity : (0 : ℝ) ≤ _).trans htm
    · simp [expTime]

end Moledyn.Props
