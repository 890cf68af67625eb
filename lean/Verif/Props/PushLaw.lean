import Verif.Lemmas.PushSimulates
import Verif.Lemmas.LargeNLaw
import Verif.Props.ExpEnsembles
import Verif.Props.LargeNLaw
/-
C108: the distribution of the numbers examples/mfpt_exp.rs writes.
-/
namespace Moledyn.Props
open Moledyn LList MeasureTheory ProbabilityTheory Filter
open scoped ENNReal NNReal Topology
set_option linter.unusedSectionVars false
variable {G : Type} [MeasurableSpace G]

/-! ### the parts -/

/-- the agents examples/mfpt_exp.rs makes. -/
theorem exp_agents {D gamma strength : ℝ} {itype : InitType ℝ} {d n : ℕ} {v : List (ExpAgent ℝ)}
    (hv : ExpAgent.convertFrom (.brownian D) itype gamma d strength n = .ok v) :
    ∃ p, v = List.replicate n ⟨.continuousPassiveInteracting, .exponential d gamma, .brownian D, itype, d, p, gamma, strength, strength, strength / gamma⟩ := by
  unfold ExpAgent.convertFrom at hv
  simp only at hv
  split at hv
  · simp at hv
  · exact ⟨_, (Res.ok.inj hv).symm⟩

theorem renew_push {P : Measure G} [IsProbabilityMeasure P] {sys : SysOps G ℝ} {d : Nat} {S₀ : Set (Fin d → ℝ)} (room : Room P sys d S₀)
    (t : BulkTarget ℝ) {f0 : G → (Fin d → ℝ) × G} {μ : Measure (Fin d → ℝ)} [IsProbabilityMeasure μ] (hf0 : MeasurePreserving f0 P (μ.prod P))
    (hae0 : ∀ᵐ g ∂P, ∃ n, ∀ inner ≥ n, ∀ fuel ≥ n, ∀ vec : Pos ℝ, vec.length = d →
        AgentCore.drawOffTarget sys t.ops inner fuel g vec = some ((List.ofFn (f0 g).1, .ok ()), (f0 g).2)) (D gamma strength : ℝ) (itype : InitType ℝ) (p : Pos ℝ) :
    ∀ n, ∀ᵐ g ∂P, ∃ N, ∀ loops ≥ N,
      renewContents sys t.ops loops loops (List.replicate n ⟨.continuousPassiveInteracting, .exponential d gamma, .brownian D, itype, d, p, gamma, strength,
          strength, strength / gamma⟩) g =
        some ((List.ofFn fun i : Fin n => pusher D gamma strength itype ((drawsN f0 n g).1 i), .ok ()), (drawsN f0 n g).2) := by
  intro n
  induction n with
  | zero => exact .of_forall fun g => ⟨0, fun _ _ => rfl⟩
  | succ n ih =>
    have h2 := (measurePreserving_snd.comp hf0).quasiMeasurePreserving.ae ih
    filter_upwards [hae0, h2] with g ⟨N, hN⟩ ⟨M, hM⟩
    refine ⟨max N M, fun loops hl => ?_⟩
    have e3 := hM loops (le_trans (le_max_right _ _) hl)
    have e0 := start_dim' room p
    have e1 := hN loops (le_trans (le_max_left _ _) hl) loops (le_trans (le_max_left _ _) hl) _ e0
    have e2 : (⟨.continuousPassiveInteracting, .exponential d gamma, .brownian D, itype, d, p, gamma, strength, strength, strength / gamma⟩ : ExpAgent ℝ).renewUniform
        sys t.ops loops loops g = some ((pusher D gamma strength itype (f0 g).1, .ok ()), (f0 g).2) := by
      unfold ExpAgent.renewUniform
      simp only
      split
      · simp only [e1, Option.map_some, ExpAgent.coeff, Pos.dim, e0, pusher]
      · simp only [e1, Option.map_some, pusher]
    rw [List.replicate_succ, renewContents, e2]
    simp only
    simp only [Function.comp] at e3
    rw [e3]
    simp only [Option.map_some, drawsN, List.ofFn_succ, Fin.cons_zero, Fin.cons_succ]

/-- one ensemble of a program that has just been started. -/
theorem exp_fresh (rng : RngOps G ℝ) (sys : SysOps G ℝ) (target : TargetOps ℝ) (limit : ℝ) (loops : ℕ) (clock : ExpStep ℝ) (d : ℕ) {v cs : List (ExpAgent ℝ)}
    {g g1 : G} (h : renewContents sys target loops loops v g = some ((cs, .ok ()), g1)) (hl : cs.length = v.length) :
    expRun rng sys target limit loops loops loops loops clock (expStart v d g) =
      match expFpt rng sys target limit loops loops clock (expStart cs d g1) with
        | (_, none) => none
        | (r, some o) => some (o, r.2) := by
  have e : expPrepare sys target loops loops (expStart v d g).list (expStart v d g).rng = some ((from' cs, .ok ()), g1) := by
    unfold expPrepare
    rw [show (expStart v d g).list.contents = v from rfl, show (expStart v d g).rng = g from rfl, h]
    simp only [Option.map_some, Option.some.injEq, Prod.mk.injEq, and_true]
    rw [connectAll_from (l := { (expStart v d g).list with contents := cs }) (by
      show (from' v).links.length = cs.length
      rw [(rep_from v).len, hl]; rfl) (rep_from v).c2]
    rfl
  unfold expRun
  rw [e]
  simp only
  rw [show ({ expStart v d g with list := from' cs, rng := g1 } : ExpSim G ℝ) = expStart cs d g1 by unfold expStart; rw [hl]]
  rcases expFpt rng sys target limit loops loops clock (expStart cs d g1) with ⟨r, _ | o⟩ <;> rfl

theorem start_push {n d : ℕ} (D gamma strength : ℝ) (itype : InitType ℝ) (y : Fin n → Fin d → ℝ) (g : G) :
    PushReady n D gamma strength itype y (expStart (List.ofFn fun i => pusher D gamma strength itype (y i)) d g) := by
  refine ⟨by simp [expStart], ⟨_, _, _, rfl, by simp⟩, _, rep_from _, ?_, ?_, fun i => ?_⟩
  · show List.range _ = _
    simp
  · show (List.ofFn _).length = n
    simp
  · show (List.ofFn _)[i.val]? = _
    simp

/-- the lines of a program whose ensembles have these outcomes. -/
theorem lines_reports {run : G → Option (Res ℝ × G)} {time : ℕ → ℝ} {f : G → (ℕ × Ending) × G} {k0 : ℕ} {g : G}
    (h : ∀ m < k0, run (after f m g) = some (pushReported time (f (after f m g)).1, (f (after f m g)).2)) :
    ∀ (k m : ℕ), m + k = k0 →
      (expLoop run k (after f m g)).map Prod.fst = some (linesReported time ((List.range k).map fun j => (f (after f (m + j) g)).1)) := by
  intro k
  induction k with
  | zero => intro m _; rfl
  | succ k ih =>
    intro m hm
    have e := h m (by omega)
    have e2 : (List.range (k + 1)).map (fun j => (f (after f (m + j) g)).1) = (f (after f m g)).1 :: (List.range k).map fun j => (f (after f (m + 1 + j) g)).1 := by
      rw [List.range_succ_eq_map]
      simp only [List.map_cons, List.map_map, Nat.add_zero]
      congr 1
      refine List.map_congr_left fun j _ => ?_
      simp only [Function.comp]
      congr 3
      omega
    have e3 : (f (after f m g)).2 = after f (m + 1) g := by simp [after, Function.iterate_succ_apply']
    have e4 := ih (m + 1) (by omega)
    rw [e2, expLoop, e, e3]
    generalize (f (after f m g)).1 = y at *
    unfold linesReported
    cases pushReported time y with
    | ok t =>
      simp only
      obtain ⟨r, hr, hr2⟩ := Option.map_eq_some_iff.1 e4
      rw [hr]
      simp only [Option.map_some, hr2]
    | err e => rfl
    | panic => rfl

section
variable (rng : RngOps G ℝ) (P : Measure G) (ν : Measure ℝ) (h : IndepRng rng P ν) (hν : IsProbabilityMeasure ν)
  (sys : SysOps G ℝ) (d : Nat) (S₀ S : Set (Fin d → ℝ)) (room : Room P sys d S₀)
  (put : (Fin d → ℝ) → Fin d → ℝ) (w : Walls sys S put)
  (c : Fin d → ℝ) (t : BulkTarget ℝ) (ht : t.targetPos = List.ofFn c) (hpos : volume (S₀ \ nearSet c t.targetSize) ≠ 0)
  (clock : ExpStep ℝ) (hc : clock.Fresh) (a b : ℝ) (l : ℕ) (hty : clock.titype = .exponential a b l) (ha : 0 < a) (hinc : 1 ≤ clock.inc)
  (limit : ℝ) (hl : 0 < limit) (D gamma strength : ℝ) (itype : InitType ℝ) (n : ℕ) (hn : 0 < n) (v : List (ExpAgent ℝ))
  (hv : ExpAgent.convertFrom (.brownian D) itype gamma d strength n = .ok v)
include h hν room w ht hpos hc hty ha hinc hl hn hv

/-- One ensemble of examples/mfpt_exp.rs, in any of the systems, with any independent numbers and a clock that has not run: it
ends with probability one, with the outcome of the process in which the searchers are put at independent uniformly distributed
places off the target and make their steps, one after the other, turn after turn; turn `k` (from 1) has step number `k` of the
clock (step number 0 is left out), and is at the time before that step, which is the number that is written when the target is
found in turn `k`; 0 is written when the clock ends.  There are no turns after the limit of the clock.  The generator is left
as if it had not been used. -/
theorem C108_law (htm : a ≤ clock.tmax) (ρ : Measure (ℕ × Ending))
    (hρ : ρ = pushLaw ⟨put, S, nearSet c t.targetSize, D, expForce gamma strength, limit, laterTurns a b clock.inc l clock.tmax⟩ (Measure.pi fun _ : Fin d => ν)
      (Measure.pi fun _ : Fin n => uniformLaw (S₀ \ nearSet c t.targetSize))) : IsProbabilityMeasure ρ ∧
    Yields P (fun loops g => (expRun rng sys t.ops limit loops loops loops loops clock (expStart v d g)).map fun r => (r.1, r.2.rng))
      (pushReported fun k => expTime a b clock.inc l k) ρ ∧
    ∀ᵐ y ∂ρ, 1 ≤ y.1 ∧ expTime a b clock.inc l y.1 ≤ clock.tmax ∧ (y.2 = .clock → clock.tmax < expTime a b clock.inc l (y.1 + 1)) := by
  have := h.prob
  have hq := drawsN_mp h.gaussian d
  set clk := laterTurns a b clock.inc l clock.tmax with hclk
  set W : PushWorld d := pushWorld put S (nearSet c t.targetSize) D gamma strength limit clk with hW
  have hforce : Measurable (expForce gamma strength) := by unfold expForce; fun_prop
  have hT : Measurable fun p : PushState n d × (Fin d → ℝ) => pushMove W p.1 p.2 :=
    pushMove_meas w.measurable hforce w.room_measurable (near_meas c t.targetSize)
  have hfin : volume (S₀ \ nearSet c t.targetSize) ≠ ∞ := ne_top_of_le_ne_top room.volume_finite (measure_mono Set.sdiff_subset)
  have hprob := uniformLaw_prob hpos hfin
  have hab : a ≤ b := by
    obtain ⟨a', b', l', h1, -, h2, -⟩ := exp_fresh_real hc
    rw [hty] at h1
    obtain ⟨rfl, rfl, rfl⟩ := by simpa using h1
    exact h2
  have hfirst : expTime a b clock.inc l 1 = a := by simp [expTime, expStepSize, hab]
  have hsome : ∀ k, (clk k).isSome ↔ expTime a b clock.inc l (k + 1) ≤ clock.tmax := by
    intro k
    rw [hclk]
    unfold laterTurns expTurns
    split_ifs with hh <;> simp [hh]
  have h0 : (clk 0).isSome := (hsome 0).2 (by rw [hfirst]; exact htm)
  obtain ⟨K, hK⟩ : ∃ K, clk K = none := by
    obtain ⟨K, hK⟩ := exists_nat_gt (clock.tmax / a)
    refine ⟨K, Option.not_isSome_iff_eq_none.1 fun hh => ?_⟩
    have h1 := (hsome K).1 hh
    have h2 := expTime_ge a b clock.inc l ha.le hinc hab (K + 1)
    rw [div_lt_iff₀ ha] at hK
    push_cast at h2
    linarith
  have hK0 : 0 < K := by
    rcases Nat.eq_zero_or_pos K with rfl | hp
    · rw [hK] at h0; simp at h0
    · exact hp
  have hon0 : ∀ y : Fin n → Fin d → ℝ, PushOn n W.clk (pushStart y).1 := fun y => ⟨hn, rfl, h0⟩
  set π := Measure.pi fun _ : Fin n => uniformLaw (S₀ \ nearSet c t.targetSize) with hπ
  obtain ⟨b1, F, hF, hFae⟩ := end_process (P := P) (start := (pushStart : (Fin n → Fin d → ℝ) → PushState n d)) pushStart_meas hT hq pushesOn_meas pushOutcome_meas π
    (.of_forall fun y => push_ends W hK _ (pushStart y.1) y.2 (hon0 y.1) hK0 (Nat.le_add_right _ _))
  change IsProbabilityMeasure (pushLaw W _ _) at b1
  change MeasurePreserving F _ ((pushLaw W _ _).prod P) at hF
  have hρ' : ρ = pushLaw W (Measure.pi fun _ : Fin d => ν) π := hρ
  rw [← hρ'] at b1 hF
  obtain ⟨p, rfl⟩ := exp_agents hv
  obtain ⟨f0, hf0, hae0⟩ := off_target room c t ht hpos
  have hd := drawsN_mp hf0 n
  have hren := renew_push room t hf0 hae0 D gamma strength itype p n
  refine ⟨b1, ⟨fun g => F (drawsN f0 n g), hF.comp hd, ?_⟩, ?_⟩
  · filter_upwards [hren, hd.quasiMeasurePreserving.ae hFae] with g ⟨N0, hN0⟩ ⟨N, hN1, hN2, hN3⟩
    generalize hx : drawsN f0 n g = x at hN0 hN1 hN2 hN3
    obtain ⟨xs, g1⟩ := x
    refine ⟨max N0 (max (n * n + n + 1) (N + 2)), fun loops hl' => ?_⟩
    have hl0 : N0 ≤ loops := (le_max_left _ _).trans hl'
    have hl1 : n * n + n + 1 ≤ loops := (le_max_left _ _).trans ((le_max_right _ _).trans hl')
    have hl2 : N + 2 ≤ loops := (le_max_right _ _).trans ((le_max_right _ _).trans hl')
    rw [exp_fresh rng sys t.ops limit loops clock d (hN0 loops hl0) (by simp)]
    simp only at hN1 hN2 hN3 ⊢
    have key := push_loop (rng := rng) w c t ht hl D gamma strength itype clk hn (fuel := loops) (by omega) (skipOne (TimeDiff.next ExpStep.next (fun c => c.dt)))
      (fun k => expTime a b clock.inc l (k + 1)) loops 0 (false, intoDiff clock) xs (expStart (List.ofFn fun i => pusher D gamma strength itype (xs i)) d g1)
      (fun j _ => by
        rw [skipOne_output _ _ j (expTime a b clock.inc l 0, expStepSize a b clock.inc l 0) (by
          rw [C13_schedule clock hc hinc a b l hty 0, if_pos (show expTime a b clock.inc l 0 ≤ clock.tmax from (by simpa [expTime] using ha.le.trans htm))]),
          C13_schedule clock hc hinc a b l hty (j + 1), Nat.zero_add, hclk]
        unfold laterTurns expTurns
        split_ifs <;> rfl) h0 (start_push D gamma strength itype xs g1)
    rw [← hW] at key
    have hst : (((⟨0, 0, none⟩, xs, xs), (expStart (List.ofFn fun i => pusher D gamma strength itype (xs i)) d g1).rng) : PushState n d × G) = (pushStart xs, g1) := rfl
    simp only [hst] at key
    rw [hN3]
    unfold expFpt
    simp only
    rcases key with ⟨N', e, r, T, a1, a2, a3, a4, a5⟩ | ⟨-, M, m1, m2⟩
    · obtain rfl : N' = N := by
        rcases lt_trichotomy N' N with hlt | rfl | hlt
        · have := hN1 N' hlt
          change _ = none at this
          rw [a2] at this
          simp at this
        · rfl
        · exact absurd (a1 N hlt) hN2
      rw [a5, a3, ← a4]
      cases e <;> simp [pushReported, Res.map]
    · exact absurd (m2 N (by omega)) hN2
  · have hm : MeasurableSet {y : ℕ × Ending | 1 ≤ y.1 ∧ expTime a b clock.inc l y.1 ≤ clock.tmax ∧ (y.2 = .clock → clock.tmax < expTime a b clock.inc l (y.1 + 1))} := .of_discrete
    have hmp := measurePreserving_fst.comp hF
    rw [← hmp.map_eq, ae_map_iff hmp.measurable.aemeasurable hm]
    filter_upwards [hFae] with y ⟨N, hN1, hN2, hN3⟩
    obtain ⟨T, c1, c2, c3⟩ := push_end_clock W (pushStart y.1, y.2) (hon0 y.1) N hN1 hN2
    simp only [Function.comp]
    rw [hN3]
    simp only [c1]
    refine ⟨by omega, (hsome T).1 c2, fun e => ?_⟩
    have e3 : clk (T + 1) = none := c3 e
    by_contra hh
    have := (hsome (T + 1)).2 (not_lt.1 hh)
    rw [e3] at this
    simp at this

/-- If the clock ends before its first later turn, every ensemble writes 0. -/
theorem C108_short_clock (h0 : 0 ≤ clock.tmax) (htm : clock.tmax < a) :
    ∀ᵐ g ∂P, ∃ N, ∀ loops ≥ N, (expRun rng sys t.ops limit loops loops loops loops clock (expStart v d g)).map Prod.fst = some (.ok 0) := by
  have := h.prob
  have hfin : volume (S₀ \ nearSet c t.targetSize) ≠ ∞ := ne_top_of_le_ne_top room.volume_finite (measure_mono Set.sdiff_subset)
  have hprob := uniformLaw_prob hpos hfin
  have hab : a ≤ b := by
    obtain ⟨a', b', l', h1, -, h2, -⟩ := exp_fresh_real hc
    rw [hty] at h1
    obtain ⟨rfl, rfl, rfl⟩ := by simpa using h1
    exact h2
  have hfirst : expTime a b clock.inc l 1 = a := by simp [expTime, expStepSize, hab]
  obtain ⟨p, rfl⟩ := exp_agents hv
  obtain ⟨f0, hf0, hae0⟩ := off_target room c t ht hpos
  filter_upwards [renew_push room t hf0 hae0 D gamma strength itype p n] with g ⟨N, hN⟩
  refine ⟨max N 1, fun loops hl' => ?_⟩
  obtain ⟨k, rfl⟩ : ∃ k, loops = k + 1 := ⟨loops - 1, by have := (le_max_right _ _).trans hl'; omega⟩
  have e := hN (k + 1) ((le_max_left _ _).trans hl')
  rw [exp_fresh rng sys t.ops limit (k + 1) clock d e (by simp)]
  have ho : output (skipOne (TimeDiff.next ExpStep.next (fun c => c.dt))) 0 (false, intoDiff clock) = .ok none := by
    rw [skipOne_output _ _ 0 (expTime a b clock.inc l 0, expStepSize a b clock.inc l 0) (by
          rw [C13_schedule clock hc hinc a b l hty 0, if_pos (show expTime a b clock.inc l 0 ≤ clock.tmax from (by simpa [expTime] using h0))]),
          C13_schedule clock hc hinc a b l hty 1, hfirst, if_neg (not_le.2 htm)]
  have ho : (skipOne (TimeDiff.next ExpStep.next (fun c => c.dt)) (false, intoDiff clock)).2 = .ok none := ho
  have ho : skipOne (TimeDiff.next ExpStep.next (fun c => c.dt)) (false, intoDiff clock) =
    ((skipOne (TimeDiff.next ExpStep.next (fun c => c.dt)) (false, intoDiff clock)).1, .ok none) := Prod.ext rfl ho
  unfold expFpt
  simp only
  rw [searchLoop, ho]
  simp [Res.map]

/-- The whole program: the outcomes of the `k` ensembles are independent, each with the distribution of `C108_law`; there is one
line for every ensemble before the first that fails. -/
theorem C108_program (hod : sys.OutsideDim d) (htm : a ≤ clock.tmax) (ρ : Measure (ℕ × Ending))
    (hρ : ρ = pushLaw ⟨put, S, nearSet c t.targetSize, D, expForce gamma strength, limit, laterTurns a b clock.inc l clock.tmax⟩ (Measure.pi fun _ : Fin d => ν)
      (Measure.pi fun _ : Fin n => uniformLaw (S₀ \ nearSet c t.targetSize))) (k : ℕ) :
    ∃ x : G → Fin k → ℕ × Ending, MeasurePreserving x P (Measure.pi fun _ => ρ) ∧ ∀ᵐ g ∂P, ∃ N, ∀ loops ≥ N,
      (expLoop (expRun rng sys t.ops limit loops loops loops loops clock) k (expStart v d g)).map Prod.fst =
        some (linesReported (fun k => expTime a b clock.inc l k) (List.ofFn (x g))) := by
  have := h.prob
  obtain ⟨b1, ⟨f, hf, hae⟩, -⟩ := C108_law rng P ν h hν sys d S₀ S room put w c t ht hpos clock hc a b l hty ha hinc limit hl D gamma strength itype n hn v hv htm ρ hρ
  refine ⟨fun g => (drawsN f k g).1, measurePreserving_fst.comp (drawsN_mp hf k), ?_⟩
  have hall : ∀ᵐ g ∂P, ∀ m, ∃ N, ∀ loops ≥ N,
      (expRun rng sys t.ops limit loops loops loops loops clock (expStart v d (after f m g))).map (fun r => (r.1, r.2.rng)) =
        some (pushReported (fun k => expTime a b clock.inc l k) (f (after f m g)).1, (f (after f m g)).2) := by
    rw [ae_all_iff]
    exact fun m => (after_mp hf m).quasiMeasurePreserving.ae hae
  filter_upwards [hall] with g hg
  choose N hN using hg
  refine ⟨max (n + 1) ((Finset.range k).sup N), fun loops hl' => ?_⟩
  have key := lines_reports (run := fun g => (expRun rng sys t.ops limit loops loops loops loops clock (expStart v d g)).map fun r => (r.1, r.2.rng))
    (time := fun k => expTime a b clock.inc l k) (f := f) (k0 := k) (g := g)
    (fun m hm => hN m loops ((Finset.le_sup (Finset.mem_range.2 hm)).trans ((le_max_right _ _).trans hl'))) k 0 (by simp)
  rw [range_draws] at key
  rw [← key]
  have e := C70_program rng sys d hod t.ops limit loops loops loops loops clock (.brownian D) itype gamma strength n v hv
    (by have := (le_max_left _ _).trans hl'; omega) k g
  change _ = Option.map Prod.fst (expLoop _ k g)
  rw [← e, Option.map_map]
  rfl
end

/-! ### balls -/

theorem lines_all {time : ℕ → ℝ} : ∀ {l : List (ℕ × Ending)}, (∀ y ∈ l, y.2 ≠ .tooFar) →
    linesReported time l = (l.map fun y => if y.2 = .found then time y.1 else 0, .ok ())
  | [], _ => rfl
  | (T, e) :: l, h => by
    have ih := lines_all (time := time) (l := l) fun y hy => h y (List.mem_cons_of_mem _ hy)
    have h0 := h (T, e) List.mem_cons_self
    unfold linesReported
    rw [ih]
    rcases e with _ | _ | _
    · simp [pushReported]
    · exact absurd rfl h0
    · simp [pushReported]

section
variable (rng : RngOps G ℝ) (P : Measure G) (h : IdealRng rng P) (d : Nat) (R : ℝ) (s : Circ ℝ) (hs : Circ.new R d = .ok s)
  (c : Fin d → ℝ) (r : ℝ) (hpos : volume (ballSet d R \ nearSet c r) ≠ 0)
  (clock : ExpStep ℝ) (hc : clock.Fresh) (a b : ℝ) (l : ℕ) (hty : clock.titype = .exponential a b l) (ha : 0 < a) (hinc : 1 ≤ clock.inc) (htm : a ≤ clock.tmax)
  (limit : ℝ) (hl : 0 < limit) (hl2 : limit ≤ 2 * R) (D gamma strength : ℝ) (itype : InitType ℝ) (n : ℕ) (hn : 0 < n) (v : List (ExpAgent ℝ))
  (hv : ExpAgent.convertFrom (.brownian D) itype gamma d strength n = .ok v) (ρ : Measure (ℕ × Ending))
  (hρ : ρ = pushLaw ⟨ballPut R, ballSet d R, nearSet c r, D, expForce gamma strength, limit, laterTurns a b clock.inc l clock.tmax⟩
    (Measure.pi fun _ : Fin d => gaussianReal 0 1) (Measure.pi fun _ : Fin n => uniformLaw (ballSet d R \ nearSet c r)))
include h hs hpos hc hty ha hinc htm hl hl2 hn hv hρ

/-- examples/mfpt_exp.rs in a ball with an ideal generator, if no step is longer than the diameter (whatever the forces): no
search fails, and the program writes one line for each of `k` ensembles.  The lines are those of independent outcomes with the
distribution of `C108_law`: the time, which is between the first step and the limit of the clock, if the target is found, and 0
if it is not. -/
theorem C108_ball : IsProbabilityMeasure ρ ∧ ρ {y | y.2 = .tooFar} = 0 ∧
    (∀ᵐ y ∂ρ, a ≤ expTime a b clock.inc l y.1 ∧ expTime a b clock.inc l y.1 ≤ clock.tmax) ∧
    ∀ k, ∃ x : G → Fin k → ℕ × Ending, MeasurePreserving x P (Measure.pi fun _ => ρ) ∧ ∀ᵐ g ∂P, ∃ N, ∀ loops ≥ N,
      (expLoop (expRun rng (s.ops rng) (BulkTarget.new (List.ofFn c) r).ops limit loops loops loops loops clock) k (expStart v d g)).map Prod.fst =
        some (List.ofFn fun i => if (x g i).2 = .found then expTime a b clock.inc l (x g i).1 else 0, .ok ()) := by
  have := h.prob
  obtain ⟨hR, hd, hsz, hdim⟩ := new_circ hs
  have w := (C77_walls rng).2.1 R d s hs
  have room := (C73_systems rng P h).2.1 s (by rw [hsz]; exact hR)
  rw [hsz] at room
  subst hdim
  have hν : IsProbabilityMeasure (gaussianReal 0 1) := inferInstance
  have hab : a ≤ b := by
    obtain ⟨a', b', l', h1, -, h2, -⟩ := exp_fresh_real hc
    rw [hty] at h1
    obtain ⟨rfl, rfl, rfl⟩ := by simpa using h1
    exact h2
  obtain ⟨b1, b2, b3⟩ := C108_law rng P (gaussianReal 0 1) h hν _ s.dim _ _ room _ w c (BulkTarget.new (List.ofFn c) r) rfl hpos clock hc a b l hty ha hinc limit hl
    D gamma strength itype n hn v hv htm ρ hρ
  have hbad : ρ {y | y.2 = .tooFar} = 0 := by
    obtain ⟨f, hf, hae⟩ := b2
    have hm : MeasurableSet {y : ℕ × Ending | y.2 = .tooFar} := .of_discrete
    have hmp := measurePreserving_fst.comp hf
    rw [← hmp.measure_preimage hm.nullMeasurableSet]
    refine measure_eq_zero_iff_ae_notMem.2 ?_
    filter_upwards [hae] with g ⟨N, hN⟩ hbad
    obtain ⟨M, hM⟩ := exists_nat_gt (clock.tmax / a)
    set loops := max N (max M (n * n + n + n + 1)) with hloops
    have h1 := hN loops (le_max_left _ _)
    have hM' : clock.tmax / a < loops := hM.trans_le (by exact_mod_cast (le_max_left _ _).trans (le_max_right _ _))
    have hn' : n * n + n + n + 1 ≤ loops := (le_max_right _ _).trans (le_max_right _ _)
    have hall := C70_ball_all_lines rng R s.dim s hs (List.ofFn c) (by simp) r limit hl hl2 D gamma strength itype n v hv clock hc hinc a b l hty ha (ha.le.trans htm)
      loops loops loops (by omega) loops hM' 1 g
    simp only [expLoop] at hall
    have hbad : (f g).1.2 = .tooFar := hbad
    obtain ⟨⟨r1, st1⟩, e1, e2⟩ := Option.map_eq_some_iff.1 h1
    simp only [Prod.mk.injEq] at e2
    rw [e1] at hall
    have e3 : r1 = .err .tooLargeTimeStep := by rw [e2.1]; simp [pushReported, hbad]
    subst e3
    simp at hall
  refine ⟨b1, hbad, ?_, fun k => ?_⟩
  · filter_upwards [b3] with y hy
    refine ⟨?_, hy.2.1⟩
    have h2 := expTime_ge a b clock.inc l ha.le hinc hab y.1
    have h3 : (1 : ℝ) ≤ y.1 := by exact_mod_cast hy.1
    nlinarith
  · obtain ⟨x, hx, hxae⟩ := C108_program rng P (gaussianReal 0 1) h hν _ s.dim _ _ room _ w c (BulkTarget.new (List.ofFn c) r) rfl hpos clock hc a b l hty ha hinc limit hl
      D gamma strength itype n hn v hv ((C37_systems_outside_dim rng).2.1 s) htm ρ hρ k
    refine ⟨x, hx, ?_⟩
    have hne : ∀ᵐ g ∂P, ∀ i, (x g i).2 ≠ .tooFar := by
      rw [ae_all_iff]
      intro i
      have hi : MeasurePreserving (fun g => x g i) P ρ := (measurePreserving_eval (fun _ : Fin k => ρ) i).comp hx
      have h0 : ∀ᵐ y ∂ρ, y.2 ≠ .tooFar := by
        rw [ae_iff]; simpa using hbad
      exact hi.quasiMeasurePreserving.ae h0
    filter_upwards [hxae, hne] with g ⟨N, hN⟩ hg
    refine ⟨N, fun loops hl' => ?_⟩
    rw [hN loops hl', lines_all]
    · simp [List.map_ofFn, Function.comp_def]
    · intro y hy
      obtain ⟨i, rfl⟩ := List.mem_ofFn.1 hy
      exact hg i

/-- A line is 0 with the probability that the target is not found before the clock ends, and the lines are independent: the
probability that none of the `k` lines is 0. -/
theorem C108_no_zeros (k : ℕ) :
    P {g | ∃ ts N, (∀ loops ≥ N, (expLoop (expRun rng (s.ops rng) (BulkTarget.new (List.ofFn c) r).ops limit loops loops loops loops clock) k
      (expStart v d g)).map Prod.fst = some (ts, .ok ())) ∧ ∀ x ∈ ts, x ≠ 0} = ρ {y | y.2 = .found} ^ k := by
  have := h.prob
  obtain ⟨b1, b2, b3, b4⟩ := C108_ball rng P h d R s hs c r hpos clock hc a b l hty ha hinc htm limit hl hl2 D gamma strength itype n hn v hv ρ hρ
  obtain ⟨x, hx, hae⟩ := b4 k
  have e : Measure.pi (fun _ : Fin k => ρ) (Set.univ.pi fun _ => {y | y.2 = .found}) = ρ {y | y.2 = .found} ^ k := by
    rw [Measure.pi_pi, Finset.prod_const, Finset.card_univ, Fintype.card_fin]
  rw [← e, ← hx.measure_preimage (MeasurableSet.univ_pi fun _ => .of_discrete).nullMeasurableSet]
  refine measure_congr ?_
  have hge : ∀ᵐ g ∂P, ∀ i, a ≤ expTime a b clock.inc l (x g i).1 := by
    rw [ae_all_iff]
    intro i
    have hi : MeasurePreserving (fun g => x g i) P ρ := (measurePreserving_eval (fun _ : Fin k => ρ) i).comp hx
    exact hi.quasiMeasurePreserving.ae (b3.mono fun y hy => hy.1)
  filter_upwards [hae, hge] with g ⟨N, hN⟩ hg
  refine propext ⟨?_, fun hall => ?_⟩
  · rintro ⟨ts, M, hM, hne⟩ i -
    have e1 := (hN (max N M) (le_max_left _ _)).symm.trans (hM _ (le_max_right _ _))
    simp only [Option.some.injEq, Prod.mk.injEq, and_true] at e1
    by_contra hi
    refine hne 0 ?_ rfl
    rw [← e1, List.mem_ofFn]
    exact ⟨i, if_neg hi⟩
  · refine ⟨_, N, hN, fun y hy => ?_⟩
    obtain ⟨i, rfl⟩ := List.mem_ofFn.1 hy
    have hi : (x g i).2 = .found := hall i (Set.mem_univ i)
    rw [if_pos hi]
    have := hg i
    linarith
end

/-- The longest step examples/mfpt_exp.rs allows is a tenth of the size of the target, or the range of the force if that is
smaller: at most the diameter, unless the target is more than ten times as large as the ball. -/
theorem C108_limit {r gamma R : ℝ} (hr : 0 < r) (hg : 0 < gamma) (hR : r ≤ 20 * R) :
    moveLimit r gamma = min (r / 10) gamma ∧ 0 < moveLimit r gamma ∧ moveLimit r gamma ≤ 2 * R := by
  have e : moveLimit r gamma = min (r / 10) gamma := by
    unfold moveLimit
    simp only [Fl.gt, fl_lt, fl_lit, decide_eq_true_eq]
    push_cast
    rw [show (1 / 10 : ℝ) * r = r / 10 by ring]
    split_ifs with h
    · exact (min_eq_right h.le).symm
    · exact (min_eq_left (not_lt.1 h)).symm
  rw [e]
  exact ⟨rfl, lt_min (by positivity) hg, (min_le_left _ _).trans (by linarith)⟩

/-- The forces of the process are mutual: they add up to nothing; and a searcher alone, or searchers without strength, feel
none. -/
theorem C108_forces {n d : ℕ} (force : ℝ → ℝ) (x : Fin n → Fin d → ℝ) :
    (∀ k, ∑ i, forceOn force x i k = 0) ∧ (n = 1 → ∀ i k, forceOn force x i k = 0) ∧ ∀ gamma i k, forceOn (expForce gamma 0) x i k = 0 := by
  have hsym : ∀ i j : Fin n, lengthOf (x i - x j) = lengthOf (x j - x i) := by
    intro i j
    unfold lengthOf
    congr 1
    refine Finset.sum_congr rfl fun k _ => ?_
    simp only [Pi.sub_apply]; ring
  refine ⟨fun k => ?_, ?_, fun gamma i k => ?_⟩
  · have h1 : ∑ i, forceOn force x i k = -∑ i, forceOn force x i k := by
      unfold forceOn
      rw [← Finset.sum_neg_distrib]
      conv_lhs => rw [Finset.sum_comm]
      refine Finset.sum_congr rfl fun i _ => ?_
      rw [← Finset.sum_neg_distrib]
      refine Finset.sum_congr rfl fun j _ => ?_
      by_cases hij : i = j
      · simp [hij]
      · rw [if_neg hij, if_neg (Ne.symm hij), hsym j i]
        ring
    linarith
  · rintro rfl i k
    unfold forceOn
    refine Finset.sum_eq_zero fun j _ => if_pos (Subsingleton.elim _ _)
  · unfold forceOn expForce
    simp

/-! ### examples -/

/-- With an ideal generator: five searchers in a disc. -/
example : let s : Circ ℝ := ⟨.continuousCircular, .reflection, 10, 2⟩
    ∃ clock v, ExpStep.new (1 / 10 ^ 10 : ℝ) (1 / 10 ^ 5) 10 = .ok clock ∧ ExpAgent.convertFrom (.brownian (1 : ℝ)) .uniform 2 2 3 5 = .ok v ∧
      ∃ ρ : Measure (ℕ × Ending), IsProbabilityMeasure ρ ∧ ∀ k,
        tapeLaw {g | ∃ ts N, (∀ loops ≥ N, (expLoop (expRun tapeRng (s.ops tapeRng) (BulkTarget.new (List.ofFn fun _ : Fin 2 => (0 : ℝ)) 1).ops
          (moveLimit 1 2) loops loops loops loops clock) k (expStart v 2 g)).map Prod.fst = some (ts, .ok ())) ∧ ∀ x ∈ ts, x ≠ 0} = ρ {y | y.2 = .found} ^ k := by
  intro s
  have hc : ∃ clock, ExpStep.new (1 / 10 ^ 10 : ℝ) (1 / 10 ^ 5) 10 = .ok clock := by
    unfold ExpStep.new
    rw [if_neg]
    · exact ⟨_, rfl⟩
    · simp only [fl_lt, fl_lit, Bool.or_eq_true, decide_eq_true_eq, not_or, not_lt, beq_iff_eq]
      push_cast
      norm_num
  obtain ⟨clock, hc⟩ := hc
  have hv : ∃ v, ExpAgent.convertFrom (.brownian (1 : ℝ)) .uniform 2 2 3 5 = .ok v := by
    unfold ExpAgent.convertFrom
    simp only
    rw [if_neg (by simp [AgentCore.initPos])]
    exact ⟨_, rfl⟩
  obtain ⟨v, hv⟩ := hv
  have e : clock = { titype := .exponential (1 / 10 ^ 10) (1 / 10 ^ 5) 10, current := Fl.zero, dt := 1 / 10 ^ 10, inc := clock.inc, tmax := Fl.maxVal, count := 0 } := by
    have hc' := hc
    unfold ExpStep.new at hc'
    split at hc' <;> simp only [reduceCtorEq, Res.ok.injEq] at hc'
    rw [← hc']
  have hinc : 1 ≤ clock.inc := by
    unfold ExpStep.new at hc
    split at hc <;> simp only [reduceCtorEq, Res.ok.injEq] at hc
    rw [← hc]
    simp only
    split_ifs with h1
    · simp only [fl_lit]; norm_num
    · simp only [fl_ofNat, fl_two]; norm_num
    · simp only [fl_lit]; norm_num
  have htm : (1 / 10 ^ 10 : ℝ) ≤ clock.tmax := by
    rw [e]
    have h1 : ∀ m k : ℕ, m < k → (1 : ℝ) ≤ (2 : ℝ) ^ k - 2 ^ m := by
      intro m k hmk
      have h2 : (2 : ℝ) ^ (m + 1) ≤ 2 ^ k := pow_le_pow_right₀ (by norm_num) hmk
      have h3 : (1 : ℝ) ≤ 2 ^ m := one_le_pow₀ (by norm_num)
      rw [pow_succ] at h2
      linarith
    exact (by norm_num : (1 / 10 ^ 10 : ℝ) ≤ 1).trans (h1 971 1024 (by omega))
  obtain ⟨l1, l2, l3⟩ := C108_limit (r := 1) (gamma := 2) (R := 10) (by norm_num) (by norm_num) (by norm_num)
  have hs : Circ.new (10 : ℝ) 2 = .ok s := by unfold Circ.new; rw [if_neg (by simp)]
  refine ⟨clock, v, hc, hv, _, (C108_ball tapeRng tapeLaw tape_ideal 2 10 s hs (fun _ => 0) 1 disc_example clock (.new hc) _ _ _ (by rw [e]) (by positivity) hinc htm
    _ l2 l3 1 2 3 .uniform 5 (by norm_num) v hv _ rfl).1, fun k => ?_⟩
  exact C108_no_zeros tapeRng tapeLaw tape_ideal 2 10 s hs (fun _ => 0) 1 disc_example clock (.new hc) _ _ _ (by rw [e]) (by positivity) hinc htm
    _ l2 l3 1 2 3 .uniform 5 (by norm_num) v hv _ rfl k

end Moledyn.Props
