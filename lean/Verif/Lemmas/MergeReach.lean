import Verif.Lemmas.PushReach
import Verif.Lemmas.MergeChain
/-
Which outcomes of a search by merging searchers are possible.
-/
set_option linter.unusedSectionVars false
namespace Moledyn
open MeasureTheory ProbabilityTheory
open scoped ENNReal

section
variable {d n : ℕ}

/-- a normal step from anywhere leads into a given small ball. -/
theorem normal_jump {v : ℝ} (hv : 0 < v) (x u : Fin d → ℝ) {ε : ℝ} (hε : 0 < ε) :
    (Measure.pi fun _ : Fin d => gaussianReal 0 1) {z | (x + fun k => z k * Real.sqrt v) ∈ nearSet u ε} ≠ 0 := by
  obtain ⟨p, hp, hh⟩ := normal_hits hv (∑ k, |x k|) u hε
  have h1 := hh x fun k => Finset.single_le_sum (f := fun k => |x k|) (fun _ _ => abs_nonneg _) (Finset.mem_univ k)
  have hmeas : MeasurableSet {z : Fin d → ℝ | x + z ∈ nearSet u ε} := (measurable_const.add measurable_id) (near_meas u ε)
  have hsc : MeasurePreserving (fun (z : Fin d → ℝ) i => z i * Real.sqrt v) (Measure.pi fun _ => gaussianReal 0 1) (normalLaw d v) := by
    refine measurePreserving_pi (fun _ : Fin d => gaussianReal 0 1) (fun _ : Fin d => gaussianReal 0 v.toNNReal)
      (f := fun _ x => x * Real.sqrt v) fun _ => ⟨by fun_prop, ?_⟩
    rw [gaussianReal_map_mul_const]
    congr 1
    · simp
    · rw [mul_one]
      refine NNReal.eq ?_
      simp [Real.sq_sqrt hv.le, hv.le]
  rw [← hsc.measure_preimage hmeas.nullMeasurableSet] at h1
  exact (hp.trans_le h1).ne'

variable {W : MergeWorld d}

/-- the searches that are on, at the turn `t`, with `m` searchers that have not made their step. -/
def waiting (n d t m : ℕ) : Set (MergeState n d) := {x | x.1.turns = t ∧ x.1.over = none ∧ x.1.todo.length = m ∧ CtlOk x.1}

theorem waiting_meas (t m : ℕ) : MeasurableSet (waiting n d t m) :=
  measurable_fst (MeasurableSet.of_discrete (s := {c : MergeCtl n | c.turns = t ∧ c.over = none ∧ c.todo.length = m ∧ CtlOk c}))

theorem waiting_on (t m : ℕ) : waiting n d t m ⊆ searchesOn n d := fun _ hx => hx.2.1

variable (hT : Measurable fun p : MergeState n d × (Fin d → ℝ) => mergeMove W p.1 p.2)
  (π : Measure (Fin n → Fin d → ℝ)) [IsProbabilityMeasure π] (hdif : ∀ m, 1 ≤ m → 0 < W.dif m) {K : ℕ} (hclk : ∀ k < K, ∃ dt, 0 < dt ∧ W.clk k = some dt)
  (u : Fin d → ℝ) {ε : ℝ} (hε : 0 < ε) (hu : nearSet u ε ⊆ W.room \ W.target) (hput : ∀ y ∈ W.room, W.put y = y)

include hdif hclk in
/-- the next searcher may step into any small ball. -/
theorem move_jump {t : ℕ} (ht : t < K) {dn rest : Crowd n} {i : Fin n} {m : ℕ} (hok : CtlOk (⟨t, dn, (i, m) :: rest, none⟩ : MergeCtl n)) (y : Fin n → Fin d → ℝ)
    (u : Fin d → ℝ) {ε : ℝ} (hε : 0 < ε) :
    (Measure.pi fun _ : Fin d => gaussianReal 0 1) {z | ∃ q ∈ nearSet u ε, movedTo W t y i m z = W.put q} ≠ 0 := by
  obtain ⟨dt, h1, h2⟩ := hclk t ht
  have hm : 1 ≤ m := hok.size (i, m) (by simp)
  have := hdif m hm
  intro h0
  refine normal_jump (v := 2 * W.dif m * dt) (by positivity) (y i) u hε (measure_mono_null ?_ h0)
  intro z hz
  refine ⟨y i + fun k => z k * Real.sqrt (2 * W.dif m * dt), hz, ?_⟩
  unfold movedTo
  rw [h2]
  rfl

include hT hdif hclk hε hu hput

/-- The search may be on at any turn that there is. -/
theorem waiting_reached (hn : 0 < n) : ∀ t < K, ∃ m, 0 < m ∧ Reached mergeStart (mergeMove W) (searchesOn n d) (Measure.pi fun _ : Fin d => gaussianReal 0 1) π (waiting n d t m) ∧
    Reached mergeStart (mergeMove W) (searchesOn n d) (Measure.pi fun _ : Fin d => gaussianReal 0 1) π (waiting n d t 1) := by
  have hturn : ∀ t < K, ∀ m, Reached mergeStart (mergeMove W) (searchesOn n d) (Measure.pi fun _ : Fin d => gaussianReal 0 1) π (waiting n d t (m + 1)) →
      Reached mergeStart (mergeMove W) (searchesOn n d) (Measure.pi fun _ : Fin d => gaussianReal 0 1) π (waiting n d t 1) := by
    intro t ht m
    induction m with
    | zero => exact id
    | succ m ih =>
      intro hA
      refine ih (reached_step hT hA (waiting_meas t (m + 1)) (waiting_on t (m + 1)) fun x hx => ?_)
      rcases x with ⟨⟨turns, dn, _ | ⟨⟨i, k⟩, rest⟩, over⟩, y⟩
      · have := hx.2.2.1
        simp at this
      obtain ⟨rfl, h1, h2, h3⟩ := hx
      simp only at h1 h2 h3 ht
      subst h1
      refine fun h0 => move_jump hdif hclk ht h3 y u hε (measure_mono_null (fun z hz => ?_) h0)
      obtain ⟨q, hq, hz⟩ := hz
      rw [hput q (hu hq).1] at hz
      have hr : rest ≠ [] := by
        intro hr
        subst hr
        simp at h2
      have h4 := (move_ok hn W (⟨turns, dn, (i, k) :: rest, none⟩, y) z h3 (by simp)).1
      show mergeMove W (⟨turns, dn, (i, k) :: rest, none⟩, y) z ∈ waiting n d turns (m + 1)
      rw [move_next W (by rw [hz]; exact (hu hq).1) (by rw [hz]; exact (hu hq).2) hr] at h4 ⊢
      exact ⟨rfl, rfl, by simpa using h2, h4⟩
  intro t
  induction t with
  | zero =>
    intro h0
    have hst : Reached mergeStart (mergeMove W) (searchesOn n d) (Measure.pi fun _ : Fin d => gaussianReal 0 1) π (waiting n d 0 n) := by
      refine ⟨0, ?_⟩
      rw [Function.iterate_zero, id, Measure.map_apply mergeStart_meas (waiting_meas 0 n)]
      have : mergeStart ⁻¹' waiting n d 0 n = Set.univ := by
        ext y
        simp only [Set.mem_preimage, Set.mem_univ, iff_true]
        exact ⟨rfl, rfl, by simp [mergeStart], start_ok y⟩
      rw [this, measure_univ]
      exact one_ne_zero
    exact ⟨n, hn, hst, hturn 0 h0 (n - 1) (by rwa [Nat.sub_add_cancel hn])⟩
  | succ t ih =>
    intro ht
    obtain ⟨-, -, -, hA⟩ := ih (by omega)
    have hon : Reached mergeStart (mergeMove W) (searchesOn n d) (Measure.pi fun _ : Fin d => gaussianReal 0 1) π (⋃ m, waiting n d (t + 1) (m + 1)) := by
      refine reached_step hT hA (.iUnion fun m => waiting_meas (t + 1) (m + 1)) (Set.iUnion_subset fun m => waiting_on (t + 1) (m + 1)) fun x hx => ?_
      rcases x with ⟨⟨turns, dn, _ | ⟨⟨i, k⟩, rest⟩, over⟩, y⟩
      · have := hx.2.2.1
        simp at this
      obtain ⟨rfl, h1, h2, h3⟩ := hx
      simp only at h1 h2 h3 ht
      subst h1
      have hr : rest = [] := by simpa using h2
      subst hr
      refine fun h0 => move_jump hdif hclk (by omega : turns < K) h3 y u hε (measure_mono_null (fun z hz => ?_) h0)
      obtain ⟨q, hq, hz⟩ := hz
      rw [hput q (hu hq).1] at hz
      obtain ⟨dt, -, hdt⟩ := hclk (turns + 1) ht
      obtain ⟨h4, h5⟩ := move_ok hn W (⟨turns, dn, [(i, k)], none⟩, y) z h3 (by simp)
      show mergeMove W (⟨turns, dn, [(i, k)], none⟩, y) z ∈ ⋃ m, waiting n d (turns + 1) (m + 1)
      have h6 : (mergeMove W (⟨turns, dn, [(i, k)], none⟩, y) z).1.turns = turns + 1 ∧ (mergeMove W (⟨turns, dn, [(i, k)], none⟩, y) z).1.over = none := by
        rw [move_last W (by rw [hz]; exact (hu hq).1) (by rw [hz]; exact (hu hq).2), hdt]
        exact ⟨rfl, rfl⟩
      refine Set.mem_iUnion.2 ⟨(mergeMove W (⟨turns, dn, [(i, k)], none⟩, y) z).1.todo.length - 1, h6.1, h6.2, ?_, h4⟩
      have := List.length_pos_of_ne_nil h5
      omega
    obtain ⟨m, hm⟩ : ∃ m, Reached mergeStart (mergeMove W) (searchesOn n d) (Measure.pi fun _ : Fin d => gaussianReal 0 1) π (waiting n d (t + 1) (m + 1)) := by
      obtain ⟨k, hk⟩ := hon
      by_contra hne
      push Not at hne
      refine hk (measure_iUnion_null fun m => ?_)
      by_contra h0
      exact hne m ⟨k, h0⟩
    exact ⟨m + 1, by omega, hm, hturn (t + 1) ht m hm⟩

/-- The clock may end before the target is found. -/
theorem merge_clock_possible (hn : 0 < n) (hK : 0 < K) (hend : W.clk K = none) : mergeLaw W (Measure.pi fun _ : Fin d => gaussianReal 0 1) π {(K, .clock)} ≠ 0 := by
  obtain ⟨-, -, -, hA⟩ := waiting_reached hT π hdif hclk u hε hu hput hn (K - 1) (by omega)
  refine reached_end hT searchesOn_meas hA mergeOutcome_meas (measurableSet_singleton _) fun x hx => ?_
  rcases x with ⟨⟨turns, dn, _ | ⟨⟨i, k⟩, rest⟩, over⟩, y⟩
  · have := hx.2.2.1
    simp at this
  obtain ⟨ht, h1, h2, h3⟩ := hx
  simp only at ht h1 h2 h3
  subst h1
  have hr : rest = [] := by simpa using h2
  subst hr
  refine fun h0 => move_jump hdif hclk (by omega : turns < K) h3 y u hε (measure_mono_null (fun z hz => ?_) h0)
  obtain ⟨q, hq, hz⟩ := hz
  rw [hput q (hu hq).1] at hz
  have h6 : (mergeMove W (⟨turns, dn, [(i, k)], none⟩, y) z).1.turns = K ∧ (mergeMove W (⟨turns, dn, [(i, k)], none⟩, y) z).1.over = some .clock := by
    rw [move_last W (by rw [hz]; exact (hu hq).1) (by rw [hz]; exact (hu hq).2), show turns + 1 = K by omega, hend]
    exact ⟨rfl, rfl⟩
  show mergeMove W (⟨turns, dn, [(i, k)], none⟩, y) z ∉ searchesOn n d ∧ mergeOutcome (mergeMove W (⟨turns, dn, [(i, k)], none⟩, y) z) ∈ _
  refine ⟨fun hon => ?_, ?_⟩
  · have hon : _ = none := hon
    rw [h6.2] at hon
    simp at hon
  · simp [mergeOutcome, h6.1, h6.2]

/-- Any turn may be the last, in one way or the other. -/
theorem merge_end_possible (hn : 0 < n) {t : ℕ} (ht : t < K) (x : Fin d → ℝ) {η : ℝ} (hη : 0 < η) :
    ((∀ q ∈ nearSet x η, W.put q ∉ W.room) → mergeLaw W (Measure.pi fun _ : Fin d => gaussianReal 0 1) π {(t + 1, .tooFar)} ≠ 0) ∧
    (nearSet x η ⊆ W.room ∩ W.target → mergeLaw W (Measure.pi fun _ : Fin d => gaussianReal 0 1) π {(t + 1, .found)} ≠ 0) := by
  obtain ⟨-, -, -, hA⟩ := waiting_reached hT π hdif hclk u hε hu hput hn t ht
  have key : ∀ e : Ending, e ≠ .clock → (∀ (dn rest : Crowd n) (i : Fin n) (k : ℕ) (y : Fin n → Fin d → ℝ) (z : Fin d → ℝ), (∃ q ∈ nearSet x η, movedTo W t y i k z = W.put q) →
      (mergeMove W (⟨t, dn, (i, k) :: rest, none⟩, y) z).1.turns = t ∧ (mergeMove W (⟨t, dn, (i, k) :: rest, none⟩, y) z).1.over = some e) →
      mergeLaw W (Measure.pi fun _ : Fin d => gaussianReal 0 1) π {(t + 1, e)} ≠ 0 := by
    intro e he hmove
    refine reached_end hT searchesOn_meas hA mergeOutcome_meas (measurableSet_singleton _) fun x' hx => ?_
    rcases x' with ⟨⟨turns, dn, _ | ⟨⟨i, k⟩, rest⟩, over⟩, y⟩
    · have := hx.2.2.1
      simp at this
    obtain ⟨rfl, h1, h2, h3⟩ := hx
    simp only at h1 h2 h3 ht
    subst h1
    refine fun h0 => move_jump hdif hclk ht h3 y x hη (measure_mono_null (fun z hz => ?_) h0)
    obtain ⟨a1, a2⟩ := hmove dn rest i k y z hz
    show mergeMove W (⟨turns, dn, (i, k) :: rest, none⟩, y) z ∉ searchesOn n d ∧ mergeOutcome (mergeMove W (⟨turns, dn, (i, k) :: rest, none⟩, y) z) ∈ _
    refine ⟨fun hon => ?_, ?_⟩
    · have hon : _ = none := hon
      rw [a2] at hon
      simp at hon
    · simp [mergeOutcome, a1, a2, he]
  refine ⟨fun hfar => key .tooFar (by simp) fun dn rest i k y z ⟨q, hq, hz⟩ => ?_, fun hx => key .found (by simp) fun dn rest i k y z ⟨q, hq, hz⟩ => ?_⟩
  · rw [move_tooFar W (by rw [hz]; exact hfar q hq)]
    exact ⟨rfl, rfl⟩
  · rw [hput q (hx hq).1] at hz
    rw [move_found W (by rw [hz]; exact (hx hq).1) (by rw [hz]; exact (hx hq).2)]
    exact ⟨rfl, rfl⟩
end

end Moledyn
