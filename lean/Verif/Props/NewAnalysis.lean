import Verif.Props.AnalysisExport
/-
C55, analyses whose bins were never set (`new`): what they count, and what their exports do.
-/
namespace Moledyn.Props
open Moledyn

/-- A first-passage analysis without bins counts the samples and averages them, but has no histogram; both exports write no row. -/
theorem C55_new_time (a0 : TimeAnalysis ℝ) (h0 : a0 = .new ∨ a0 = TimeAnalysis.allocateVectors .new) (samples : List ℝ)
    (hs : ∀ t ∈ samples, t ≠ 0) :
    ∃ a, a0.report samples = (a, .ok ()) ∧ a.ensemble = samples.length ∧ a.mean = sampleMean samples ∧
      a.hist = [] ∧ a.lhist = [] ∧ a.count = [] ∧ a.lcount = [] ∧ a.exportRows = .ok [] ∧ a.exportLogRows = .ok [] := by
  have e : a0 = .new := by
    rcases h0 with rfl | rfl
    · rfl
    · simp [TimeAnalysis.allocateVectors, TimeAnalysis.new, Bins.new]
  subst e
  have none : ∀ t ∈ samples, (TimeAnalysis.new : TimeAnalysis ℝ).bins.binPos t = none ∧
      (TimeAnalysis.new : TimeAnalysis ℝ).bins.lbinPos t = none := by
    intro t ht
    have : (Fl.lt t (TimeAnalysis.new : TimeAnalysis ℝ).bins.minTime || Fl.lt (TimeAnalysis.new : TimeAnalysis ℝ).bins.maxTime t) = true := by
      simp only [TimeAnalysis.new, Bins.new, fl_lt, fl_zero, Bool.or_eq_true, decide_eq_true_eq]
      rcases lt_or_gt_of_ne (hs t ht) with h | h
      · exact .inl h
      · exact .inr h
    unfold Bins.binPos Bins.lbinPos
    rw [if_pos this, if_pos this]
    exact ⟨rfl, rfl⟩
  have f := TimeAnalysis.feed_eq (TimeAnalysis.new : TimeAnalysis ℝ) samples
    (fun t ht i hi => by rw [(none t ht).1] at hi; simp at hi) (fun t ht i hi => by rw [(none t ht).2] at hi; simp at hi)
  have tl : ∀ l : List (Option Nat), Hist.tally [] l = [] := by
    intro l; exact List.length_eq_zero_iff.1 (by rw [Hist.length_tally]; rfl)
  have hc : (TimeAnalysis.new : TimeAnalysis ℝ).count = [] := rfl
  have hl : (TimeAnalysis.new : TimeAnalysis ℝ).lcount = [] := rfl
  rw [hc, hl, tl, tl] at f
  refine ⟨_, by unfold TimeAnalysis.report; rw [f]; exact TimeAnalysis.draw_eq _ rfl rfl, ?_, ?_, rfl, rfl, rfl, rfl, rfl, rfl⟩
  · simp [TimeAnalysis.new]
  · have : (TimeAnalysis.new : TimeAnalysis ℝ).mean = 0 := by simp [TimeAnalysis.new]
    simp only [foldl_add_real, this, zero_add]
    simp [TimeAnalysis.new, sampleMean]

/-- The sample 0 is in the empty window, and then the histogram is missing: a panic. -/
theorem C55_new_time_zero : ((TimeAnalysis.new : TimeAnalysis ℝ).addEnsemble 0).2 = .panic := by
  simp [TimeAnalysis.addEnsemble, TimeAnalysis.new, Bins.new, Bins.binPos, Hist.bumpAt, Hist.bump]

/-- Finding: the exports of a vector analysis (with at least one variable) and of a process analysis without bins panic, though
those of a first-passage analysis do not. -/
theorem C55_new_panics (n : Nat) (fuel : Nat) :
    (TimeVecAnalysis.new (n + 1) : TimeVecAnalysis ℝ).exportRows (fuel + 1) = some .panic ∧
    (TimeVecAnalysis.new (n + 1) : TimeVecAnalysis ℝ).exportLogRows (fuel + 1) = some .panic ∧
    (ProcessAnalysis.new : ProcessAnalysis ℝ).exportRows (fuel + 1) = some .panic ∧
    (ProcessAnalysis.new : ProcessAnalysis ℝ).exportLogRows (fuel + 1) = some .panic := by
  have cells : ∀ (i k : Nat), TimeVecAnalysis.cells ([] : List (List Nat)) ([] : List (List ℝ)) i (k + 1) = .panic := by
    intro i k
    induction k with
    | zero => rfl
    | succ k ih => unfold TimeVecAnalysis.cells; rw [ih]
  refine ⟨?_, ?_, ?_, ?_⟩
  · unfold TimeVecAnalysis.exportRows Hist.whileRows
    rw [if_pos (by simp [TimeVecAnalysis.new, Bins.new])]
    unfold TimeVecAnalysis.row
    simp only [TimeVecAnalysis.new, cells, Res.map_panic]
  · unfold TimeVecAnalysis.exportLogRows Hist.whileRows
    rw [if_pos (by simp [TimeVecAnalysis.new, Bins.new])]
    unfold TimeVecAnalysis.row
    simp only [TimeVecAnalysis.new, cells, Res.map_panic]
  · unfold ProcessAnalysis.exportRows Hist.whileRows
    rw [if_pos (by simp [ProcessAnalysis.new, Bins.new])]
    rfl
  · unfold ProcessAnalysis.exportLogRows Hist.whileRows
    rw [if_pos (by simp [ProcessAnalysis.new, Bins.new])]
    rfl

/-- Finding: and those of a vector analysis without variables and bins never end. -/
theorem C55_new_endless (fuel : Nat) : (TimeVecAnalysis.new 0 : TimeVecAnalysis ℝ).exportRows fuel = none := by
  unfold TimeVecAnalysis.exportRows
  have key : ∀ (fuel i : Nat) (t : ℝ), t = 0 → Hist.whileRows (TimeVecAnalysis.new 0 : TimeVecAnalysis ℝ).bins.maxTime
      (fun t => t + (TimeVecAnalysis.new 0 : TimeVecAnalysis ℝ).bins.binSize)
      ((TimeVecAnalysis.new 0 : TimeVecAnalysis ℝ).row (TimeVecAnalysis.new 0 : TimeVecAnalysis ℝ).count
        (TimeVecAnalysis.new 0 : TimeVecAnalysis ℝ).hist) fuel i t = none := by
    intro fuel
    induction fuel with
    | zero => intro i t _; rfl
    | succ fuel ih =>
      intro i t ht
      unfold Hist.whileRows
      rw [if_pos (by rw [ht]; simp [TimeVecAnalysis.new, Bins.new])]
      have : (TimeVecAnalysis.new 0 : TimeVecAnalysis ℝ).row (TimeVecAnalysis.new 0 : TimeVecAnalysis ℝ).count
        (TimeVecAnalysis.new 0 : TimeVecAnalysis ℝ).hist i t = .ok none := by
        simp [TimeVecAnalysis.row, TimeVecAnalysis.new, TimeVecAnalysis.cells]
      rw [this]
      simp only
      rw [ih (i + 1) _ (by rw [ht]; simp [TimeVecAnalysis.new, Bins.new])]
      rfl
  exact key fuel 0 _ (by simp [TimeVecAnalysis.new, Bins.new])

example : ∃ a, (TimeAnalysis.new : TimeAnalysis ℝ).report [1, 3] = (a, .ok ()) ∧ a.ensemble = 2 ∧ a.mean = 2 := by
  obtain ⟨a, h1, h2, h3, -⟩ := C55_new_time .new (.inl rfl) [1, 3] (by simp)
  exact ⟨a, h1, h2, by rw [h3]; simp [sampleMean]; norm_num⟩

end Moledyn.Props
