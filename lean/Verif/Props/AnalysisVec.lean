import Verif.Props.AnalysisStats
/-
Property theorems C46-C49 for analyses of several values (src/analysis.rs, TimeVecAnalysis): such an analysis
behaves as independent single-value analyses, one per position.
-/
namespace Moledyn

namespace TimeVecAnalysis
/-- everything a program can make of a prepared analysis. -/
inductive Reach {F : Type} [Fl F] (n : Nat) (b : Bins F) : TimeVecAnalysis F → Prop
  | prepared : Reach n b (prepared n b)
  | add {a} (ts : List F) : Reach n b a → Reach n b (a.addEnsemble ts).1
  | draw {a} : Reach n b a → Reach n b a.draw.1
  | clear {a} : Reach n b a → Reach n b a.clear
end TimeVecAnalysis

namespace Props
open Moledyn TimeVecAnalysis
set_option linter.unusedSimpArgs false
variable {F : Type} [Fl F]

/-- the analysis of several values made of given single-value analyses. -/
def ofCols (ens : Nat) (b : Bins F) (cols : List (TimeAnalysis F)) : TimeVecAnalysis F :=
  ⟨cols.map (·.mean), cols.map (·.stddev), ens, b, cols.length, cols.map (·.hist), cols.map (·.lhist),
   cols.map (·.count), cols.map (·.lcount)⟩

/-- the columns agree with the common fields. -/
def Fits (ens : Nat) (b : Bins F) (cols : List (TimeAnalysis F)) : Prop := ∀ c ∈ cols, c.ensemble = ens ∧ c.bins = b

omit [Fl F] in
theorem column_ofCols (ens : Nat) (b : Bins F) (cols : List (TimeAnalysis F)) (h : Fits ens b cols) (k : Nat) :
    (ofCols ens b cols).column k = cols[k]? := by
  unfold column ofCols
  simp only [List.getElem?_map]
  cases hk : cols[k]? with
  | none => rfl
  | some c =>
    obtain ⟨h1, h2⟩ := h c (List.mem_of_getElem? hk)
    simp only [Option.map_some, Option.bind_eq_bind, Option.bind_some, Option.pure_def, Option.some.injEq]
    rw [← h1, ← h2]

theorem prepared_eq_ofCols (n : Nat) (b : Bins F) :
    prepared n b = ofCols 0 b (List.replicate n (TimeAnalysis.prepared b)) := by
  simp [prepared, ofCols, allocateVectors, TimeVecAnalysis.new, TimeAnalysis.prepared, TimeAnalysis.allocateVectors,
    TimeAnalysis.new]

/-- one step of all columns. -/
def stepCols (cols : List (TimeAnalysis F)) (ts : List F) : List (TimeAnalysis F) :=
  List.zipWith (fun c t => (c.addEnsemble t).1) cols ts

@[simp] theorem length_stepCols (cols : List (TimeAnalysis F)) (ts : List F) (h : ts.length = cols.length) :
    (stepCols cols ts).length = cols.length := by simp [stepCols, h]

theorem addEnsemble_bins (c : TimeAnalysis F) (t : F) :
    (c.addEnsemble t).1.bins = c.bins ∧ (c.addEnsemble t).1.ensemble = c.ensemble + 1 := by
  unfold TimeAnalysis.addEnsemble
  simp only
  split <;> exact ⟨rfl, rfl⟩

theorem fits_step (ens : Nat) (b : Bins F) (cols : List (TimeAnalysis F)) (h : Fits ens b cols) (ts : List F) :
    Fits (ens + 1) b (stepCols cols ts) := by
  intro c hc
  unfold stepCols at hc
  obtain ⟨i, hi, rfl⟩ := List.mem_iff_getElem.1 hc
  simp only [List.getElem_zipWith]
  have hi' : i < cols.length := by simp at hi; omega
  obtain ⟨h1, h2⟩ := h _ (List.getElem_mem hi')
  obtain ⟨h3, h4⟩ := addEnsemble_bins cols[i] (ts[i]'(by simp at hi; omega))
  exact ⟨by rw [h4, h1], by rw [h3, h2]⟩

/-- the loop of `add_ensemble` works on each column separately. -/
theorem addLoop_cols (b : Bins F) (ts : List F) (cols : List (TimeAnalysis F)) (hlen : ts.length = cols.length)
    (hb : ∀ c ∈ cols, c.bins = b) :
    ((∀ (k : Nat) (c : TimeAnalysis F) (t : F), cols[k]? = some c → ts[k]? = some t → (c.addEnsemble t).2 = .ok ()) →
      addLoop b ts ⟨cols.map (·.mean), cols.map (·.stddev), cols.map (·.count), cols.map (·.lcount)⟩ =
        (⟨(stepCols cols ts).map (·.mean), (stepCols cols ts).map (·.stddev), (stepCols cols ts).map (·.count),
          (stepCols cols ts).map (·.lcount)⟩, .ok ())) ∧
    ((∃ (k : Nat) (c : TimeAnalysis F) (t : F), cols[k]? = some c ∧ ts[k]? = some t ∧ (c.addEnsemble t).2 ≠ .ok ()) →
      (addLoop b ts ⟨cols.map (·.mean), cols.map (·.stddev), cols.map (·.count), cols.map (·.lcount)⟩).2 = .panic) := by
  induction ts generalizing cols with
  | nil =>
    cases cols with
    | nil => refine ⟨fun _ => rfl, ?_⟩; rintro ⟨k, c, t, h, -⟩; simp at h
    | cons _ _ => simp at hlen
  | cons t ts ih =>
    cases cols with
    | nil => simp at hlen
    | cons c cols =>
      simp only [List.length_cons, Nat.add_right_cancel_iff] at hlen
      obtain ⟨ih1, ih2⟩ := ih cols hlen (fun c hc => hb c (List.mem_cons_of_mem _ hc))
      have hcb : c.bins = b := hb c (by simp)
      have hne : ∀ (v : List Nat) o, (Hist.bumpAt v o).2 = .ok () ∨ (Hist.bumpAt v o).2 = .panic := by
        intro v o
        cases o with
        | none => exact Or.inl rfl
        | some i => simp only [Hist.bumpAt, Hist.bump]; cases v[i]? <;> simp
      have h1 := hne c.count (b.binPos t)
      have h2 := hne c.lcount (b.lbinPos t)
      have hadd : c.addEnsemble t = match Hist.bumpAt c.count (b.binPos t) with
        | (c', .ok ()) => ({ c with ensemble := c.ensemble + 1, mean := c.mean + t, stddev := c.stddev + t * t,
                                    count := c', lcount := (Hist.bumpAt c.lcount (b.lbinPos t)).1 },
                            (Hist.bumpAt c.lcount (b.lbinPos t)).2)
        | (c', r) => ({ c with ensemble := c.ensemble + 1, mean := c.mean + t, stddev := c.stddev + t * t,
                               count := c' }, r) := by
        unfold TimeAnalysis.addEnsemble
        simp only [hcb]
        match Hist.bumpAt c.count (b.binPos t) with
        | (c', .ok ()) => rfl
        | (c', .err e) => rfl
        | (c', .panic) => rfl
      simp only [List.map_cons, addLoop]
      match hc1 : Hist.bumpAt c.count (b.binPos t) with
      | (c', .ok ()) =>
        simp only [hc1] at hadd ⊢
        match hc2 : Hist.bumpAt c.lcount (b.lbinPos t) with
        | (l', .ok ()) =>
          simp only [hc2] at hadd ⊢
          constructor
          · intro hall
            have hrest := ih1 (fun k c t hc ht => hall (k + 1) c t (by simpa using hc) (by simpa using ht))
            rw [hrest]
            simp only [stepCols, List.zipWith_cons_cons, List.map_cons, hadd]
          · rintro ⟨k, d, u, hd, hu, hbad⟩
            cases k with
            | zero =>
              simp only [List.getElem?_cons_zero, Option.some.injEq] at hd hu
              subst hd hu
              rw [hadd] at hbad; simp at hbad
            | succ k =>
              exact ih2 ⟨k, d, u, by simpa using hd, by simpa using hu, hbad⟩
        | (l', .err e) => rw [hc2] at h2; simp at h2
        | (l', .panic) =>
          simp only [hc2] at hadd ⊢
          refine ⟨fun hall => ?_, fun _ => trivial⟩
          have := hall 0 c t rfl rfl
          rw [hadd] at this; simp at this
      | (c', .err e) => rw [hc1] at h1; simp at h1
      | (c', .panic) =>
        simp only [hc1] at hadd ⊢
        refine ⟨fun hall => ?_, fun _ => trivial⟩
        have := hall 0 c t rfl rfl
        rw [hadd] at this; simp at this

/-- `add_ensemble` on several values. -/
theorem addEnsemble_cols (ens : Nat) (b : Bins F) (cols : List (TimeAnalysis F)) (hfit : Fits ens b cols)
    (h0 : cols ≠ []) (ts : List F) (hlen : ts.length = cols.length) :
    ((∀ (k : Nat) (c : TimeAnalysis F) (t : F), cols[k]? = some c → ts[k]? = some t → (c.addEnsemble t).2 = .ok ()) →
      (ofCols ens b cols).addEnsemble ts = (ofCols (ens + 1) b (stepCols cols ts), .ok ())) ∧
    ((∃ (k : Nat) (c : TimeAnalysis F) (t : F), cols[k]? = some c ∧ ts[k]? = some t ∧ (c.addEnsemble t).2 ≠ .ok ()) →
      ((ofCols ens b cols).addEnsemble ts).2 = .panic) := by
  obtain ⟨h1, h2⟩ := addLoop_cols b ts cols hlen (fun c hc => (hfit c hc).2)
  have hn : cols.length ≠ 0 := by simpa [List.length_eq_zero_iff] using h0
  have e : (ofCols ens b cols).numVar = cols.length := rfl
  constructor
  · intro hall
    unfold addEnsemble
    simp only [e]
    rw [if_neg hn, e, if_neg (by omega)]
    simp only [ofCols] at *
    rw [h1 hall]
    simp only [Prod.mk.injEq, and_true, TimeVecAnalysis.mk.injEq, true_and, length_stepCols cols ts hlen]
    refine ⟨?_, ?_⟩ <;>
    · apply List.ext_getElem?
      intro i
      simp only [stepCols, List.getElem?_map, List.getElem?_zipWith]
      have hil : cols[i]? = none ↔ ts[i]? = none := by
        rw [List.getElem?_eq_none_iff, List.getElem?_eq_none_iff, hlen]
      cases hc : cols[i]? with
      | none => simp [hil.1 hc]
      | some c =>
        cases ht : ts[i]? with
        | none => rw [hil.2 ht] at hc; simp at hc
        | some t =>
          simp only [Option.map_some, Option.some.injEq]
          unfold TimeAnalysis.addEnsemble
          simp only
          split <;> rfl
  · intro hex
    unfold addEnsemble
    simp only [e]
    rw [if_neg hn, e, if_neg (by omega)]
    simp only [ofCols] at *
    exact h2 hex

omit [Fl F] in
theorem valuesOf_cons (k : Nat) (ts : List F) (es : List (List F)) (t : F) (h : ts[k]? = some t) :
    valuesOf k (ts :: es) = t :: valuesOf k es := by
  simp [valuesOf, h]

/-- feeding works on each column separately. -/
theorem feed_cols (es : List (List F)) (ens : Nat) (b : Bins F) (cols : List (TimeAnalysis F))
    (hfit : Fits ens b cols) (h0 : cols ≠ []) (hlen : ∀ ts ∈ es, ts.length = cols.length) :
    ((∀ (k : Nat) (c : TimeAnalysis F), cols[k]? = some c → (c.feed (valuesOf k es)).2 = .ok ()) →
      ∃ ens' cols', Fits ens' b cols' ∧ ens' = ens + es.length ∧ cols'.length = cols.length ∧
        (ofCols ens b cols).feed es = (ofCols ens' b cols', .ok ()) ∧
        ∀ (k : Nat) (c : TimeAnalysis F), cols[k]? = some c → cols'[k]? = some (c.feed (valuesOf k es)).1) ∧
    ((∃ (k : Nat) (c : TimeAnalysis F), cols[k]? = some c ∧ (c.feed (valuesOf k es)).2 ≠ .ok ()) →
      ((ofCols ens b cols).feed es).2 = .panic) := by
  induction es generalizing ens cols with
  | nil =>
    refine ⟨fun _ => ⟨ens, cols, hfit, rfl, rfl, rfl, fun k c hc => hc⟩, ?_⟩
    rintro ⟨k, c, -, hbad⟩
    exact absurd rfl hbad
  | cons ts es ih =>
    have hts := hlen ts (by simp)
    obtain ⟨h1, h2⟩ := addEnsemble_cols ens b cols hfit h0 ts hts
    have hcol : ∀ (k : Nat) (c : TimeAnalysis F), cols[k]? = some c → ∃ t, ts[k]? = some t := by
      intro k c hc
      have : k < ts.length := by rw [hts]; exact (List.getElem?_eq_some_iff.1 hc).1
      exact ⟨ts[k], List.getElem?_eq_getElem this⟩
    by_cases hall : ∀ (k : Nat) (c : TimeAnalysis F) (t : F), cols[k]? = some c → ts[k]? = some t → (c.addEnsemble t).2 = .ok ()
    · have hstep : ∀ (k : Nat) (c : TimeAnalysis F) (t : F), cols[k]? = some c → ts[k]? = some t →
          (stepCols cols ts)[k]? = some (c.addEnsemble t).1 := by
        intro k c t hc ht
        simp [stepCols, List.getElem?_zipWith, hc, ht]
      have hfeed : ∀ (k : Nat) (c : TimeAnalysis F) (t : F), cols[k]? = some c → ts[k]? = some t →
          c.feed (valuesOf k (ts :: es)) = (c.addEnsemble t).1.feed (valuesOf k es) := by
        intro k c t hc ht
        have hok := hall k c t hc ht
        rw [valuesOf_cons k ts es t ht, TimeAnalysis.feed]
        match hadd : c.addEnsemble t with
        | (c', .ok ()) => rfl
        | (c', .err e) => rw [hadd] at hok; simp at hok
        | (c', .panic) => rw [hadd] at hok; simp at hok
      have hback : ∀ (k : Nat) (c' : TimeAnalysis F), (stepCols cols ts)[k]? = some c' →
          ∃ c t, cols[k]? = some c ∧ ts[k]? = some t ∧ c' = (c.addEnsemble t).1 := by
        intro k c' hc'
        have hk : k < cols.length := by
          have := (List.getElem?_eq_some_iff.1 hc').1
          rwa [length_stepCols cols ts hts] at this
        have hc := List.getElem?_eq_getElem hk
        obtain ⟨t, ht⟩ := hcol k _ hc
        have := hstep k _ t hc ht
        rw [hc'] at this
        exact ⟨_, t, hc, ht, by simpa using this⟩
      have hne : stepCols cols ts ≠ [] := by
        intro h
        have := length_stepCols cols ts hts
        rw [h] at this
        exact h0 (List.length_eq_zero_iff.1 this.symm)
      obtain ⟨ih1, ih2⟩ := ih (ens + 1) (stepCols cols ts) (fits_step ens b cols hfit ts) hne
        (fun us hus => by rw [length_stepCols cols ts hts]; exact hlen us (List.mem_cons_of_mem _ hus))
      have hgo : (ofCols ens b cols).feed (ts :: es) = (ofCols (ens + 1) b (stepCols cols ts)).feed es := by
        rw [TimeVecAnalysis.feed, h1 hall]
      rw [hgo]
      constructor
      · intro hok
        obtain ⟨ens', cols', hf, he, hl, hr, hc⟩ := ih1 (fun k c' hc' => by
          obtain ⟨c, t, hc, ht, rfl⟩ := hback k c' hc'
          rw [← hfeed k c t hc ht]
          exact hok k c hc)
        refine ⟨ens', cols', hf, by rw [he, List.length_cons]; omega, by rw [hl, length_stepCols cols ts hts], hr, ?_⟩
        intro k c hck
        obtain ⟨t, ht⟩ := hcol k c hck
        rw [hfeed k c t hck ht]
        exact hc k _ (hstep k c t hck ht)
      · rintro ⟨k, c, hck, hbad⟩
        obtain ⟨t, ht⟩ := hcol k c hck
        rw [hfeed k c t hck ht] at hbad
        exact ih2 ⟨k, _, hstep k c t hck ht, hbad⟩
    · push Not at hall
      have hpan : ((ofCols ens b cols).feed (ts :: es)).2 = .panic := by
        have := h2 hall
        rw [TimeVecAnalysis.feed]
        match hadd : (ofCols ens b cols).addEnsemble ts with
        | (c', .ok ()) => rw [hadd] at this; simp at this
        | (c', .err e) => rw [hadd] at this; simp at this
        | (c', .panic) => rfl
      refine ⟨fun hok => ?_, fun _ => hpan⟩
      obtain ⟨k, c, t, hc, ht, hbad⟩ := hall
      have := hok k c hc
      rw [valuesOf_cons k ts es t ht, TimeAnalysis.feed] at this
      match hadd : c.addEnsemble t with
      | (c', .ok ()) => rw [hadd] at hbad; simp at hbad
      | (c', .err e) => rw [hadd] at this; simp at this
      | (c', .panic) => rw [hadd] at this; simp at this

/-- drawing works on each column separately. -/
theorem drawLoop_cols (ens : Nat) (b : Bins F) (cols : List (TimeAnalysis F)) (hfit : Fits ens b cols)
    (hsh : ∀ c ∈ cols, c.hist.length = c.count.length ∧ c.lhist.length = c.lcount.length) :
    drawLoop b (Fl.ofNat ens) cols.length (cols.map (·.count)) (cols.map (·.lcount))
      ⟨cols.map (·.mean), cols.map (·.stddev), cols.map (·.hist), cols.map (·.lhist)⟩ =
      (⟨(cols.map (·.draw.1)).map (·.mean), (cols.map (·.draw.1)).map (·.stddev),
        (cols.map (·.draw.1)).map (·.hist), (cols.map (·.draw.1)).map (·.lhist)⟩, .ok ()) := by
  induction cols with
  | nil => rfl
  | cons c cols ih =>
    have ih := ih (fun c hc => hfit c (List.mem_cons_of_mem _ hc)) (fun c hc => hsh c (List.mem_cons_of_mem _ hc))
    obtain ⟨h1, h2⟩ := hfit c (by simp)
    obtain ⟨h3, h4⟩ := hsh c (by simp)
    simp only [List.length_cons, List.map_cons, drawLoop]
    rw [Hist.overwrite_eq _ _ (by simp [h3])]
    simp only
    rw [Hist.overwrite_eq _ _ (by simp [h4])]
    simp only
    rw [ih]
    simp only [TimeAnalysis.draw_eq c h3 h4, h1, h2]

theorem draw_cols (ens : Nat) (b : Bins F) (cols : List (TimeAnalysis F)) (hfit : Fits ens b cols)
    (hsh : ∀ c ∈ cols, c.hist.length = c.count.length ∧ c.lhist.length = c.lcount.length) :
    (ofCols ens b cols).draw = (ofCols ens b (cols.map (·.draw.1)), .ok ()) ∧
    Fits ens b (cols.map (·.draw.1)) := by
  constructor
  · unfold TimeVecAnalysis.draw
    have := drawLoop_cols ens b cols hfit hsh
    simp only [ofCols]
    rw [this]
    simp only [Prod.mk.injEq, and_true, TimeVecAnalysis.mk.injEq, List.length_map, true_and, List.map_map]
    constructor <;>
    · apply List.map_congr_left
      intro c hc
      simp only [Function.comp_apply, TimeAnalysis.draw_eq c (hsh c hc).1 (hsh c hc).2]
  · intro d hd
    obtain ⟨c, hc, rfl⟩ := List.mem_map.1 hd
    rw [TimeAnalysis.draw_eq c (hsh c hc).1 (hsh c hc).2]
    exact hfit c hc

/-- feeding and drawing works on each column separately. -/
theorem report_cols (es : List (List F)) (b : Bins F) (cols : List (TimeAnalysis F)) (ens : Nat)
    (hfit : Fits ens b cols) (hshape : ∀ c ∈ cols, TimeShape b c)
    (h0 : cols ≠ []) (hlen : ∀ ts ∈ es, ts.length = cols.length) :
    ((∀ (k : Nat) (c : TimeAnalysis F), cols[k]? = some c → (c.feed (valuesOf k es)).2 = .ok ()) →
      ∃ cols', cols'.length = cols.length ∧ Fits (ens + es.length) b cols' ∧
        (ofCols ens b cols).report es = (ofCols (ens + es.length) b cols', .ok ()) ∧
        ∀ (k : Nat) (c : TimeAnalysis F), cols[k]? = some c → cols'[k]? = some (c.report (valuesOf k es)).1) ∧
    ((∃ (k : Nat) (c : TimeAnalysis F), cols[k]? = some c ∧ (c.feed (valuesOf k es)).2 ≠ .ok ()) →
      ((ofCols ens b cols).report es).2 = .panic) := by
  obtain ⟨h1, h2⟩ := feed_cols es ens b cols hfit h0 hlen
  constructor
  · intro hok
    obtain ⟨ens', cols', hf, rfl, hl, hr, hc⟩ := h1 hok
    have hsh : ∀ c ∈ cols', c.hist.length = c.count.length ∧ c.lhist.length = c.lcount.length := by
      intro c hcm
      obtain ⟨k, hk⟩ := List.mem_iff_getElem?.1 hcm
      have hklt : k < cols.length := by rw [← hl]; exact (List.getElem?_eq_some_iff.1 hk).1
      have hck := hc k _ (List.getElem?_eq_getElem hklt)
      rw [hk, Option.some.injEq] at hck
      obtain ⟨-, s2, s3, s4, s5⟩ := timeShape_feed b _ (valuesOf k es) (hshape _ (List.getElem_mem hklt))
      rw [hck]
      exact ⟨by omega, by omega⟩
    obtain ⟨d1, d2⟩ := draw_cols _ b cols' hf hsh
    refine ⟨cols'.map (·.draw.1), by simp [hl], d2, ?_, ?_⟩
    · unfold TimeVecAnalysis.report
      rw [hr]
      exact d1
    · intro k c hck
      have hok' := hok k c hck
      rw [List.getElem?_map, hc k c hck, Option.map_some]
      unfold TimeAnalysis.report
      match hf' : c.feed (valuesOf k es) with
      | (c', .ok ()) => rfl
      | (c', .err e) => rw [hf'] at hok'; simp at hok'
      | (c', .panic) => rw [hf'] at hok'; simp at hok'
  · intro hex
    have := h2 hex
    unfold TimeVecAnalysis.report
    match hf : (ofCols ens b cols).feed es with
    | (c', .ok ()) => rw [hf] at this; simp at this
    | (c', .err e) => rw [hf] at this; simp at this
    | (c', .panic) => rfl

/-- the columns after feeding and drawing a prepared analysis. -/
theorem report_prepared_cols (n : Nat) (hn : 0 < n) (b : Bins F) (ensembles : List (List F))
    (hlen : ∀ e ∈ ensembles, e.length = n) :
    ((∀ k < n, ((TimeAnalysis.prepared b).feed (valuesOf k ensembles)).2 = .ok ()) →
      ∃ cols', cols'.length = n ∧ Fits ensembles.length b cols' ∧
        (prepared n b).report ensembles = (ofCols ensembles.length b cols', .ok ()) ∧
        ∀ k < n, cols'[k]? = some ((TimeAnalysis.prepared b).report (valuesOf k ensembles)).1) ∧
    ((∃ k < n, ((TimeAnalysis.prepared b).feed (valuesOf k ensembles)).2 ≠ .ok ()) →
      ((prepared n b).report ensembles).2 = .panic) := by
  rw [prepared_eq_ofCols]
  have hfit : Fits 0 b (List.replicate n (TimeAnalysis.prepared b)) := by
    intro c hc
    rw [List.eq_of_mem_replicate hc]
    exact ⟨rfl, rfl⟩
  obtain ⟨h1, h2⟩ := report_cols ensembles b (List.replicate n (TimeAnalysis.prepared b)) 0 hfit
    (fun c hc => by rw [List.eq_of_mem_replicate hc]; exact timeShape_prepared b)
    (by intro h; have := congrArg List.length h; simp at this; omega) (by simpa using hlen)
  have hget : ∀ k c, (List.replicate n (TimeAnalysis.prepared b))[k]? = some c ↔
      k < n ∧ c = TimeAnalysis.prepared b := by
    intro k c
    rw [List.getElem?_replicate]
    by_cases hk : k < n
    · simp [hk, eq_comm]
    · simp [hk]
  constructor
  · intro hok
    obtain ⟨cols', hl, hf, hr, hc⟩ := h1 (fun k c hkc => by
      obtain ⟨hk, rfl⟩ := (hget k c).1 hkc
      exact hok k hk)
    simp only [Nat.zero_add, List.length_replicate] at hl hf hr
    exact ⟨cols', hl, hf, hr, fun k hk => hc k _ ((hget k _).2 ⟨hk, rfl⟩)⟩
  · rintro ⟨k, hk, hbad⟩
    exact h2 ⟨k, _, (hget k _).2 ⟨hk, rfl⟩, hbad⟩

/-- A `TimeVecAnalysis` of `n > 0` values is `n` independent `TimeAnalysis` (any arithmetic): given ensembles of
`n` values each, if no single analysis of one of the positions panics then feeding and drawing succeeds and
holds for position `k` exactly what a `TimeAnalysis` fed with the `k`-th values reports (and nothing for other
positions); if one of them panics, it panics. -/
theorem C46_vector (n : Nat) (hn : 0 < n) (b : Bins F) (ensembles : List (List F))
    (hlen : ∀ e ∈ ensembles, e.length = n) :
    ((∀ k < n, ((TimeAnalysis.prepared b).feed (valuesOf k ensembles)).2 = .ok ()) →
      ∃ a, (prepared n b).report ensembles = (a, .ok ()) ∧ a.ensemble = ensembles.length ∧
        a.numVar = n ∧ a.bins = b ∧ (∀ k, n ≤ k → a.column k = none) ∧
        ∀ k < n, a.column k = some ((TimeAnalysis.prepared b).report (valuesOf k ensembles)).1) ∧
    ((∃ k < n, ((TimeAnalysis.prepared b).feed (valuesOf k ensembles)).2 ≠ .ok ()) →
      ((prepared n b).report ensembles).2 = .panic) := by
  obtain ⟨h1, h2⟩ := report_prepared_cols n hn b ensembles hlen
  refine ⟨fun hok => ?_, h2⟩
  obtain ⟨cols', hl, hf, hr, hc⟩ := h1 hok
  refine ⟨_, hr, rfl, hl, rfl, fun k hk => ?_, fun k hk => ?_⟩
  · rw [column_ofCols _ _ _ hf, List.getElem?_eq_none (by omega)]
  · rw [column_ofCols _ _ _ hf]
    exact hc k hk

example : valuesOf 1 [[1, 2], [3, (4 : ℝ)]] = [2, 4] := by simp [valuesOf]

/-- hence in exact arithmetic the mean, spread and histograms of each position are those of C46-C48. -/
theorem C46_vector_exact (n : Nat) (hn : 0 < n) (old B : Bins ℝ) (mn mx b l : ℝ)
    (hset : Bins.updateFromBinSize old mn mx b l = (B, .ok ())) (hb : 0 < b) (hl : 1 < l)
    (ensembles : List (List ℝ)) (hlen : ∀ e ∈ ensembles, e.length = n) :
    ∃ a, (prepared n B).report ensembles = (a, .ok ()) ∧ a.ensemble = ensembles.length ∧
      ∀ k < n, a.column k = some ((TimeAnalysis.prepared B).report (valuesOf k ensembles)).1 := by
  obtain ⟨a, h1, h2, -, -, -, h3⟩ := (C46_vector n hn B ensembles hlen).1
    fun _ _ => (C45_in_range old B mn mx b l hset hb hl).2.2.2 _
  exact ⟨a, h1, h2, h3⟩

/-- An ensemble with a wrong number of values panics and changes nothing; an analysis made for 0 values takes
the number of values from its first ensemble, and keeps it also through `clear` (any arithmetic). -/
theorem C46_vector_arity (n : Nat) (b : Bins F) (a : TimeVecAnalysis F) (ts : List F) :
    (0 < n → a.numVar = n → ts.length ≠ n → a.addEnsemble ts = (a, .panic)) ∧
    ((prepared 0 b).addEnsemble ts = (prepared ts.length b).addEnsemble ts) ∧
    ((prepared 0 b).addEnsemble ts).1.numVar = ts.length ∧
    ((prepared 0 b).addEnsemble ts).1.clear.numVar = ts.length := by
  have h2 : (prepared 0 b).addEnsemble ts = (prepared ts.length b).addEnsemble ts := by
    have e0 : (prepared 0 b).numVar = 0 := rfl
    have e1 : (prepared ts.length b).numVar = ts.length := rfl
    have e2 : allocateVectors { prepared 0 b with numVar := ts.length } = prepared ts.length b := rfl
    have e3 : allocateVectors { prepared ts.length b with numVar := ts.length } = prepared ts.length b := rfl
    unfold addEnsemble
    simp only [e0, e1, e2, e3, if_true, ite_self]
  have h3 : ((prepared 0 b).addEnsemble ts).1.numVar = ts.length := by
    unfold addEnsemble
    have e2 : allocateVectors { prepared 0 b with numVar := ts.length } = prepared ts.length b := rfl
    have e0 : (prepared 0 b).numVar = 0 := rfl
    have e1 : (prepared ts.length b).numVar = ts.length := rfl
    simp only [e0, e2, if_true, e1]
    rw [if_neg (by simp)]
  refine ⟨?_, h2, h3, h3⟩
  intro hn ha hts
  have hz : ¬ a.numVar = 0 := by omega
  have hz' : a.numVar ≠ ts.length := by omega
  unfold addEnsemble
  simp only [if_neg hz, if_pos hz']

/-! ## C49 for several values -/

/-- the shape of an analysis of `n` values. -/
def VecShape (n : Nat) (b : Bins F) (a : TimeVecAnalysis F) : Prop :=
  a.numVar = n ∧ a.bins = b ∧ a.means.length = n ∧ a.stddevs.length = n ∧
  (a.hist.length = n ∧ ∀ h ∈ a.hist, h.length = b.numBin) ∧
  (a.lhist.length = n ∧ ∀ h ∈ a.lhist, h.length = b.numLbin) ∧
  (a.count.length = n ∧ ∀ h ∈ a.count, h.length = b.numBin) ∧
  (a.lcount.length = n ∧ ∀ h ∈ a.lcount, h.length = b.numLbin)

omit [Fl F] in
/-- an analysis of that shape is made of columns. -/
theorem vecShape_cols (n : Nat) (b : Bins F) (a : TimeVecAnalysis F) (h : VecShape n b a) :
    ∃ cols, a = ofCols a.ensemble b cols ∧ cols.length = n ∧ Fits a.ensemble b cols ∧ ∀ c ∈ cols, TimeShape b c := by
  obtain ⟨means, stddevs, ens, bins, nv, hist, lhist, count, lcount⟩ := a
  obtain ⟨h1, h2, h3, h4, ⟨h5, h5'⟩, ⟨h6, h6'⟩, ⟨h7, h7'⟩, ⟨h8, h8'⟩⟩ := h
  simp only at *
  subst h1 h2
  induction nv generalizing means stddevs hist lhist count lcount with
  | zero =>
    refine ⟨[], ?_, rfl, by simp [Fits], by simp⟩
    rw [List.length_eq_zero_iff] at *
    subst h3 h4 h5 h6 h7 h8
    rfl
  | succ n ih =>
    cases means with
    | nil => simp at h3
    | cons m means =>
    cases stddevs with
    | nil => simp at h4
    | cons s stddevs =>
    cases hist with
    | nil => simp at h5
    | cons hi hist =>
    cases lhist with
    | nil => simp at h6
    | cons lhi lhist =>
    cases count with
    | nil => simp at h7
    | cons c count =>
    cases lcount with
    | nil => simp at h8
    | cons lc lcount =>
      simp only [List.length_cons, Nat.add_right_cancel_iff] at h3 h4 h5 h6 h7 h8
      obtain ⟨cols, e, hl, hf, hs⟩ := ih means stddevs hist lhist count lcount h3 h4 h5 h6 h7 h8
        (fun x hx => h5' x (List.mem_cons_of_mem _ hx)) (fun x hx => h6' x (List.mem_cons_of_mem _ hx))
        (fun x hx => h7' x (List.mem_cons_of_mem _ hx)) (fun x hx => h8' x (List.mem_cons_of_mem _ hx))
      refine ⟨⟨m, s, ens, bins, hi, lhi, c, lc⟩ :: cols, ?_, by simp [hl], ?_, ?_⟩
      · simp only [ofCols, TimeVecAnalysis.mk.injEq, List.map_cons, List.cons.injEq, true_and, List.length_cons] at e ⊢
        obtain ⟨e1, e2, e3, e4, e5, e6, e7⟩ := e
        exact ⟨e1, e2, by omega, e4, e5, e6, e7⟩
      · intro d hd
        rcases List.mem_cons.1 hd with rfl | hd
        · exact ⟨rfl, rfl⟩
        · exact hf d hd
      · intro d hd
        rcases List.mem_cons.1 hd with rfl | hd
        · exact ⟨rfl, h5' _ (by simp), h6' _ (by simp), h7' _ (by simp), h8' _ (by simp)⟩
        · exact hs d hd

omit [Fl F] in
theorem cols_vecShape (ens : Nat) (b : Bins F) (cols : List (TimeAnalysis F)) (h : ∀ c ∈ cols, TimeShape b c) :
    VecShape cols.length b (ofCols ens b cols) := by
  have hh : ∀ c ∈ cols, c.hist.length = b.numBin := fun c hc => (h c hc).2.1
  have hl : ∀ c ∈ cols, c.lhist.length = b.numLbin := fun c hc => (h c hc).2.2.1
  have hc : ∀ c ∈ cols, c.count.length = b.numBin := fun c hc => (h c hc).2.2.2.1
  have hlc : ∀ c ∈ cols, c.lcount.length = b.numLbin := fun c hc => (h c hc).2.2.2.2
  unfold VecShape ofCols
  simp only [List.length_map, List.mem_map, forall_exists_index, and_imp, forall_apply_eq_imp_iff₂, true_and]
  exact ⟨hh, hl, hc, hlc⟩

theorem addLoop_shape (b : Bins F) (ts : List F) (s : Acc F) :
    (addLoop b ts s).1.means.length = s.means.length ∧ (addLoop b ts s).1.stddevs.length = s.stddevs.length ∧
    (addLoop b ts s).1.count.map List.length = s.count.map List.length ∧
    (addLoop b ts s).1.lcount.map List.length = s.lcount.map List.length := by
  induction ts generalizing s with
  | nil => exact ⟨rfl, rfl, rfl, rfl⟩
  | cons t ts ih =>
    obtain ⟨means, stddevs, count, lcount⟩ := s
    match means, stddevs, count, lcount with
    | m :: ms, d :: ds, c :: cs, l :: ls =>
      have h1 := length_bumpAt c (b.binPos t)
      have h2 := length_bumpAt l (b.lbinPos t)
      obtain ⟨i1, i2, i3, i4⟩ := ih ⟨ms, ds, cs, ls⟩
      simp only [addLoop]
      split
      · rename_i c' hc
        rw [hc] at h1
        split
        · rename_i l' hl
          rw [hl] at h2
          simp only at h1 h2 i1 i2 i3 i4 ⊢
          simp only [List.length_cons, List.map_cons, i1, i2, i3, i4, h1, h2, and_self]
        · rename_i l' r _ hl
          rw [hl] at h2
          simp only at h1 h2 ⊢
          simp only [List.length_cons, List.map_cons, h1, h2, and_self]
      · rename_i c' r _ hc
        rw [hc] at h1
        simp only at h1 ⊢
        simp only [List.length_cons, List.map_cons, h1, and_self]
    | [], _, _, _ => exact ⟨rfl, rfl, rfl, rfl⟩
    | _ :: _, [], _, _ => exact ⟨rfl, rfl, rfl, rfl⟩
    | _ :: _, _ :: _, [], _ => exact ⟨rfl, rfl, rfl, rfl⟩
    | _ :: _, _ :: _, _ :: _, [] => exact ⟨rfl, rfl, rfl, rfl⟩

omit [Fl F] in
theorem shape_of_map {n k : Nat} {x y : List (List Nat)} (h : x.map List.length = y.map List.length)
    (hy : y.length = n ∧ ∀ c ∈ y, c.length = k) : x.length = n ∧ ∀ c ∈ x, c.length = k := by
  constructor
  · have := congrArg List.length h
    simpa [hy.1] using this
  · intro c hc
    have : c.length ∈ y.map List.length := by rw [← h]; exact List.mem_map_of_mem hc
    obtain ⟨d, hd, he⟩ := List.mem_map.1 this
    rw [← he]; exact hy.2 d hd

theorem vecShape_reach (n : Nat) (hn : 0 < n) (b : Bins F) (a : TimeVecAnalysis F) (h : Reach n b a) :
    VecShape n b a := by
  induction h with
  | prepared =>
    rw [prepared_eq_ofCols]
    have := cols_vecShape 0 b (List.replicate n (TimeAnalysis.prepared b))
      (fun c hc => by rw [List.eq_of_mem_replicate hc]; exact timeShape_prepared b)
    simpa using this
  | @add a ts _ ih =>
    obtain ⟨h1, h2, h3, h4, h5, h6, h7, h8⟩ := ih
    have hz : ¬ a.numVar = 0 := by omega
    unfold addEnsemble
    simp only [if_neg hz]
    split
    · exact ⟨h1, h2, h3, h4, h5, h6, h7, h8⟩
    · obtain ⟨s1, s2, s3, s4⟩ := addLoop_shape a.bins ts ⟨a.means, a.stddevs, a.count, a.lcount⟩
      exact ⟨h1, h2, by simp only [s1, h3], by simp only [s2, h4], h5, h6, shape_of_map s3 h7, shape_of_map s4 h8⟩
  | @draw a _ ih =>
    obtain ⟨cols, e, hl, hf, hs⟩ := vecShape_cols n b a ih
    have hsh : ∀ c ∈ cols, c.hist.length = c.count.length ∧ c.lhist.length = c.lcount.length := by
      intro c hc
      obtain ⟨-, s2, s3, s4, s5⟩ := hs c hc
      exact ⟨by omega, by omega⟩
    rw [e, (draw_cols _ b cols hf hsh).1]
    have := cols_vecShape a.ensemble b (cols.map (·.draw.1)) (by
      intro d hd
      obtain ⟨c, hc, rfl⟩ := List.mem_map.1 hd
      exact timeShape_draw b c (hs c hc))
    simpa [hl] using this
  | @clear a _ ih =>
    obtain ⟨h1, h2, h3, h4, h5, h6, h7, h8⟩ := ih
    unfold TimeVecAnalysis.clear
    refine ⟨h1, h2, by simp [h1], by simp [h1], h5, h6, ⟨by simp [h1], ?_⟩, ⟨by simp [h1], ?_⟩⟩
    · intro c hc; rw [List.eq_of_mem_replicate hc, h2, List.length_replicate]
    · intro c hc; rw [List.eq_of_mem_replicate hc, h2, List.length_replicate]

/-- `clear` makes an analysis of `n > 0` values reusable (any arithmetic): whatever was done with a prepared
analysis, after `clear` feeding any ensembles of `n` values and drawing succeeds exactly when it does with a newly
prepared one, and then every field is the same. -/
theorem C49_clear_vector (n : Nat) (hn : 0 < n) (b : Bins F) (a : TimeVecAnalysis F) (hr : Reach n b a)
    (ensembles : List (List F)) (hlen : ∀ e ∈ ensembles, e.length = n) :
    (a.clear.report ensembles).2 = ((prepared n b).report ensembles).2 ∧
    (((prepared n b).report ensembles).2 = .ok () →
      a.clear.report ensembles = (prepared n b).report ensembles) := by
  have hshape := vecShape_reach n hn b _ (.clear hr)
  obtain ⟨cols, e, hl, hf, hs⟩ := vecShape_cols n b _ hshape
  -- each column of the cleared analysis is blank up to the densities
  have hcol : ∀ (k : Nat) (c : TimeAnalysis F), cols[k]? = some c → k < n ∧
      c = { TimeAnalysis.prepared b with hist := c.hist, lhist := c.lhist } := by
    intro k c hc
    have hk : k < n := by rw [← hl]; exact (List.getElem?_eq_some_iff.1 hc).1
    refine ⟨hk, ?_⟩
    have hb : a.bins = b := (vecShape_reach n hn b a hr).2.1
    have hnv : a.numVar = n := (vecShape_reach n hn b a hr).1
    obtain ⟨f1, f2⟩ := hf c (List.mem_of_getElem? hc)
    have e1 : a.clear.means[k]? = some c.mean := by
      rw [e]; simp [ofCols, hc]
    have e2 : a.clear.stddevs[k]? = some c.stddev := by
      rw [e]; simp [ofCols, hc]
    have e3 : a.clear.count[k]? = some c.count := by
      rw [e]; simp [ofCols, hc]
    have e4 : a.clear.lcount[k]? = some c.lcount := by
      rw [e]; simp [ofCols, hc]
    simp only [TimeVecAnalysis.clear, List.getElem?_replicate, hnv, hk, if_true, Option.some.injEq, hb] at e1 e2 e3 e4
    obtain ⟨cm, cs, ce, cb, ch, clh, cc, clc⟩ := c
    simp only at e1 e2 e3 e4 f1 f2
    subst e1 e2 e3 e4 f1 f2
    rfl
  have hne : cols ≠ [] := by
    intro h; rw [h] at hl; simp at hl; omega
  obtain ⟨r1, r2⟩ := report_cols ensembles b cols _ hf hs hne (by rw [hl]; exact hlen)
  obtain ⟨v1, v2⟩ := report_prepared_cols n hn b ensembles hlen
  have hens : a.clear.ensemble = 0 := rfl
  rw [hens] at e r1 r2
  rw [e]
  -- feeding a blank column does not depend on the densities
  have hfeed : ∀ (k : Nat) (c : TimeAnalysis F), cols[k]? = some c →
      (c.feed (valuesOf k ensembles)).2 = ((TimeAnalysis.prepared b).feed (valuesOf k ensembles)).2 := by
    intro k c hc
    rw [(hcol k c hc).2, feed_same]
  by_cases hok : ∀ k < n, ((TimeAnalysis.prepared b).feed (valuesOf k ensembles)).2 = .ok ()
  · obtain ⟨cols'', hl'', hf'', ha', hac⟩ := v1 hok
    obtain ⟨cols', hl', hf', hr', hc'⟩ := r1 (fun k c hc => by rw [hfeed k c hc]; exact hok k (hcol k c hc).1)
    rw [ha', hr']
    simp only [Nat.zero_add] at *
    suffices hcc : cols' = cols'' by rw [hcc]; exact ⟨by trivial, fun _ => by trivial⟩
    apply List.ext_getElem?
    intro k
    by_cases hk : k < n
    swap
    · rw [List.getElem?_eq_none (by omega), List.getElem?_eq_none (by omega)]
    rw [hac k hk]
    have hck : cols[k]? = some (cols[k]'(by omega)) := List.getElem?_eq_getElem (by omega)
    rw [hc' k _ hck]
    obtain ⟨-, hblank⟩ := hcol k _ hck
    obtain ⟨-, s2, s3, -, -⟩ := hs _ (List.getElem_mem (by omega : k < cols.length))
    rw [hblank]
    have hrep : ((TimeAnalysis.prepared b).report (valuesOf k ensembles)).2 = .ok () := by
      have hk1 := hok k hk
      unfold TimeAnalysis.report
      have hsf := timeShape_feed b _ (valuesOf k ensembles) (timeShape_prepared b)
      match hfd : (TimeAnalysis.prepared b).feed (valuesOf k ensembles) with
      | (c', .ok ()) =>
        rw [hfd] at hsf
        obtain ⟨-, t2, t3, t4, t5⟩ := hsf
        simp only at t2 t3 t4 t5 ⊢
        rw [TimeAnalysis.draw_eq c' (by omega) (by omega)]
      | (c', .err e) => rw [hfd] at hk1; simp at hk1
      | (c', .panic) => rw [hfd] at hk1; simp at hk1
    rw [(report_same b _ _ s2 s3 (valuesOf k ensembles)).2 hrep]
  · push Not at hok
    have hp := v2 hok
    obtain ⟨k, hk, hbad⟩ := hok
    have hck : cols[k]? = some (cols[k]'(by omega)) := List.getElem?_eq_getElem (by omega)
    rw [hp, r2 ⟨k, _, hck, by rw [hfeed k _ hck]; exact hbad⟩]
    exact ⟨rfl, by simp⟩

example (b : Bins ℝ) : Reach 2 b ((prepared 2 b).addEnsemble [1, 2, 3]).1.draw.1 := .draw (.add _ .prepared)

end Props
end Moledyn
