import Verif.Spec.Analysis
import Mathlib.Algebra.BigOperators.Group.List.Basic
import Mathlib.Algebra.Order.Floor.Ring
import Mathlib.Algebra.Order.Floor.Semiring
/-
Lemmas for the analyses.
-/
namespace Moledyn
variable {F : Type} [Fl F]

namespace Hist

/-- counts after seeing the given bin indices. -/
def tally (v : List Nat) (idxs : List (Option Nat)) : List Nat := v.mapIdx fun i c => c + idxs.count (some i)

@[simp] theorem length_tally (v : List Nat) (idxs : List (Option Nat)) : (tally v idxs).length = v.length := by
  simp [tally]

theorem tally_nil (v : List Nat) : tally v [] = v := by
  apply List.ext_getElem?
  intro i
  simp only [tally, List.getElem?_mapIdx, List.count_nil, Nat.add_zero]
  cases v[i]? <;> rfl

theorem tally_append (v : List Nat) (xs ys : List (Option Nat)) :
    tally (tally v xs) ys = tally v (xs ++ ys) := by
  apply List.ext_getElem?
  intro i
  simp only [tally, List.getElem?_mapIdx, List.count_append]
  cases v[i]? <;> simp [Nat.add_assoc]

theorem bumpAt_tally (v : List Nat) (o : Option Nat) (h : ∀ i, o = some i → i < v.length) :
    bumpAt v o = (tally v [o], .ok ()) := by
  cases o with
  | none =>
    simp only [bumpAt, Prod.mk.injEq, and_true]
    apply List.ext_getElem?
    intro i
    simp only [tally, List.getElem?_mapIdx]
    cases v[i]? <;> simp
  | some j =>
    have hj := h j rfl
    simp only [bumpAt, bump, List.getElem?_eq_getElem hj, Prod.mk.injEq, and_true]
    apply List.ext_getElem?
    intro i
    simp only [tally, List.getElem?_mapIdx, List.getElem?_set]
    by_cases hij : j = i
    · subst hij; simp [hj]
    · simp only [hij, if_false]
      cases v[i]? <;> simp [hij]

/-- the number of entries that fall in some bin is the total of the counts. -/
theorem sum_tally (n : Nat) (idxs : List (Option Nat)) (h : ∀ i, some i ∈ idxs → i < n) :
    (tally (List.replicate n 0) idxs).sum = idxs.countP Option.isSome := by
  induction idxs with
  | nil => rw [tally_nil]; simp
  | cons o idxs ih =>
    rw [← List.singleton_append, ← tally_append]
    have key : ∀ (v : List Nat), (∀ i, o = some i → i < v.length) →
        ∀ xs, (tally (tally v [o]) xs).sum = (tally v xs).sum + (if o.isSome then 1 else 0) := by
      intro v hv xs
      rw [tally_append, List.singleton_append]
      have e : tally v (o :: xs) = tally (tally v xs) [o] := by
        rw [tally_append]
        apply List.ext_getElem?
        intro i
        simp only [tally, List.getElem?_mapIdx, List.count_append, List.count_cons, List.count_nil]
        cases v[i]? <;> simp [Nat.add_comm]
      rw [e]
      cases o with
      | none =>
        have := bumpAt_tally (tally v xs) none (by simp)
        simp only [bumpAt, Prod.mk.injEq, and_true] at this
        rw [← this]; simp
      | some j =>
        have hj : j < (tally v xs).length := by rw [length_tally]; exact hv j rfl
        have := bumpAt_tally (tally v xs) (some j) (by intro i hi; injection hi with hi; subst hi; exact hj)
        simp only [bumpAt, bump, List.getElem?_eq_getElem hj, Prod.mk.injEq, and_true] at this
        rw [← this]
        simp only [Option.isSome_some, if_true]
        generalize tally v xs = w at hj ⊢
        clear this e hv ih h
        induction w generalizing j with
        | nil => simp at hj
        | cons x w ihw =>
          cases j with
          | zero => simp; omega
          | succ j =>
            simp only [List.length_cons, Nat.add_lt_add_iff_right] at hj
            have := ihw j hj
            simp only [List.getElem_cons_succ, List.set_cons_succ, List.sum_cons, this]
            omega
    rw [key _ (by intro i hi; simp only [List.length_replicate]; exact h i (by simp [hi])),
      ih (fun i hi => h i (List.mem_cons_of_mem _ hi)), List.singleton_append, List.countP_cons]

theorem tally_perm (v : List Nat) {xs ys : List (Option Nat)} (h : xs.Perm ys) : tally v xs = tally v ys := by
  apply List.ext_getElem?
  intro i
  simp only [tally, List.getElem?_mapIdx, h.count_eq]

omit [Fl F] in
theorem overwrite_eq (new old : List F) (h : new.length = old.length) : overwrite new old = (new, .ok ()) := by
  simp [overwrite, h]

@[simp] theorem length_density (d : F) (c : List Nat) : (density d c).length = c.length := by simp [density]
@[simp] theorem length_logDensity (l d : F) (c : List Nat) : (logDensity l d c).length = c.length := by
  induction c generalizing d with
  | nil => rfl
  | cons x c ih => simp [logDensity, ih]

end Hist

namespace TimeAnalysis

/-- the state after feeding samples whose bins exist. -/
theorem feed_eq (a : TimeAnalysis F) (samples : List F)
    (hc : ∀ t ∈ samples, ∀ i, a.bins.binPos t = some i → i < a.count.length)
    (hl : ∀ t ∈ samples, ∀ i, a.bins.lbinPos t = some i → i < a.lcount.length) :
    a.feed samples = ({ a with
      ensemble := a.ensemble + samples.length
      mean := samples.foldl (· + ·) a.mean
      stddev := samples.foldl (fun s t => s + t * t) a.stddev
      count := Hist.tally a.count (samples.map a.bins.binPos)
      lcount := Hist.tally a.lcount (samples.map a.bins.lbinPos) }, .ok ()) := by
  induction samples generalizing a with
  | nil => simp [feed, Hist.tally_nil]
  | cons t ts ih =>
    have h1 := Hist.bumpAt_tally a.count (a.bins.binPos t) (hc t (by simp))
    have h2 := Hist.bumpAt_tally a.lcount (a.bins.lbinPos t) (hl t (by simp))
    have hadd : a.addEnsemble t = ({ a with
        ensemble := a.ensemble + 1
        mean := a.mean + t
        stddev := a.stddev + t * t
        count := Hist.tally a.count [a.bins.binPos t]
        lcount := Hist.tally a.lcount [a.bins.lbinPos t] }, .ok ()) := by
      unfold addEnsemble
      simp only [h1, h2]
    rw [feed, hadd]
    simp only
    rw [ih]
    · simp only [Prod.mk.injEq, and_true, TimeAnalysis.mk.injEq, List.foldl_cons, List.length_cons, true_and,
        Hist.tally_append, List.singleton_append, List.map_cons]
      omega
    · intro u hu i hi
      simp only [Hist.length_tally]
      exact hc u (List.mem_cons_of_mem _ hu) i hi
    · intro u hu i hi
      simp only [Hist.length_tally]
      exact hl u (List.mem_cons_of_mem _ hu) i hi

theorem draw_eq (a : TimeAnalysis F) (h : a.hist.length = a.count.length) (hl : a.lhist.length = a.lcount.length) :
    a.draw = ({ a with
      mean := a.mean / Fl.ofNat a.ensemble
      stddev := Fl.sqrt (a.stddev / Fl.ofNat a.ensemble - Fl.powi (a.mean / Fl.ofNat a.ensemble) 2)
      hist := Hist.density (Fl.ofNat a.ensemble * a.bins.binSize) a.count
      lhist := Hist.logDensity a.bins.lbinSize (a.bins.minTime * Fl.ofNat a.ensemble * (a.bins.lbinSize - Fl.one))
        a.lcount }, .ok ()) := by
  unfold draw
  simp only
  rw [Hist.overwrite_eq _ _ (by simp [h])]
  simp only
  rw [Hist.overwrite_eq _ _ (by simp [hl])]

end TimeAnalysis

/-! ### exact arithmetic -/

theorem foldl_add_real (l : List ℝ) (x : ℝ) : l.foldl (fun a b => a + b) x = x + l.sum := by
  induction l generalizing x with
  | nil => simp
  | cons y l ih => rw [List.foldl_cons, ih, List.sum_cons]; ring

theorem foldl_addsq_real (l : List ℝ) (x : ℝ) :
    l.foldl (fun a b => a + b * b) x = x + (l.map fun t => t * t).sum := by
  induction l generalizing x with
  | nil => simp
  | cons y l ih => rw [List.foldl_cons, ih, List.map_cons, List.sum_cons]; ring

theorem sum_sq_dev (l : List ℝ) (m : ℝ) :
    (l.map fun x => (x - m) ^ 2).sum = (l.map fun x => x * x).sum - 2 * m * l.sum + l.length * m ^ 2 := by
  induction l with
  | nil => simp
  | cons y l ih => simp only [List.map_cons, List.sum_cons, ih, List.length_cons]; push_cast; ring

theorem variance_eq (l : List ℝ) (h : l ≠ []) :
    (l.map fun x => x * x).sum / l.length - (l.sum / l.length) ^ 2 = sampleVariance l := by
  have hn : (l.length : ℝ) ≠ 0 := by
    simp [List.length_eq_zero_iff, h]
  unfold sampleVariance
  rw [sum_sq_dev]
  unfold sampleMean
  field_simp
  ring

theorem sampleVariance_nonneg (l : List ℝ) : 0 ≤ sampleVariance l := by
  unfold sampleVariance
  apply div_nonneg _ (Nat.cast_nonneg _)
  apply List.sum_nonneg
  intro x hx
  obtain ⟨y, -, rfl⟩ := List.mem_map.1 hx
  positivity

theorem sum_density (d : ℝ) (c : List Nat) (w : ℝ) :
    ((Hist.density d c).map (· * w)).sum = (c.sum : ℕ) / d * w := by
  induction c with
  | nil => simp [Hist.density]
  | cons x c ih =>
    have e : Hist.density d (x :: c) = (Fl.ofNat x / d) :: Hist.density d c := rfl
    rw [e, List.map_cons, List.sum_cons, ih, List.sum_cons]
    simp only [fl_ofNat]
    push_cast
    ring

/-! ### the bin of a sample -/

theorem toNat_floor (x : ℝ) : Fl.toNat (Fl.floor x) = ⌊x⌋₊ := by
  simp only [fl_floor, fl_toNat]
  rcases le_or_gt 0 x with h | h
  · rw [← natCast_floor_eq_intCast_floor h]; exact Nat.floor_natCast _
  · have h1 : (⌊x⌋ : ℝ) ≤ 0 := by exact_mod_cast Int.floor_nonpos h.le
    rw [Nat.floor_of_nonpos h1, Nat.floor_of_nonpos h.le]

theorem toNat_ceil (x : ℝ) : Fl.toNat (Fl.ceil x) = ⌈x⌉₊ := by
  simp only [fl_ceil, fl_toNat]
  rcases le_or_gt 0 x with h | h
  · rw [← natCast_ceil_eq_intCast_ceil h]; exact Nat.floor_natCast _
  · have h1 : (⌈x⌉ : ℝ) ≤ 0 := by exact_mod_cast Int.ceil_le.2 (by simpa using h.le)
    rw [Nat.floor_of_nonpos h1, Nat.ceil_eq_zero.2 h.le]

theorem floor_eq_iff_real {x : ℝ} (hx : 0 ≤ x) (i : Nat) : ⌊x⌋₊ = i ↔ (i : ℝ) ≤ x ∧ x < i + 1 :=
  Nat.floor_eq_iff hx

theorem binPos_iff (b : Bins ℝ) (hb : 0 < b.binSize) (t : ℝ) (i : Nat) :
    b.binPos t = some i ↔ b.InWindow t ∧ b.InBin i t := by
  unfold Bins.binPos Bins.InWindow Bins.InBin
  simp only [fl_lt, Bool.or_eq_true, decide_eq_true_eq]
  by_cases hw : t < b.minTime ∨ b.maxTime < t
  · rw [if_pos hw]
    simp only [reduceCtorEq, false_iff]
    rintro ⟨⟨h1, h2⟩, -⟩
    rcases hw with h | h <;> linarith
  · rw [if_neg hw]
    push Not at hw
    rw [toNat_floor, Option.some.injEq]
    simp only [fl_sub]
    have hx : 0 ≤ (t - b.minTime) / b.binSize := div_nonneg (by linarith [hw.1]) hb.le
    rw [floor_eq_iff_real hx, le_div_iff₀ hb, div_lt_iff₀ hb]
    constructor
    · rintro ⟨h1, h2⟩; exact ⟨hw, by linarith, by linarith⟩
    · rintro ⟨-, h1, h2⟩; exact ⟨by linarith, by linarith⟩

theorem logratio {l x : ℝ} (hl : 1 < l) : Real.logb 2 x / Real.logb 2 l = Real.logb l x := by
  have h2 : Real.log 2 ≠ 0 := (Real.log_pos (by norm_num)).ne'
  have h3 : Real.log l ≠ 0 := (Real.log_pos hl).ne'
  unfold Real.logb
  field_simp

theorem le_logb_nat {l x : ℝ} (hl : 1 < l) (hx : 0 < x) (i : Nat) : (i : ℝ) ≤ Real.logb l x ↔ l ^ i ≤ x := by
  rw [Real.le_logb_iff_rpow_le hl hx, Real.rpow_natCast]

theorem lbinPos_iff (b : Bins ℝ) (hm : 0 < b.minTime) (hl : 1 < b.lbinSize) (t : ℝ) (i : Nat) :
    b.lbinPos t = some i ↔ b.InWindow t ∧ b.InLogBin i t := by
  unfold Bins.lbinPos Bins.InWindow Bins.InLogBin
  simp only [fl_lt, Bool.or_eq_true, decide_eq_true_eq]
  by_cases hw : t < b.minTime ∨ b.maxTime < t
  · rw [if_pos hw]
    simp only [reduceCtorEq, false_iff]
    rintro ⟨⟨h1, h2⟩, -⟩
    rcases hw with h | h <;> linarith
  · rw [if_neg hw]
    push Not at hw
    rw [toNat_floor, Option.some.injEq]
    simp only [fl_log2, logratio hl]
    have hx1 : 1 ≤ t / b.minTime := by rw [le_div_iff₀ hm]; linarith [hw.1]
    have hx : 0 ≤ Real.logb b.lbinSize (t / b.minTime) := Real.logb_nonneg hl hx1
    have hx0 : 0 < t / b.minTime := by linarith
    rw [floor_eq_iff_real hx, ← not_le (b := Real.logb _ _)]
    have h2 : (i : ℝ) + 1 = ((i + 1 : ℕ) : ℝ) := by push_cast; ring
    rw [h2, le_logb_nat hl hx0, le_logb_nat hl hx0, not_le, le_div_iff₀ hm, div_lt_iff₀ hm]
    constructor
    · rintro ⟨h1, h2⟩; exact ⟨hw, by linarith, by linarith⟩
    · rintro ⟨-, h1, h2⟩; exact ⟨by linarith, by linarith⟩

end Moledyn
