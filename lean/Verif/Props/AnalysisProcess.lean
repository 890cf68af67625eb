import Verif.Props.AnalysisStats
import Verif.Model.Fl
/-
Property theorem C50 and the rest of C49 (src/analysis.rs, ProcessAnalysis).
-/
namespace Moledyn

namespace Props
open Moledyn
set_option linter.unusedSimpArgs false

/-- entries after seeing (bin, value) pairs, each updated in order. -/
def gather {T V : Type} (f : T → V → T) (v : List T) (xs : List (Option Nat × V)) : List T :=
  v.mapIdx fun i x => (xs.filterMap fun p => if p.1 = some i then some p.2 else none).foldl f x

@[simp] theorem length_gather {T V : Type} (f : T → V → T) (v : List T) (xs : List (Option Nat × V)) :
    (gather f v xs).length = v.length := by simp [gather]

theorem gather_nil {T V : Type} (f : T → V → T) (v : List T) : gather f v [] = v := by
  apply List.ext_getElem?
  intro i
  simp only [gather, List.getElem?_mapIdx, List.filterMap_nil, List.foldl_nil]
  cases v[i]? <;> rfl

theorem gather_append {T V : Type} (f : T → V → T) (v : List T) (xs ys : List (Option Nat × V)) :
    gather f (gather f v xs) ys = gather f v (xs ++ ys) := by
  apply List.ext_getElem?
  intro i
  simp only [gather, List.getElem?_mapIdx, List.filterMap_append, List.foldl_append]
  cases v[i]? <;> rfl

theorem bump_gather {T V : Type} (f : T → V → T) (v : List T) (x : V) (j : Nat) (hj : j < v.length) :
    Hist.bump (fun t => f t x) v j = (gather f v [(some j, x)], .ok ()) := by
  simp only [Hist.bump, List.getElem?_eq_getElem hj, Prod.mk.injEq, and_true]
  apply List.ext_getElem?
  intro i
  simp only [gather, List.getElem?_mapIdx, List.getElem?_set]
  by_cases hij : j = i
  · subst hij; simp [hj]
  · simp only [hij, if_false]
    have : ¬ (some j = some i) := by simpa using hij
    simp only [List.filterMap_cons, this, if_false, List.filterMap_nil, List.foldl_nil]
    cases v[i]? <;> rfl

theorem gather_none {T V : Type} (f : T → V → T) (v : List T) (x : V) : gather f v [(none, x)] = v := by
  apply List.ext_getElem?
  intro i
  simp only [gather, List.getElem?_mapIdx]
  cases v[i]? <;> simp

variable {F : Type} [Fl F]

theorem bump3_gather (c : List Nat) (m s : List F) (value : F) (o : Option Nat)
    (h : ∀ i, o = some i → i < c.length ∧ i < m.length ∧ i < s.length) :
    ProcessAnalysis.bump3 c m s value o =
      ((gather (fun n _ => n + 1) c [(o, value)], gather (fun a v => a + v) m [(o, value)],
        gather (fun a v => a + v * v) s [(o, value)]), .ok ()) := by
  cases o with
  | none => simp only [ProcessAnalysis.bump3, gather_none]
  | some i =>
    obtain ⟨h1, h2, h3⟩ := h i rfl
    simp only [ProcessAnalysis.bump3]
    have e1 := bump_gather (fun (n : Nat) (_ : F) => n + 1) c value i h1
    have e2 := bump_gather (fun (a : F) v => a + v) m value i h2
    have e3 := bump_gather (fun (a : F) v => a + v * v) s value i h3
    rw [e1]
    simp only
    rw [e2]
    simp only
    rw [e3]

/-- the state after feeding pairs whose bins exist. -/
theorem process_feed_eq (a : ProcessAnalysis F) (pairs : List (F × F))
    (hc : ∀ p ∈ pairs, ∀ i, a.bins.binPos p.1 = some i → i < a.count.length ∧ i < a.mean.length ∧ i < a.stddev.length)
    (hl : ∀ p ∈ pairs, ∀ i, a.bins.lbinPos p.1 = some i →
      i < a.lcount.length ∧ i < a.logMean.length ∧ i < a.logStddev.length) :
    a.feed pairs = ({ a with
      totPoint := a.totPoint + pairs.length
      longTermMean := (pairs.map (·.2)).foldl (fun s v => s + v) a.longTermMean
      longTermStddev := (pairs.map (·.2)).foldl (fun s v => s + v * v) a.longTermStddev
      count := gather (fun n _ => n + 1) a.count (pairs.map fun p => (a.bins.binPos p.1, p.2))
      mean := gather (fun s v => s + v) a.mean (pairs.map fun p => (a.bins.binPos p.1, p.2))
      stddev := gather (fun s v => s + v * v) a.stddev (pairs.map fun p => (a.bins.binPos p.1, p.2))
      lcount := gather (fun n _ => n + 1) a.lcount (pairs.map fun p => (a.bins.lbinPos p.1, p.2))
      logMean := gather (fun s v => s + v) a.logMean (pairs.map fun p => (a.bins.lbinPos p.1, p.2))
      logStddev := gather (fun s v => s + v * v) a.logStddev
        (pairs.map fun p => (a.bins.lbinPos p.1, p.2)) }, .ok ()) := by
  induction pairs generalizing a with
  | nil => simp [ProcessAnalysis.feed, gather_nil]
  | cons p ps ih =>
    have h1 := bump3_gather a.count a.mean a.stddev p.2 (a.bins.binPos p.1) (hc p (by simp))
    have h2 := bump3_gather a.lcount a.logMean a.logStddev p.2 (a.bins.lbinPos p.1) (hl p (by simp))
    have hadd : a.addPair p.1 p.2 = ({ a with
        totPoint := a.totPoint + 1
        longTermMean := a.longTermMean + p.2
        longTermStddev := a.longTermStddev + p.2 * p.2
        count := gather (fun n _ => n + 1) a.count [(a.bins.binPos p.1, p.2)]
        mean := gather (fun s v => s + v) a.mean [(a.bins.binPos p.1, p.2)]
        stddev := gather (fun s v => s + v * v) a.stddev [(a.bins.binPos p.1, p.2)]
        lcount := gather (fun n _ => n + 1) a.lcount [(a.bins.lbinPos p.1, p.2)]
        logMean := gather (fun s v => s + v) a.logMean [(a.bins.lbinPos p.1, p.2)]
        logStddev := gather (fun s v => s + v * v) a.logStddev [(a.bins.lbinPos p.1, p.2)] }, .ok ()) := by
      unfold ProcessAnalysis.addPair
      simp only [h1, h2]
    rw [ProcessAnalysis.feed, hadd]
    simp only
    rw [ih]
    · simp only [gather_append, List.map_cons, List.foldl_cons, List.length_cons, List.singleton_append,
        Prod.mk.injEq, and_true, ProcessAnalysis.mk.injEq, true_and]
      omega
    · intro q hq i hi
      simp only [length_gather]
      exact hc q (List.mem_cons_of_mem _ hq) i hi
    · intro q hq i hi
      simp only [length_gather]
      exact hl q (List.mem_cons_of_mem _ hq) i hi

/-- what `average` does to arrays of equal length. -/
theorem average_eq (c : List Nat) (m s : List F) (hm : m.length = c.length) (hs : s.length = c.length) :
    ∃ m' s', ProcessAnalysis.average c m s = ((m', s'), .ok ()) ∧ m'.length = c.length ∧ s'.length = c.length ∧
      ∀ (i n : Nat) (x y : F), c[i]? = some n → m[i]? = some x → s[i]? = some y →
        m'[i]? = some (x / Fl.ofNat n) ∧
        s'[i]? = some (Fl.sqrt (y / Fl.ofNat n - Fl.powi (x / Fl.ofNat n) 2)) := by
  induction c generalizing m s with
  | nil => exact ⟨m, s, rfl, hm, hs, by simp⟩
  | cons n c ih =>
    cases m with
    | nil => simp at hm
    | cons x m =>
      cases s with
      | nil => simp at hs
      | cons y s =>
        obtain ⟨m', s', h, h1, h2, h3⟩ := ih m s (by simpa using hm) (by simpa using hs)
        refine ⟨x / Fl.ofNat n :: m', Fl.sqrt (y / Fl.ofNat n - Fl.powi (x / Fl.ofNat n) 2) :: s',
          by simp only [ProcessAnalysis.average, h], by simp [h1], by simp [h2], ?_⟩
        intro i n' x' y' hn hx hy
        cases i with
        | zero =>
          simp only [List.getElem?_cons_zero, Option.some.injEq] at hn hx hy ⊢
          subst hn hx hy
          exact ⟨rfl, rfl⟩
        | succ i => simpa using h3 i n' x' y' (by simpa using hn) (by simpa using hx) (by simpa using hy)

theorem filterMap_valuesAt (pos : ℝ → Option Nat) (i : Nat) (P : ℝ → Prop) (h : ∀ t, pos t = some i ↔ P t)
    (pairs : List (ℝ × ℝ)) :
    ((pairs.map fun p => (pos p.1, p.2)).filterMap fun p => if p.1 = some i then some p.2 else none) =
      valuesAt P pairs := by
  induction pairs with
  | nil => rfl
  | cons p ps ih =>
    simp only [List.map_cons, List.filterMap_cons, ih]
    unfold valuesAt
    by_cases hp : P p.1
    · rw [if_pos ((h p.1).2 hp)]
      simp [hp]
    · rw [if_neg (fun hh => hp ((h p.1).1 hh))]
      simp [hp]

theorem foldl_count (l : List ℝ) (n : Nat) : l.foldl (fun n _ => n + 1) n = n + l.length := by
  induction l generalizing n with
  | nil => rfl
  | cons x l ih => rw [List.foldl_cons, ih, List.length_cons]; omega

theorem gather_get {T V : Type} (f : T → V → T) (n : Nat) (z : T) (xs : List (Option Nat × V)) (i : Nat) (hi : i < n) :
    (gather f (List.replicate n z) xs)[i]? =
      some ((xs.filterMap fun p => if p.1 = some i then some p.2 else none).foldl f z) := by
  simp [gather, List.getElem?_mapIdx, List.getElem?_replicate, hi]

/-- what is reported, with the mean of an empty list read as 0 / 0. -/
theorem process_report (old B : Bins ℝ) (mn mx b l : ℝ)
    (hset : Bins.updateFromBinSize old mn mx b l = (B, .ok ())) (hb : 0 < b) (hl : 1 < l)
    (pairs : List (ℝ × ℝ)) :
    ∃ a, (ProcessAnalysis.prepared B).report pairs = (a, .ok ()) ∧ a.totPoint = pairs.length ∧ a.ensemble = 0 ∧
      (a.bins = B ∧ (a.count.length = B.numBin ∧ a.mean.length = B.numBin ∧ a.stddev.length = B.numBin) ∧
        (a.lcount.length = B.numLbin ∧ a.logMean.length = B.numLbin ∧ a.logStddev.length = B.numLbin)) ∧
      (∀ i < B.numBin, ∀ vs, vs = valuesAt (fun t => B.InWindow t ∧ B.InBin i t) pairs →
        a.count[i]? = some vs.length ∧ a.mean[i]? = some (sampleMean vs) ∧
        (vs ≠ [] → a.stddev[i]? = some (Real.sqrt (sampleVariance vs)))) ∧
      (∀ i < B.numLbin, ∀ vs, vs = valuesAt (fun t => B.InWindow t ∧ B.InLogBin i t) pairs →
        a.lcount[i]? = some vs.length ∧ a.logMean[i]? = some (sampleMean vs) ∧
        (vs ≠ [] → a.logStddev[i]? = some (Real.sqrt (sampleVariance vs)))) ∧
      (pairs ≠ [] → a.longTermMean = sampleMean (pairs.map (·.2)) ∧
        a.longTermStddev = Real.sqrt (sampleVariance (pairs.map (·.2)))) := by
  obtain ⟨hm, -, -, hbs, hls, -⟩ := bins_setup hset
  unfold ProcessAnalysis.report
  rw [process_feed_eq]
  rotate_left
  · intro p _ i hi
    simp only [ProcessAnalysis.prepared, ProcessAnalysis.allocateVectors, List.length_replicate, and_self]
    exact (bins_lt hset hb hl p.1 i).1 hi
  · intro p _ i hi
    simp only [ProcessAnalysis.prepared, ProcessAnalysis.allocateVectors, List.length_replicate, and_self]
    exact (bins_lt hset hb hl p.1 i).2 hi
  simp only [ProcessAnalysis.prepared, ProcessAnalysis.allocateVectors, ProcessAnalysis.new, Nat.zero_add]
  unfold ProcessAnalysis.draw
  simp only
  obtain ⟨m1, s1, e1, lm1, ls1, g1⟩ := average_eq
    (gather (fun n _ => n + 1) (List.replicate B.numBin 0) (pairs.map fun p => (B.binPos p.1, p.2)))
    (gather (fun s v => s + v) (List.replicate B.numBin (Fl.zero : ℝ)) (pairs.map fun p => (B.binPos p.1, p.2)))
    (gather (fun s v => s + v * v) (List.replicate B.numBin (Fl.zero : ℝ)) (pairs.map fun p => (B.binPos p.1, p.2)))
    (by simp) (by simp)
  obtain ⟨m2, s2, e2, lm2, ls2, g2⟩ := average_eq
    (gather (fun n _ => n + 1) (List.replicate B.numLbin 0) (pairs.map fun p => (B.lbinPos p.1, p.2)))
    (gather (fun s v => s + v) (List.replicate B.numLbin (Fl.zero : ℝ)) (pairs.map fun p => (B.lbinPos p.1, p.2)))
    (gather (fun s v => s + v * v) (List.replicate B.numLbin (Fl.zero : ℝ)) (pairs.map fun p => (B.lbinPos p.1, p.2)))
    (by simp) (by simp)
  rw [e1]
  simp only
  rw [e2]
  simp only [length_gather, List.length_replicate] at lm1 ls1 lm2 ls2
  refine ⟨_, rfl, rfl, rfl, ⟨rfl, ⟨by simp, lm1, ls1⟩, by simp, lm2, ls2⟩, ?_, ?_, ?_⟩
  · rintro i hi vs rfl
    have hf := filterMap_valuesAt B.binPos i (fun t => B.InWindow t ∧ B.InBin i t)
      (fun t => binPos_iff B (by rw [hbs]; exact hb) t i) pairs
    have c1 := gather_get (fun n (_ : ℝ) => n + 1) B.numBin 0 (pairs.map fun p => (B.binPos p.1, p.2)) i hi
    have c2 := gather_get (fun s v => s + v) B.numBin (Fl.zero : ℝ) (pairs.map fun p => (B.binPos p.1, p.2)) i hi
    have c3 := gather_get (fun s v => s + v * v) B.numBin (Fl.zero : ℝ) (pairs.map fun p => (B.binPos p.1, p.2)) i hi
    rw [hf, foldl_count, Nat.zero_add] at c1
    rw [hf, foldl_add_real] at c2
    rw [hf, foldl_addsq_real] at c3
    obtain ⟨d1, d2⟩ := g1 i _ _ _ c1 c2 c3
    simp only [fl_lit, Rat.cast_zero, zero_add, fl_ofNat, fl_sqrt, fl_powi] at d1 d2
    exact ⟨c1, d1, fun hne => by rw [d2, variance_eq _ hne]⟩
  · rintro i hi vs rfl
    have hf := filterMap_valuesAt B.lbinPos i (fun t => B.InWindow t ∧ B.InLogBin i t)
      (fun t => lbinPos_iff B hm (by rw [hls]; exact hl) t i) pairs
    have c1 := gather_get (fun n (_ : ℝ) => n + 1) B.numLbin 0 (pairs.map fun p => (B.lbinPos p.1, p.2)) i hi
    have c2 := gather_get (fun s v => s + v) B.numLbin (Fl.zero : ℝ) (pairs.map fun p => (B.lbinPos p.1, p.2)) i hi
    have c3 := gather_get (fun s v => s + v * v) B.numLbin (Fl.zero : ℝ) (pairs.map fun p => (B.lbinPos p.1, p.2)) i hi
    rw [hf, foldl_count, Nat.zero_add] at c1
    rw [hf, foldl_add_real] at c2
    rw [hf, foldl_addsq_real] at c3
    obtain ⟨d1, d2⟩ := g2 i _ _ _ c1 c2 c3
    simp only [fl_lit, Rat.cast_zero, zero_add, fl_ofNat, fl_sqrt, fl_powi] at d1 d2
    exact ⟨c1, d1, fun hne => by rw [d2, variance_eq _ hne]⟩
  · intro hne
    have hne' : pairs.map (·.2) ≠ [] := by simpa using hne
    have hlen : ((pairs.map (·.2)).length : ℝ) = pairs.length := by simp
    simp only [fl_lit, Rat.cast_zero, fl_ofNat, fl_sqrt, fl_powi]
    rw [foldl_add_real, foldl_addsq_real, zero_add, zero_add, ← hlen, variance_eq _ hne']
    exact ⟨rfl, rfl⟩

/-- Exact arithmetic: after feeding any pairs (time, value) to a prepared `ProcessAnalysis` and drawing, entry `i`
holds the number of pairs in the window whose time is in bin `i` and, if there is one, the mean and the
standard deviation of their values; likewise for the logarithmic bins.  The long-term figures are the mean and
standard deviation of all values, also outside the window. -/
theorem C50_process (old B : Bins ℝ) (mn mx b l : ℝ)
    (hset : Bins.updateFromBinSize old mn mx b l = (B, .ok ())) (hb : 0 < b) (hl : 1 < l)
    (pairs : List (ℝ × ℝ)) :
    ∃ a, (ProcessAnalysis.prepared B).report pairs = (a, .ok ()) ∧ a.totPoint = pairs.length ∧
      (a.bins = B ∧ (a.count.length = B.numBin ∧ a.mean.length = B.numBin ∧ a.stddev.length = B.numBin) ∧
        (a.lcount.length = B.numLbin ∧ a.logMean.length = B.numLbin ∧ a.logStddev.length = B.numLbin)) ∧
      (∀ i < B.numBin, ∀ vs, vs = valuesAt (fun t => B.InWindow t ∧ B.InBin i t) pairs →
        a.count[i]? = some vs.length ∧
        (vs ≠ [] → a.mean[i]? = some (sampleMean vs) ∧ a.stddev[i]? = some (Real.sqrt (sampleVariance vs)))) ∧
      (∀ i < B.numLbin, ∀ vs, vs = valuesAt (fun t => B.InWindow t ∧ B.InLogBin i t) pairs →
        a.lcount[i]? = some vs.length ∧
        (vs ≠ [] → a.logMean[i]? = some (sampleMean vs) ∧ a.logStddev[i]? = some (Real.sqrt (sampleVariance vs)))) ∧
      (pairs ≠ [] → a.longTermMean = sampleMean (pairs.map (·.2)) ∧
        a.longTermStddev = Real.sqrt (sampleVariance (pairs.map (·.2)))) := by
  obtain ⟨a, h1, h2, -, h3, h4, h5, h6⟩ := process_report old B mn mx b l hset hb hl pairs
  refine ⟨a, h1, h2, h3, fun i hi vs hvs => ?_, fun i hi vs hvs => ?_, h6⟩
  · obtain ⟨k1, k2, k3⟩ := h4 i hi vs hvs
    exact ⟨k1, fun hne => ⟨k2, k3 hne⟩⟩
  · obtain ⟨k1, k2, k3⟩ := h5 i hi vs hvs
    exact ⟨k1, fun hne => ⟨k2, k3 hne⟩⟩

example : ∃ B, Bins.updateFromBinSize (Bins.new : Bins ℝ) 1 10 1 2 = (B, .ok ()) ∧
    valuesAt (fun t => B.InWindow t ∧ B.InBin 2 t) [(3, 5), (7 / 2, 6), (11, 7), (4, 8)] = [5, 6] := by
  obtain ⟨B, h, h1, h2, h3, -⟩ := exampleBins
  refine ⟨B, h, ?_⟩
  simp only [valuesAt, Bins.InWindow, Bins.InBin, h1, h2, h3, List.filter_cons]
  norm_num

/-- Finding: in f64 terms a bin no pair fell into is 0/0, so its mean and spread are NaN after `draw`. -/
theorem C50_empty_bin_nan (B : Bins XF) (i : Nat) (hi : i < B.numBin) :
    ∃ a, (ProcessAnalysis.prepared B).report [] = (a, .ok ()) ∧ a.count[i]? = some 0 ∧
      a.mean[i]? = some XF.nan ∧ a.stddev[i]? = some XF.nan := by
  unfold ProcessAnalysis.report
  simp only [ProcessAnalysis.feed, ProcessAnalysis.prepared, ProcessAnalysis.allocateVectors, ProcessAnalysis.new]
  unfold ProcessAnalysis.draw
  simp only
  obtain ⟨m1, s1, e1, -, -, g1⟩ := average_eq (List.replicate B.numBin 0) (List.replicate B.numBin (Fl.zero : XF))
    (List.replicate B.numBin (Fl.zero : XF)) (by simp) (by simp)
  obtain ⟨m2, s2, e2, -, -, -⟩ := average_eq (List.replicate B.numLbin 0) (List.replicate B.numLbin (Fl.zero : XF))
    (List.replicate B.numLbin (Fl.zero : XF)) (by simp) (by simp)
  rw [e1]
  simp only
  rw [e2]
  obtain ⟨d1, d2⟩ := g1 i 0 Fl.zero Fl.zero (by simp [List.getElem?_replicate, hi])
    (by simp [List.getElem?_replicate, hi]) (by simp [List.getElem?_replicate, hi])
  have hnan : (Fl.zero : XF) / Fl.ofNat 0 = XF.nan := by
    rfl
  refine ⟨_, rfl, by simp [List.getElem?_replicate, hi], by rw [d1, hnan], by rw [d2, hnan]; rfl⟩

/-! ## C49 is false for `ProcessAnalysis` -/

/-- Finding: `clear` does not reset the number of points, so after `clear` the long-term mean is too small: the
full claim "after `clear` it reports what a new one reports" fails.  Exact arithmetic: feeding `s`, clearing,
feeding `s'` and drawing divides the sum of `s'` by the number of values in `s` and `s'` together. -/
theorem C49_process_clear (old B : Bins ℝ) (mn mx b l : ℝ)
    (hset : Bins.updateFromBinSize old mn mx b l = (B, .ok ())) (hb : 0 < b) (hl : 1 < l)
    (s s' : List (ℝ × ℝ)) :
    ∃ a, ((ProcessAnalysis.prepared B).feed s).1.clear.report s' = (a, .ok ()) ∧
      a.longTermMean = (s'.map (·.2)).sum / (s.length + s'.length) := by
  have hclear : ((ProcessAnalysis.prepared B).feed s).1.clear =
      { ProcessAnalysis.prepared B with totPoint := s.length } := by
    rw [process_feed_eq]
    · simp [ProcessAnalysis.clear, ProcessAnalysis.prepared, ProcessAnalysis.allocateVectors, ProcessAnalysis.new]
    · intro p _ i hi
      simp only [ProcessAnalysis.prepared, ProcessAnalysis.allocateVectors, List.length_replicate, and_self]
      exact (bins_lt hset hb hl p.1 i).1 hi
    · intro p _ i hi
      simp only [ProcessAnalysis.prepared, ProcessAnalysis.allocateVectors, List.length_replicate, and_self]
      exact (bins_lt hset hb hl p.1 i).2 hi
  rw [hclear]
  unfold ProcessAnalysis.report
  rw [process_feed_eq]
  rotate_left
  · intro p _ i hi
    simp only [ProcessAnalysis.prepared, ProcessAnalysis.allocateVectors, List.length_replicate, and_self]
    exact (bins_lt hset hb hl p.1 i).1 hi
  · intro p _ i hi
    simp only [ProcessAnalysis.prepared, ProcessAnalysis.allocateVectors, List.length_replicate, and_self]
    exact (bins_lt hset hb hl p.1 i).2 hi
  unfold ProcessAnalysis.draw
  simp only [ProcessAnalysis.prepared, ProcessAnalysis.allocateVectors, ProcessAnalysis.new, Nat.zero_add]
  obtain ⟨m1, s1, e1, -, -, g1⟩ := average_eq
    (gather (fun n _ => n + 1) (List.replicate B.numBin 0) (s'.map fun p => (B.binPos p.1, p.2)))
    (gather (fun s v => s + v) (List.replicate B.numBin (Fl.zero : ℝ)) (s'.map fun p => (B.binPos p.1, p.2)))
    (gather (fun s v => s + v * v) (List.replicate B.numBin (Fl.zero : ℝ)) (s'.map fun p => (B.binPos p.1, p.2)))
    (by simp) (by simp)
  obtain ⟨m2, s2, e2, -, -, g2⟩ := average_eq
    (gather (fun n _ => n + 1) (List.replicate B.numLbin 0) (s'.map fun p => (B.lbinPos p.1, p.2)))
    (gather (fun s v => s + v) (List.replicate B.numLbin (Fl.zero : ℝ)) (s'.map fun p => (B.lbinPos p.1, p.2)))
    (gather (fun s v => s + v * v) (List.replicate B.numLbin (Fl.zero : ℝ)) (s'.map fun p => (B.lbinPos p.1, p.2)))
    (by simp) (by simp)
  rw [e1]
  simp only
  rw [e2]
  refine ⟨_, rfl, ?_⟩
  simp only [fl_lit, Rat.cast_zero, fl_ofNat]
  rw [foldl_add_real, zero_add]
  push_cast
  rfl

/-- the refutation itself: some history after which `clear` is not as good as new. -/
theorem C49_process_claim_false :
    ¬ (∀ (old B : Bins ℝ) (mn mx b l : ℝ), Bins.updateFromBinSize old mn mx b l = (B, .ok ()) → 0 < b → 1 < l →
      ∀ s s' : List (ℝ × ℝ), ((ProcessAnalysis.prepared B).feed s).1.clear.report s' =
        (ProcessAnalysis.prepared B).report s') := by
  intro h
  obtain ⟨B, hB, -⟩ := exampleBins
  have h1 := h _ B 1 10 1 2 hB (by norm_num) (by norm_num) [(1, 1)] [(1, 1)]
  obtain ⟨a, e, ea⟩ := C49_process_clear _ B 1 10 1 2 hB (by norm_num) (by norm_num) [(1, 1)] [(1, 1)]
  obtain ⟨a', e', -, -, -, -, ea'⟩ := C50_process _ B 1 10 1 2 hB (by norm_num) (by norm_num) [(1, 1)]
  rw [h1, e'] at e
  simp only [Prod.mk.injEq, and_true] at e
  subst e
  have := (ea' (by simp)).1
  rw [this] at ea
  simp [sampleMean] at ea

end Props
end Moledyn
