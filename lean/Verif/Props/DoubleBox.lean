import Verif.Props.DoubleClock
import Verif.Props.Generator
import Verif.Props.System
import Verif.Lemmas.Sterbenz
import Verif.Spec.Trajectory
/-
C87: boxes in double precision.  Only the sum is rounded; the image in the walls is exact.
-/
namespace Moledyn.Props
open Moledyn

private theorem two_val : (Fl.two : Double).val = 2 := by
  show Rounding.double.rnd ((2 : ℚ) : ℝ) = 2
  have := double_pow2 (e := 1) (by norm_num)
  simpa using this

private theorem zero_val : (Fl.zero : Double).val = 0 := by
  show Rounding.double.rnd ((0 : ℚ) : ℝ) = 0
  simpa using Rounding.double.zero

private theorem two_mul_val {L : Double} (hL : L.Rep) : (Fl.two * L).val = 2 * L.val := by
  rw [RF.val_mul, two_val]; exact rep_double hL

private theorem neg_two_mul_val {L : Double} (hL : L.Rep) : ((-Fl.two) * L).val = -(2 * L.val) := by
  rw [RF.val_mul, RF.val_neg, two_val, neg_mul, Rounding.double.odd]
  rw [show Rounding.double.rnd (2 * L.val) = 2 * L.val from rep_double hL]

/-- `2L - x` for `L < x`: exact up to `4L`, and far outside beyond. -/
private theorem gap_exact {L x : ℝ} (hL : Rounding.double.rnd L = L) (hx : Rounding.double.rnd x = x) (h0 : 0 < L) (h : L < x) :
    (x ≤ 4 * L → Rounding.double.rnd (x - 2 * L) = x - 2 * L) ∧ (4 * L < x → 2 * L ≤ Rounding.double.rnd (x - 2 * L)) := by
  have h2 : Rounding.double.rnd (2 * L) = 2 * L := rep_double hL
  refine ⟨fun hle => sterbenz hx h2 (by linarith) (by linarith) (by linarith), fun hlt => ?_⟩
  rw [← h2]
  exact Rounding.double.mono _ _ (by rw [h2]; linarith)

private theorem rnd_swap (a b : ℝ) : Rounding.double.rnd (a - b) = -Rounding.double.rnd (b - a) := by
  rw [← Rounding.double.odd]; congr 1; ring

/-- one coordinate in double precision. -/
private theorem reflect_double {L x : Double} (hL : L.Rep) (hx : x.Rep) (h0 : 0 < L.val) :
    (|x.val| ≤ 4 * L.val → MirrorImage L.val x.val (Fold.reflect L x).val) ∧
    (4 * L.val < |x.val| → L.val < |(Fold.reflect L x).val|) ∧ (Fold.reflect L x).Rep := by
  have hrep : (Fold.reflect L x).Rep := by
    unfold Fold.reflect
    split
    · exact hx
    · split <;> exact Rounding.double.idem _
  unfold Fold.reflect at hrep ⊢
  simp only [RF.le_val, RF.lt_val, RF.val_abs, decide_eq_true_eq, zero_val] at hrep ⊢
  rcases le_or_gt |x.val| L.val with h | h
  · rw [if_pos h] at hrep ⊢
    exact ⟨fun _ => ⟨fun _ => rfl, fun hh => by linarith [le_abs_self x.val], fun hh => by linarith [neg_abs_le x.val]⟩, fun hh => by linarith, hrep⟩
  · rw [if_neg (not_le.2 h)] at hrep ⊢
    rcases lt_or_ge x.val 0 with hn | hn
    · rw [if_pos hn] at hrep ⊢
      rw [abs_of_neg hn] at h ⊢
      have hnx : Rounding.double.rnd (-x.val) = -x.val := by rw [Rounding.double.odd, hx]
      obtain ⟨g1, g2⟩ := gap_exact hL hnx h0 h
      have e : ((-Fl.two) * L - x).val = Rounding.double.rnd (-x.val - 2 * L.val) := by
        rw [RF.val_sub, neg_two_mul_val hL]; congr 1; ring
      rw [e]
      refine ⟨fun hh => ?_, fun hh => ?_, hrep⟩
      · rw [g1 hh]
        exact ⟨fun hc => absurd (by rw [abs_of_neg hn]; exact h : L.val < |x.val|) (not_lt.2 hc), fun hc => by linarith, fun _ => by ring⟩
      · exact lt_of_lt_of_le (by linarith [g2 hh]) (le_abs_self _)
    · rw [if_neg (not_lt.2 hn)] at hrep ⊢
      rw [abs_of_nonneg hn] at h ⊢
      obtain ⟨g1, g2⟩ := gap_exact hL hx h0 h
      have e : (Fl.two * L - x).val = -Rounding.double.rnd (x.val - 2 * L.val) := by
        rw [RF.val_sub, two_mul_val hL, rnd_swap]
      rw [e]
      refine ⟨fun hh => ?_, fun hh => ?_, hrep⟩
      · rw [g1 hh]
        exact ⟨fun hc => absurd (by rw [abs_of_nonneg hn]; exact h : L.val < |x.val|) (not_lt.2 hc), fun _ => by ring, fun hc => by linarith⟩
      · rw [abs_neg]
        exact lt_of_lt_of_le (by linarith [g2 hh]) (le_abs_self _)

private theorem wrap_double {L x : Double} (hL : L.Rep) (hx : x.Rep) (h0 : 0 < L.val) :
    (|x.val| ≤ 4 * L.val → PeriodicImage L.val x.val (Fold.wrap L x).val) ∧
    (4 * L.val < |x.val| → L.val < |(Fold.wrap L x).val|) ∧ (Fold.wrap L x).Rep := by
  have hrep : (Fold.wrap L x).Rep := by
    unfold Fold.wrap
    split
    · exact hx
    · split <;> exact Rounding.double.idem _
  unfold Fold.wrap at hrep ⊢
  simp only [RF.le_val, RF.lt_val, RF.val_abs, decide_eq_true_eq, zero_val] at hrep ⊢
  rcases le_or_gt |x.val| L.val with h | h
  · rw [if_pos h] at hrep ⊢
    exact ⟨fun _ => ⟨fun _ => rfl, fun hh => by linarith [le_abs_self x.val], fun hh => by linarith [neg_abs_le x.val]⟩, fun hh => by linarith, hrep⟩
  · rw [if_neg (not_le.2 h)] at hrep ⊢
    rcases lt_or_ge x.val 0 with hn | hn
    · rw [if_pos hn] at hrep ⊢
      rw [abs_of_neg hn] at h ⊢
      have hnx : Rounding.double.rnd (-x.val) = -x.val := by rw [Rounding.double.odd, hx]
      obtain ⟨g1, g2⟩ := gap_exact hL hnx h0 h
      have e : (Fl.two * L + x).val = -Rounding.double.rnd (-x.val - 2 * L.val) := by
        rw [RF.val_add, two_mul_val hL, ← Rounding.double.odd]; congr 1; ring
      rw [e]
      refine ⟨fun hh => ?_, fun hh => ?_, hrep⟩
      · rw [g1 hh]
        exact ⟨fun hc => absurd (by rw [abs_of_neg hn]; exact h : L.val < |x.val|) (not_lt.2 hc), fun hc => by linarith, fun _ => by ring⟩
      · rw [abs_neg]
        exact lt_of_lt_of_le (by linarith [g2 hh]) (le_abs_self _)
    · rw [if_neg (not_lt.2 hn)] at hrep ⊢
      rw [abs_of_nonneg hn] at h ⊢
      obtain ⟨g1, g2⟩ := gap_exact hL hx h0 h
      have e : ((-Fl.two) * L + x).val = Rounding.double.rnd (x.val - 2 * L.val) := by
        rw [RF.val_add, neg_two_mul_val hL]; congr 1; ring
      rw [e]
      refine ⟨fun hh => ?_, fun hh => ?_, hrep⟩
      · rw [g1 hh]
        exact ⟨fun hc => absurd (by rw [abs_of_nonneg hn]; exact h : L.val < |x.val|) (not_lt.2 hc), fun _ => rfl, fun hc => by linarith⟩
      · exact lt_of_lt_of_le (by linarith [g2 hh]) (le_abs_self _)


private theorem new_cubic_double {bc : BoundaryCond} {L : Double} {n : Nat} {s : Cubic Double} (h : Cubic.new bc L n = .ok s) :
    0 < L.val ∧ s = ⟨.continuousRectangular, bc, L, n⟩ ∧ ∀ d, bc = .mixed d → d ≤ n := by
  unfold Cubic.new at h
  split at h
  · simp at h
  · rename_i hc
    simp only [RF.le_val, zero_val, Bool.or_eq_true, decide_eq_true_eq, not_or, not_le, beq_iff_eq] at hc
    cases bc with
    | mixed d =>
      simp only at h
      split at h
      · simp at h
      · rename_i hd
        simp at h
        exact ⟨hc.1, h.symm, fun d' e => by cases e; omega⟩
    | periodic => simp at h; exact ⟨hc.1, h.symm, fun _ e => by cases e⟩
    | reflection => simp at h; exact ⟨hc.1, h.symm, fun _ e => by cases e⟩

/-- what a coordinate `x` becomes on axis `i` -/
private noncomputable def foldAt (bc : BoundaryCond) (L : Double) (i : Nat) (x : Double) : Double :=
  open Classical in if bc.mirrored i then Fold.reflect L x else Fold.wrap L x

private theorem cubic_fold_double (bc : BoundaryCond) (L : Double) (n : Nat) (hd : ∀ d, bc = .mixed d → d ≤ n) (q : Pos Double)
    (hq : q.length = n) :
    ∃ q2, (⟨.continuousRectangular, bc, L, n⟩ : Cubic Double).fold q = .ok q2 ∧ q2.length = n ∧
      ∀ (i : Nat) x, q[i]? = some x → q2[i]? = some (foldAt bc L i x) := by
  cases bc with
  | reflection =>
    exact ⟨q.map (Fold.reflect L), rfl, by simpa using hq, fun i x hx => by
      rw [List.getElem?_map, hx]; simp [foldAt, BoundaryCond.mirrored]⟩
  | periodic =>
    exact ⟨q.map (Fold.wrap L), rfl, by simpa using hq, fun i x hx => by
      rw [List.getElem?_map, hx]; simp [foldAt, BoundaryCond.mirrored]⟩
  | mixed d =>
    have hdn := hd d rfl
    refine ⟨(q.take d).map (Fold.reflect L) ++ (q.drop d).map (Fold.wrap L), ?_, ?_, ?_⟩
    · unfold Cubic.fold; simp only; rw [if_neg (by omega)]
    · simp; omega
    · intro i x hx
      by_cases hi : i < d
      · rw [List.getElem?_append_left (by simp; omega)]
        simp [hi, hx, foldAt, BoundaryCond.mirrored]
      · rw [List.getElem?_append_right (by simp; omega)]
        simp only [List.length_map, List.length_take, List.getElem?_map, List.getElem?_drop]
        rw [show d + (i - min d q.length) = i by omega, hx]
        simp [foldAt, BoundaryCond.mirrored, hi]

private theorem foldAt_spec {bc : BoundaryCond} {L x : Double} (hL : L.Rep) (hx : x.Rep) (h0 : 0 < L.val) (i : Nat) :
    (|x.val| ≤ 4 * L.val → (bc.mirrored i → MirrorImage L.val x.val (foldAt bc L i x).val) ∧
      (¬ bc.mirrored i → PeriodicImage L.val x.val (foldAt bc L i x).val)) ∧
    (|(foldAt bc L i x).val| ≤ L.val ↔ |x.val| ≤ 3 * L.val) ∧ (foldAt bc L i x).Rep := by
  obtain ⟨a1, a2, a3⟩ := reflect_double hL hx h0
  obtain ⟨b1, b2, b3⟩ := wrap_double hL hx h0
  by_cases hm : bc.mirrored i
  · have e : foldAt bc L i x = Fold.reflect L x := by simp [foldAt, hm]
    rw [e]
    refine ⟨fun h => ⟨fun _ => a1 h, fun h' => absurd hm h'⟩, ?_, a3⟩
    rcases le_or_gt |x.val| (4 * L.val) with h | h
    · exact mirror_inside_iff h0 (a1 h)
    · exact iff_of_false (not_le.2 (a2 h)) (by linarith)
  · have e : foldAt bc L i x = Fold.wrap L x := by simp [foldAt, hm]
    rw [e]
    refine ⟨fun h => ⟨fun h' => absurd h' hm, fun _ => b1 h⟩, ?_, b3⟩
    rcases le_or_gt |x.val| (4 * L.val) with h | h
    · exact periodic_inside_iff h0 (b1 h)
    · exact iff_of_false (not_le.2 (b2 h)) (by linarith)

/-- Double precision.  In a box whose half side is a double, only the sum `pos + dp` is rounded: the image in the walls is that
of exact arithmetic, for every move up to `4L`.  A move is accepted exactly when the rounded sum is within `[-3L, 3L]` on every
axis, and all numbers left in `pos` are doubles. -/
theorem C87_cube (bc : BoundaryCond) (L : Double) (hL : L.Rep) (n : Nat) (s : Cubic Double) (hnew : Cubic.new bc L n = .ok s)
    (pos dp : Pos Double) (hpos : pos.length = n) (hdp : dp.length = n) :
    (s.checkBc pos dp).1.length = n ∧
    (∀ (i : Nat) (a b : Double), pos[i]? = some a → dp[i]? = some b → ∃ y, (s.checkBc pos dp).1[i]? = some y ∧ y.Rep ∧
      (|(a + b).val| ≤ 4 * L.val → (bc.mirrored i → MirrorImage L.val (a + b).val y.val) ∧
        (¬ bc.mirrored i → PeriodicImage L.val (a + b).val y.val))) ∧
    ((s.checkBc pos dp).2 = .ok () ↔
      ∀ (i : Nat) (a b : Double), pos[i]? = some a → dp[i]? = some b → |(a + b).val| ≤ 3 * L.val) ∧
    ((s.checkBc pos dp).2 = .ok () ∨ (s.checkBc pos dp).2 = .err .tooLargeTimeStep) := by
  obtain ⟨h0, rfl, hd⟩ := new_cubic_double hnew
  have hq : (List.zipWith (· + ·) pos dp).length = n := by simp [hpos, hdp]
  obtain ⟨q2, hf, hl2, hco⟩ := cubic_fold_double bc L n hd _ hq
  have hget : ∀ (i : Nat) (x : Double), (List.zipWith (· + ·) pos dp)[i]? = some x ↔
      ∃ a b, pos[i]? = some a ∧ dp[i]? = some b ∧ a + b = x := by
    intro i x; rw [List.getElem?_zipWith_eq_some]
  have hinc : ∀ p : Pos Double, p.length = n →
      (⟨.continuousRectangular, bc, L, n⟩ : Cubic Double).checkInclusion p = .ok (decide (∀ x ∈ p, |x.val| ≤ L.val)) := by
    intro p hp
    rcases Cubic.checkInclusion_cases (⟨.continuousRectangular, bc, L, n⟩ : Cubic Double) p with ⟨h, _⟩ | ⟨_, e⟩
    · exact absurd hp.symm h
    · rw [e]
      congr 1
      rw [Bool.eq_iff_iff]
      simp
  have hmem : (∀ y ∈ q2, |y.val| ≤ L.val) ↔
      ∀ (i : Nat) (a b : Double), pos[i]? = some a → dp[i]? = some b → |(a + b).val| ≤ 3 * L.val := by
    constructor
    · intro h i a b ha hb
      have hy := hco i (a + b) ((hget i _).2 ⟨a, b, ha, hb, rfl⟩)
      exact (foldAt_spec hL (RF.rep_add a b) h0 i).2.1.1 (h _ (List.mem_of_getElem? hy))
    · intro h y hy
      obtain ⟨i, hi⟩ := List.mem_iff_getElem?.1 hy
      have hlt : i < (List.zipWith (· + ·) pos dp).length := by
        rw [hq, ← hl2]; exact (List.getElem?_eq_some_iff.1 hi).1
      obtain ⟨a, b, ha, hb, hab⟩ := (hget i _).1 (List.getElem?_eq_getElem hlt)
      have hy' := hco i (a + b) ((hget i _).2 ⟨a, b, ha, hb, rfl⟩)
      rw [hi] at hy'
      simp only [Option.some.injEq] at hy'
      rw [hy']
      exact (foldAt_spec hL (RF.rep_add a b) h0 i).2.1.2 (h i a b ha hb)
  have hstep := bcStep_eq (incl := (⟨.continuousRectangular, bc, L, n⟩ : Cubic Double).checkInclusion)
    (fold := (⟨.continuousRectangular, bc, L, n⟩ : Cubic Double).fold) (pos := pos) (dp := dp)
    (by omega) ⟨_, hinc _ hq⟩ hf (hinc q2 hl2) (by
      rw [hinc _ hq]
      intro h
      simp only [Res.ok.injEq, decide_eq_true_eq] at h
      apply List.ext_getElem?
      intro i
      rcases hx : (List.zipWith (· + ·) pos dp)[i]? with _ | x
      · rw [List.getElem?_eq_none_iff] at hx ⊢; omega
      · rw [hco i x hx]
        have hin := h x (List.mem_of_getElem? hx)
        have e1 : Fold.reflect L x = x := by unfold Fold.reflect; exact if_pos (by simpa using hin)
        have e2 : Fold.wrap L x = x := by unfold Fold.wrap; exact if_pos (by simpa using hin)
        simp [foldAt, e1, e2])
  rw [Cubic.checkBc_eq, hstep]
  refine ⟨hl2, ?_, ?_, ?_⟩
  · intro i a b ha hb
    obtain ⟨f1, -, f3⟩ := foldAt_spec (bc := bc) hL (RF.rep_add a b) h0 i
    exact ⟨_, hco i (a + b) ((hget i _).2 ⟨a, b, ha, hb, rfl⟩), f3, f1⟩
  · rw [← hmem]
    by_cases h : ∀ y ∈ q2, |y.val| ≤ L.val
    · rw [if_pos (by simpa using h)]; simpa using h
    · rw [if_neg (by simpa using h)]; simpa using h
  · by_cases h : ∀ y ∈ q2, |y.val| ≤ L.val
    · left; exact if_pos (by simpa using h)
    · right; exact if_neg (by simpa using h)

private theorem mirror_lipschitz {L x x' y y' : ℝ} (h0 : 0 < L) (h : MirrorImage L x y) (h' : MirrorImage L x' y') :
    |y - y'| ≤ |x - x'| := by
  obtain ⟨a1, a2, a3⟩ := h
  obtain ⟨b1, b2, b3⟩ := h'
  have key : ∀ {x y : ℝ}, (|x| ≤ L → y = x) → (L < x → y - L = L - x) → (x < -L → y + L = -L - x) →
      (|x| ≤ L ∧ y = x) ∨ (L < x ∧ y - L = L - x) ∨ (x < -L ∧ y + L = -L - x) := by
    intro x y h1 h2 h3
    rcases le_or_gt |x| L with h | h
    · exact Or.inl ⟨h, h1 h⟩
    · rcases lt_abs.1 h with h | h
      · exact Or.inr (Or.inl ⟨h, h2 h⟩)
      · exact Or.inr (Or.inr ⟨by linarith, h3 (by linarith)⟩)
  have hx := neg_abs_le (x - x')
  have hx' := le_abs_self (x - x')
  rw [abs_le]
  rcases key a1 a2 a3 with ⟨ha, ea⟩ | ⟨ha, ea⟩ | ⟨ha, ea⟩ <;> rcases key b1 b2 b3 with ⟨hb, eb⟩ | ⟨hb, eb⟩ | ⟨hb, eb⟩ <;>
    (try rw [abs_le] at ha) <;> (try rw [abs_le] at hb) <;> constructor <;> linarith

private theorem sum_error {L a b : Double} (ha : a.Rep) (hb : b.Rep) (h0 : 0 < L.val) (h : |(a + b).val| ≤ 3 * L.val) :
    |(a + b).val - (a.val + b.val)| ≤ L.val / 2 ^ 51 := by
  have e := double_add_error ha hb
  rw [RF.val_add] at h ⊢
  have t : |a.val + b.val| ≤ |Rounding.double.rnd (a.val + b.val)| + |Rounding.double.rnd (a.val + b.val) - (a.val + b.val)| := by
    have := abs_sub_abs_le_abs_sub (a.val + b.val) (Rounding.double.rnd (a.val + b.val))
    rw [abs_sub_comm] at this
    linarith
  have : |a.val + b.val| ≤ 4 * L.val := by
    have := abs_nonneg (a.val + b.val)
    norm_num at e
    linarith
  refine e.trans ?_
  rw [div_le_div_iff₀ (by positivity) (by positivity)]
  norm_num
  linarith

/-- the distance between the two trajectories on axis `i`: plain on a mirrored axis, around the ring on a periodic one -/
private def AxisWithin (bc : BoundaryCond) (L : ℝ) (i : Nat) (a b e : ℝ) : Prop :=
  (bc.mirrored i → |a - b| ≤ e) ∧ (¬ bc.mirrored i → ∃ m : ℤ, |a - b - m * (2 * L)| ≤ e)

private theorem axis_step {bc : BoundaryCond} {L : Double} {i : Nat} {a b y : Double} {a' y' e : ℝ} (h0 : 0 < L.val)
    (ha : a.Rep) (hb : b.Rep) (hab : |(a + b).val| ≤ 3 * L.val)
    (hy : (bc.mirrored i → MirrorImage L.val (a + b).val y.val) ∧ (¬ bc.mirrored i → PeriodicImage L.val (a + b).val y.val))
    (hy' : (bc.mirrored i → MirrorImage L.val (a' + b.val) y') ∧ (¬ bc.mirrored i → PeriodicImage L.val (a' + b.val) y'))
    (h : AxisWithin bc L.val i a.val a' e) : AxisWithin bc L.val i y.val y' (e + L.val / 2 ^ 51) := by
  have hs := sum_error ha hb h0 hab
  constructor
  · intro hm
    refine (mirror_lipschitz h0 (hy.1 hm) (hy'.1 hm)).trans ?_
    have e1 : (a + b).val - (a' + b.val) = (a.val - a') + ((a + b).val - (a.val + b.val)) := by ring
    rw [e1]
    exact (abs_add_le _ _).trans (add_le_add (h.1 hm) hs)
  · intro hm
    obtain ⟨m, hm'⟩ := h.2 hm
    obtain ⟨k, hk⟩ := (C20_images L.val _ _).1 (hy.2 hm)
    obtain ⟨k', hk'⟩ := (C20_images L.val _ _).1 (hy'.2 hm)
    refine ⟨m + k - k', ?_⟩
    have e1 : y.val - y' - ((m + k - k' : ℤ) : ℝ) * (2 * L.val) =
        (a.val - a' - m * (2 * L.val)) + ((a + b).val - (a.val + b.val)) := by
      rw [hk, hk']; push_cast; ring
    rw [e1]
    exact (abs_add_le _ _).trans (add_le_add hm' hs)

private theorem trajectory_aux {bc : BoundaryCond} {L : Double} {n : Nat} {s : Cubic Double} {s' : Cubic ℝ} (hL : L.Rep)
    (hnew : Cubic.new bc L n = .ok s) (hnew' : Cubic.new bc L.val n = .ok s')
    {p q : Pos Double} {zs : List (Pos Double)} (hf : Follows s.checkBc p zs q) :
    ∀ (p' q' : Pos ℝ) (e : ℝ), Follows s'.checkBc p' (zs.map (·.map RF.val)) q' →
    p.length = n → p'.length = n → (∀ x ∈ p, x.Rep) → (∀ z ∈ zs, z.length = n ∧ ∀ x ∈ z, x.Rep) →
    (∀ (i : Nat) a a', p[i]? = some a → p'[i]? = some a' → AxisWithin bc L.val i a.val a' e) →
    q.length = n ∧ q'.length = n ∧ (∀ x ∈ q, x.Rep) ∧
      ∀ (i : Nat) a a', q[i]? = some a → q'[i]? = some a' → AxisWithin bc L.val i a.val a' (e + zs.length * (L.val / 2 ^ 51)) := by
  have h0 : 0 < L.val := (new_cubic_double hnew).1
  induction hf with
  | stay p =>
    intro p' q' e hf' hp hp' hr _ hax
    simp only [List.map_nil] at hf'
    cases hf'
    exact ⟨hp, hp', hr, by simpa using hax⟩
  | @step p z q zs r hz hf ih =>
    intro p' q' e hf' hp hp' hr hzs hax
    simp only [List.map_cons] at hf'
    cases hf' with
    | @step _ _ w _ _ hz' hf' =>
    obtain ⟨hzl, hzr⟩ := hzs z (by simp)
    obtain ⟨c1, c2, c3, -⟩ := C87_cube bc L hL n s hnew p z hp hzl
    obtain ⟨d1, d2, -, -⟩ := C20_cube_image bc L.val n s' hnew' p' (z.map RF.val) hp' (by simpa using hzl)
    rw [hz] at c1 c2 c3
    rw [hz'] at d1 d2
    simp only [true_iff] at c1 c2 c3 d1 d2
    have hqr : ∀ x ∈ q, x.Rep := by
      intro x hx
      obtain ⟨i, hi⟩ := List.mem_iff_getElem?.1 hx
      have hlt : i < n := by rw [← c1]; exact (List.getElem?_eq_some_iff.1 hi).1
      obtain ⟨y, hy, hrep, -⟩ := c2 i _ _ (List.getElem?_eq_getElem (by omega)) (List.getElem?_eq_getElem (by omega))
      rw [hi] at hy
      simp only [Option.some.injEq] at hy
      rw [hy]; exact hrep
    obtain ⟨i1, i2, i3, i4⟩ := ih w q' (e + L.val / 2 ^ 51) hf' c1 d1 hqr (fun z hz => hzs z (by simp [hz])) (by
      intro i y y' hy hy'
      have hlt : i < n := by rw [← c1]; exact (List.getElem?_eq_some_iff.1 hy).1
      have ga : p[i]? = some p[i] := List.getElem?_eq_getElem (by omega)
      have gb : z[i]? = some z[i] := List.getElem?_eq_getElem (by omega)
      have ga' : p'[i]? = some p'[i] := List.getElem?_eq_getElem (by omega)
      obtain ⟨u, hu, -, hu2⟩ := c2 i _ _ ga gb
      obtain ⟨u', hu', hu3⟩ := d2 i _ z[i].val ga' (by simp [gb])
      rw [hy] at hu; rw [hy'] at hu'
      simp only [Option.some.injEq] at hu hu'
      subst hu hu'
      have h3 := c3 i _ _ ga gb
      exact axis_step h0 (hr _ (List.mem_of_getElem? ga)) (hzr _ (List.mem_of_getElem? gb)) h3
        (hu2 (by linarith)) hu3 (hax i _ _ ga ga'))
    refine ⟨i1, i2, i3, fun i a a' h h' => ?_⟩
    have := i4 i a a' h h'
    rwa [show e + ((z :: zs).length : ℝ) * (L.val / 2 ^ 51) = e + L.val / 2 ^ 51 + zs.length * (L.val / 2 ^ 51) by
      simp; ring]

/-- A whole trajectory in double precision stays close to the exact one.  Both start from the same doubles and receive the same
displacements (doubles too).  As long as both accept every move, after `k` moves they differ by at most `k · L / 2⁵¹` on every
axis: plainly on a mirrored axis, up to full turns on a periodic one. -/
theorem C87_trajectory (bc : BoundaryCond) (L : Double) (hL : L.Rep) (n : Nat) (s : Cubic Double) (s' : Cubic ℝ)
    (hnew : Cubic.new bc L n = .ok s) (hnew' : Cubic.new bc L.val n = .ok s')
    (p q : Pos Double) (q' : Pos ℝ) (zs : List (Pos Double)) (hp : p.length = n) (hpr : ∀ x ∈ p, x.Rep)
    (hz : ∀ z ∈ zs, z.length = n ∧ ∀ x ∈ z, x.Rep)
    (hf : Follows s.checkBc p zs q) (hf' : Follows s'.checkBc (p.map RF.val) (zs.map (·.map RF.val)) q') :
    q.length = n ∧ q'.length = n ∧ (∀ x ∈ q, x.Rep) ∧
      ∀ (i : Nat) a a', q[i]? = some a → q'[i]? = some a' →
        (bc.mirrored i → |a.val - a'| ≤ zs.length * (L.val / 2 ^ 51)) ∧
        (¬ bc.mirrored i → ∃ m : ℤ, |a.val - a' - m * (2 * L.val)| ≤ zs.length * (L.val / 2 ^ 51)) := by
  obtain ⟨h1, h2, h3, h4⟩ := trajectory_aux hL hnew hnew' hf _ q' 0 hf' hp (by simpa using hp) hpr hz (by
    intro i a a' ha ha'
    simp only [List.getElem?_map, ha, Option.map_some, Option.some.injEq] at ha'
    subst ha'
    exact ⟨fun _ => by simp, fun _ => ⟨0, by simp⟩⟩)
  refine ⟨h1, h2, h3, fun i a a' h h' => ?_⟩
  have := h4 i a a' h h'
  rwa [zero_add] at this

private theorem short_double {bc : BoundaryCond} {L : Double} {n : Nat} {s : Cubic Double} (hL : L.Rep)
    (hnew : Cubic.new bc L n = .ok s) (zs : List (Pos Double)) :
    ∀ p : Pos Double, p.length = n → (∀ x ∈ p, |x.val| ≤ L.val) → (∀ z ∈ zs, z.length = n ∧ ∀ x ∈ z, |x.val| ≤ L.val) →
    ∃ q, Follows s.checkBc p zs q := by
  induction zs with
  | nil => exact fun p _ _ _ => ⟨p, .stay p⟩
  | cons z zs ih =>
    intro p hp hin hz
    obtain ⟨hzl, hzi⟩ := hz z (by simp)
    obtain ⟨c1, c2, c3, -⟩ := C87_cube bc L hL n s hnew p z hp hzl
    have hok : (s.checkBc p z).2 = .ok () := by
      refine c3.2 fun i a b ha hb => ?_
      have ha' := abs_le.1 (hin a (List.mem_of_getElem? ha))
      have hb' := abs_le.1 (hzi b (List.mem_of_getElem? hb))
      have h0 : 0 < L.val := (new_cubic_double hnew).1
      have r2 : Rounding.double.rnd (2 * L.val) = 2 * L.val := rep_double hL
      have u := Rounding.double.mono (a.val + b.val) (2 * L.val) (by linarith)
      have l := Rounding.double.mono (-(2 * L.val)) (a.val + b.val) (by linarith)
      rw [r2] at u
      rw [Rounding.double.odd, r2] at l
      rw [RF.val_add, abs_le]
      constructor <;> linarith
    have hinc := (C19_accepted_is_inside s ⟨.continuousCircular, .reflection, L, 1⟩
      ⟨.continuousCylindrical 1, .reflection, L, L, 1⟩ p z).1 hok
    obtain ⟨h0, rfl, -⟩ := new_cubic_double hnew
    have hin' : ∀ x ∈ ((⟨.continuousRectangular, bc, L, n⟩ : Cubic Double).checkBc p z).1, |x.val| ≤ L.val := by
      rcases Cubic.checkInclusion_cases (⟨.continuousRectangular, bc, L, n⟩ : Cubic Double)
        ((⟨.continuousRectangular, bc, L, n⟩ : Cubic Double).checkBc p z).1 with ⟨h, _⟩ | ⟨_, e⟩
      · exact absurd c1.symm h
      · rw [e] at hinc
        simpa using hinc
    obtain ⟨q, hq⟩ := ih _ c1 hin' (fun z hz' => hz z (by simp [hz']))
    exact ⟨q, .step (Prod.ext rfl hok) hq⟩

private theorem short_real {bc : BoundaryCond} {L : ℝ} {n : Nat} {s : Cubic ℝ}
    (hnew : Cubic.new bc L n = .ok s) (zs : List (Pos ℝ)) :
    ∀ p : Pos ℝ, p.length = n → (∀ x ∈ p, |x| ≤ L) → (∀ z ∈ zs, z.length = n ∧ ∀ x ∈ z, |x| ≤ L) →
    ∃ q, Follows s.checkBc p zs q := by
  induction zs with
  | nil => exact fun p _ _ _ => ⟨p, .stay p⟩
  | cons z zs ih =>
    intro p hp hin hz
    obtain ⟨hzl, hzi⟩ := hz z (by simp)
    obtain ⟨c1, c2, c3, -⟩ := C20_cube_image bc L n s hnew p z hp hzl
    have hok : (s.checkBc p z).2 = .ok () := by
      refine c3.2 fun i a b ha hb => ?_
      have ha' := abs_le.1 (hin a (List.mem_of_getElem? ha))
      have hb' := abs_le.1 (hzi b (List.mem_of_getElem? hb))
      rw [abs_le]
      constructor <;> linarith
    have hinc := (C19_accepted_is_inside s ⟨.continuousCircular, .reflection, L, 1⟩
      ⟨.continuousCylindrical 1, .reflection, L, L, 1⟩ p z).1 hok
    obtain ⟨h0, -, rfl, -⟩ := new_cubic hnew
    have hin' : ∀ x ∈ ((⟨.continuousRectangular, bc, L, n⟩ : Cubic ℝ).checkBc p z).1, |x| ≤ L :=
      ((C19_inclusion_meaning _ ⟨.continuousCircular, .reflection, L, 1⟩
        ⟨.continuousCylindrical 1, .reflection, L, L, 1⟩ 1 rfl le_rfl _).1.1 hinc).2
    obtain ⟨q, hq⟩ := ih _ c1 hin' (fun z hz' => hz z (by simp [hz']))
    exact ⟨q, .step (Prod.ext rfl hok) hq⟩

/-- Moves of at most the half side `L` along every axis, from a start inside: both trajectories exist, no move is ever refused,
and after `k` moves they differ by at most `k · L / 2⁵¹` (up to full turns on a periodic axis). -/
theorem C87_short_moves (bc : BoundaryCond) (L : Double) (hL : L.Rep) (n : Nat) (s : Cubic Double) (s' : Cubic ℝ)
    (hnew : Cubic.new bc L n = .ok s) (hnew' : Cubic.new bc L.val n = .ok s')
    (p : Pos Double) (zs : List (Pos Double)) (hp : p.length = n) (hpr : ∀ x ∈ p, x.Rep ∧ |x.val| ≤ L.val)
    (hz : ∀ z ∈ zs, z.length = n ∧ ∀ x ∈ z, x.Rep ∧ |x.val| ≤ L.val) :
    ∃ q q', Follows s.checkBc p zs q ∧ Follows s'.checkBc (p.map RF.val) (zs.map (·.map RF.val)) q' ∧
      ∀ (i : Nat), i < n → ∃ a a', q[i]? = some a ∧ q'[i]? = some a' ∧
        (bc.mirrored i → |a.val - a'| ≤ zs.length * (L.val / 2 ^ 51)) ∧
        (¬ bc.mirrored i → ∃ m : ℤ, |a.val - a' - m * (2 * L.val)| ≤ zs.length * (L.val / 2 ^ 51)) := by
  obtain ⟨q, hq⟩ := short_double hL hnew zs p hp (fun x hx => (hpr x hx).2) (fun z h => ⟨(hz z h).1, fun x hx => ((hz z h).2 x hx).2⟩)
  obtain ⟨q', hq'⟩ := short_real hnew' (zs.map (·.map RF.val)) (p.map RF.val) (by simpa using hp)
    (by simpa using fun x hx => (hpr x hx).2)
    (by simpa using fun z h => ⟨(hz z h).1, fun x hx => ((hz z h).2 x hx).2⟩)
  obtain ⟨l1, l2, -, h⟩ := C87_trajectory bc L hL n s s' hnew hnew' p q q' zs hp (fun x hx => (hpr x hx).1)
    (fun z h => ⟨(hz z h).1, fun x hx => ((hz z h).2 x hx).1⟩) hq hq'
  refine ⟨q, q', hq, hq', fun i hi => ?_⟩
  have e1 : q[i]? = some q[i] := List.getElem?_eq_getElem (by omega)
  have e2 : q'[i]? = some q'[i] := List.getElem?_eq_getElem (by omega)
  exact ⟨_, _, e1, e2, h i _ _ e1 e2⟩

/-- rounding of a number between 2 and 4 -/
theorem rnd_two_four {x : ℝ} (n : ℤ) (h2 : 2 ≤ x) (h4 : x < 4) (h : |(n : ℝ) - x * 2 ^ 51| ≤ 1 / 2)
    (he : |(n : ℝ) - x * 2 ^ 51| = 1 / 2 → Even n) : Rounding.double.rnd x = n / 2 ^ 51 := by
  have hl : Int.log 2 |x| = 1 := by
    rw [abs_of_pos (by linarith)]
    apply le_antisymm
    · have := (Int.lt_zpow_iff_log_lt (b := 2) (by norm_num) (x := (2 : ℤ)) (r := x) (by linarith)).1 (by norm_num; linarith)
      omega
    · exact (Int.zpow_le_iff_le_log (b := 2) (by norm_num) (r := x) (by linarith)).1 (by norm_num; linarith)
  have hb : lastBit 53 (-1074) x = -51 := by unfold lastBit; rw [hl]; norm_num
  show binaryRound 53 (-1074) x = _
  unfold binaryRound
  rw [hb]
  have e : x / (2 : ℝ) ^ (-51 : ℤ) = x * 2 ^ 51 := by
    rw [zpow_neg, div_inv_eq_mul]; norm_cast
  rw [e, roundEven_unique h he, zpow_neg, ← div_eq_mul_inv]
  norm_cast

private theorem ok_iff_one {L a b : Double} (hL : L.Rep) (h0 : 0 < L.val) :
    ∃ s : Cubic Double, Cubic.new .reflection L 1 = .ok s ∧ ((s.checkBc [a] [b]).2 = .ok () ↔ |(a + b).val| ≤ 3 * L.val) ∧
      ((s.checkBc [a] [b]).2 = .ok () ∨ (s.checkBc [a] [b]).2 = .err .tooLargeTimeStep) := by
  have hnew : Cubic.new .reflection L 1 = .ok (⟨.continuousRectangular, .reflection, L, 1⟩ : Cubic Double) := by
    unfold Cubic.new
    rw [if_neg (by simp [Rounding.double.zero, h0])]
  refine ⟨_, hnew, ?_, (C87_cube .reflection L hL 1 _ hnew [a] [b] rfl rfl).2.2.2⟩
  refine (C87_cube .reflection L hL 1 _ hnew [a] [b] rfl rfl).2.2.1.trans ⟨fun h => h 0 a b rfl rfl, fun h i a' b' ha hb => ?_⟩
  rw [List.getElem?_singleton] at ha hb
  split at ha
  · rename_i hi
    rw [if_pos hi] at hb
    simp only [Option.some.injEq] at ha hb
    rw [← ha, ← hb]; exact h
  · simp at ha

private theorem ok_iff_one_real {L a b : ℝ} (h0 : 0 < L) :
    ∃ s : Cubic ℝ, Cubic.new .reflection L 1 = .ok s ∧ ((s.checkBc [a] [b]).2 = .ok () ↔ |a + b| ≤ 3 * L) ∧
      ((s.checkBc [a] [b]).2 = .ok () ∨ (s.checkBc [a] [b]).2 = .err .tooLargeTimeStep) := by
  have hnew : Cubic.new .reflection L 1 = .ok (⟨.continuousRectangular, .reflection, L, 1⟩ : Cubic ℝ) := by
    unfold Cubic.new
    rw [if_neg (by simp [h0])]
  refine ⟨_, hnew, ?_, (C20_cube_image .reflection L 1 _ hnew [a] [b] rfl rfl).2.2.2⟩
  refine (C20_cube_image .reflection L 1 _ hnew [a] [b] rfl rfl).2.2.1.trans ⟨fun h => h 0 a b rfl rfl, fun h i a' b' ha hb => ?_⟩
  rw [List.getElem?_singleton] at ha hb
  split at ha
  · rename_i hi
    rw [if_pos hi] at hb
    simp only [Option.some.injEq] at ha hb
    rw [← ha, ← hb]; exact h
  · simp at ha

/-- At the very edge of what is allowed, double precision and exact arithmetic disagree, in both directions: a move of exactly
`2L` from the wall may be refused, and a move slightly beyond `3L` accepted. -/
theorem C87_edge :
    (∃ (L a b : Double) (s : Cubic Double) (s' : Cubic ℝ), L.Rep ∧ a.Rep ∧ b.Rep ∧
      Cubic.new .reflection L 1 = .ok s ∧ Cubic.new .reflection L.val 1 = .ok s' ∧
      (s'.checkBc [a.val] [b.val]).2 = .ok () ∧ (s.checkBc [a] [b]).2 = .err .tooLargeTimeStep) ∧
    (∃ (L a b : Double) (s : Cubic Double) (s' : Cubic ℝ), L.Rep ∧ a.Rep ∧ b.Rep ∧
      Cubic.new .reflection L 1 = .ok s ∧ Cubic.new .reflection L.val 1 = .ok s' ∧
      (s'.checkBc [a.val] [b.val]).2 = .err .tooLargeTimeStep ∧ (s.checkBc [a] [b]).2 = .ok ()) := by
  constructor
  · have r1 : Rounding.double.rnd (1 + 1 / 2 ^ 52 : ℝ) = 1 + 1 / 2 ^ 52 := by
      have := double_exact (2 ^ 52 + 1) (-52) (by norm_num) (by norm_num)
      have e : (((2 ^ 52 + 1 : ℕ) : ℝ) * 2 ^ (-52 : ℤ)) = 1 + 1 / 2 ^ 52 := by push_cast; norm_num
      rwa [e] at this
    have hL : (⟨1 + 1 / 2 ^ 52⟩ : Double).Rep := r1
    have hb : (⟨2 * (1 + 1 / 2 ^ 52)⟩ : Double).Rep := rep_double r1
    obtain ⟨s, n1, i1, o1⟩ := ok_iff_one (a := ⟨1 + 1 / 2 ^ 52⟩) (b := ⟨2 * (1 + 1 / 2 ^ 52)⟩) hL (by norm_num)
    obtain ⟨s', n2, i2, o2⟩ := ok_iff_one_real (L := 1 + 1 / 2 ^ 52) (a := 1 + 1 / 2 ^ 52) (b := 2 * (1 + 1 / 2 ^ 52)) (by norm_num)
    refine ⟨⟨1 + 1 / 2 ^ 52⟩, ⟨1 + 1 / 2 ^ 52⟩, ⟨2 * (1 + 1 / 2 ^ 52)⟩, s, s', hL, hL, hb, n1, n2,
      i2.2 (by rw [abs_of_pos (by norm_num)]; norm_num), o1.resolve_left fun h => ?_⟩
    have := i1.1 h
    rw [RF.val_add] at this
    rw [rnd_two_four (3 * 2 ^ 51 + 2) (by norm_num) (by norm_num) (by push_cast; rw [abs_of_pos] <;> norm_num)
      (fun _ => ⟨3 * 2 ^ 50 + 1, by norm_num⟩)] at this
    rw [abs_of_pos (by push_cast; norm_num)] at this
    push_cast at this
    norm_num at this
  · have ra : Rounding.double.rnd (1 - 3 / 2 ^ 53 : ℝ) = 1 - 3 / 2 ^ 53 := by
      have := double_exact (2 ^ 53 - 3) (-53) (by norm_num) (by norm_num)
      have e : (((2 ^ 53 - 3 : ℕ) : ℝ) * 2 ^ (-53 : ℤ)) = 1 - 3 / 2 ^ 53 := by norm_num
      rwa [e] at this
    have rb : Rounding.double.rnd (2 + 1 / 2 ^ 51 : ℝ) = 2 + 1 / 2 ^ 51 := by
      have := double_exact (2 ^ 52 + 1) (-51) (by norm_num) (by norm_num)
      have e : (((2 ^ 52 + 1 : ℕ) : ℝ) * 2 ^ (-51 : ℤ)) = 2 + 1 / 2 ^ 51 := by push_cast; norm_num
      rwa [e] at this
    have hL : (⟨1⟩ : Double).Rep := by
      have := double_pow2 (e := 0) (by norm_num)
      show Rounding.double.rnd 1 = 1
      simpa using this
    obtain ⟨s, n1, i1, o1⟩ := ok_iff_one (L := ⟨1⟩) (a := ⟨1 - 3 / 2 ^ 53⟩) (b := ⟨2 + 1 / 2 ^ 51⟩) hL (by norm_num)
    obtain ⟨s', n2, i2, o2⟩ := ok_iff_one_real (L := 1) (a := 1 - 3 / 2 ^ 53) (b := 2 + 1 / 2 ^ 51) (by norm_num)
    refine ⟨⟨1⟩, ⟨1 - 3 / 2 ^ 53⟩, ⟨2 + 1 / 2 ^ 51⟩, s, s', hL, ra, rb, n1, n2, o2.resolve_left fun h => ?_, i1.2 ?_⟩
    · have := i2.1 h
      rw [abs_of_pos (by norm_num)] at this
      norm_num at this
    · rw [RF.val_add]
      rw [rnd_two_four (3 * 2 ^ 51) (by norm_num) (by norm_num) (by push_cast; rw [abs_of_neg] <;> norm_num)
        (fun _ => ⟨3 * 2 ^ 50, by norm_num⟩)]
      rw [abs_of_pos (by push_cast; norm_num)]
      push_cast
      norm_num

/-- Non-vacuity: a box of half side 1 in which the trajectories bounce off the wall at every other move. -/
example (k : Nat) : ∃ (s : Cubic Double) (s' : Cubic ℝ) (q : Pos Double) (q' : Pos ℝ),
    Cubic.new .reflection ⟨1⟩ 1 = .ok s ∧ Cubic.new .reflection 1 1 = .ok s' ∧
    Follows s.checkBc [⟨1 / 2⟩] (List.replicate k [⟨1⟩]) q ∧ Follows s'.checkBc [1 / 2] (List.replicate k [1]) q' := by
  have r1 : (⟨1⟩ : Double).Rep := by
    have := double_pow2 (e := 0) (by norm_num)
    show Rounding.double.rnd 1 = 1
    simpa using this
  have rh : (⟨1 / 2⟩ : Double).Rep := by
    have := double_pow2 (e := -1) (by norm_num)
    show Rounding.double.rnd (1 / 2) = 1 / 2
    simpa using this
  have hnew : Cubic.new .reflection ⟨1⟩ 1 = .ok (⟨.continuousRectangular, .reflection, ⟨1⟩, 1⟩ : Cubic Double) := by
    unfold Cubic.new; rw [if_neg (by simp [Rounding.double.zero])]
  have hnew' : Cubic.new .reflection 1 1 = .ok (⟨.continuousRectangular, .reflection, 1, 1⟩ : Cubic ℝ) := by
    unfold Cubic.new; rw [if_neg (by simp)]
  obtain ⟨q, q', h1, h2, -⟩ := C87_short_moves .reflection ⟨1⟩ r1 1 _ _ hnew hnew' [⟨1 / 2⟩] (List.replicate k [⟨1⟩]) rfl
    (by intro x hx; rw [List.mem_singleton.1 hx]; exact ⟨rh, by norm_num [abs_of_pos]⟩)
    (by intro z hz; rw [List.eq_of_mem_replicate hz]; simpa using r1)
  exact ⟨_, _, q, q', hnew, hnew', h1, by simpa using h2⟩

end Moledyn.Props
