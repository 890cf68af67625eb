import Verif.Spec.TurnCounts
import Verif.Props.ProgramsDouble
import Verif.Props.DoubleHistogram
/-
Property theorems C118: the means the programs report, in double precision.
-/
namespace Moledyn.Props
open Moledyn LList
set_option linter.unusedSimpArgs false
variable {G S : Type}

/-! ### rounding -/

private theorem zero_val : (Fl.zero : Double).val = 0 := by
  simp [Fl.zero, Rounding.double.zero]

private theorem clock_bounds (dt : Double) (hdt : dt.Rep) (d0 : 0 ≤ dt.val) (k : Nat) :
    0 ≤ (clockAfter dt k).val ∧ k * dt.val * (1 - 1 / 2 ^ 53) ^ k ≤ (clockAfter dt k).val ∧
    (clockAfter dt k).val ≤ k * dt.val * (1 + 1 / 2 ^ 53) ^ k := by
  induction k with
  | zero =>
    have : (clockAfter dt 0).val = 0 := zero_val
    rw [this]; simp
  | succ k ih =>
    obtain ⟨i0, i1, i2⟩ := ih
    have e := abs_le.1 (double_add_error (clockAfter_rep dt k) hdt)
    have v : (clockAfter dt (k + 1)).val = Rounding.double.rnd ((clockAfter dt k).val + dt.val) := by
      rw [clockAfter_succ, RF.val_add]
    rw [abs_of_nonneg (by linarith), ← v] at e
    refine ⟨i0.trans (clockAfter_mono d0 (Nat.le_succ k)), ?_, ?_⟩
    · have g : (1 - 1 / 2 ^ 53 : ℝ) ^ k ≤ 1 := pow_le_one₀ (by norm_num) (by norm_num)
      have h1 : (k + 1) * dt.val * (1 - 1 / 2 ^ 53) ^ k ≤ (clockAfter dt k).val + dt.val := by
        have := mul_le_mul_of_nonneg_left g d0
        linarith
      have h2 : ((clockAfter dt k).val + dt.val) * (1 - 1 / 2 ^ 53) ≤ (clockAfter dt (k + 1)).val := by
        have e3 : ((clockAfter dt k).val + dt.val) * (1 - 1 / 2 ^ 53) =
          (clockAfter dt k).val + dt.val - ((clockAfter dt k).val + dt.val) / 2 ^ 53 := by ring
        rw [e3]; linarith [e.1]
      refine le_trans ?_ h2
      calc _ = (k + 1) * dt.val * (1 - 1 / 2 ^ 53) ^ k * (1 - 1 / 2 ^ 53) := by push_cast; ring
        _ ≤ _ := mul_le_mul_of_nonneg_right h1 (by norm_num)
    · have g : (1 : ℝ) ≤ (1 + 1 / 2 ^ 53) ^ k := one_le_pow₀ (by norm_num)
      have h1 : (clockAfter dt k).val + dt.val ≤ (k + 1) * dt.val * (1 + 1 / 2 ^ 53) ^ k := by
        have := mul_le_mul_of_nonneg_left g d0
        linarith
      have h2 : (clockAfter dt (k + 1)).val ≤ ((clockAfter dt k).val + dt.val) * (1 + 1 / 2 ^ 53) := by
        have e3 : ((clockAfter dt k).val + dt.val) * (1 + 1 / 2 ^ 53) =
          (clockAfter dt k).val + dt.val + ((clockAfter dt k).val + dt.val) / 2 ^ 53 := by ring
        rw [e3]; linarith [e.2]
      refine h2.trans ?_
      calc _ ≤ (k + 1) * dt.val * (1 + 1 / 2 ^ 53) ^ k * (1 + 1 / 2 ^ 53) := mul_le_mul_of_nonneg_right h1 (by norm_num)
        _ = _ := by push_cast; ring

/-- the powers of one rounding. -/
private theorem pow_bounds {N : Nat} (hN : N ≤ 2 ^ 51) :
    1 - N / 2 ^ 52 ≤ (1 - 1 / 2 ^ 53 : ℝ) ^ N ∧ (1 + 1 / 2 ^ 53 : ℝ) ^ N ≤ 1 + N / 2 ^ 52 := by
  have hN' : (N : ℝ) ≤ 2 ^ 51 := by exact_mod_cast hN
  have n0 : (0 : ℝ) ≤ N := Nat.cast_nonneg _
  have b := one_add_mul_le_pow (a := (-(1 / 2 ^ 53) : ℝ)) (by norm_num) N
  rw [← sub_eq_add_neg] at b
  have b' : 1 - N / 2 ^ 53 ≤ (1 - 1 / 2 ^ 53 : ℝ) ^ N := by
    refine le_trans (le_of_eq ?_) b
    ring
  have q : (N : ℝ) / 2 ^ 53 ≤ 1 / 4 := by
    rw [div_le_iff₀ (by positivity)]
    refine hN'.trans ?_
    norm_num
  have q0 : (0 : ℝ) ≤ N / 2 ^ 53 := by positivity
  have e52 : (N : ℝ) / 2 ^ 52 = 2 * (N / 2 ^ 53) := by ring
  rw [e52]
  generalize (N : ℝ) / 2 ^ 53 = x at *
  refine ⟨by linarith, ?_⟩
  have p : (1 + 1 / 2 ^ 53 : ℝ) ^ N * (1 - 1 / 2 ^ 53 : ℝ) ^ N ≤ 1 := by
    rw [← mul_pow]
    refine pow_le_one₀ (by norm_num) (by norm_num)
  have p0 : (0 : ℝ) < (1 + 1 / 2 ^ 53) ^ N := by positivity
  generalize (1 + 1 / 2 ^ 53 : ℝ) ^ N = A at *
  generalize (1 - 1 / 2 ^ 53 : ℝ) ^ N = B at *
  have h1 : A * (1 - x) ≤ 1 := (mul_le_mul_of_nonneg_left b' p0.le).trans p
  have h2 : 1 ≤ (1 + 2 * x) * (1 - x) := by nlinarith
  by_contra hc
  have h3 : (1 + 2 * x) * (1 - x) < A * (1 - x) := mul_lt_mul_of_pos_right (not_le.1 hc) (by linarith)
  linarith

/-- sums of numbers that are close. -/
private theorem sum_close {ts : List Double} {xs : List ℝ} {A B : ℝ}
    (h : List.Forall₂ (fun (t : Double) x => x * A ≤ t.val ∧ t.val ≤ x * B) ts xs) :
    xs.sum * A ≤ (ts.map (·.val)).sum ∧ (ts.map (·.val)).sum ≤ xs.sum * B := by
  induction h with
  | nil => simp
  | cons h1 _ ih =>
    simp only [List.map_cons, List.sum_cons, add_mul]
    exact ⟨add_le_add h1.1 ih.1, add_le_add h1.2 ih.2⟩

/-- times that are within `K` roundings of `xs`, added up and divided by their number, against the average of `xs`. -/
theorem mean_within (ts : List Double) (xs : List ℝ) (hne : ts ≠ []) (hr : ∀ t ∈ ts, t.Rep ∧ 0 ≤ t.val) (hx : ∀ x ∈ xs, 0 ≤ x) (K : Nat)
    (h : List.Forall₂ (fun (t : Double) x => x * (1 - 1 / 2 ^ 53) ^ K ≤ t.val ∧ t.val ≤ x * (1 + 1 / 2 ^ 53) ^ K) ts xs)
    (hN : K + ts.length + 1 ≤ 2 ^ 51) :
    |(ts.foldl (fun x t => x + t) Fl.zero / Fl.ofNat ts.length : Double).val - xs.sum / xs.length| ≤
      xs.sum / xs.length * ((K + ts.length + 1 : ℕ) / 2 ^ 52) + 2 ^ (-1075 : ℤ) := by
  have hlen := h.length_eq
  set n := ts.length with hn
  rw [← hlen]
  have n0 : (0 : ℝ) < n := by exact_mod_cast List.length_pos_of_ne_nil hne
  have hn53 : n < 2 ^ 53 := by omega
  obtain ⟨-, k2, k3, k4⟩ := double_sum_bounds ts (fun t ht => (hr t ht).1) (fun t ht => (hr t ht).2)
    Fl.zero (by show Rounding.double.rnd (Fl.zero : Double).val = _; rw [zero_val]; exact Rounding.double.zero) (by rw [zero_val])
  rw [zero_val, zero_add, ← hn] at k3 k4
  have hsum := sum_close h
  set M := (ts.map (·.val)).sum with hM
  set s := (ts.foldl (fun x t => x + t) (Fl.zero : Double)).val with hs
  have v : (ts.foldl (fun x t => x + t) Fl.zero / Fl.ofNat n : Double).val = Rounding.double.rnd (s / n) := by
    rw [RF.val_div]
    show Rounding.double.rnd (s / Rounding.double.rnd (n : ℝ)) = _
    rw [double_nat hn53]
  rw [v]
  have d := abs_le.1 (double_error (s / n))
  rw [abs_of_nonneg (div_nonneg k2 n0.le)] at d
  obtain ⟨p1, p2⟩ := pow_bounds hN
  have t0 : 0 ≤ xs.sum / n := div_nonneg (List.sum_nonneg hx) n0.le
  have tm1 : (0 : ℝ) ≤ (1 - 1 / 2 ^ 53) ^ n := pow_nonneg (by norm_num) _
  have tm2 : (0 : ℝ) ≤ (1 + 1 / 2 ^ 53) ^ n := pow_nonneg (by norm_num) _
  have s1 : xs.sum / n * ((1 - 1 / 2 ^ 53) ^ K * (1 - 1 / 2 ^ 53) ^ n) ≤ s / n := by
    rw [div_mul_eq_mul_div, ← mul_assoc]
    exact div_le_div_of_nonneg_right ((mul_le_mul_of_nonneg_right hsum.1 tm1).trans k3) n0.le
  have s2 : s / n ≤ xs.sum / n * ((1 + 1 / 2 ^ 53) ^ K * (1 + 1 / 2 ^ 53) ^ n) := by
    rw [div_mul_eq_mul_div, ← mul_assoc]
    exact div_le_div_of_nonneg_right (k4.trans (mul_le_mul_of_nonneg_right hsum.2 tm2)) n0.le
  rw [← pow_add] at s1 s2
  have e1 : (1 - 1 / 2 ^ 53 : ℝ) ^ (K + n + 1) = (1 - 1 / 2 ^ 53) ^ (K + n) * (1 - 1 / 2 ^ 53) := pow_succ _ _
  have e2 : (1 + 1 / 2 ^ 53 : ℝ) ^ (K + n + 1) = (1 + 1 / 2 ^ 53) ^ (K + n) * (1 + 1 / 2 ^ 53) := pow_succ _ _
  rw [e1] at p1
  rw [e2] at p2
  clear e1 e2
  generalize (1 - 1 / 2 ^ 53 : ℝ) ^ (K + n) = A at *
  generalize (1 + 1 / 2 ^ 53 : ℝ) ^ (K + n) = B at *
  generalize ((K + n + 1 : ℕ) : ℝ) / 2 ^ 52 = ε at *
  generalize Rounding.double.rnd (s / n) = r at *
  generalize s / n = q at *
  generalize xs.sum / (n : ℝ) = T at *
  generalize (2 : ℝ) ^ (-1075 : ℤ) = η at *
  have a1 : T * (A * (1 - 1 / 2 ^ 53)) ≤ q * (1 - 1 / 2 ^ 53) := by
    rw [← mul_assoc]; exact mul_le_mul_of_nonneg_right s1 (by norm_num)
  have a2 : q * (1 + 1 / 2 ^ 53) ≤ T * (B * (1 + 1 / 2 ^ 53)) := by
    rw [← mul_assoc]; exact mul_le_mul_of_nonneg_right s2 (by norm_num)
  have b1 := mul_le_mul_of_nonneg_left p1 t0
  have b2 := mul_le_mul_of_nonneg_left p2 t0
  have e1 : q * (1 - 1 / 2 ^ 53) = q - q / 2 ^ 53 := by ring
  have e2 : q * (1 + 1 / 2 ^ 53) = q + q / 2 ^ 53 := by ring
  rw [e1] at a1
  rw [e2] at a2
  rw [abs_le]
  constructor
  · have : T * (1 - ε) = T - T * ε := by ring
    linarith [d.1]
  · have : T * (1 + ε) = T + T * ε := by ring
    linarith [d.2]

/-! ### programs -/

/-- the times added up and divided, against the numbers of turns. -/
private theorem mean_close (dt : Double) (hdt : dt.Rep) (d0 : 0 ≤ dt.val) (ks : List Nat) (hne : ks ≠ []) (K : Nat)
    (hK : ∀ k ∈ ks, k ≤ K) (hN : K + ks.length + 1 ≤ 2 ^ 51) :
    |((ks.map (clockAfter dt)).foldl (fun x t => x + t) Fl.zero / Fl.ofNat ks.length : Double).val - dt.val * meanTurns ks| ≤
      dt.val * meanTurns ks * ((K + ks.length + 1 : ℕ) / 2 ^ 52) + 2 ^ (-1075 : ℤ) := by
  have e : (ks.map fun k : ℕ => (k : ℝ) * dt.val).sum / (ks.map fun k : ℕ => (k : ℝ) * dt.val).length = dt.val * meanTurns ks := by
    have : (ks.map fun k : ℕ => (k : ℝ) * dt.val).sum = (ks.sum : ℝ) * dt.val := by
      clear hne hK hN
      induction ks with
      | nil => simp
      | cons k ks ih => simp only [List.map_cons, List.sum_cons, ih, Nat.cast_add, add_mul]
    rw [this, List.length_map]
    unfold meanTurns
    ring
  have := mean_within (ks.map (clockAfter dt)) (ks.map fun k : ℕ => (k : ℝ) * dt.val) (by simpa using hne)
    (by intro t ht; obtain ⟨k, -, rfl⟩ := List.mem_map.1 ht; exact ⟨clockAfter_rep dt k, (clock_bounds dt hdt d0 k).1⟩)
    (by intro x hx; obtain ⟨k, -, rfl⟩ := List.mem_map.1 hx; positivity) K
    (by
      rw [List.forall₂_map_left_iff, List.forall₂_map_right_iff, List.forall₂_same]
      intro k hk
      obtain ⟨-, c1, c2⟩ := clock_bounds dt hdt d0 k
      have kd : 0 ≤ (k : ℝ) * dt.val := by positivity
      have l1 : (1 - 1 / 2 ^ 53 : ℝ) ^ K ≤ (1 - 1 / 2 ^ 53) ^ k := pow_le_pow_of_le_one (by norm_num) (by norm_num) (hK k hk)
      have l2 : (1 + 1 / 2 ^ 53 : ℝ) ^ k ≤ (1 + 1 / 2 ^ 53) ^ K := pow_le_pow_right₀ (by norm_num) (hK k hk)
      exact ⟨(mul_le_mul_of_nonneg_left l1 kd).trans c1, c2.trans (mul_le_mul_of_nonneg_left l2 kd)⟩)
    (by rw [List.length_map]; exact hN)
  rw [e, List.length_map] at this
  exact this

private theorem one_by_one {run : S → Option (Res Double × S)} {dt : Double} {takes : S → Nat → S → Prop} {K : Nat}
    (h : ∀ s t s', run s = some (.ok t, s') → ∃ k ≤ K, t = clockAfter dt k ∧ takes s k s') {s s' : S} {ts : List Double}
    (ho : OneByOne run s ts s') : ∃ ks : List Nat, ts = ks.map (clockAfter dt) ∧ (∀ k ∈ ks, k ≤ K) ∧ Successive takes s ks s' := by
  induction ho with
  | nil s => exact ⟨[], rfl, by simp, .nil s⟩
  | cons h1 _ ih =>
    obtain ⟨k, hk, rfl, hs⟩ := h _ _ _ h1
    obtain ⟨ks, rfl, h2, h3⟩ := ih
    exact ⟨k :: ks, rfl, by simpa [hk] using h2, .cons hs h3⟩

private theorem mean_turns {run : S → Option (Res Double × S)} (dt : Double) (hdt : dt.Rep) (d0 : 0 ≤ dt.val)
    {takes : S → Nat → S → Prop} {K : Nat}
    (h : ∀ s t s', run s = some (.ok t, s') → ∃ k ≤ K, t = clockAfter dt k ∧ takes s k s')
    {n : Nat} (hn : 0 < n) (hN : K + n + 1 ≤ 2 ^ 51) {s s' : S} {m : Double} (hm : ensembleMean run n s = some (.ok m, s')) :
    ∃ ks : List Nat, ks.length = n ∧ Successive takes s ks s' ∧
      |m.val - dt.val * meanTurns ks| ≤ dt.val * meanTurns ks * ((K + n + 1 : ℕ) / 2 ^ 52) + 2 ^ (-1075 : ℤ) := by
  obtain ⟨ts, h1, h2, rfl⟩ := (C67_mean run n s s' m).1 hm
  obtain ⟨ks, rfl, h3, h4⟩ := one_by_one h h2
  rw [List.length_map] at h1
  refine ⟨ks, h1, h4, ?_⟩
  have := mean_close dt hdt d0 ks (by rintro rfl; simp at h1; omega) K h3 (by omega)
  rw [h1] at this
  exact this

private theorem one_takes (rng : RngOps G Double) (sys : SysOps G Double) (target : TargetOps Double)
    (inner loops steps : Nat) (mtype : MoveType Double) (dt : Double) (g g' : G) (T : Double)
    (h : oneSearcher rng sys target inner loops steps mtype dt g = some (.ok T, g')) :
    ∃ k ≤ steps, T = clockAfter dt k ∧ OneTakes rng sys target inner loops mtype dt g k g' := by
  unfold oneSearcher at h
  rcases hn : IndepAgent.newUniform sys target inner loops g mtype with _ | ⟨r, g1⟩
  · rw [hn] at h; simp at h
  · rw [hn] at h
    cases r with
    | err e => simp at h
    | panic => simp at h
    | ok a =>
      simp only at h
      rcases hr : whileSearch (fun s : IndepAgent Double × G => target.checkFind s.1.pos) (freshTurn rng sys dt) dt steps (a, g1) Fl.zero
        with ⟨⟨s', t'⟩, o⟩
      rw [hr] at h
      cases o with
      | none => simp at h
      | some o =>
        simp only [Option.some.injEq, Prod.mk.injEq] at h
        obtain ⟨rfl, rfl⟩ := h
        obtain ⟨k, k1, k2, k3, -, k5⟩ := (whileSearch_iff _ _ _ _ _ _ _ _ _).1 hr
        exact ⟨k, k1.le, k3, a, g1, hn, k2, by rw [k5]⟩

/-- tests/single_ptl_rts.rs in double precision: if it reports the mean `m` of `n ≥ 1` searches, each allowed `steps` turns, there
are numbers of turns of `n` searches one after the other, each from the state of the generator the one before left, and `m` is `dt`
times their average up to a relative error of `(steps + n + 1) 2^-52` (and half of the smallest number). -/
theorem C118_single (rng : RngOps G Double) (sys : SysOps G Double) (d : Nat) (hd : sys.DrawsInside d) (target : TargetOps Double)
    (inner loops steps : Nat) (mtype : MoveType Double) (dt : Double) (hdt : dt.Rep) (d0 : 0 ≤ dt.val) (buf buf' : Pos Double)
    (hb : buf.length = d) (n : Nat) (hn : 0 < n) (hN : steps + n + 1 ≤ 2 ^ 51) (g g' : G) (m : Double)
    (h : ensembleMean (oneBuffered rng sys target inner loops steps mtype dt) n (buf, g) = some (.ok m, (buf', g'))) :
    ∃ ks : List Nat, ks.length = n ∧ Successive (OneTakes rng sys target inner loops mtype dt) g ks g' ∧
      |m.val - dt.val * meanTurns ks| ≤ dt.val * meanTurns ks * ((steps + n + 1 : ℕ) / 2 ^ 52) + 2 ^ (-1075 : ℤ) := by
  have key : ∀ (ts : List Double) (s s' : Pos Double × G), s.1.length = d →
      OneByOne (oneBuffered rng sys target inner loops steps mtype dt) s ts s' →
      OneByOne (oneSearcher rng sys target inner loops steps mtype dt) s.2 ts s'.2 := by
    intro ts s s' hs ho
    induction ho with
    | nil s => exact .nil _
    | @cons s t s1 ts s2 h1 _ ih =>
      obtain ⟨c1, c2⟩ := C117_buffer _ rng sys d hd target inner loops steps mtype dt s.1 hs s.2
      rw [show (s.1, s.2) = s from rfl, h1] at c1
      exact .cons c1.symm (ih (c2 _ s1.1 s1.2 h1))
  obtain ⟨ts, h1, h2, h3⟩ := (C67_mean _ n _ _ m).1 h
  have h4 : ensembleMean (oneSearcher rng sys target inner loops steps mtype dt) n g = some (.ok m, g') :=
    (C67_mean _ n _ _ m).2 ⟨ts, h1, key ts _ _ hb h2, h3⟩
  exact mean_turns dt hdt d0 (fun g t g' hg => one_takes rng sys target inner loops steps mtype dt g g' t hg) hn hN h4

private theorem min_says {run : S → Option (Res Double × S)} (dt : Double) {takes : S → Nat → S → Prop} {K : Nat}
    (h : ∀ s t s', run s = some (.ok t, s') → ∃ k ≤ K, t = clockAfter dt k ∧ takes s k s') (N : Nat) :
    ∀ (s s' : S) (m0 m : Double), minLoop run N s m0 = some (.ok m, s') →
      ∃ ks : List Nat, ks.length = N ∧ (∀ k ∈ ks, k ≤ K) ∧ Successive takes s ks s' ∧ m.val ≤ m0.val ∧
        (∀ j ∈ ks, m.val ≤ (clockAfter dt j).val) ∧ (m = m0 ∨ ∃ k ∈ ks, m = clockAfter dt k) := by
  induction N with
  | zero =>
    intro s s' m0 m hm
    simp only [minLoop, Option.some.injEq, Prod.mk.injEq, Res.ok.injEq] at hm
    obtain ⟨rfl, rfl⟩ := hm
    exact ⟨[], rfl, by simp, .nil _, le_rfl, by simp, .inl rfl⟩
  | succ N ih =>
    intro s s' m0 m hm
    rw [minLoop] at hm
    rcases hr : run s with _ | ⟨r, s1⟩
    · rw [hr] at hm; simp at hm
    · rw [hr] at hm
      cases r with
      | err e => simp at hm
      | panic => simp at hm
      | ok t =>
        simp only at hm
        obtain ⟨k, hk, ht, htk⟩ := h _ _ _ hr
        obtain ⟨m1, hm1⟩ : ∃ m1, m1 = if Fl.gt m0 t then t else m0 := ⟨_, rfl⟩
        rw [← hm1] at hm
        have l : m1.val ≤ m0.val ∧ m1.val ≤ t.val ∧ (m1 = m0 ∨ m1 = t) := by
          rw [hm1]
          by_cases hlt : t.val < m0.val
          · rw [if_pos (by show Fl.lt t m0 = true; simpa using hlt)]
            exact ⟨hlt.le, le_rfl, .inr rfl⟩
          · rw [if_neg (by show ¬ Fl.lt t m0 = true; simpa using hlt)]
            exact ⟨le_rfl, not_lt.1 hlt, .inl rfl⟩
        obtain ⟨ks, k1, k2, k3, k4, k5, k6⟩ := ih s1 s' m1 m hm
        refine ⟨k :: ks, by simp [k1], by simpa [hk] using k2, .cons htk k3, k4.trans l.1, ?_, ?_⟩
        · intro j hj
          rcases List.mem_cons.1 hj with rfl | hj
          · rw [← ht]; exact k4.trans l.2.1
          · exact k5 j hj
        · rcases k6 with rfl | ⟨j, hj, rfl⟩
          · rcases l.2.2 with e | e
            · exact .inl e
            · exact .inr ⟨k, by simp, by rw [e, ht]⟩
          · exact .inr ⟨j, by simp [hj], rfl⟩

/-- tests/rts_n_searcher.rs in double precision, `N ≥ 1` searchers one after the other, `dt < 2^960`: likewise with the numbers of turns
of the fastest. -/
theorem C118_fastest (rng : RngOps G Double) (sys : SysOps G Double) (target : TargetOps Double)
    (inner loops steps : Nat) (mtype : MoveType Double) (dt : Double) (hdt : dt.Rep) (d0 : 0 < dt.val) (hbig : dt.val < 2 ^ 960)
    (N : Nat) (hNpos : 0 < N) (n : Nat) (hn : 0 < n) (hN : steps + n + 1 ≤ 2 ^ 51) (g g' : G) (m : Double)
    (h : ensembleMean (nSearchersFpt rng sys target inner loops steps mtype dt N) n g = some (.ok m, g')) :
    ∃ ks : List Nat, ks.length = n ∧ Successive (FastestTakes rng sys target inner loops mtype dt N) g ks g' ∧
      |m.val - dt.val * meanTurns ks| ≤ dt.val * meanTurns ks * ((steps + n + 1 : ℕ) / 2 ^ 52) + 2 ^ (-1075 : ℤ) := by
  refine mean_turns dt hdt d0.le (fun g t g' hg => ?_) hn hN h
  obtain ⟨ks, k1, k2, k3, k4, k5, k6⟩ := min_says dt
    (fun g t g' hg => one_takes rng sys target inner loops steps mtype dt g g' t hg) N g g' _ t hg
  have hne : ks ≠ [] := by rintro rfl; simp at k1; omega
  obtain ⟨j, hj, ht⟩ : ∃ k ∈ ks, t = clockAfter dt k := by
    rcases k6 with rfl | h
    · obtain ⟨j, hj⟩ := List.exists_mem_of_ne_nil ks hne
      exact absurd ((k5 j hj).trans (C117_times_stand_still dt hdt d0 j)) (not_le.2 (beyond_max hbig))
    · exact h
  obtain ⟨k, hk, hmin⟩ : ∃ k ∈ ks, ∀ i ∈ ks, k ≤ i := by
    classical
    have hex : ∃ k, k ∈ ks := ⟨j, hj⟩
    exact ⟨Nat.find hex, Nat.find_spec hex, fun i hi => Nat.find_min' hex hi⟩
  refine ⟨k, k2 k hk, ?_, ks, k1, k3, hk, hmin⟩
  refine RF.ext (le_antisymm (k5 k hk) ?_)
  rw [ht]
  exact clockAfter_mono d0.le (hmin j hj)

/-- tests/n_ptl_rts_iterator.rs in double precision, `N` searchers in a list: likewise with the numbers of rounds until one of them is
on the target. -/
theorem C118_list (rng : RngOps G Double) (sys : SysOps G Double) (hsys : LibrarySystem rng sys) (d : Nat) (hd : sys.DrawsInside d)
    (ho : sys.OutsideDim d) (target : TargetOps Double) (inner loops fuel steps : Nat) (mtype : MoveType Double) (dt : Double)
    (hdt : dt.Rep) (d0 : 0 ≤ dt.val) (N : Nat) (hf : N < fuel) (n : Nat) (hn : 0 < n) (hN : steps + n + 1 ≤ 2 ^ 51) (g g' : G) (m : Double)
    (h : ensembleMean (indepRun rng sys target inner loops fuel steps mtype dt N) n g = some (.ok m, g')) :
    ∃ ks : List Nat, ks.length = n ∧ Successive (ListTakes rng sys target inner loops fuel mtype dt N) g ks g' ∧
      |m.val - dt.val * meanTurns ks| ≤ dt.val * meanTurns ks * ((steps + n + 1 : ℕ) / 2 ^ 52) + 2 ^ (-1075 : ℤ) := by
  refine mean_turns dt hdt d0 (fun g t g' hg => ?_) hn hN h
  obtain ⟨v, g1, h1, h2, -, k, k1, k2, k3, k4, k5⟩ :=
    C67_independent_run rng sys hsys d hd ho target inner loops fuel steps mtype dt N hf g g' t hg
  exact ⟨k + 1, k1, k2, v, g1, h1, h2, Nat.succ_pos k, k3, k4, fun m hm => (k5 m (by omega)).2⟩

/-- tests/merge_fpt.rs in double precision: likewise with searchers that merge. -/
theorem C118_merging (rng : RngOps G Double) (sys : SysOps G Double) (hsys : LibrarySystem rng sys) (d : Nat) (hd : sys.DrawsInside d)
    (ho : sys.OutsideDim d) (target : TargetOps Double) (inner loops fuel steps : Nat) (mtype : MoveType Double) (radius alpha dt : Double)
    (hdt : dt.Rep) (d0 : 0 ≤ dt.val) (N : Nat) (hf : N * N < fuel) (n : Nat) (hn : 0 < n) (hN : steps + n + 1 ≤ 2 ^ 51) (g g' : G) (m : Double)
    (h : ensembleMean (mergeRun rng sys target inner loops fuel steps mtype radius alpha dt N) n g = some (.ok m, g')) :
    ∃ ks : List Nat, ks.length = n ∧ Successive (MergeTakes rng sys target inner loops fuel mtype radius alpha dt N) g ks g' ∧
      |m.val - dt.val * meanTurns ks| ≤ dt.val * meanTurns ks * ((steps + n + 1 : ℕ) / 2 ^ 52) + 2 ^ (-1075 : ℤ) := by
  refine mean_turns dt hdt d0 (fun g t g' hg => ?_) hn hN h
  obtain ⟨v, g1, h1, h2, -, k, k1, k2, k3, k4, k5⟩ :=
    C67_merging_run rng sys hsys d hd ho target inner loops fuel steps mtype radius alpha dt N hf g g' t hg
  exact ⟨k + 1, k1, k2, v, g1, h1, h2, Nat.succ_pos k, k3, k4, fun m hm => (k5 m (by omega)).2.2⟩

/-! ### example: the hypotheses are met -/

/-- a line on which searchers are put at 1 and go to 0 when they move, -/
private noncomputable def demoLine : SysOps Unit Double :=
  ⟨fun _ => .ok true, fun _ _ => ([Fl.zero], .ok ()), [Fl.zero], fun _ => ([Fl.zero], .ok ()), fun _ g _ => some (([⟨1⟩], .ok ()), g)⟩
/-- the target: everything below 1, -/
private noncomputable def demoEnd : TargetOps Double := ⟨fun p => .ok (p.all fun x => Fl.lt x ⟨1⟩)⟩
/-- and draws that are all 0. -/
private noncomputable def demoZeros : RngOps Unit Double := ⟨fun g => (Fl.zero, g), fun g => (Fl.zero, g)⟩

private theorem rep_128 : (⟨1 / 128⟩ : Double).Rep := by
  have := double_pow2 (e := -7) (by norm_num)
  have e : (2 : ℝ) ^ (-7 : ℤ) = 1 / 128 := by norm_num
  rw [e] at this
  exact this

private theorem demo_run : oneBuffered demoZeros demoLine demoEnd 100 100 100 (.brownian ⟨1⟩) ⟨1 / 128⟩ ([Fl.zero], ()) =
    some (.ok (Fl.zero + ⟨1 / 128⟩), ([Fl.zero + Fl.zero * Fl.sqrt (Fl.two * ⟨1⟩ * ⟨1 / 128⟩) + Fl.zero], ())) := by
  have f : demoEnd.checkFind [⟨1⟩] = .ok false := by
    show Res.ok ((Fl.lt (⟨1⟩ : Double) ⟨1⟩) && true) = _
    rw [RF.lt_val, decide_eq_false (lt_irrefl _)]
    rfl
  have t : demoEnd.checkFind [Fl.zero] = .ok true := by
    show Res.ok ((Fl.lt (Fl.zero : Double) ⟨1⟩) && true) = _
    rw [RF.lt_val, zero_val, decide_eq_true (by norm_num)]
    rfl
  have new : IndepAgent.newUniform demoLine demoEnd 100 100 () (.brownian (⟨1⟩ : Double)) =
      some (.ok ⟨.continuousPassiveIndependent, .brownian ⟨1⟩, .uniform, 1, [⟨1⟩]⟩, ()) := by
    unfold IndepAgent.newUniform AgentCore.drawOffTarget
    simp only [demoLine, f]
    rfl
  unfold oneBuffered
  rw [new]
  simp only
  rw [show (100 : Nat) = 98 + 1 + 1 from rfl, whileSearch]
  simp only [f]
  unfold bufferTurn
  simp only [IndepAgent.randomMoveToVec, AgentCore.randomMoveToVec, Pos.clear, Pos.dim, List.length_map, List.length_cons,
    List.length_nil, ne_eq, not_true_eq_false, if_false, Random.getGaussianToVecNonstandard, Random.sweep, List.map_cons, List.map_nil,
    demoZeros, demoLine]
  rw [whileSearch]
  simp only [t]

/-- A program that reports a mean, so that the theorem says something about it: it is 1/128 times a number of turns. -/
example : ∃ (m : Double) (s' : Pos Double × Unit),
    ensembleMean (oneBuffered demoZeros demoLine demoEnd 100 100 100 (.brownian ⟨1⟩) ⟨1 / 128⟩) 1 ([Fl.zero], ()) = some (.ok m, s') ∧
    ∃ ks : List Nat, ks.length = 1 ∧
      Successive (OneTakes demoZeros demoLine demoEnd 100 100 (.brownian ⟨1⟩) ⟨1 / 128⟩) () ks () ∧
      |m.val - 1 / 128 * meanTurns ks| ≤ 1 / 128 * meanTurns ks * ((100 + 1 + 1 : ℕ) / 2 ^ 52) + 2 ^ (-1075 : ℤ) := by
  have hd : demoLine.DrawsInside 1 := by
    intro fuel g vec p g' h
    simp only [demoLine, Option.some.injEq, Prod.mk.injEq] at h
    obtain ⟨⟨rfl, -⟩, -⟩ := h
    exact ⟨rfl, rfl⟩
  have hm := (C67_mean (oneBuffered demoZeros demoLine demoEnd 100 100 100 (.brownian ⟨1⟩) ⟨1 / 128⟩) 1 ([Fl.zero], ()) _ _).2
    ⟨_, rfl, .cons demo_run (.nil _), rfl⟩
  exact ⟨_, _, hm, C118_single demoZeros demoLine 1 hd demoEnd 100 100 100 _ ⟨1 / 128⟩ rep_128 (by norm_num) _ _ rfl 1 one_pos
    (by norm_num) () () _ hm⟩

end Moledyn.Props
