import Verif.Props.MeanTurns
import Verif.Props.DoubleExpClock
import Verif.Props.FreshEnsembles
import Verif.Model.LargeN
/-
Property theorems C118, continued: the mean tests/large_n_simulation.rs reports, in double precision.
-/
namespace Moledyn.Props
open Moledyn LList
set_option linter.unusedSimpArgs false
variable {G F S C : Type}

/-- a search that goes on has used the clock once for every round. -/
theorem searchLoop_clock_used (tick : C → C × Res (Option (F × F))) (step : F → S → S × Option (Res Bool)) (k : Nat) :
    ∀ (n : Nat) (c : C) (s : S) (r : Res (Option F)), k < n → (searchLoop tick step n c s).2 = some r →
      (searchLoop tick step k c s).2 = none → (searchLoop tick step k c s).1.1 = stateAfter tick k c := by
  induction k with
  | zero => intro n c s r _ _ _; rfl
  | succ k ih =>
    intro n c s r hkn hn hk
    obtain ⟨n, rfl⟩ : ∃ n', n = n' + 1 := ⟨n - 1, by omega⟩
    show _ = stateAfter tick k (tick c).1
    rw [searchLoop] at hn hk ⊢
    rcases ht : tick c with ⟨c1, o⟩
    rw [ht] at hn hk
    match o with
    | .ok none => simp at hk
    | .err e => simp at hk
    | .panic => simp at hk
    | .ok (some (t0, dt)) =>
      simp only at hn hk ⊢
      rcases hs : step dt s with ⟨s1, o⟩
      rw [hs] at hn hk
      match o with
      | none => simp at hn
      | some (.err e) => simp at hk
      | some .panic => simp at hk
      | some (.ok true) => simp at hk
      | some (.ok false) => exact ih n c1 s1 r (by omega) hn hk

private theorem snoc {run : S → Option (Res F × S)} {s s1 s2 : S} {ts : List F} {t : F} (h : OneByOne run s ts s1)
    (h2 : run s1 = some (.ok t, s2)) : OneByOne run s (ts ++ [t]) s2 := by
  induction h with
  | nil s => exact .cons h2 (.nil _)
  | cons h1 _ ih => exact .cons h1 (ih h2)

private theorem zero_value : (Fl.zero : Double).val = 0 := by
  simp [Fl.zero, Rounding.double.zero]

/-- a clock that has not run is as it is after `renew`. -/
private theorem renew_fresh {c : ExpStep Double} (h : c.Fresh) : c.renew.1 = c := by
  obtain ⟨a, b, l, ht, -, -, -, h4, h5, h6⟩ := exp_fresh_rounded h
  have hc : c.current = Fl.zero := RF.ext (by rw [h4, zero_value])
  unfold ExpStep.renew
  rw [ht]
  cases c
  simp_all

private theorem large_times (rng : RngOps G Double) (sys : SysOps G Double) (hsys : LibrarySystem rng sys) (d : Nat) (hd : sys.DrawsInside d)
    (ho : sys.OutsideDim d) (target : TargetOps Double) (inner loops fuel steps : Nat) (v : List (MergeAgent Double))
    (hv : ∀ a ∈ v, a.dim = a.pos.length) (hf : v.length * v.length < fuel) (hf' : v.length < fuel) (clock : ExpStep Double) (hc : clock.Fresh)
    (g : G) {s s' : LList (MergeAgent Double) × ExpStep Double × G} {ts : List Double}
    (h : OneByOne (largeNRun rng sys target inner loops fuel steps) s ts s') :
    ∀ pre, OneByOne (largeNRun rng sys target inner loops fuel steps) (from' v, clock, g) pre s →
    ∃ ks : List Nat, Successive (LargeTakes rng sys target inner loops fuel clock v) s.2.2 ks s'.2.2 ∧
      List.Forall₂ (fun t k => k ≤ steps ∧ ∃ dt, output (TimeDiff.next ExpStep.next ExpStep.dt) (k - 1) (intoDiff clock) = .ok (some (t, dt))) ts ks := by
  induction h with
  | nil s => exact fun _ _ => ⟨[], .nil _, .nil⟩
  | @cons s t s1 ts s2 h1 _ ih =>
    intro pre hpre
    obtain ⟨ks, k1, k2⟩ := ih (pre ++ [t]) (snoc hpre h1)
    obtain ⟨l, c, g1⟩ := s
    obtain ⟨l2, c2, g2⟩ := s1
    obtain ⟨cs, g', e1, e2, e0, e3, e4, e5, k, e6, e7, ⟨dt, e8⟩, e9⟩ := C68_every_ensemble rng sys hsys d hd ho target inner loops fuel steps v hv hf hf'
      clock g pre l c g1 hpre t l2 c2 g2 h1
    rw [renew_fresh hc] at e0 e3 e4 e7 e8 e9
    simp only at e0 e3 e4 e7 e8 e9
    have hst := searchLoop_clock_used _ _ k (k + 1) _ _ _ (Nat.lt_succ_self k) (by rw [e7]; exact e0) (e9 k le_rfl).1
    refine ⟨(k + 1) :: ks, .cons ⟨cs, g', e1, Nat.succ_pos k, ?_, ?_, fun m hm => (e9 m (by omega)).2⟩ k1, .cons ⟨e6, dt, ?_⟩ k2⟩
    · show g2 = _
      rw [e3]
      simp only [e7]
    · simp only [e7]
      rw [← e4]
      exact e5
    · rw [Nat.add_sub_cancel]
      rw [hst] at e8
      exact e8

theorem schedule_nonneg {a b inc : ℝ} (ha : 0 ≤ a) (hab : a ≤ b) (hi : 0 ≤ inc) (l n : Nat) : 0 ≤ expTime a b inc l n := by
  induction n with
  | zero => exact le_rfl
  | succ n ih =>
    rw [expTime, expStepSize]
    exact add_nonneg ih (le_min (mul_nonneg ha (pow_nonneg hi _)) (ha.trans hab))

/-- tests/large_n_simulation.rs in double precision, from searchers `v` and an exponential clock that has not run: if it reports the
mean `m` of `num ≥ 1` searches, each allowed `steps` turns, there are numbers of turns of `num` searches one after the other, each from
the state of the generator the one before left, and `m` is the average of the documented times before the last turns, up to a relative
error of `(2 steps + num + 1) 2^-52` (and half of the smallest number). -/
theorem C118_large (rng : RngOps G Double) (sys : SysOps G Double) (hsys : LibrarySystem rng sys) (d : Nat) (hd : sys.DrawsInside d)
    (ho : sys.OutsideDim d) (target : TargetOps Double) (inner loops fuel steps : Nat) (v : List (MergeAgent Double))
    (hv : ∀ a ∈ v, a.dim = a.pos.length) (hf : v.length * v.length < fuel) (hf' : v.length < fuel) (clock : ExpStep Double) (hc : clock.Fresh)
    (a b : Double) (l : Nat) (hab : clock.titype = .exponential a b l) (ha : a.Rep) (hb : b.Rep) (hmin : 2 ^ (-1022 : ℤ) ≤ a.val)
    (hinc : 1 ≤ clock.inc.val) (num : Nat) (hnum : 0 < num) (hN : 2 * steps + num + 1 ≤ 2 ^ 51) (g : G) (m : Double)
    (s' : LList (MergeAgent Double) × ExpStep Double × G)
    (h : ensembleMean (largeNRun rng sys target inner loops fuel steps) num (from' v, clock, g) = some (.ok m, s')) :
    ∃ ks : List Nat, ks.length = num ∧ Successive (LargeTakes rng sys target inner loops fuel clock v) g ks s'.2.2 ∧
      let mean := (ks.map fun k => expTime a.val b.val clock.inc.val l (k - 1)).sum / num
      |m.val - mean| ≤ mean * ((2 * steps + num + 1 : ℕ) / 2 ^ 52) + 2 ^ (-1075 : ℤ) := by
  obtain ⟨ts, h1, h2, rfl⟩ := (C67_mean _ num _ _ m).1 h
  obtain ⟨ks, k1, k2⟩ := large_times rng sys hsys d hd ho target inner loops fuel steps v hv hf hf' clock hc g h2 [] (.nil _)
  have hlen : ks.length = num := by rw [← k2.length_eq, h1]
  refine ⟨ks, hlen, k1, ?_⟩
  obtain ⟨a0, a1, -, -⟩ := atRounded_fresh hc hab
  have hm := mean_within ts (ks.map fun k => expTime a.val b.val clock.inc.val l (k - 1)) (by rintro rfl; simp at h1; omega)
    (by
      intro t ht
      obtain ⟨i, hi, rfl⟩ := List.mem_iff_getElem.1 ht
      obtain ⟨-, dt, hout⟩ := (List.forall₂_iff_get.1 k2).2 i hi (by rw [← k2.length_eq]; exact hi)
      simp only [List.get_eq_getElem] at hout
      generalize ts[i] = t at *
      generalize ks[i] = k at *
      refine ⟨?_, ?_⟩
      · rw [exp_double_call clock hc a b l hab ha hb hinc] at hout
        by_cases hcl : roundedTime .double a.val b.val clock.inc.val l (k - 1) ≤ clock.tmax.val
        swap
        · rw [if_neg hcl] at hout; simp at hout
        rw [if_pos hcl] at hout
        simp only [Res.ok.injEq, Option.some.injEq, Prod.mk.injEq] at hout
        rw [← hout.1]
        exact roundedTime_rep _
      · have := (C93_schedule clock hc a b l hab ha hb hmin hinc _ t dt hout).2.2.1.1
        refine le_trans (mul_nonneg (schedule_nonneg a0 a1 (by linarith) _ _) (pow_nonneg ?_ _)) this
        norm_num)
    (by
      intro x hx
      obtain ⟨k, -, rfl⟩ := List.mem_map.1 hx
      exact schedule_nonneg a0 a1 (by linarith) _ _)
    (2 * steps)
    (by
      rw [List.forall₂_map_right_iff]
      refine k2.imp ?_
      rintro t k ⟨hk, dt, hout⟩
      obtain ⟨c1, c2⟩ := (C93_schedule clock hc a b l hab ha hb hmin hinc _ t dt hout).2.2.1
      have x0 := schedule_nonneg a0 a1 (inc := clock.inc.val) (by linarith) l (k - 1)
      have hle : k - 1 + (k - 1) / l ≤ 2 * steps := by
        have := Nat.div_le_self (k - 1) l
        omega
      have l1 : (1 - 1 / 2 ^ 53 : ℝ) ^ (2 * steps) ≤ (1 - 1 / 2 ^ 53) ^ (k - 1 + (k - 1) / l) :=
        pow_le_pow_of_le_one (by norm_num) (by norm_num) hle
      have l2 : (1 + 1 / 2 ^ 53 : ℝ) ^ (k - 1 + (k - 1) / l) ≤ (1 + 1 / 2 ^ 53) ^ (2 * steps) := pow_le_pow_right₀ (by norm_num) hle
      exact ⟨(mul_le_mul_of_nonneg_left l1 x0).trans c1, c2.trans (mul_le_mul_of_nonneg_left l2 x0)⟩)
    (by rw [h1]; exact hN)
  rw [h1, List.length_map, hlen] at hm
  exact hm

private theorem made (sys : SysOps G Double) (target : TargetOps Double) (inner loops : Nat) (mtype : MoveType Double) (radius alpha : Double)
    {g g1 : G} {a : MergeAgent Double} (h : MergeAgent.newUniform sys target inner loops g mtype radius alpha = some (.ok a, g1)) :
    a.dim = a.pos.length := by
  unfold MergeAgent.newUniform at h
  rw [Option.map_eq_some_iff] at h
  obtain ⟨⟨⟨p, r⟩, g2⟩, -, h⟩ := h
  cases r with
  | err e => simp [Res.map] at h
  | panic => simp [Res.map] at h
  | ok _ =>
    simp only [Res.map, Prod.mk.injEq, Res.ok.injEq] at h
    rw [← h.1]
    rfl

/-- The whole program, which makes its `n` searchers itself. -/
theorem C118_large_program (rng : RngOps G Double) (sys : SysOps G Double) (hsys : LibrarySystem rng sys) (d : Nat) (hd : sys.DrawsInside d)
    (ho : sys.OutsideDim d) (target : TargetOps Double) (inner loops fuel steps : Nat) (mtype : MoveType Double) (radius alpha : Double)
    (n : Nat) (hf : n * n < fuel) (hf' : n < fuel) (clock : ExpStep Double) (hc : clock.Fresh)
    (a b : Double) (l : Nat) (hab : clock.titype = .exponential a b l) (ha : a.Rep) (hb : b.Rep) (hmin : 2 ^ (-1022 : ℤ) ≤ a.val)
    (hinc : 1 ≤ clock.inc.val) (num : Nat) (hnum : 0 < num) (hN : 2 * steps + num + 1 ≤ 2 ^ 51) (g g' : G) (m : Double)
    (h : largeNProgram rng sys target inner loops fuel steps mtype radius alpha clock n num g = some (.ok m, g')) :
    ∃ (v : List (MergeAgent Double)) (g1 : G) (ks : List Nat), v.length = n ∧
      OneByOne (fun g => MergeAgent.newUniform sys target inner loops g mtype radius alpha) g v g1 ∧
      ks.length = num ∧ Successive (LargeTakes rng sys target inner loops fuel clock v) g1 ks g' ∧
      let mean := (ks.map fun k => expTime a.val b.val clock.inc.val l (k - 1)).sum / num
      |m.val - mean| ≤ mean * ((2 * steps + num + 1 : ℕ) / 2 ^ 52) + 2 ^ (-1075 : ℤ) := by
  unfold largeNProgram at h
  rcases hm : makeAgents (fun g => MergeAgent.newUniform sys target inner loops g mtype radius alpha) n g with _ | ⟨r, g1⟩
  · rw [hm] at h; simp at h
  · rw [hm] at h
    cases r with
    | err e => simp at h
    | panic => simp at h
    | ok v =>
      simp only at h
      rw [Option.map_eq_some_iff] at h
      obtain ⟨⟨r, s'⟩, h1, h2⟩ := h
      simp only [Prod.mk.injEq] at h2
      obtain ⟨rfl, rfl⟩ := h2
      obtain ⟨v1, v2⟩ := (makeAgents_iff _ _ _ _ _).1 hm
      have hv : ∀ a ∈ v, a.dim = a.pos.length := by
        clear hm h1 v1
        induction v2 with
        | nil => simp
        | cons w1 _ ih =>
          intro a ha
          rcases List.mem_cons.1 ha with rfl | ha
          · exact made sys target inner loops mtype radius alpha w1
          · exact ih a ha
      subst v1
      obtain ⟨ks, k1, k2, k3⟩ := C118_large rng sys hsys d hd ho target inner loops fuel steps v hv hf hf' clock hc a b l hab ha hb hmin hinc
        num hnum hN g1 m s' h1
      exact ⟨v, g1, ks, rfl, v2, k1, k2, k3⟩

/-! ### example: the hypotheses are met -/

/-- Ten searchers in a ball of radius 13, a clock that starts with steps of 1/1024 and ends with steps of 1, up to 100, any source of
random numbers: what the program says about 50 searches of at most a million turns. -/
example (rng : RngOps G Double) (g g' : G) (radius alpha m : Double) : let s : Circ Double := ⟨.continuousCircular, .reflection, ⟨13⟩, 2⟩
    let target := (BulkTarget.new [⟨8⟩, ⟨0⟩] (⟨2⟩ : Double)).ops
    ∃ clock, ExpStep.convertFrom (⟨1 / 1024⟩ : Double) ⟨1⟩ 10 ⟨100⟩ = .ok clock ∧
      (largeNProgram rng (s.ops rng) target 100 100 1000 1000000 (.brownian ⟨1⟩) radius alpha clock 10 50 g = some (.ok m, g') →
        ∃ ks : List Nat, ks.length = 50 ∧
          let mean := (ks.map fun k => expTime (1 / 1024) 1 clock.inc.val 10 (k - 1)).sum / 50
          |m.val - mean| ≤ mean * ((2 * 1000000 + 50 + 1 : ℕ) / 2 ^ 52) + 2 ^ (-1075 : ℤ)) := by
  intro s target
  have r2 : ∀ k : ℤ, -1074 ≤ k → Rounding.double.rnd (2 ^ k) = 2 ^ k := fun k hk => double_pow2 hk
  have e1 : Rounding.double.rnd 1 = 1 := by simpa using r2 0 (by norm_num)
  have e10 : (2 : ℝ) ^ (-10 : ℤ) = 1 / 1024 := by norm_num
  have ea : Rounding.double.rnd (1 / 1024) = 1 / 1024 := by rw [← e10]; exact r2 (-10) (by norm_num)
  have hinc : 1 ≤ (Fl.lit (12 / 10) : Double).val := by
    rw [RF.val_lit]
    conv_lhs => rw [← e1]
    refine Rounding.double.mono _ _ ?_
    push_cast; norm_num
  have hc : ∃ c, ExpStep.convertFrom (⟨1 / 1024⟩ : Double) ⟨1⟩ 10 ⟨100⟩ = .ok c ∧ c.titype = .exponential ⟨1 / 1024⟩ ⟨1⟩ 10 ∧
      c.inc = Fl.lit (12 / 10) := by
    unfold ExpStep.convertFrom
    rw [if_neg]
    · exact ⟨_, rfl, rfl, rfl⟩
    simp only [RF.lt_val, Fl.gt, zero_value, Bool.or_eq_true, decide_eq_true_eq, not_or, not_lt]
    norm_num
  obtain ⟨clock, hc, ht, hi⟩ := hc
  refine ⟨clock, hc, fun h => ?_⟩
  obtain ⟨v, g1, ks, -, -, k1, -, k2⟩ := C118_large_program rng _ (.inr (.inl ⟨s, rfl⟩)) 2 (C37_systems_draw_inside.1 rng s)
    ((C37_systems_outside_dim rng).2.1 s) target 100 100 1000 1000000 _ radius alpha 10 (by norm_num) (by norm_num) clock (.convert hc) _ _ _ ht ea e1
    (by
      have : (2 : ℝ) ^ (-1022 : ℤ) ≤ 2 ^ (-10 : ℤ) := zpow_le_zpow_right₀ (by norm_num) (by norm_num)
      rw [e10] at this; exact this)
    (by rw [hi]; exact hinc) 50 (by norm_num) (by norm_num) g g' m h
  exact ⟨ks, k1, by simpa using k2⟩

end Moledyn.Props
