import Verif.Props.DoubleBox
import Verif.Props.DoubleBall
import Verif.Props.DoubleNormal
import Verif.Props.SafeRuns
import Verif.Props.Agents
import Verif.Props.Random
import Verif.Lemmas.SafeSearches
/-
C92: searches in a box in double precision.
-/
namespace Moledyn.Props
open Moledyn
variable {G : Type}

/-- inside the box. -/
def InBox (n : Nat) (L : Double) (p : Pos Double) : Prop := p.length = n ∧ ∀ x ∈ p, |x.val| ≤ L.val

/-- a displacement a little below `2L`. -/
def ShortMove (L x : Double) : Prop := |x.val| ≤ (2 - 1 / 2 ^ 51) * L.val

private theorem new_cubic_box {bc : BoundaryCond} {L : Double} {n : Nat} {s : Cubic Double} (h : Cubic.new bc L n = .ok s) :
    0 < L.val ∧ s = ⟨.continuousRectangular, bc, L, n⟩ := by
  have z : (Fl.zero : Double).val = 0 := by simp [Fl.zero, Rounding.double.zero]
  unfold Cubic.new at h
  split at h
  · simp at h
  · rename_i hc
    simp only [RF.le_val, z, Bool.or_eq_true, decide_eq_true_eq, not_or, not_le, beq_iff_eq] at hc
    refine ⟨hc.1, ?_⟩
    cases bc with
    | mixed d =>
      simp only at h
      split at h
      · simp at h
      · simp at h; exact h.symm
    | periodic => simp at h; exact h.symm
    | reflection => simp at h; exact h.symm

/-- Double precision: a box is a room in which steps a little below twice the half side are safe. -/
theorem C92_room (rng : RngOps G Double) (hu : ∀ g, 0 < (rng.uniform g).1.val ∧ (rng.uniform g).1.val < 1)
    (bc : BoundaryCond) (L : Double) (hL : L.Rep) (hL1 : 2 ^ (-1000 : ℤ) ≤ L.val) (n : Nat) (s : Cubic Double) (hs : Cubic.new bc L n = .ok s) :
    SafeRoom (s.ops rng) n (InBox n L) (ShortMove L) := by
  have h0 : 0 < L.val := (new_cubic_box hs).1
  have hs' := (new_cubic_box hs).2
  have inside : ∀ p : Pos Double, s.checkInclusion p = .ok true → InBox n L p := by
    intro p hp
    rcases Cubic.checkInclusion_cases s p with ⟨h, e⟩ | ⟨h, e⟩
    · rw [e] at hp; simp at hp
    · rw [e] at hp
      subst hs'
      exact ⟨h.symm, by simpa using hp⟩
  refine ⟨fun p hp => hp.1, fun p z hp hz hb => ?_, fun inner g vec r hv h => ?_, ?_⟩
  · obtain ⟨c1, -, c3, -⟩ := C87_cube bc L hL n s hs p z hp.1 hz
    have hok : (s.checkBc p z).2 = .ok () := by
      refine c3.2 fun i a b ha hb' => ?_
      have ha' := abs_le.1 (hp.2 a (List.mem_of_getElem? ha))
      have hb' := abs_le.1 (hb b (List.mem_of_getElem? hb'))
      rw [RF.val_add]
      have e := double_error (a.val + b.val)
      have hab : |a.val + b.val| ≤ (3 - 1 / 2 ^ 51) * L.val := by
        rw [abs_le]; constructor <;> linarith
      have hz : (2 : ℝ) ^ (-1075 : ℤ) ≤ L.val / 2 ^ 53 := by
        calc (2 : ℝ) ^ (-1075 : ℤ) ≤ 2 ^ (-1053 : ℤ) := zpow_le_zpow_right₀ (by norm_num) (by norm_num)
          _ = 2 ^ (-1000 : ℤ) / 2 ^ 53 := by
            rw [show (-1053 : ℤ) = -1000 - 53 by norm_num, zpow_sub₀ (by norm_num)]; norm_cast
          _ ≤ _ := by gcongr
      have t1 : abs (Rounding.double.rnd (a.val + b.val)) ≤ |a.val + b.val| + (|a.val + b.val| / 2 ^ 53 + 2 ^ (-1075 : ℤ)) := by
        have := abs_sub_abs_le_abs_sub (Rounding.double.rnd (a.val + b.val)) (a.val + b.val)
        linarith
      generalize |a.val + b.val| = q at hab t1
      generalize (2 : ℝ) ^ (-1075 : ℤ) = η at hz t1
      have t2 : q / 2 ^ 53 ≤ (3 - 1 / 2 ^ 51) * L.val / 2 ^ 53 := by gcongr
      refine t1.trans ?_
      have t3 : (3 - 1 / 2 ^ 51) * L.val + ((3 - 1 / 2 ^ 51) * L.val / 2 ^ 53 + L.val / 2 ^ 53) ≤ 3 * L.val := by
        nlinarith
      linarith
    have hinc := (C19_accepted_is_inside s ⟨.continuousCircular, .reflection, L, 1⟩
      ⟨.continuousCylindrical 1, .reflection, L, L, 1⟩ p z).1 hok
    exact ⟨hok, inside _ hinc⟩
  · have hq := (C26_cube_rounded Rounding.double rng hu bc L.val h0 n
      (by have := double_pow2 (e := -1) (by norm_num); norm_num at this ⊢; exact this)
      (by have := double_nat (n := 2) (by norm_num); exact_mod_cast this) hL ((rep_double hL).trans rfl) g vec hv).2
    obtain ⟨q, hq, hin⟩ := hq
    have h' : some (s.randomPosToVec rng g vec) = some r := h
    rw [← Option.some.inj h']
    have e : (⟨.continuousRectangular, bc, ⟨L.val⟩, n⟩ : Cubic Double) = s := hs'.symm
    rw [e] at hq hin
    rw [hq]
    exact ⟨rfl, inside q hin⟩
  · have := (C37_systems_outside_dim rng).1 s; rw [hs'] at this ⊢; exact this

/-- normal numbers of at most `B`. -/
def NormalsUpTo (rng : RngOps G Double) (B : ℝ) : Prop := ∀ g, |(rng.gaussian g).1.val| ≤ B

private theorem rnd_up {x y τ : ℝ} (h0 : 0 ≤ x) (h : x ≤ y) (hτ : (2 : ℝ) ^ (-1075 : ℤ) ≤ τ) : Rounding.double.rnd x ≤ 1001 / 1000 * y + τ := by
  have e := (abs_le.1 (double_error x)).2
  rw [abs_of_nonneg h0] at e
  have : x / 2 ^ 53 ≤ x / 1000 := by gcongr; norm_num
  linarith

private theorem move_bound {q B l x : ℝ} (hq : 0 ≤ q) (hB0 : 0 ≤ B) (hB : B ≤ 100) (hl : 2 ^ (-440 : ℤ) ≤ l)
    (hs : Real.sqrt q * B ≤ 1.9 * l) (hx : |x| ≤ B) :
    abs (Rounding.double.rnd (x * Rounding.double.rnd (Real.sqrt (Rounding.double.rnd q)))) ≤ 1.95 * l := by
  obtain ⟨τ, hτ⟩ : ∃ τ : ℝ, τ = 2 ^ (-537 : ℤ) := ⟨_, rfl⟩
  have t0 : 0 ≤ τ := by rw [hτ]; positivity
  have η : (2 : ℝ) ^ (-1075 : ℤ) ≤ τ := by rw [hτ]; exact zpow_le_zpow_right₀ (by norm_num) (by norm_num)
  have η2 : (2 : ℝ) ^ (-1075 : ℤ) ≤ τ ^ 2 := by
    rw [hτ, ← zpow_natCast, ← zpow_mul]; exact zpow_le_zpow_right₀ (by norm_num) (by norm_num)
  have tl : 1000 * τ ≤ l / 1000 := by
    have : 2 ^ (20 : ℤ) * τ ≤ l := by
      rw [hτ, ← zpow_add₀ (by norm_num)]
      exact le_trans (zpow_le_zpow_right₀ (by norm_num) (by norm_num)) hl
    norm_num at this
    linarith
  have h1 : Rounding.double.rnd q ≤ 1001 / 1000 * q + τ ^ 2 := rnd_up hq le_rfl η2
  have h2 : Real.sqrt (Rounding.double.rnd q) ≤ 1001 / 1000 * Real.sqrt q + τ := by
    have n := Real.sqrt_nonneg q
    rw [Real.sqrt_le_left (by positivity)]
    have e := Real.sq_sqrt hq
    nlinarith [mul_nonneg n t0]
  have h3 := rnd_up (Real.sqrt_nonneg _) h2 η
  have h30 : 0 ≤ Rounding.double.rnd (Real.sqrt (Rounding.double.rnd q)) := by
    rw [← Rounding.double.zero]; exact Rounding.double.mono _ _ (Real.sqrt_nonneg _)
  generalize Rounding.double.rnd (Real.sqrt (Rounding.double.rnd q)) = v at h3 h30
  have h4 : |x * v| ≤ 1.92 * l := by
    rw [abs_mul, abs_of_nonneg h30]
    have a1 : |x| * v ≤ B * v := mul_le_mul_of_nonneg_right hx h30
    have a2 := mul_le_mul_of_nonneg_left h3 hB0
    have a3 : B * τ ≤ 100 * τ := mul_le_mul_of_nonneg_right hB t0
    have a4 : B * (1001 / 1000 * (1001 / 1000 * Real.sqrt q + τ) + τ) = 1002001 / 1000000 * (Real.sqrt q * B) + 2001 / 1000 * (B * τ) := by ring
    rw [a4] at a2
    have l0 : 0 ≤ l := le_trans (by positivity) hl
    linarith
  have h5 := rnd_up (abs_nonneg _) h4 η
  have h6 : abs (Rounding.double.rnd (x * v)) ≤ Rounding.double.rnd |x * v| := by
    rcases abs_cases (x * v) with ⟨e, _⟩ | ⟨e, _⟩
    · rw [e, abs_of_nonneg]
      rw [← Rounding.double.zero]; exact Rounding.double.mono _ _ (by assumption)
    · rw [e, Rounding.double.odd, abs_of_nonpos]
      rw [← Rounding.double.zero]; exact Rounding.double.mono _ _ (le_of_lt (by assumption))
  have l0 : 0 ≤ l := le_trans (by positivity) hl
  linarith

private theorem two_double : (Fl.two : Double).val = 2 := by
  have := double_nat (n := 2) (by norm_num)
  simp only [Fl.two, RF.val_lit]
  exact_mod_cast this

private theorem zero_double : (Fl.zero : Double).val = 0 := by simp [Fl.zero, Rounding.double.zero]

theorem smallMoves_double {rng : RngOps G Double} {B : ℝ} (hB : NormalsUpTo rng B) (hB0 : 0 ≤ B) (hB1 : B ≤ 100) {L D dt : Double}
    (hL : 2 ^ (-440 : ℤ) ≤ L.val) (hD : D.Rep) (hD0 : 0 ≤ D.val) (h0 : 0 ≤ dt.val)
    (hs : Real.sqrt (2 * D.val * dt.val) * B ≤ 1.9 * L.val) : SmallMoves rng (ShortMove L) D dt := by
  intro g
  have l0 : 0 ≤ L.val := le_trans (by positivity) hL
  have r2 : Rounding.double.rnd (2 * D.val) = 2 * D.val := (rep_double hD).trans rfl
  have e : ((rng.gaussian g).1 * Fl.sqrt (Fl.two * D * dt)).val =
      Rounding.double.rnd ((rng.gaussian g).1.val * Rounding.double.rnd (Real.sqrt (Rounding.double.rnd (2 * D.val * dt.val)))) := by
    show Rounding.double.rnd ((rng.gaussian g).1.val * Rounding.double.rnd (Real.sqrt (Rounding.double.rnd
      (Rounding.double.rnd ((Fl.two : Double).val * D.val) * dt.val)))) = _
    rw [two_double, r2]
  have k : ShortMove L ((rng.gaussian g).1 * Fl.sqrt (Fl.two * D * dt)) := by
    unfold ShortMove
    rw [e]
    refine (move_bound (by positivity) hB0 hB1 hL hs (hB g)).trans ?_
    exact mul_le_mul_of_nonneg_right (by norm_num) l0
  refine ⟨k, ?_⟩
  have e' : (Fl.zero + (rng.gaussian g).1 * Fl.sqrt (Fl.two * D * dt) + Fl.zero : Double) = (rng.gaussian g).1 * Fl.sqrt (Fl.two * D * dt) := by
    apply RF.ext
    rw [RF.val_add, RF.val_add, zero_double, add_zero, zero_add, e, Rounding.double.idem, Rounding.double.idem]
  rw [e']
  exact k

/-- a diffusion coefficient up to `D`. -/
def CoefUpTo (D : ℝ) (c : Double) : Prop := c.Rep ∧ 0 ≤ c.val ∧ c.val ≤ D

theorem scalesIn_double {D : ℝ} (hD : 1 ≤ D) : ScalesIn (fun α : Double => 0 ≤ α.val) (CoefUpTo D) := by
  intro α n hα hn
  have one : Rounding.double.rnd 1 = 1 := by simpa using double_nat (n := 1) (by norm_num)
  have e : (Fl.powf (Fl.ofNat n) (-α) : Double).val = Rounding.double.rnd (Rounding.double.rnd (n : ℝ) ^ (-α.val)) := rfl
  have hn1 : 1 ≤ Rounding.double.rnd (n : ℝ) := by
    rw [← one]; exact Rounding.double.mono _ _ (by exact_mod_cast hn)
  refine ⟨Rounding.double.idem _, ?_, ?_⟩
  · rw [e, ← Rounding.double.zero]
    exact Rounding.double.mono _ _ (Real.rpow_nonneg (by linarith) _)
  · rw [e]
    refine le_trans ?_ hD
    rw [← one]
    refine Rounding.double.mono _ _ ?_
    exact Real.rpow_le_one_of_one_le_of_nonpos hn1 (by linarith)

/-! ### the exponential clock -/

/-- the clock's steps are at most `b`. -/
def StepsUpToDouble (b : Double) (c : ExpStep Double) : Prop :=
  (∃ x l, c.titype = .exponential x b l ∧ 0 ≤ x.val ∧ x.val ≤ b.val) ∧ 0 ≤ c.inc.val ∧ 0 ≤ c.dt.val ∧ c.dt.val ≤ b.val

private theorem rnd_nn {x : ℝ} (h : 0 ≤ x) : 0 ≤ Rounding.double.rnd x := by
  rw [← Rounding.double.zero]; exact Rounding.double.mono _ _ h

private theorem expNext_double {b : Double} (c : ExpStep Double) (h : StepsUpToDouble b c) :
    (∃ o, c.next.2 = .ok o) ∧ StepsUpToDouble b c.next.1 := by
  obtain ⟨⟨x, l, h1, hx0, hxb⟩, h2, h3, h4⟩ := h
  have hb : StepsUpToDouble b (c.bump b l) := by
    unfold ExpStep.bump
    split
    · refine ⟨⟨x, l, h1, hx0, hxb⟩, h2, ?_, ?_⟩
      · simp only
        split
        · linarith
        · exact rnd_nn (mul_nonneg h3 h2)
      · simp only
        split
        · exact le_rfl
        · rename_i hn
          simp only [Fl.gt, RF.lt_val, decide_eq_true_eq] at hn
          exact not_lt.1 hn
    · exact ⟨⟨x, l, h1, hx0, hxb⟩, h2, h3, h4⟩
  unfold ExpStep.next
  rw [h1]
  simp only
  split
  · exact ⟨⟨_, rfl⟩, hb⟩
  · exact ⟨⟨_, rfl⟩, hb⟩

private theorem expRenew_double {b : Double} (c : ExpStep Double) (h : StepsUpToDouble b c) :
    c.renew.2 = .ok () ∧ StepsUpToDouble b c.renew.1 := by
  obtain ⟨⟨x, l, h1, hx0, hxb⟩, h2, h3, h4⟩ := h
  have e : c.renew = ({ c with dt := x, current := Fl.zero, count := 0 }, .ok ()) := by
    unfold ExpStep.renew
    rw [h1]
  rw [e]
  exact ⟨rfl, ⟨x, l, h1, hx0, hxb⟩, h2, hx0, hxb⟩

theorem clockIn_double (b : Double) : ClockIn (StepsUpToDouble b) (fun y => 0 ≤ y.val ∧ y.val ≤ b.val) :=
  ⟨fun c hc => by
    obtain ⟨h1, h2⟩ := expNext_double c hc
    exact ⟨h1, h2, h2.2.2.1, h2.2.2.2⟩, fun c hc => expRenew_double c hc⟩

private theorem nat_half_nn (l : Nat) : 0 ≤ ((Fl.ofNat l : Double) / Fl.two).val := by
  rw [RF.val_div, two_double]
  exact rnd_nn (div_nonneg (rnd_nn (Nat.cast_nonneg l)) (by norm_num))

theorem fresh_steps_double {c : ExpStep Double} (h : c.Fresh) : ∃ b, StepsUpToDouble b c := by
  induction h with
  | @new a b l c h =>
    refine ⟨b, ?_⟩
    unfold ExpStep.new at h
    split at h
    · simp at h
    · rename_i hc
      simp only [Fl.gt, RF.lt_val, RF.val_lit, Bool.or_eq_true, decide_eq_true_eq, not_or, not_lt] at hc
      have ha : 0 ≤ a.val := le_trans (rnd_nn (by push_cast; positivity)) hc.1.1
      simp only [Res.ok.injEq] at h
      subst h
      refine ⟨⟨a, l, rfl, ha, hc.1.2⟩, ?_, ha, hc.1.2⟩
      simp only
      split
      · exact rnd_nn (by push_cast; norm_num)
      · split
        · exact nat_half_nn l
        · exact rnd_nn (by push_cast; norm_num)
  | @convert a b l tm c h =>
    refine ⟨b, ?_⟩
    unfold ExpStep.convertFrom at h
    split at h
    · simp at h
    · rename_i hc
      simp only [Fl.gt, RF.lt_val, zero_double, Bool.or_eq_true, decide_eq_true_eq, not_or, not_lt] at hc
      simp only [Res.ok.injEq] at h
      subst h
      exact ⟨⟨a, l, rfl, hc.1.1.2, hc.1.2⟩, rnd_nn (by push_cast; norm_num), hc.1.1.2, hc.1.2⟩
  | @setTmax c t _ ih =>
    obtain ⟨b, h⟩ := ih
    refine ⟨b, ?_⟩
    unfold ExpStep.setTmax
    split
    · exact h
    · split <;> exact h
  | @setInc c x _ ih =>
    obtain ⟨b, h⟩ := ih
    refine ⟨b, ?_⟩
    unfold ExpStep.setInc
    split
    · exact h
    · rename_i hx
      have one : (Fl.one : Double).val = 1 := by
        have := double_nat (n := 1) (by norm_num)
        simp only [Fl.one, RF.val_lit]
        exact_mod_cast this
      simp only [RF.le_val, one, decide_eq_true_eq, not_le] at hx
      obtain ⟨⟨y, l, h1, hy⟩, h2, h3⟩ := h
      rw [h1]
      simp only
      split
      · exact ⟨⟨y, l, rfl, hy⟩, nat_half_nn l, h3⟩
      · exact ⟨⟨y, l, rfl, hy⟩, by simp only; linarith, h3⟩

section
variable (rng : RngOps G Double) (B : ℝ) (hB : NormalsUpTo rng B) (hB0 : 0 ≤ B) (hB1 : B ≤ 100)
  (hu : ∀ g, 0 < (rng.uniform g).1.val ∧ (rng.uniform g).1.val < 1)
  (bc : BoundaryCond) (L : Double) (hL : L.Rep) (hL1 : 2 ^ (-440 : ℤ) ≤ L.val) (d : Nat) (s : Cubic Double) (hs : Cubic.new bc L d = .ok s)
  (t : BulkTarget Double) (ht : t.targetPos.length = d)
include hB hB0 hB1 hu hL hL1 hs ht

omit hB hB0 hB1 ht in
private theorem box_room : SafeRoom (s.ops rng) d (InBox d L) (ShortMove L) :=
  C92_room rng hu bc L hL (le_trans (zpow_le_zpow_right₀ (by norm_num) (by norm_num)) hL1) d s hs

/-- Double precision, a box: independent searchers whose steps are at most 0.95 times the width `2L` of the box never fail, however many
there are, whatever the seed and however long it takes. -/
theorem C92_searchers (D dt : Double) (hD : D.Rep) (hD0 : 0 ≤ D.val) (h0 : 0 ≤ dt.val)
    (hsm : Real.sqrt (2 * D.val * dt.val) * B ≤ 1.9 * L.val) (inner loops fuel steps : Nat) :
    (∀ g, Succeeds (oneSearcher rng (s.ops rng) t.ops inner loops steps (.brownian D) dt g)) ∧
    (∀ k g, Succeeds (nSearchersFpt rng (s.ops rng) t.ops inner loops steps (.brownian D) dt k g)) ∧
    (∀ k g, Succeeds (indepRun rng (s.ops rng) t.ops inner loops fuel steps (.brownian D) dt k g)) ∧
    (∀ n g, Succeeds (ensembleMean (oneSearcher rng (s.ops rng) t.ops inner loops steps (.brownian D) dt) n g)) ∧
    (∀ n buf g, buf.length = d → Succeeds (ensembleMean (oneBuffered rng (s.ops rng) t.ops inner loops steps (.brownian D) dt) n (buf, g))) ∧
    (∀ k n g, Succeeds (ensembleMean (nSearchersFpt rng (s.ops rng) t.ops inner loops steps (.brownian D) dt k) n g)) ∧
    (∀ k n g, Succeeds (ensembleMean (indepRun rng (s.ops rng) t.ops inner loops fuel steps (.brownian D) dt k) n g)) :=
  searchers_safe (box_room rng hu bc L hL hL1 d s hs) t ht D dt
    (smallMoves_double hB hB0 hB1 hL1 hD hD0 h0 hsm) inner loops fuel steps

omit hu hL s hs ht in
private theorem coef_moves {M b : ℝ} (hM : 0 ≤ M) (hsm : Real.sqrt (2 * M * b) * B ≤ 1.9 * L.val) (c dt : Double) (hc : CoefUpTo M c)
    (h0 : 0 ≤ dt.val) (hb : dt.val ≤ b) : SmallMoves rng (ShortMove L) c dt := by
  refine smallMoves_double hB hB0 hB1 hL1 hc.1 hc.2.1 h0 (le_trans (mul_le_mul_of_nonneg_right (Real.sqrt_le_sqrt ?_) hB0) hsm)
  have h2 := hc.2.1
  calc 2 * c.val * dt.val ≤ 2 * M * dt.val := by gcongr; exact hc.2.2
    _ ≤ 2 * M * b := by gcongr

/-- Merging searchers: their diffusion coefficient is `D` before the first merge and at most 1 after it. -/
theorem C92_merging (D dt : Double) (hD : D.Rep) (hD0 : 0 ≤ D.val) (h0 : 0 ≤ dt.val)
    (hsm : Real.sqrt (2 * max D.val 1 * dt.val) * B ≤ 1.9 * L.val) (radius alpha : Double) (hal : 0 ≤ alpha.val)
    (inner loops fuel steps k : Nat) :
    (∀ g, Succeeds (mergeRun rng (s.ops rng) t.ops inner loops fuel steps (.brownian D) radius alpha dt k g)) ∧
    (∀ n g, Succeeds (ensembleMean (mergeRun rng (s.ops rng) t.ops inner loops fuel steps (.brownian D) radius alpha dt k) n g)) := by
  have hM : (0 : ℝ) ≤ max D.val 1 := le_trans (by norm_num) (le_max_right _ 1)
  exact mergers_safe (box_room rng hu bc L hL hL1 d s hs) t ht (scalesIn_double (le_max_right D.val 1)) D dt
    ⟨hD, hD0, le_max_left _ _⟩
    (fun c hc => coef_moves rng B hB hB0 hB1 L hL1 hM hsm c dt hc h0 le_rfl) radius alpha hal inner loops fuel steps k

/-- Ensembles of merging searchers with the exponential clock, whose steps grow up to `dtMax`: the only possible failure is that the
clock's time is up. -/
theorem C92_large_n (clock : ExpStep Double) (hfresh : clock.Fresh) (dtMin dtMax : Double) (len : Nat)
    (hty : clock.titype = .exponential dtMin dtMax len) (D : Double) (hD : D.Rep) (hD0 : 0 ≤ D.val)
    (hsm : Real.sqrt (2 * max D.val 1 * dtMax.val) * B ≤ 1.9 * L.val) (radius alpha : Double) (hal : 0 ≤ alpha.val)
    (inner loops fuel steps k : Nat) (g g1 : G) (v : List (MergeAgent Double))
    (hv : makeAgents (fun g => MergeAgent.newUniform (s.ops rng) t.ops inner loops g (.brownian D) radius alpha) k g = some (.ok v, g1))
    (n : Nat) (x) (h : ensembleMean (largeNRun rng (s.ops rng) t.ops inner loops fuel steps) n (LList.from' v, clock, g1) = some x) :
    (∃ m, x.1 = .ok m) ∨ x.1 = .err .unexpectedEnd := by
  obtain ⟨b, hb⟩ := fresh_steps_double hfresh
  obtain rfl : b = dtMax := by
    obtain ⟨⟨y, l, h1, -⟩, -⟩ := hb
    rw [hty] at h1
    simp only [TimeType.exponential.injEq] at h1
    exact h1.2.1.symm
  have hM : (0 : ℝ) ≤ max D.val 1 := le_trans (by norm_num) (le_max_right _ 1)
  exact largeN_safe (box_room rng hu bc L hL hL1 d s hs) t ht (scalesIn_double (le_max_right D.val 1)) (clockIn_double b)
    (fun dt hdt c hc => coef_moves rng B hB hB0 hB1 L hL1 hM hsm c dt hc hdt.1 hdt.2) clock hb D
    ⟨hD, hD0, le_max_left _ _⟩ radius alpha hal inner loops fuel steps k g g1 v hv n x h
end

/-- The crate's own generator in double precision. -/
theorem C92_generator (t : ZigTables Double) (ht : DoubleTables t) (n : Nat) :
    (∀ g, 0 < ((t.ops n).uniform g).1.val ∧ ((t.ops n).uniform g).1.val < 1) ∧ NormalsUpTo (t.ops n) 13.75 := by
  refine ⟨fun g => C84_open_interval.2 _ g, fun g => ?_⟩
  show |((t.gaussian n g).getD (Fl.zero, g)).1.val| ≤ 13.75
  rcases h : t.gaussian n g with _ | ⟨v, g'⟩
  · simp only [Option.getD_none, zero_double]; norm_num
  · exact (C91_bounded t ht n g v g' h).2.2

/-- With the crate's generator: a periodic or reflecting square of half side 10, diffusion coefficient 1, any time step up to
1/2, any seed: no ensemble of searchers fails, merging or not. -/
theorem C92_crate (z : ZigTables Double) (hz : DoubleTables z) (draws : Nat) (bc : BoundaryCond) (s : Cubic Double)
    (hs : Cubic.new bc ⟨10⟩ 2 = .ok s) (dt : Double) (h0 : 0 ≤ dt.val) (hdt : dt.val ≤ 1 / 2) (t : BulkTarget Double) (ht : t.targetPos.length = 2)
    (inner loops fuel steps n k : Nat) (g : Pcg64) (radius alpha : Double) (hal : 0 ≤ alpha.val) :
    let rng := z.ops draws
    Succeeds (ensembleMean (oneSearcher rng (s.ops rng) t.ops inner loops steps (.brownian ⟨1⟩) dt) n g) ∧
    Succeeds (ensembleMean (nSearchersFpt rng (s.ops rng) t.ops inner loops steps (.brownian ⟨1⟩) dt k) n g) ∧
    Succeeds (ensembleMean (indepRun rng (s.ops rng) t.ops inner loops fuel steps (.brownian ⟨1⟩) dt k) n g) ∧
    Succeeds (ensembleMean (mergeRun rng (s.ops rng) t.ops inner loops fuel steps (.brownian ⟨1⟩) radius alpha dt k) n g) := by
  intro rng
  obtain ⟨hu, hB⟩ := C92_generator z hz draws
  have one : (⟨1⟩ : Double).Rep := by have := double_nat (n := 1) (by norm_num); exact_mod_cast this
  have ten : (⟨10⟩ : Double).Rep := by have := double_nat (n := 10) (by norm_num); exact_mod_cast this
  have hL : (2 : ℝ) ^ (-440 : ℤ) ≤ (⟨10⟩ : Double).val := by
    calc (2 : ℝ) ^ (-440 : ℤ) ≤ 2 ^ (0 : ℤ) := zpow_le_zpow_right₀ (by norm_num) (by norm_num)
      _ ≤ 10 := by norm_num
  have h1 : Real.sqrt (2 * 1 * dt.val) ≤ 1 := by rw [Real.sqrt_le_left (by norm_num)]; linarith
  have hsm : Real.sqrt (2 * 1 * dt.val) * 13.75 ≤ 1.9 * 10 := by
    generalize Real.sqrt (2 * 1 * dt.val) = y at h1
    linarith
  obtain ⟨-, -, -, a1, -, a2, a3⟩ := C92_searchers rng 13.75 hB (by norm_num) (by norm_num) hu bc ⟨10⟩ ten hL 2 s hs t ht ⟨1⟩ dt one
    (by norm_num) h0 hsm inner loops fuel steps
  refine ⟨a1 n g, a2 k n g, a3 k n g, ?_⟩
  exact (C92_merging rng 13.75 hB (by norm_num) (by norm_num) hu bc ⟨10⟩ ten hL 2 s hs t ht ⟨1⟩ dt one (by norm_num) h0
    (by simpa using hsm) radius alpha hal inner loops fuel steps k).2 n g

/-- The system and the tables exist. -/
example : (∃ s : Cubic Double, Cubic.new .periodic ⟨10⟩ 2 = .ok s) ∧ ∃ z : ZigTables Double, DoubleTables z :=
  ⟨⟨⟨.continuousRectangular, .periodic, ⟨10⟩, 2⟩, by unfold Cubic.new; rw [if_neg (by simp [Rounding.double.zero])]⟩, doubleTables, doubleTables_ok⟩

/-- Likewise an exponential clock for `C92_large_n`, with steps from 1/2 to 1. -/
example : ∃ c : ExpStep Double, ExpStep.new ⟨1 / 2⟩ ⟨1⟩ 10 = .ok c ∧ c.Fresh ∧ c.titype = .exponential ⟨1 / 2⟩ ⟨1⟩ 10 := by
  have hn : ∃ c : ExpStep Double, ExpStep.new ⟨1 / 2⟩ ⟨1⟩ 10 = .ok c ∧ c.titype = .exponential ⟨1 / 2⟩ ⟨1⟩ 10 := by
    unfold ExpStep.new
    have h : Rounding.double.rnd (1 / 10 ^ 15) ≤ 1 / 2 := by
      have := Rounding.double.mono (1 / 10 ^ 15) (1 / 2) (by norm_num)
      have e := double_pow2 (e := -1) (by norm_num)
      norm_num at e this ⊢
      linarith
    rw [if_neg]
    · exact ⟨_, rfl, rfl⟩
    · simp only [Fl.gt, RF.lt_val, RF.val_lit]
      push_cast
      norm_num at h ⊢
      exact h
  obtain ⟨c, h, h'⟩ := hn
  exact ⟨c, h, .new h, h'⟩

/-! ### a disc is not as safe -/

/-- uniform numbers 1/2; normal numbers that are the two coordinates of `edgePoint` in turn. -/
noncomputable def edgeRng : RngOps Bool Double :=
  ⟨fun g => (⟨1 / 2⟩, g), fun g => (if g then ⟨6752732194140875 / 2 ^ 51⟩ else ⟨6492949240383453 / 2 ^ 50⟩, !g)⟩

/-- A finding: in a disc, double precision can make a search fail where exact arithmetic cannot.  Disc of radius 13, diffusion
coefficient 1/2, time step 1, target of radius 1 at (-6, 0).  With normal numbers of at most 7 no search fails in exact
arithmetic, whatever the generator; in double precision there is such a generator with which the second step is refused. -/
theorem C92_disc_fails :
    (∀ {G : Type} (rng : RngOps G ℝ), (∀ g, 0 < (rng.uniform g).1 ∧ (rng.uniform g).1 < 1) → (∀ g, |(rng.gaussian g).1| ≤ 7) →
      ∀ s : Circ ℝ, Circ.new 13 2 = .ok s → ∀ inner loops steps g,
        Succeeds (oneSearcher rng (s.ops rng) (BulkTarget.new [-6, 0] 1).ops inner loops steps (.brownian (1 / 2)) 1 g)) ∧
    ∃ rng : RngOps Bool Double, (∀ g, (rng.uniform g).1.val = 1 / 2) ∧ (∀ g, (rng.gaussian g).1.Rep ∧ |(rng.gaussian g).1.val| ≤ 7) ∧
      ∃ s : Circ Double, Circ.new ⟨13⟩ 2 = .ok s ∧ ∀ inner loops steps, 2 ≤ steps → 1 ≤ loops → 1 ≤ inner →
        ∃ g', oneSearcher rng (s.ops rng) (BulkTarget.new [⟨-6⟩, ⟨0⟩] ⟨1⟩).ops inner loops steps (.brownian ⟨1 / 2⟩) ⟨1⟩ true =
          some (.err .tooLargeTimeStep, g') := by
  constructor
  · intro G rng hu hB s hs inner loops steps g
    have hr := (C86_rooms rng hu 2).2.1 13 s hs
    refine (C86_searchers rng 7 hB _ 2 _ _ hr (BulkTarget.new [-6, 0] 1) rfl (1 / 2) 1 ?_ inner loops 1 steps).1 g
    have h2 : Real.sqrt ((2 : ℕ) : ℝ) ≤ 1.5 := by rw [Real.sqrt_le_left (by norm_num)]; norm_num
    have h3 : 0 < Real.sqrt ((2 : ℕ) : ℝ) := Real.sqrt_pos.2 (by norm_num)
    have e : Real.sqrt (2 * (1 / 2) * 1) = 1 := by norm_num
    rw [e, le_div_iff₀ h3]
    generalize Real.sqrt ((2 : ℕ) : ℝ) = y at h2
    linarith
  obtain ⟨s, s', hnew, -, r13, hrep, -, hin, hrad, -, hrefuse⟩ := edge_refused
  have hsz : s = ⟨.continuousCircular, .reflection, ⟨13⟩, 2⟩ := by
    unfold Circ.new at hnew
    split at hnew
    · simp at hnew
    · exact (Res.ok.inj hnew).symm
  have ra : (⟨6752732194140875 / 2 ^ 51⟩ : Double).Rep := hrep _ (by simp [edgePoint])
  have rb : (⟨6492949240383453 / 2 ^ 50⟩ : Double).Rep := hrep _ (by simp [edgePoint])
  refine ⟨edgeRng, fun g => rfl, fun g => ?_, s, hnew, fun inner loops steps h2 h1 h0 => ?_⟩
  · cases g
    · exact ⟨rb, by show |(6492949240383453 / 2 ^ 50 : ℝ)| ≤ 7; rw [abs_of_nonneg (by norm_num)]; norm_num⟩
    · exact ⟨ra, by show |(6752732194140875 / 2 ^ 51 : ℝ)| ≤ 7; rw [abs_of_nonneg (by norm_num)]; norm_num⟩
  have one : Rounding.double.rnd 1 = 1 := by simpa using double_nat (n := 1) (by norm_num)
  have r26 : Rounding.double.rnd 26 = 26 := by have := double_nat (n := 26) (by norm_num); exact_mod_cast this
  have r13' : Rounding.double.rnd 13 = 13 := r13
  have hn0 : (Fl.zero : Double) = ⟨0⟩ := RF.ext zero_double
  have hlen : edgePoint.length = 2 := rfl
  -- the target is far
  have far : ∀ p : Pos Double, p = [Fl.zero, Fl.zero] ∨ p = edgePoint →
      (BulkTarget.new [⟨-6⟩, ⟨0⟩] ⟨1⟩ : BulkTarget Double).ops.checkFind p = .ok false := by
    intro p hp
    have r6 : (⟨-6⟩ : Double).Rep := by
      have := double_nat (n := 6) (by norm_num)
      show Rounding.double.rnd (-6) = -6
      rw [Rounding.double.odd]
      have h : Rounding.double.rnd 6 = 6 := by exact_mod_cast this
      rw [h]
    have z0 : (⟨0⟩ : Double).Rep := Rounding.double.zero
    have hl : p.length = 2 := by rcases hp with rfl | rfl <;> rfl
    have hr : ∀ x ∈ p, x.Rep := by
      rcases hp with rfl | rfl
      · intro x hx
        rw [hn0] at hx
        simp only [List.mem_cons, List.not_mem_nil, or_false, or_self] at hx
        rw [hx]; exact z0
      · exact hrep
    obtain ⟨b, hb, -, hf⟩ := C90_find [⟨-6⟩, ⟨0⟩] p ⟨1⟩ (by rw [hl]; rfl) (by norm_num)
      (by intro x hx
          simp only [List.mem_cons, List.not_mem_nil, or_false] at hx
          rcases hx with rfl | rfl
          · exact r6
          · exact z0) hr
    show (BulkTarget.new [⟨-6⟩, ⟨0⟩] ⟨1⟩ : BulkTarget Double).checkFind p = .ok false
    rw [hb, hf]
    have ap : 3 ≤ apart (List.map RF.val [(⟨-6⟩ : Double), ⟨0⟩]) (List.map RF.val p) := by
      rw [apart_eq]
      refine Real.le_sqrt_of_sq_le ?_
      rcases hp with rfl | rfl
      · rw [hn0]
        simp [Pos.diff, Pos.sumSq]
        norm_num
      · simp [Pos.diff, Pos.sumSq, edgePoint]
        norm_num
    have t : (2 : ℝ) ^ (-537 : ℤ) ≤ 1 / 10 := by
      calc (2 : ℝ) ^ (-537 : ℤ) ≤ 2 ^ (-10 : ℤ) := zpow_le_zpow_right₀ (by norm_num) (by norm_num)
        _ ≤ 1 / 10 := by norm_num
    generalize apart (List.map RF.val [(⟨-6⟩ : Double), ⟨0⟩]) (List.map RF.val p) = q at ap
    generalize (2 : ℝ) ^ (-537 : ℤ) = τ at t
    norm_num
    linarith
  -- the step length is 1
  have hlenOne : (Fl.sqrt (Fl.two * ⟨1 / 2⟩ * ⟨1⟩) : Double) = ⟨1⟩ := by
    apply RF.ext
    show Rounding.double.rnd (Real.sqrt (Rounding.double.rnd (Rounding.double.rnd ((Fl.two : Double).val * (1 / 2)) * 1))) = 1
    rw [two_double, show (2 : ℝ) * (1 / 2) = 1 by norm_num, one, mul_one, one, Real.sqrt_one, one]
  have mulOne : ∀ x : Double, x.Rep → x * ⟨1⟩ = x := fun x hx => RF.ext (by rw [RF.val_mul, mul_one]; exact hx)
  have hmove : ∀ a : IndepAgent Double, a.dim = 2 → a.mtype = .brownian ⟨1 / 2⟩ → a.randomMove edgeRng true ⟨1⟩ = (.ok edgePoint, true) := by
    intro a h1 h2
    unfold IndepAgent.randomMove AgentCore.randomMove
    rw [h1, h2]
    simp only [hlenOne, Random.getGaussianVec, List.replicate, Random.sweep, edgeRng, Pos.mutScalarMul, List.map_cons, List.map_nil]
    simp only [if_true, Bool.not_true, Bool.not_false, Bool.false_eq_true, if_false, mulOne _ ra, mulOne _ rb]
    rfl
  have zadd : ∀ x : Double, x.Rep → Fl.zero + x = x := fun x hx => RF.ext (by rw [RF.val_add, zero_double, zero_add]; exact hx)
  have hfirst : s.checkBc [Fl.zero, Fl.zero] edgePoint = (edgePoint, .ok ()) := by
    rw [hsz]
    have h := (checkBc_double ⟨13⟩ 2 [Fl.zero, Fl.zero] edgePoint rfl rfl).1
    have hq : List.zipWith (· + ·) [Fl.zero, Fl.zero] edgePoint = edgePoint := by
      simp only [edgePoint, List.zipWith_cons_cons, List.zipWith_nil_right, zadd _ ra, zadd _ rb]
    rw [hq] at h
    refine h ?_
    rw [hsz, incl_double ⟨13⟩ 2 edgePoint rfl] at hin
    simpa using hin
  have hplace : IndepAgent.newUniform (s.ops edgeRng) (BulkTarget.new [⟨-6⟩, ⟨0⟩] ⟨1⟩ : BulkTarget Double).ops inner loops true (.brownian ⟨1 / 2⟩) =
      some (.ok ⟨.continuousPassiveIndependent, .brownian ⟨1 / 2⟩, .uniform, 2, [Fl.zero, Fl.zero]⟩, true) := by
    obtain ⟨loops, rfl⟩ : ∃ m, loops = m + 1 := ⟨loops - 1, by omega⟩
    obtain ⟨inner, rfl⟩ : ∃ m, inner = m + 1 := ⟨inner - 1, by omega⟩
    have hz : (Fl.zero + ⟨1 / 2⟩ * (⟨13⟩ - -⟨13⟩) + -⟨13⟩ : Double) = Fl.zero := by
      apply RF.ext
      show Rounding.double.rnd (Rounding.double.rnd ((Fl.zero : Double).val + Rounding.double.rnd (1 / 2 * Rounding.double.rnd (13 - -13))) + -13) =
        (Fl.zero : Double).val
      rw [zero_double, show (13 : ℝ) - -13 = 26 by norm_num, r26, show (1 / 2 : ℝ) * 26 = 13 by norm_num, r13', zero_add, r13',
        show (13 : ℝ) + -13 = 0 by norm_num, Rounding.double.zero]
    have hvec : ∀ vec : Pos Double, vec.length = 2 → s.randomPosToVec edgeRng (inner + 1) true vec = some (.ok [Fl.zero, Fl.zero], true) := by
      intro vec hv
      obtain ⟨a, b, rfl⟩ : ∃ a b, vec = [a, b] := by
        match vec, hv with
        | [a, b], _ => exact ⟨a, b, rfl⟩
      unfold Circ.randomPosToVec
      rw [hsz, if_neg (by simp [Pos.dim]), rejectLoop]
      have hi : (⟨.continuousCircular, .reflection, ⟨13⟩, 2⟩ : Circ Double).checkInclusion [Fl.zero, Fl.zero] = .ok true := by
        rw [incl_double ⟨13⟩ 2 [Fl.zero, Fl.zero] rfl]
        have hnorm : (Pos.norm [(Fl.zero : Double), Fl.zero]).val = 0 := by
          show Rounding.double.rnd (Real.sqrt (Rounding.double.rnd (Rounding.double.rnd ((Fl.zero : Double).val +
            Rounding.double.rnd ((Fl.zero : Double).val * (Fl.zero : Double).val)) + Rounding.double.rnd ((Fl.zero : Double).val * (Fl.zero : Double).val)))) = 0
          simp [Rounding.double.zero]
        rw [hnorm]
        simp
      have hp : Circ.proposeToVec edgeRng (⟨.continuousCircular, .reflection, ⟨13⟩, 2⟩ : Circ Double) [a, b] true =
          (.ok (some [Fl.zero, Fl.zero]), true) := by
        have hsw : Random.getUniformToVecNonstandard edgeRng true (Pos.clear Fl.zero [a, b]) (-⟨13⟩) ⟨13⟩ = ([Fl.zero, Fl.zero], true) := by
          simp only [Random.getUniformToVecNonstandard, Pos.clear, List.map_cons, List.map_nil, Random.sweep, edgeRng, hz]
        unfold Circ.proposeToVec
        simp only [hsw, hi, Res.map, if_true]
      rw [hp]
    unfold IndepAgent.newUniform
    rw [AgentCore.drawOffTarget]
    have hout : ((s.ops edgeRng).positionOut).length = 2 := by rw [hsz]; rfl
    have hrp : (s.ops edgeRng).randomPosToVec (inner + 1) true (s.ops edgeRng).positionOut = some (([Fl.zero, Fl.zero], .ok ()), true) := by
      show wroteVec _ (s.randomPosToVec edgeRng (inner + 1) true (s.ops edgeRng).positionOut) = _
      rw [hvec _ hout]
      rfl
    rw [hrp]
    simp only [far _ (.inl rfl), Option.map_some, Res.map]
    rfl
  obtain ⟨steps, rfl⟩ : ∃ m, steps = m + 2 := ⟨steps - 2, by omega⟩
  unfold oneSearcher
  rw [hplace]
  simp only
  rw [whileSearch]
  simp only [far _ (.inl rfl)]
  have hb : ∀ p z, (s.ops edgeRng).checkBc p z = s.checkBc p z := fun _ _ => rfl
  have t1 : freshTurn edgeRng (s.ops edgeRng) ⟨1⟩
      ((⟨.continuousPassiveIndependent, .brownian ⟨1 / 2⟩, .uniform, 2, [Fl.zero, Fl.zero]⟩ : IndepAgent Double), true) =
      ((⟨.continuousPassiveIndependent, .brownian ⟨1 / 2⟩, .uniform, 2, edgePoint⟩, true), .ok ()) := by
    unfold freshTurn
    rw [hmove _ rfl rfl]
    simp only [hb, hfirst]
  have t2 : freshTurn edgeRng (s.ops edgeRng) ⟨1⟩
      ((⟨.continuousPassiveIndependent, .brownian ⟨1 / 2⟩, .uniform, 2, edgePoint⟩ : IndepAgent Double), true) =
      ((⟨.continuousPassiveIndependent, .brownian ⟨1 / 2⟩, .uniform, 2, (s.checkBc edgePoint edgePoint).1⟩, true), .err .tooLargeTimeStep) := by
    unfold freshTurn
    rw [hmove _ rfl rfl]
    simp only [hb, hrefuse]
  rw [t1]
  simp only
  rw [whileSearch]
  simp only [far _ (.inr rfl)]
  rw [t2]
  exact ⟨_, rfl⟩

end Moledyn.Props
