import Verif.Props.DoubleSearch
import Verif.Lemmas.SafeExp
import Verif.Lemmas.ExpSphere
import Verif.Lemmas.DoubleNorm
/-
C116: the programs that write one number per ensemble (tests/arguments.rs, tests/test_setup.rs, examples/mfpt_exp.rs) do not
fail when the steps are safe.
-/
namespace Moledyn.Props
open Moledyn
variable {G F : Type}

private theorem later [Fl F] (agentType : AgentType) (D : F) (itype : InitType F) (N d : Nat) :
    ∀ a ∈ IndepAgent.convertFrom agentType (.brownian D) itype N, FreshLater d D a := by
  intro a ha
  unfold IndepAgent.convertFrom at ha
  obtain ⟨-, rfl⟩ := List.mem_replicate.1 ha
  refine ⟨rfl, ?_⟩
  cases itype with
  | uniform =>
    rcases Nat.eq_zero_or_pos d with h | h
    · exact .inl h.symm
    · exact .inr h.ne
  | specificPosition p => exact (em (p.length = d)).imp id id

private theorem pushLater [Fl F] {D : F} {itype : InitType F} {gamma strength : F} {d N : Nat} {v : List (ExpAgent F)}
    (hv : ExpAgent.convertFrom (.brownian D) itype gamma d strength N = .ok v) : v.length = N ∧ ∀ a ∈ v, PushLater d D a := by
  unfold ExpAgent.convertFrom at hv
  simp only at hv
  split at hv
  · simp at hv
  · simp only [Res.ok.injEq] at hv
    subst hv
    refine ⟨by simp, fun a ha => ?_⟩
    obtain ⟨-, rfl⟩ := List.mem_replicate.1 ha
    exact ⟨rfl, .inl rfl⟩

/-! ### exact arithmetic -/

/-- The programs of tests/test_setup.rs and tests/arguments.rs in any room in which steps up to `a` are safe: if the diffusion
coefficient, the time step and the largest normal number `B` do not allow longer steps, then no ensemble fails, whatever the seed, the
target, the numbers of searchers and ensembles and however long it takes. -/
theorem C116_bundled (rng : RngOps G ℝ) (B : ℝ) (hB : BoundedNormals rng B) (sys : SysOps G ℝ) (d : Nat) (I : Pos ℝ → Prop) (a : ℝ)
    (hr : SafeRoom sys d I (fun x => |x| ≤ a)) (t : BulkTarget ℝ) (ht : t.targetPos.length = d) (D : ℝ) (inner loops fuel steps : Nat) :
    (∀ dt, Real.sqrt (2 * D * dt) * B ≤ a → ∀ n k g,
      WritesAll k (expLoop (prunedRun rng sys t.ops inner loops steps (.brownian D) dt n) k (List.replicate d 0, g))) ∧
    (∀ clock : ConstStep ℝ, Real.sqrt (2 * D * clock.dt) * B ≤ a → ∀ agentType itype n k g,
      WritesAll k (expLoop (listRun rng sys t.ops inner loops fuel steps clock) k
        (listStart (IndepAgent.convertFrom agentType (.brownian D) itype n) d g))) := by
  obtain ⟨h1, h2⟩ := bundled_safe hr t ht D inner loops fuel steps
  exact ⟨fun dt hs n k g => h1 dt (smallMoves_real hB hs) n k _ g (by simp),
    fun clock hs agentType itype n k g => h2 clock (smallMoves_real hB hs) _ (later agentType D itype n d) k g⟩

private theorem abs_le_radius (v : List ℝ) : ∀ x ∈ v, |x| ≤ radius v := by
  intro x hx
  rw [← Real.sqrt_sq_eq_abs]
  refine Real.sqrt_le_sqrt ?_
  induction v with
  | nil => simp at hx
  | cons y v ih =>
    have hnn : 0 ≤ (v.map fun x : ℝ => x ^ 2).sum := List.sum_nonneg (by
      intro z hz
      obtain ⟨w, -, rfl⟩ := List.mem_map.1 hz
      positivity)
    simp only [List.map_cons, List.sum_cons]
    rcases List.mem_cons.1 hx with rfl | hx
    · linarith
    · have := ih hx
      have := sq_nonneg y
      linarith

/-- The program of examples/mfpt_exp.rs in any such room: when its limit of the displacements is at most `a`, no ensemble fails.  The
random numbers need not be bounded. -/
theorem C116_mfpt_exp (rng : RngOps G ℝ) (sys : SysOps G ℝ) (d : Nat) (I : Pos ℝ → Prop) (a : ℝ)
    (hr : SafeRoom sys d I (fun x => |x| ≤ a)) (t : BulkTarget ℝ) (ht : t.targetPos.length = d) (limit : ℝ) (h0 : 0 < limit) (ha : limit ≤ a)
    (D gamma strength : ℝ) (itype : InitType ℝ) (N : Nat) (v : List (ExpAgent ℝ))
    (hv : ExpAgent.convertFrom (.brownian D) itype gamma d strength N = .ok v) (clock : ExpStep ℝ) (dtMin dtMax : ℝ) (len : Nat)
    (hty : clock.titype = .exponential dtMin dtMax len) (inner loops fuel steps : Nat) (hf : N * N + N < fuel) (k : Nat) (g : G) :
    WritesAll k (expLoop (expRun rng sys t.ops limit inner loops fuel steps clock) k (expStart v d g)) := by
  obtain ⟨hl, hall⟩ := pushLater hv
  refine expProgram_safe hr t ht (fun w hw => ⟨by rw [limitMove_length, hw], fun x hx => ?_⟩) v hall inner loops fuel steps (by rw [hl]; exact hf)
    clock ⟨_, _, _, hty⟩ k g
  exact ((abs_le_radius _ x hx).trans (limitMove_le limit h0 w)).trans ha

/-! ### double precision -/

/-- rounding at most doubles. -/
theorem double_le_twice {y : ℝ} (h : 0 ≤ y) : Rounding.double.rnd y ≤ 2 * y := by
  show binaryRound 53 (-1074) y ≤ 2 * y
  unfold binaryRound
  have hp := two_zpow_pos (lastBit 53 (-1074) y)
  generalize (2 : ℝ) ^ lastBit 53 (-1074) y = q at hp
  have h1 := (abs_le.1 (roundEven_spec (y / q)).1).2
  have hy : 0 ≤ y / q := by positivity
  have key : (roundEven (y / q) : ℝ) ≤ 2 * (y / q) := by
    rcases le_or_gt (roundEven (y / q)) 0 with hn | hn
    · have : (roundEven (y / q) : ℝ) ≤ 0 := by exact_mod_cast hn
      linarith
    · have : (1 : ℝ) ≤ roundEven (y / q) := by exact_mod_cast hn
      linarith
  calc (roundEven (y / q) : ℝ) * q ≤ 2 * (y / q) * q := mul_le_mul_of_nonneg_right key hp.le
    _ = 2 * y := by field_simp

private theorem limit_num {x r n l e y c : ℝ} (hx : |x| ≤ r) (h1 : r ≤ 1.001 * (n + e)) (he : e ≤ l / 1000) (hl : 0 < l)
    (hy : n / l ≤ 1.001 * y) (hy1 : 1 < y) (hc0 : 0 ≤ c) (hc : c ≤ 2 * (1 / y)) : |x * c| ≤ 2.01 * l := by
  have y0 : 0 < y := by linarith
  have hn : n ≤ 1.001 * y * l := by rwa [div_le_iff₀ hl] at hy
  have hxl : |x| ≤ 1.004 * (y * l) := by
    have : l ≤ y * l := by nlinarith
    nlinarith
  rw [abs_mul, abs_of_nonneg hc0]
  calc |x| * c ≤ 1.004 * (y * l) * (2 * (1 / y)) := mul_le_mul hxl hc hc0 (by positivity)
    _ = 2.008 * l := by field_simp; norm_num
    _ ≤ _ := by linarith

/-- the limit of examples/mfpt_exp.rs in double precision: the displacements are hardly longer than the limit. -/
theorem limits_double {d : Nat} (hd : d ≤ 2 ^ 26) {L limit : Double} (h0 : 2 ^ (-440 : ℤ) ≤ limit.val) (hL : limit.val ≤ 0.99 * L.val) :
    LimitsMoves d (ShortMove L) limit := by
  intro v hv
  have l0 : 0 < limit.val := lt_of_lt_of_le (by positivity) h0
  have hnorm := norm_double v (by rw [hv]; exact hd)
  have hdr : ((v.length : ℝ) + 3) ≤ 2 ^ 27 := by
    rw [hv]
    have : (d : ℝ) ≤ 2 ^ 26 := by exact_mod_cast hd
    calc (d : ℝ) + 3 ≤ 2 ^ 26 + 3 := by linarith
      _ ≤ 2 ^ 27 := by norm_num
  have r0 := radius_nn (v.map RF.val)
  set r := radius (v.map RF.val) with hr
  set n := v.norm.val with hn
  -- the absolute error
  have habs : ((v.length : ℝ) + 1) * 2 ^ (-537 : ℤ) ≤ 2 ^ (-510 : ℤ) := by
    have e : (2 : ℝ) ^ (-510 : ℤ) = 2 ^ (27 : ℕ) * 2 ^ (-537 : ℤ) := by
      rw [← zpow_natCast, ← zpow_add₀ (by norm_num)]; norm_num
    rw [e]
    exact mul_le_mul_of_nonneg_right (by linarith) (by positivity)
  have he : (2 : ℝ) ^ (-510 : ℤ) ≤ limit.val / 1000 := by
    have : (2 : ℝ) ^ (-510 : ℤ) ≤ 2 ^ (-440 : ℤ) / 1000 := by
      have e : (2 : ℝ) ^ (-510 : ℤ) = 2 ^ (-440 : ℤ) * 2 ^ (-70 : ℤ) := by rw [← zpow_add₀ (by norm_num)]; norm_num
      rw [e, div_eq_mul_inv]
      refine mul_le_mul_of_nonneg_left ?_ (by positivity)
      calc (2 : ℝ) ^ (-70 : ℤ) ≤ 2 ^ (-10 : ℤ) := zpow_le_zpow_right₀ (by norm_num) (by norm_num)
        _ ≤ _ := by norm_num
    linarith
  set e : ℝ := 2 ^ (-510 : ℤ) with hee
  have e0 : 0 < e := by rw [hee]; positivity
  have hrel : r ≤ 1.001 * (n + e) := by
    have h1 := (abs_le.1 hnorm).1
    have h2 : ((v.length : ℝ) + 3) / 2 ^ 53 * r ≤ 1 / 2 ^ 26 * r := by
      refine mul_le_mul_of_nonneg_right ?_ r0
      rw [div_le_div_iff₀ (by positivity) (by positivity)]
      calc ((v.length : ℝ) + 3) * 2 ^ 26 ≤ 2 ^ 27 * 2 ^ 26 := by gcongr
        _ = 1 * 2 ^ 53 := by norm_num
    norm_num at h2
    linarith
  have n0 : 0 ≤ n + e := by linarith
  -- the quotient
  have hq0 : (v.norm / limit).val = Rounding.double.rnd (n / limit.val) := rfl
  have herr := double_error (n / limit.val)
  have htiny : (2 : ℝ) ^ (-1075 : ℤ) ≤ 1 / 10 ^ 9 := by
    calc (2 : ℝ) ^ (-1075 : ℤ) ≤ 2 ^ (-30 : ℤ) := zpow_le_zpow_right₀ (by norm_num) (by norm_num)
      _ ≤ _ := by norm_num
  have one : (Fl.one : Double).val = 1 := by
    have := double_nat (n := 1) (by norm_num)
    simp only [Fl.one, RF.val_lit]
    exact_mod_cast this
  have hquot : n / limit.val ≤ 1.0005 * Rounding.double.rnd (n / limit.val) ∨ n / limit.val ≤ 1 / 1000 := by
    rcases le_or_gt (n / limit.val) (1 / 1000) with h | h
    · exact .inr h
    · left
      rw [abs_of_pos (by linarith : (0 : ℝ) < n / limit.val)] at herr
      generalize n / limit.val = z at herr h
      have h1 := (abs_le.1 herr).1
      have : z / 2 ^ 53 ≤ z / 10 ^ 6 := div_le_div_of_nonneg_left (by linarith) (by norm_num) (by norm_num)
      generalize z / 2 ^ 53 = w at h1 this
      generalize (2 : ℝ) ^ (-1075 : ℤ) = w2 at h1 htiny
      linarith
  unfold limitMove
  simp only [Fl.gt, RF.lt_val, one, hq0]
  generalize hy : Rounding.double.rnd (n / limit.val) = y at hquot
  by_cases hgt : 1 < y
  · rw [if_pos (by simpa using hgt)]
    refine ⟨by simp [Pos.mutScalarMul, hv], fun x hx => ?_⟩
    simp only [Pos.mutScalarMul, List.mem_map] at hx
    obtain ⟨x0, hx0, rfl⟩ := hx
    have hxr : |x0.val| ≤ r := abs_le_radius _ _ (List.mem_map_of_mem hx0)
    have hcv : ((Fl.one : Double) / (v.norm / limit)).val = Rounding.double.rnd (1 / y) := by
      rw [RF.val_div, one, hq0, hy]
    have y0 : 0 < y := by linarith
    have c0 : 0 ≤ Rounding.double.rnd (1 / y) := by
      rw [← Rounding.double.zero]; exact Rounding.double.mono _ _ (by positivity)
    have hm := limit_num hxr hrel he l0 (by rcases hquot with h | h <;> linarith) hgt c0 (double_le_twice (by positivity))
    unfold ShortMove
    rw [RF.val_mul, hcv]
    have e2 := double_error (x0.val * Rounding.double.rnd (1 / y))
    generalize x0.val * Rounding.double.rnd (1 / y) = z at hm e2
    have hw : |z| / 2 ^ 53 ≤ |z| / 10 ^ 6 := div_le_div_of_nonneg_left (abs_nonneg z) (by norm_num) (by norm_num)
    have hsmall : (2 : ℝ) ^ (-1075 : ℤ) ≤ limit.val / 1000 :=
      le_trans (zpow_le_zpow_right₀ (by norm_num) (by norm_num)) he
    generalize (2 : ℝ) ^ (-1075 : ℤ) = w2 at e2 hsmall
    generalize |z| / 2 ^ 53 = w at e2 hw
    have t1 := abs_sub_abs_le_abs_sub (Rounding.double.rnd z) z
    have t2 : |Rounding.double.rnd z| ≤ 2.012 * limit.val := by linarith
    refine t2.trans ?_
    norm_num
    linarith
  · rw [if_neg (by simpa using hgt)]
    refine ⟨hv, fun x hx => ?_⟩
    have hxr : |x.val| ≤ r := abs_le_radius _ _ (List.mem_map_of_mem hx)
    unfold ShortMove
    have hnl : n / limit.val ≤ 1.0005 := by rcases hquot with h | h <;> linarith
    rw [div_le_iff₀ l0] at hnl
    have : |x.val| ≤ 1.01 * limit.val := by linarith
    norm_num
    linarith

section
variable (rng : RngOps G Double) (hu : ∀ g, 0 < (rng.uniform g).1.val ∧ (rng.uniform g).1.val < 1)
  (bc : BoundaryCond) (L : Double) (hL : L.Rep) (hL1 : 2 ^ (-440 : ℤ) ≤ L.val) (d : Nat) (s : Cubic Double) (hs : Cubic.new bc L d = .ok s)
  (t : BulkTarget Double) (ht : t.targetPos.length = d)
include hu hL hL1 hs ht

/-- Double precision, a box of half side `L`: the programs of tests/test_setup.rs and tests/arguments.rs do not fail when their steps are at
most 0.95 times the width of the box. -/
theorem C116_double (B : ℝ) (hB : NormalsUpTo rng B) (hB0 : 0 ≤ B) (hB1 : B ≤ 100) (D : Double) (hD : D.Rep) (hD0 : 0 ≤ D.val)
    (inner loops fuel steps : Nat) :
    (∀ dt : Double, 0 ≤ dt.val → Real.sqrt (2 * D.val * dt.val) * B ≤ 1.9 * L.val → ∀ n k g,
      WritesAll k (expLoop (prunedRun rng (s.ops rng) t.ops inner loops steps (.brownian D) dt n) k (List.replicate d Fl.zero, g))) ∧
    (∀ clock : ConstStep Double, 0 ≤ clock.dt.val → Real.sqrt (2 * D.val * clock.dt.val) * B ≤ 1.9 * L.val → ∀ agentType itype n k g,
      WritesAll k (expLoop (listRun rng (s.ops rng) t.ops inner loops fuel steps clock) k
        (listStart (IndepAgent.convertFrom agentType (.brownian D) itype n) d g))) := by
  have hr : SafeRoom (s.ops rng) d (InBox d L) (ShortMove L) :=
    C92_room rng hu bc L hL (le_trans (zpow_le_zpow_right₀ (by norm_num) (by norm_num)) hL1) d s hs
  obtain ⟨h1, h2⟩ := bundled_safe hr t ht D inner loops fuel steps
  exact ⟨fun dt h0 hsm n k g => h1 dt (smallMoves_double hB hB0 hB1 hL1 hD hD0 h0 hsm) n k _ g (by simp),
    fun clock h0 hsm agentType itype n k g => h2 clock (smallMoves_double hB hB0 hB1 hL1 hD hD0 h0 hsm) _ (later agentType D itype n d) k g⟩

omit hL1 in
/-- Double precision, the same box: the program of examples/mfpt_exp.rs does not fail when its limit of the displacements is at most 0.99 `L`. -/
theorem C116_double_mfpt_exp (hd : d ≤ 2 ^ 26) (limit : Double) (h0 : 2 ^ (-440 : ℤ) ≤ limit.val) (hlim : limit.val ≤ 0.99 * L.val)
    (D gamma strength : Double) (itype : InitType Double) (N : Nat) (v : List (ExpAgent Double))
    (hv : ExpAgent.convertFrom (.brownian D) itype gamma d strength N = .ok v) (clock : ExpStep Double) (dtMin dtMax : Double) (len : Nat)
    (hty : clock.titype = .exponential dtMin dtMax len) (inner loops fuel steps : Nat) (hf : N * N + N < fuel) (k : Nat) (g : G) :
    WritesAll k (expLoop (expRun rng (s.ops rng) t.ops limit inner loops fuel steps clock) k (expStart v d g)) := by
  have hL1 : 2 ^ (-1000 : ℤ) ≤ L.val := by
    have h1 : (2 : ℝ) ^ (-1000 : ℤ) ≤ 2 ^ (-440 : ℤ) := zpow_le_zpow_right₀ (by norm_num) (by norm_num)
    have h2 : (0 : ℝ) < 2 ^ (-440 : ℤ) := by positivity
    linarith
  have hr : SafeRoom (s.ops rng) d (InBox d L) (ShortMove L) := C92_room rng hu bc L hL hL1 d s hs
  obtain ⟨hl, hall⟩ := pushLater hv
  exact expProgram_safe hr t ht (limits_double hd h0 hlim) v hall inner loops fuel steps (by rw [hl]; exact hf) clock ⟨_, _, _, hty⟩ k g
end

/-! ### the numbers of the crate's programs, with the crate's generator -/

/-- tests/test_setup.rs and tests/arguments.rs with the numbers of their comments and up: a disc of radius 10, diffusion coefficient 1, time steps of at
most 1/100. -/
theorem C116_crate (z : ZigTables ℝ) (hz : NormalTables z) (draws : Nat) (s : Circ ℝ) (hs : Circ.new 10 2 = .ok s) (t : BulkTarget ℝ)
    (ht : t.targetPos.length = 2) (inner loops fuel steps n k : Nat) (g : Pcg64) :
    let rng := z.ops draws
    (∀ dt : ℝ, dt ≤ 1 / 100 →
      WritesAll k (expLoop (prunedRun rng (s.ops rng) t.ops inner loops steps (.brownian 1) dt n) k ([0, 0], g))) ∧
    (∀ clock : ConstStep ℝ, clock.dt ≤ 1 / 100 → ∀ agentType itype,
      WritesAll k (expLoop (listRun rng (s.ops rng) t.ops inner loops fuel steps clock) k
        (listStart (IndepAgent.convertFrom agentType (.brownian 1) itype n) 2 g))) := by
  intro rng
  obtain ⟨hu, hB⟩ := C86_generator z hz draws
  have hr := (C86_rooms rng hu 2).2.1 10 s hs
  have hsm : ∀ dt : ℝ, dt ≤ 1 / 100 → Real.sqrt (2 * 1 * dt) * 13.73 ≤ 2 * 10 / Real.sqrt ((2 : ℕ) : ℝ) := by
    intro dt hdt
    have h1 : Real.sqrt (2 * 1 * dt) ≤ 1 / 5 := by
      rw [Real.sqrt_le_left (by norm_num)]; linarith
    have h2 : Real.sqrt ((2 : ℕ) : ℝ) ≤ 2 := by
      rw [Real.sqrt_le_left (by norm_num)]; norm_num
    have h3 : 0 < Real.sqrt ((2 : ℕ) : ℝ) := Real.sqrt_pos.2 (by norm_num)
    rw [le_div_iff₀ h3]
    have h4 : Real.sqrt (2 * 1 * dt) * 13.73 ≤ 3 := by linarith
    exact (mul_le_mul h4 h2 h3.le (by norm_num)).trans (by norm_num)
  obtain ⟨c1, c2⟩ := C116_bundled rng 13.73 hB _ 2 _ _ hr t ht 1 inner loops fuel steps
  exact ⟨fun dt hdt => c1 dt (hsm dt hdt) n k g, fun clock hdt agentType itype => c2 clock (hsm _ hdt) agentType itype n k g⟩

/-- examples/mfpt_exp.rs in a disc of radius 10 with a target of radius at most 100: whatever the interaction. -/
theorem C116_crate_mfpt_exp (z : ZigTables ℝ) (draws : Nat) (s : Circ ℝ) (hs : Circ.new 10 2 = .ok s) (center : Pos ℝ)
    (hc : center.length = 2) (radius : ℝ) (hr0 : 0 < radius) (hr1 : radius ≤ 100) (D gamma strength : ℝ) (hg : 0 < gamma) (itype : InitType ℝ) (N : Nat)
    (v : List (ExpAgent ℝ)) (hv : ExpAgent.convertFrom (.brownian D) itype gamma 2 strength N = .ok v) (clock : ExpStep ℝ) (dtMin dtMax : ℝ)
    (len : Nat) (hty : clock.titype = .exponential dtMin dtMax len) (inner loops fuel steps : Nat) (hf : N * N + N < fuel) (k : Nat) (g : Pcg64) :
    let rng := z.ops draws
    WritesAll k (expLoop (expRun rng (s.ops rng) (BulkTarget.new center radius).ops (moveLimit radius gamma) inner loops fuel steps clock) k (expStart v 2 g)) := by
  intro rng
  have hu : ∀ g, 0 < (rng.uniform g).1 ∧ (rng.uniform g).1 < 1 := fun g => C84_open_interval.1 _ g
  have hr := (C86_rooms rng hu 2).2.1 10 s hs
  have hl : 0 < moveLimit radius gamma ∧ moveLimit radius gamma ≤ 10 := by
    unfold moveLimit
    split <;> rename_i h <;> simp only [Fl.gt, fl_lt, fl_lit, decide_eq_true_eq, not_lt] at h ⊢ <;> push_cast at h ⊢ <;>
      constructor <;> linarith
  refine C116_mfpt_exp rng _ 2 _ _ hr (BulkTarget.new center radius) hc _ hl.1 ?_ D gamma strength itype N v hv clock dtMin dtMax len hty inner loops fuel steps hf k g
  have h2 : Real.sqrt ((2 : ℕ) : ℝ) ≤ 2 := by
    rw [Real.sqrt_le_left (by norm_num)]; norm_num
  have h3 : 0 < Real.sqrt ((2 : ℕ) : ℝ) := Real.sqrt_pos.2 (by norm_num)
  rw [le_div_iff₀ h3]
  nlinarith [hl.2]

/-- The rooms, the tables, the searchers and the clocks of these theorems exist: the arguments of examples/mfpt_exp.rs:13 for the real
numbers (1000 searchers), ... -/
example : (∃ s : Circ ℝ, Circ.new 10 2 = .ok s) ∧ (∃ z : ZigTables ℝ, NormalTables z) ∧
    (∃ v : List (ExpAgent ℝ), ExpAgent.convertFrom (.brownian 1) .uniform (1 / 5) 2 1 1000 = .ok v) ∧
    ∃ c : ExpStep ℝ, ExpStep.new (1 / 10 ^ 10) (1 / 10 ^ 5) 10 = .ok c ∧ c.titype = .exponential (1 / 10 ^ 10) (1 / 10 ^ 5) 10 := by
  refine ⟨⟨⟨.continuousCircular, .reflection, 10, 2⟩, by unfold Circ.new; rw [if_neg (by simp)]⟩, ⟨roundedTables, roundedTables_ok⟩, ?_, ?_⟩
  · unfold ExpAgent.convertFrom
    simp only
    rw [if_neg (by simp [AgentCore.initPos])]
    exact ⟨_, rfl⟩
  · unfold ExpStep.new
    rw [if_neg (by simp only [fl_lt, fl_lit]; push_cast; norm_num)]
    exact ⟨_, rfl, rfl⟩

/-- ... and a box, searchers and a limit in double precision. -/
example : (∃ s : Cubic Double, Cubic.new .reflection ⟨1⟩ 3 = .ok s) ∧ (∃ z : ZigTables Double, DoubleTables z) ∧
    (∃ v : List (ExpAgent Double), ExpAgent.convertFrom (.brownian ⟨1⟩) .uniform ⟨1 / 4⟩ 3 ⟨1⟩ 10 = .ok v) ∧
    (2 : ℝ) ^ (-440 : ℤ) ≤ (⟨1 / 4⟩ : Double).val ∧ (⟨1 / 4⟩ : Double).val ≤ 0.99 * (⟨1⟩ : Double).val := by
  refine ⟨⟨⟨.continuousRectangular, .reflection, ⟨1⟩, 3⟩, by unfold Cubic.new; rw [if_neg (by simp [Rounding.double.zero])]⟩,
    ⟨doubleTables, doubleTables_ok⟩, ?_, ?_, ?_⟩
  · unfold ExpAgent.convertFrom
    simp only
    rw [if_neg (by simp [AgentCore.initPos])]
    exact ⟨_, rfl⟩
  · calc (2 : ℝ) ^ (-440 : ℤ) ≤ 2 ^ (-2 : ℤ) := zpow_le_zpow_right₀ (by norm_num) (by norm_num)
      _ ≤ 1 / 4 := by norm_num
  · norm_num

end Moledyn.Props
