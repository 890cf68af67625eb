import Verif.Spec.ExpTurns
import Verif.Props.ExpEnsembles
import Verif.Props.MeanTurnsLargeN
import Verif.Props.SafePrograms
/-
Property theorems C120: the lines examples/mfpt_exp.rs writes.
-/
namespace Moledyn.Props
open Moledyn LList
set_option linter.unusedSimpArgs false
variable {G F S C : Type}

/-- one ensemble. -/
private theorem one_ensemble [Fl F] (rng : RngOps G F) (sys : SysOps G F) (hsys : LibrarySystem rng sys) (n : Nat)
    (hd : sys.DrawsInside n) (ho : sys.OutsideDim n) (target : TargetOps F)
    (limit : F) (inner loops fuel steps : Nat) (clock : ExpStep F) (mtype : MoveType F) (itype : InitType F)
    (gamma strength : F) (N : Nat) (v : List (ExpAgent F))
    (hv : ExpAgent.convertFrom mtype itype gamma n strength N = .ok v) (hf : N * N + N + N < fuel) (g : G) (t : F)
    (st : ExpSim G F)
    (h : expRun rng sys target limit inner loops fuel steps clock (expStart v n g) = some (.ok t, st)) :
    ∃ out, ExpTakes rng sys target limit inner loops fuel clock n v g out st.rng ∧
      (out.2 = true → 0 < out.1 ∧ out.1 ≤ steps ∧
        ∃ dt, output (skipOne (TimeDiff.next ExpStep.next (fun c => c.dt))) (out.1 - 1) (false, intoDiff clock) = .ok (some (t, dt))) ∧
      (out.2 = false → t = Fl.zero ∧ out.1 < steps ∧
        output (skipOne (TimeDiff.next ExpStep.next (fun c => c.dt))) out.1 (false, intoDiff clock) = .ok none) := by
  obtain ⟨cs, g', e1, e2, e3, e4, -, -, e5⟩ := C70_every_ensemble rng sys hsys n hd ho target limit inner loops fuel steps clock mtype itype
    gamma strength N v hv hf g t st h
  simp only at e4 e5
  rcases e5 with ⟨f1, f2⟩ | ⟨f1, f2, k, f3, f4, ⟨dt, f5⟩, f6⟩
  · obtain ⟨k, k1, k2, k3, k4⟩ := C58_ended rng sys hsys target limit cs (List.replicate cs.length (List.replicate n Fl.zero))
      (List.replicate n Fl.zero) (fun a ha => (e3 a ha).2.2.2.2.2.1) (fun a ha => (e3 a ha).2.2.2.2.2.2)
      (skipOne (TimeDiff.next ExpStep.next (fun c => c.dt))) (false, intoDiff clock) g' fuel (by simpa [e2] using hf) steps f1
    have hst := searchLoop_clock_used _ _ k _ _ _ _ k1 f1 (k4 k le_rfl).1
    refine ⟨(k, false), ⟨cs, g', e1, ?_, fun m hm => (k4 m hm.le).2, by simp, fun _ => (k4 k le_rfl).2⟩, by simp, fun _ => ⟨f2, k1, ?_⟩⟩
    · rw [e4]; exact congrArg _ k3.symm
    · unfold output
      rw [← hst]
      exact k2
  · have hst := searchLoop_clock_used _ _ k steps _ _ _ f3 f1 (f6 k le_rfl).1
    refine ⟨(k + 1, true), ⟨cs, g', e1, ?_, fun m hm => (f6 m (by simp only at hm; omega)).2, fun _ => ⟨Nat.succ_pos k, ?_⟩, by simp⟩,
      fun _ => ⟨Nat.succ_pos k, f3, dt, ?_⟩, by simp⟩
    · simp only [f4]; rw [e4]
    · simp only [f4]; rw [← e4]; exact f2
    · rw [Nat.add_sub_cancel]
      unfold output
      rw [← hst]
      exact f5

private theorem all_ensembles [Fl F] (rng : RngOps G F) (sys : SysOps G F) (hsys : LibrarySystem rng sys) (n : Nat)
    (hd : sys.DrawsInside n) (ho : sys.OutsideDim n) (target : TargetOps F)
    (limit : F) (inner loops fuel steps : Nat) (clock : ExpStep F) (mtype : MoveType F) (itype : InitType F)
    (gamma strength : F) (N : Nat) (v : List (ExpAgent F))
    (hv : ExpAgent.convertFrom mtype itype gamma n strength N = .ok v) (hf : N * N + N + N < fuel) {g g' : G} {ts : List F}
    (h : OneByOne (fun g => (expRun rng sys target limit inner loops fuel steps clock (expStart v n g)).map (fun r => (r.1, r.2.rng))) g ts g') :
    ∃ outs, Successive (ExpTakes rng sys target limit inner loops fuel clock n v) g outs g' ∧
      List.Forall₂ (fun t (out : Nat × Bool) =>
        (out.2 = true → 0 < out.1 ∧ out.1 ≤ steps ∧
          ∃ dt, output (skipOne (TimeDiff.next ExpStep.next (fun c => c.dt))) (out.1 - 1) (false, intoDiff clock) = .ok (some (t, dt))) ∧
        (out.2 = false → t = Fl.zero ∧ out.1 < steps ∧
          output (skipOne (TimeDiff.next ExpStep.next (fun c => c.dt))) out.1 (false, intoDiff clock) = .ok none)) ts outs := by
  induction h with
  | nil g => exact ⟨[], .nil _, .nil⟩
  | cons h1 _ ih =>
    obtain ⟨outs, i1, i2⟩ := ih
    simp only [Option.map_eq_some_iff, Prod.mk.injEq] at h1
    obtain ⟨⟨r, st⟩, h1, rfl, rfl⟩ := h1
    obtain ⟨out, o1, o2⟩ := one_ensemble rng sys hsys n hd ho target limit inner loops fuel steps clock mtype itype gamma strength N v hv hf _ _ _ h1
    exact ⟨out :: outs, .cons o1 i1, .cons o2 i2⟩

/-- Any arithmetic, random source, library system whose draws are inside, target, limit and clock: the numbers `ts` examples/mfpt_exp.rs
writes, whether it comes to its end or fails, belong to searches one after the other, each from the state of the generator the one before
left.  If a search found the target after `k` turns, the number is the clock's time of turn `k`, the first entry of the clock not counted;
if the clock had no entry left after `k` turns, the number is 0 and no agent has been on the target.  A program that comes to its end has
written one number for every search. -/
theorem C120_turns [Fl F] (rng : RngOps G F) (sys : SysOps G F) (hsys : LibrarySystem rng sys) (n : Nat)
    (hd : sys.DrawsInside n) (ho : sys.OutsideDim n) (target : TargetOps F)
    (limit : F) (inner loops fuel steps : Nat) (clock : ExpStep F) (mtype : MoveType F) (itype : InitType F)
    (gamma strength : F) (N : Nat) (v : List (ExpAgent F))
    (hv : ExpAgent.convertFrom mtype itype gamma n strength N = .ok v) (hf : N * N + N + N < fuel) (num : Nat) (g : G)
    (ts : List F) (r : Res Unit) (s' : ExpSim G F)
    (h : expLoop (expRun rng sys target limit inner loops fuel steps clock) num (expStart v n g) = some ((ts, r), s')) :
    ∃ (outs : List (Nat × Bool)) (g' : G), Successive (ExpTakes rng sys target limit inner loops fuel clock n v) g outs g' ∧
      (r = .ok () → outs.length = num ∧ g' = s'.rng) ∧
      List.Forall₂ (fun t (out : Nat × Bool) =>
        (out.2 = true → 0 < out.1 ∧ out.1 ≤ steps ∧
          ∃ dt, output (skipOne (TimeDiff.next ExpStep.next (fun c => c.dt))) (out.1 - 1) (false, intoDiff clock) = .ok (some (t, dt))) ∧
        (out.2 = false → t = Fl.zero ∧ out.1 < steps ∧
          output (skipOne (TimeDiff.next ExpStep.next (fun c => c.dt))) out.1 (false, intoDiff clock) = .ok none)) ts outs := by
  have hp := C70_program rng sys n ho target limit inner loops fuel steps clock mtype itype gamma strength N v hv (by omega) num g
  rw [h] at hp
  simp only [Option.map_some] at hp
  rcases (C70_lines _ num g s'.rng ts r).1 hp.symm with ⟨rfl, h1, h2⟩ | ⟨h1, g1, h2, h3⟩
  · obtain ⟨outs, o1, o2⟩ := all_ensembles rng sys hsys n hd ho target limit inner loops fuel steps clock mtype itype gamma strength N v hv hf h2
    exact ⟨outs, _, o1, fun _ => ⟨by rw [← o2.length_eq, h1], rfl⟩, o2⟩
  · obtain ⟨outs, o1, o2⟩ := all_ensembles rng sys hsys n hd ho target limit inner loops fuel steps clock mtype itype gamma strength N v hv hf h2
    refine ⟨outs, _, o1, fun hr => ?_, o2⟩
    rcases h3 with ⟨e, rfl, -⟩ | ⟨rfl, -⟩ <;> simp at hr

/-- In double precision, with an exponential clock that has not run (first step `a` a normal number, steps up to `b`, limit
`tmax ≥ 0`): a number written for a search that found the target after `k` turns is positive, at most `tmax`, and is the documented time
`expTime k` of the schedule up to a relative error of `k + k / l` roundings; a number written for a search that did not is 0, and the
documented time of the next turn is beyond `tmax` up to that error.  So 0 means "not found", in double precision as well. -/
theorem C120_double (rng : RngOps G Double) (sys : SysOps G Double) (hsys : LibrarySystem rng sys) (n : Nat)
    (hd : sys.DrawsInside n) (ho : sys.OutsideDim n) (target : TargetOps Double)
    (limit : Double) (inner loops fuel steps : Nat) (clock : ExpStep Double) (hc : clock.Fresh)
    (a b : Double) (l : Nat) (hab : clock.titype = .exponential a b l) (ha : a.Rep) (hb : b.Rep) (hmin : 2 ^ (-1022 : ℤ) ≤ a.val)
    (hinc : 1 ≤ clock.inc.val) (htmax : 0 ≤ clock.tmax.val) (mtype : MoveType Double) (itype : InitType Double)
    (gamma strength : Double) (N : Nat) (v : List (ExpAgent Double))
    (hv : ExpAgent.convertFrom mtype itype gamma n strength N = .ok v) (hf : N * N + N + N < fuel) (num : Nat) (g : G)
    (ts : List Double) (r : Res Unit) (s' : ExpSim G Double)
    (h : expLoop (expRun rng sys target limit inner loops fuel steps clock) num (expStart v n g) = some ((ts, r), s')) :
    ∃ (outs : List (Nat × Bool)) (g' : G), Successive (ExpTakes rng sys target limit inner loops fuel clock n v) g outs g' ∧
      (r = .ok () → outs.length = num ∧ g' = s'.rng) ∧
      List.Forall₂ (fun (t : Double) (out : Nat × Bool) =>
        let time := expTime a.val b.val clock.inc.val l
        let k := out.1
        (out.2 = true → k ≤ steps ∧ 0 < t.val ∧ t.val ≤ clock.tmax.val ∧
          time k * (1 - 1 / 2 ^ 53) ^ (k + k / l) ≤ t.val ∧ t.val ≤ time k * (1 + 1 / 2 ^ 53) ^ (k + k / l)) ∧
        (out.2 = false → k < steps ∧ t = Fl.zero ∧ clock.tmax.val < time (k + 1) * (1 + 1 / 2 ^ 53) ^ (k + 1 + (k + 1) / l))) ts outs := by
  obtain ⟨outs, g', h1, h2, h3⟩ := C120_turns rng sys hsys n hd ho target limit inner loops fuel steps clock mtype itype gamma strength N v hv hf
    num g ts r s' h
  obtain ⟨a0, a1, -, -⟩ := atRounded_fresh hc hab
  have apos : 0 < a.val := lt_of_lt_of_le (by positivity) hmin
  have hcall := exp_double_call clock hc a b l hab ha hb hinc
  have hfirst : output (TimeDiff.next ExpStep.next ExpStep.dt) 0 (intoDiff clock) =
      .ok (some (⟨roundedTime .double a.val b.val clock.inc.val l 0⟩, ⟨roundedStep .double a.val b.val clock.inc.val (0 / l)⟩)) := by
    rw [hcall, if_pos]
    exact htmax
  have hskip := fun k => skipOne_output (TimeDiff.next ExpStep.next ExpStep.dt) (intoDiff clock) k _ hfirst
  refine ⟨outs, g', h1, h2, h3.imp ?_⟩
  rintro t ⟨k, o⟩ ⟨hyes, hno⟩
  simp only at hyes hno ⊢
  refine ⟨fun ho => ?_, fun ho => ?_⟩
  · obtain ⟨y0, y1, dt, y2⟩ := hyes ho
    have y2 : output (TimeDiff.next ExpStep.next ExpStep.dt) k (intoDiff clock) = .ok (some (t, dt)) := by
      have := hskip (k - 1)
      rw [Nat.sub_add_cancel y0] at this
      rw [← this]; exact y2
    obtain ⟨c1, c2⟩ := (C93_schedule clock hc a b l hab ha hb hmin hinc k t dt y2).2.2.1
    rw [hcall] at y2
    by_cases hle : roundedTime .double a.val b.val clock.inc.val l k ≤ clock.tmax.val
    swap
    · rw [if_neg hle] at y2; simp at y2
    rw [if_pos hle] at y2
    simp only [Res.ok.injEq, Option.some.injEq, Prod.mk.injEq] at y2
    have hpos : 0 < expTime a.val b.val clock.inc.val l k := by
      refine lt_of_lt_of_le ?_ (expTime_ge a.val b.val clock.inc.val l a0 hinc a1 k)
      exact mul_pos (by exact_mod_cast y0) apos
    refine ⟨y1, lt_of_lt_of_le (mul_pos hpos (pow_pos (by norm_num) _)) c1, ?_, c1, c2⟩
    rw [← y2.1]; exact hle
  · obtain ⟨y1, y2, y3⟩ := hno ho
    have y3 : output (TimeDiff.next ExpStep.next ExpStep.dt) (k + 1) (intoDiff clock) = .ok none := by rw [← hskip]; exact y3
    rw [hcall] at y3
    by_cases hle : roundedTime .double a.val b.val clock.inc.val l (k + 1) ≤ clock.tmax.val
    · rw [if_pos hle] at y3; simp at y3
    · exact ⟨y2, y1, (not_le.1 hle).trans_le (roundedTime_drift hmin a1 hinc ha hb _).2⟩

private theorem new_cubic_box {bc : BoundaryCond} {L : Double} {n : Nat} {s : Cubic Double} (h : Cubic.new bc L n = .ok s) :
    0 < L.val ∧ s = ⟨.continuousRectangular, bc, L, n⟩ := by
  have z : (Fl.zero : Double).val = 0 := by simp [Fl.zero, Rounding.double.zero]
  unfold Cubic.new at h
  split at h
  · simp at h
  · rename_i hc
    simp only [RF.le_val, z, Bool.or_eq_true, decide_eq_true_eq, not_or, not_le, beq_iff_eq] at hc
    refine ⟨hc.1, ?_⟩
    cases bc with
    | mixed d =>
      simp only at h
      split at h
      · simp at h
      · simp at h; exact h.symm
    | periodic => simp at h; exact h.symm
    | reflection => simp at h; exact h.symm

/-- The whole program in double precision in a box of half side `L ≥ 2^-440`, the limit of the displacements between `2^-440` and
`0.99 L`: it never fails, and if it returns, it has written one number for each of `num` searches one after the other; a positive number
is the documented time of the turn at which an agent reached the target, 0 says that no agent was on the target before the clock's limit. -/
theorem C120_box (rng : RngOps G Double) (hu : ∀ g, 0 < (rng.uniform g).1.val ∧ (rng.uniform g).1.val < 1)
    (bc : BoundaryCond) (L : Double) (hL : L.Rep) (n : Nat) (s : Cubic Double) (hs : Cubic.new bc L n = .ok s)
    (target : BulkTarget Double) (htd : target.targetPos.length = n) (hn : n ≤ 2 ^ 26) (limit : Double) (h0 : 2 ^ (-440 : ℤ) ≤ limit.val)
    (hlim : limit.val ≤ 0.99 * L.val) (inner loops fuel steps : Nat) (clock : ExpStep Double) (hc : clock.Fresh)
    (a b : Double) (l : Nat) (hab : clock.titype = .exponential a b l) (ha : a.Rep) (hb : b.Rep) (hmin : 2 ^ (-1022 : ℤ) ≤ a.val)
    (hinc : 1 ≤ clock.inc.val) (htmax : 0 ≤ clock.tmax.val) (D gamma strength : Double) (itype : InitType Double) (N : Nat)
    (v : List (ExpAgent Double)) (hv : ExpAgent.convertFrom (.brownian D) itype gamma n strength N = .ok v) (hf : N * N + N + N < fuel)
    (num : Nat) (g : G) (ts : List Double) (r : Res Unit) (s' : ExpSim G Double)
    (h : expLoop (expRun rng (s.ops rng) target.ops limit inner loops fuel steps clock) num (expStart v n g) = some ((ts, r), s')) :
    r = .ok () ∧ ts.length = num ∧
    ∃ outs : List (Nat × Bool), Successive (ExpTakes rng (s.ops rng) target.ops limit inner loops fuel clock n v) g outs s'.rng ∧
      List.Forall₂ (fun (t : Double) (out : Nat × Bool) =>
        let time := expTime a.val b.val clock.inc.val l
        let k := out.1
        (out.2 = true ↔ 0 < t.val) ∧ (out.2 = false ↔ t.val = 0) ∧
        (out.2 = true → t.val ≤ clock.tmax.val ∧
          time k * (1 - 1 / 2 ^ 53) ^ (k + k / l) ≤ t.val ∧ t.val ≤ time k * (1 + 1 / 2 ^ 53) ^ (k + k / l)) ∧
        (out.2 = false → clock.tmax.val < time (k + 1) * (1 + 1 / 2 ^ 53) ^ (k + 1 + (k + 1) / l))) ts outs := by
  obtain ⟨w1, w2⟩ := C116_double_mfpt_exp rng hu bc L hL n s hs target htd hn limit h0 hlim D gamma strength itype N v hv clock a b l hab inner loops
    fuel steps (by omega) num g _ h
  simp only at w1 w2
  obtain ⟨L0, hs'⟩ := new_cubic_box hs
  have hdr : (s.ops rng).DrawsInside n := by
    rw [hs']
    exact C37_box_draws_inside_rounded Rounding.double rng hu bc L.val L0 n
      (by have := double_pow2 (e := -1) (by norm_num); norm_num at this ⊢; exact this)
      (by have := double_nat (n := 2) (by norm_num); exact_mod_cast this) hL ((rep_double hL).trans rfl)
  have hout : (s.ops rng).OutsideDim n := by
    have := (C37_systems_outside_dim rng).1 s
    rw [hs'] at this ⊢
    exact this
  obtain ⟨outs, g', o1, o2, o3⟩ := C120_double rng (s.ops rng) (.inl ⟨s, rfl⟩) n hdr hout target.ops limit inner loops fuel steps clock hc a b l hab ha
    hb hmin hinc htmax (.brownian D) itype gamma strength N v hv hf num g ts r s' h
  obtain ⟨-, rfl⟩ := o2 w1
  refine ⟨w1, w2, outs, o1, o3.imp ?_⟩
  rintro t ⟨k, o⟩ ⟨hyes, hno⟩
  simp only at hyes hno ⊢
  cases o with
  | true =>
    obtain ⟨-, y2, y3⟩ := hyes rfl
    exact ⟨⟨fun _ => y2, fun _ => rfl⟩, ⟨by simp, fun h => by rw [h] at y2; exact absurd y2 (lt_irrefl _)⟩, fun _ => y3, by simp⟩
  | false =>
    obtain ⟨-, y2, y3⟩ := hno rfl
    have z : t.val = 0 := by rw [y2]; simp [Fl.zero, Rounding.double.zero]
    exact ⟨⟨by simp, fun h => by rw [z] at h; exact absurd h (lt_irrefl _)⟩, ⟨fun _ => z, fun _ => rfl⟩, by simp, fun _ => y3⟩

/-! ### examples: the hypotheses are met -/

/-- two interacting agents and two ensembles of a concrete program, which returns: C120_turns speaks about it. -/
private def lineSys : SysOps (List Int) Z := (⟨.continuousCircular, .reflection, ⟨10⟩, 1⟩ : Circ Z).ops Z.draws
private def lineTarget : TargetOps Z := (BulkTarget.new [⟨8⟩] (⟨2⟩ : Z)).ops
private def lineClock : ExpStep Z := ⟨.exponential ⟨2⟩ ⟨2⟩ 10, ⟨0⟩, ⟨2⟩, ⟨1⟩, ⟨1000⟩, 0⟩
private def lineV : List (ExpAgent Z) :=
  match ExpAgent.convertFrom (.brownian ⟨1⟩) .uniform (⟨1⟩ : Z) 1 ⟨1⟩ 2 with
  | .ok v => v
  | _ => []
example : ∃ (outs : List (Nat × Bool)) (g' : List Int), g' = [7] ∧ outs.length = 2 ∧
    Successive (ExpTakes Z.draws lineSys lineTarget ⟨19⟩ 5 5 40 lineClock 1 lineV) [0, 0, 9, 0, 0, 0, 0, 0, 0, 9, 7] outs g' := by
  have h : ((expLoop (expRun Z.draws lineSys lineTarget ⟨19⟩ 5 5 40 20 lineClock) 2
      (expStart lineV 1 [0, 0, 9, 0, 0, 0, 0, 0, 0, 9, 7])).map fun r => (r.1.1, r.2.rng)) = some ([⟨2⟩, ⟨6⟩], [7]) := by decide +kernel
  have h2 : ((expLoop (expRun Z.draws lineSys lineTarget ⟨19⟩ 5 5 40 20 lineClock) 2
      (expStart lineV 1 [0, 0, 9, 0, 0, 0, 0, 0, 0, 9, 7])).map fun r => r.1.2) = some (.ok ()) := by decide +kernel
  rw [Option.map_eq_some_iff] at h
  obtain ⟨⟨⟨ts, r⟩, s'⟩, h, h1⟩ := h
  rw [h] at h2
  simp only [Option.map_some, Option.some.injEq, Prod.mk.injEq] at h1 h2
  obtain ⟨outs, g', o1, o2, -⟩ := C120_turns Z.draws lineSys (.inr (.inl ⟨_, rfl⟩)) 1 (C37_systems_draw_inside.1 Z.draws _)
    ((C37_systems_outside_dim Z.draws).2.1 _) lineTarget ⟨19⟩ 5 5 40 20 lineClock (.brownian ⟨1⟩) .uniform ⟨1⟩ ⟨1⟩ 2 lineV rfl (by norm_num) 2 _ ts r s' h
  obtain ⟨o3, o4⟩ := o2 h2
  exact ⟨outs, g', by rw [o4, h1.2], o3, o1⟩

/-- A box of half side 8, ten agents, a target of radius 2 in the corner, the limit that `main` computes for it, a clock that starts with
steps of 1/1024 and ends with steps of 1, up to 100. -/
example : ∃ (s : Cubic Double) (v : List (ExpAgent Double)) (clock : ExpStep Double),
    Cubic.new .reflection ⟨8⟩ 2 = .ok s ∧ (BulkTarget.new [⟨7⟩, ⟨7⟩] (⟨2⟩ : Double)).targetPos.length = 2 ∧
    ExpAgent.convertFrom (.brownian ⟨1⟩) .uniform ⟨1 / 4⟩ 2 ⟨1⟩ 10 = .ok v ∧ clock.Fresh ∧
    clock.titype = .exponential ⟨1 / 1024⟩ ⟨1⟩ 10 ∧ (⟨1 / 1024⟩ : Double).Rep ∧ (⟨1⟩ : Double).Rep ∧ (⟨8⟩ : Double).Rep ∧ 1 ≤ clock.inc.val ∧
    clock.tmax.val = 100 ∧ (2 : ℝ) ^ (-440 : ℤ) ≤ 1 / 8 ∧ (1 / 8 : ℝ) ≤ 0.99 * 8 := by
  have r2 : ∀ k : ℤ, -1074 ≤ k → Rounding.double.rnd (2 ^ k) = 2 ^ k := fun k hk => double_pow2 hk
  have e1 : Rounding.double.rnd 1 = 1 := by simpa using r2 0 (by norm_num)
  have e8 : Rounding.double.rnd 8 = 8 := by
    have := r2 3 (by norm_num)
    norm_num at this; exact this
  have e10 : (2 : ℝ) ^ (-10 : ℤ) = 1 / 1024 := by norm_num
  have ea : Rounding.double.rnd (1 / 1024) = 1 / 1024 := by rw [← e10]; exact r2 (-10) (by norm_num)
  have hinc : 1 ≤ (Fl.lit (12 / 10) : Double).val := by
    rw [RF.val_lit]
    conv_lhs => rw [← e1]
    refine Rounding.double.mono _ _ ?_
    push_cast; norm_num
  have hc : ∃ c, ExpStep.convertFrom (⟨1 / 1024⟩ : Double) ⟨1⟩ 10 ⟨100⟩ = .ok c ∧ c.titype = .exponential ⟨1 / 1024⟩ ⟨1⟩ 10 ∧
      c.inc = Fl.lit (12 / 10) ∧ c.tmax = ⟨100⟩ := by
    unfold ExpStep.convertFrom
    rw [if_neg]
    · refine ⟨_, rfl, rfl, rfl, ?_⟩
      show (if _ then _ else _) = _
      rw [if_neg]
      have h15 : Rounding.double.rnd (1 / 10 ^ 15) ≤ Rounding.double.rnd 1 := Rounding.double.mono _ _ (by norm_num)
      rw [e1] at h15
      simp only [RF.lt_val, RF.val_lit, decide_eq_true_eq, not_lt]
      push_cast
      linarith
    have zero_value : (Fl.zero : Double).val = 0 := by simp [Fl.zero, Rounding.double.zero]
    simp only [RF.lt_val, Fl.gt, zero_value, Bool.or_eq_true, decide_eq_true_eq, not_or, not_lt]
    norm_num
  obtain ⟨clock, hc, ht, hi, hm⟩ := hc
  have hv : ∃ v : List (ExpAgent Double), ExpAgent.convertFrom (.brownian ⟨1⟩) .uniform ⟨1 / 4⟩ 2 ⟨1⟩ 10 = .ok v := by
    unfold ExpAgent.convertFrom
    simp only
    rw [if_neg (by simp [AgentCore.initPos])]
    exact ⟨_, rfl⟩
  obtain ⟨v, hv⟩ := hv
  refine ⟨⟨.continuousRectangular, .reflection, ⟨8⟩, 2⟩, v, clock, ?_, rfl, hv, .convert hc, ht, ea, e1, e8, by rw [hi]; exact hinc, by rw [hm], ?_, by norm_num⟩
  · unfold Cubic.new; rw [if_neg (by simp [Rounding.double.zero])]
  · calc (2 : ℝ) ^ (-440 : ℤ) ≤ 2 ^ (-3 : ℤ) := zpow_le_zpow_right₀ (by norm_num) (by norm_num)
      _ = 1 / 8 := by norm_num

end Moledyn.Props
