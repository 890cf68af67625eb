import Verif.Props.Walls
import Verif.Props.Agents
import Verif.Props.Gaussian
import Verif.Lemmas.SafeSearches
namespace Moledyn.Props
open Moledyn
variable {G : Type}

/-- the position is a point of `S`. -/
def At {n : Nat} (S : Set (Fin n → ℝ)) (p : Pos ℝ) : Prop := ∃ x ∈ S, p = List.ofFn x

private theorem walls_step {n : Nat} {S S' : Set (Fin n → ℝ)} {put : (Fin n → ℝ) → Fin n → ℝ} {sys : SysOps G ℝ} {a : ℝ}
    (w : Walls sys S put) (hsub : S ⊆ S') (hsafe : ∀ x ∈ S', ∀ z : Fin n → ℝ, (∀ i, |z i| ≤ a) → put (x + z) ∈ S) (p z : Pos ℝ)
    (hp : At S' p) (hz : z.length = n) (hb : ∀ x ∈ z, |x| ≤ a) : (sys.checkBc p z).2 = .ok () ∧ At S' (sys.checkBc p z).1 := by
  obtain ⟨x, hx, rfl⟩ := hp
  obtain ⟨z', rfl⟩ : ∃ z' : Fin n → ℝ, z = List.ofFn z' := by
    subst hz
    exact ⟨fun i => z.get i, (List.ofFn_get z).symm⟩
  have h := hsafe x hx z' (fun i => hb _ (by rw [List.mem_ofFn]; exact ⟨i, rfl⟩))
  rw [w.step_ok x z' h]
  exact ⟨rfl, _, hsub h, rfl⟩

private theorem as_ofFn {n : Nat} (p : Pos ℝ) (hp : p.length = n) : ∃ x : Fin n → ℝ, p = List.ofFn x := by
  subst hp
  exact ⟨fun i => p.get i, (List.ofFn_get p).symm⟩

/-- The three systems are rooms in which small steps are safe. -/
theorem C86_rooms (rng : RngOps G ℝ) (hu : ∀ g, 0 < (rng.uniform g).1 ∧ (rng.uniform g).1 < 1) (n : Nat) :
    (∀ (bc : BoundaryCond) (L : ℝ) (s : Cubic ℝ), Cubic.new bc L n = .ok s → SafeRoom (s.ops rng) n (At (cubeSet n L)) (fun x => |x| ≤ 2 * L)) ∧
    (∀ (R : ℝ) (s : Circ ℝ), Circ.new R n = .ok s → SafeRoom (s.ops rng) n (At (ballSet n R)) (fun x => |x| ≤ 2 * R / Real.sqrt n)) ∧
    (∀ (k : Nat) (R L a : ℝ) (s : Cyl ℝ), Cyl.new k R L n = .ok s → 0 ≤ a → a ≤ L → a * Real.sqrt k ≤ 2 * R →
      SafeRoom (s.ops rng) n (At (cylSet n k R (2 * L))) (fun x => |x| ≤ a)) := by
  obtain ⟨w1, w2, w3⟩ := C77_walls rng
  obtain ⟨o1, o2, o3⟩ := C37_systems_outside_dim rng
  refine ⟨fun bc L s hs => ?_, fun R s hs => ?_, fun k R L a s hs ha0 haL hak => ?_⟩
  · have w := w1 bc L n s hs
    have hs' := hs
    obtain ⟨hL, hn, e, -⟩ := new_cubic hs
    refine ⟨fun p ⟨x, _, e⟩ => by rw [e]; simp, fun p z hp hz hb => ?_, fun inner g vec r hv h => ?_, ?_⟩
    · exact walls_step w le_rfl (fun x hx z hz => (C77_safe_steps n x z).1 bc L hL (Or.inl hx) hz) p z hp hz hb
    · obtain ⟨q, hq, hl, hin, -⟩ := (C26_cube rng hu bc L n s hs g vec hv).2
      have h' : some (s.randomPosToVec rng g vec) = some r := h
      rw [hq] at h'
      rw [← Option.some.inj h']
      obtain ⟨x, rfl⟩ := as_ofFn q hl
      exact ⟨rfl, x, fun i => (hin _ (by rw [List.mem_ofFn]; exact ⟨i, rfl⟩)).le, rfl⟩
    · have := o1 s; rw [e] at this ⊢; exact this
  · have w := w2 R n s hs
    have hR : 0 < R ∧ 0 < n ∧ s = ⟨.continuousCircular, .reflection, R, n⟩ := by
      unfold Circ.new at hs
      split at hs
      · simp at hs
      · rename_i hc
        simp only [fl_le, fl_zero, Bool.or_eq_true, decide_eq_true_eq, not_or, not_le, beq_iff_eq] at hc
        simp only [Res.ok.injEq] at hs
        exact ⟨hc.1, Nat.pos_of_ne_zero hc.2, hs.symm⟩
    obtain ⟨hR, hn, e⟩ := hR
    refine ⟨fun p ⟨x, _, e⟩ => by rw [e]; simp, fun p z hp hz hb => ?_, fun inner g vec r hv h => ?_, ?_⟩
    · exact walls_step w le_rfl (fun x hx z hz => (C77_safe_steps n x z).2.1 R hR hn (Or.inl hx) hz) p z hp hz hb
    · have h' : wroteVec vec (s.randomPosToVec rng inner g vec) = some r := h
      rcases hr : s.randomPosToVec rng inner g vec with _ | ⟨r', g1⟩
      · rw [hr] at h'; simp [wroteVec] at h'
      · obtain ⟨q, rfl, hq⟩ := C26_sphere_to_vec rng s inner g vec (by rw [e]; exact hv) r' g1 hr
        rw [hr] at h'
        simp only [wroteVec, Option.some.injEq] at h'
        rw [← h']
        have hd : q.length = n := by
          rcases Circ.checkInclusion_cases s q with ⟨hd, he⟩ | ⟨hd, -⟩
          · rw [he] at hq; simp at hq
          · rw [← hd, e]
        obtain ⟨x, rfl⟩ := as_ofFn q hd
        refine ⟨rfl, x, ?_, rfl⟩
        rcases Circ.checkInclusion_cases s (List.ofFn x) with ⟨hd, he⟩ | ⟨_, he⟩
        · rw [he] at hq; simp at hq
        · rw [he, norm_eq_radius, e] at hq
          have hx := radius_take n x
          rw [List.take_of_length_le (by simp)] at hx
          rw [hx] at hq
          simp only [fl_lt, Res.ok.injEq, Bool.not_eq_true', decide_eq_false_iff_not, not_lt] at hq
          rw [Real.sqrt_le_left hR.le] at hq
          simpa [axisSq, ballSet] using hq
    · have := o2 s; rw [e] at this ⊢; exact this
  · have w := w3 k R L n s hs
    obtain ⟨hR, hL, hk, hn, e⟩ := new_cyl hs
    refine ⟨fun p ⟨x, _, e⟩ => by rw [e]; simp, fun p z hp hz hb => ?_, fun inner g vec r hv h => ?_, ?_⟩
    · exact walls_step (S := cylSet n k R L) (S' := cylSet n k R (2 * L)) w (fun x hx => ⟨hx.1, fun i hi => (hx.2 i hi).trans (by linarith)⟩)
        (fun x hx z hz => (C77_safe_steps n x z).2.2 k R L a hR hL ha0 haL hak (Or.inl hx) hz) p z hp hz hb
    · have h' : wroteVec vec (s.randomPosToVec rng inner g vec) = some r := h
      rcases hr : s.randomPosToVec rng inner g vec with _ | ⟨r', g1⟩
      · rw [hr] at h'; simp [wroteVec] at h'
      · obtain ⟨q, rfl, hl, hrad, hax⟩ := C26_cylinder_to_vec_bound rng hu k R L n s hs vec hv inner g r' g1 hr
        rw [hr] at h'
        simp only [wroteVec, Option.some.injEq] at h'
        rw [← h']
        obtain ⟨x, rfl⟩ := as_ofFn q hl
        refine ⟨rfl, x, ⟨?_, fun i hi => ?_⟩, rfl⟩
        · rw [radius_take] at hrad
          exact (Real.sqrt_le_left hR.le).1 hrad.le
        · refine (hax (x i) ?_).le
          rw [List.mem_iff_getElem?]
          exact ⟨i.1 - k, by rw [List.getElem?_drop, Nat.add_sub_cancel' hi]; simp⟩
    · have := o3 s; rw [e] at this ⊢; exact this

section
variable (rng : RngOps G ℝ) (B : ℝ) (hB : BoundedNormals rng B) (sys : SysOps G ℝ) (d : Nat) (I : Pos ℝ → Prop) (a : ℝ)
  (hr : SafeRoom sys d I (fun x => |x| ≤ a)) (t : BulkTarget ℝ) (ht : t.targetPos.length = d)
include hB hr ht

/-- Independent searchers whose steps are safe never fail, however many there are, whatever the seed and however long it takes:
one searcher, the first of `k`, the searcher with a buffer, and the walkers of a list; and so for the mean over any number of
ensembles. -/
theorem C86_searchers (D dt : ℝ) (hs : Real.sqrt (2 * D * dt) * B ≤ a) (inner loops fuel steps : Nat) :
    (∀ g, Succeeds (oneSearcher rng sys t.ops inner loops steps (.brownian D) dt g)) ∧
    (∀ k g, Succeeds (nSearchersFpt rng sys t.ops inner loops steps (.brownian D) dt k g)) ∧
    (∀ k g, Succeeds (indepRun rng sys t.ops inner loops fuel steps (.brownian D) dt k g)) ∧
    (∀ n g, Succeeds (ensembleMean (oneSearcher rng sys t.ops inner loops steps (.brownian D) dt) n g)) ∧
    (∀ n buf g, buf.length = d → Succeeds (ensembleMean (oneBuffered rng sys t.ops inner loops steps (.brownian D) dt) n (buf, g))) ∧
    (∀ k n g, Succeeds (ensembleMean (nSearchersFpt rng sys t.ops inner loops steps (.brownian D) dt k) n g)) ∧
    (∀ k n g, Succeeds (ensembleMean (indepRun rng sys t.ops inner loops fuel steps (.brownian D) dt k) n g)) := by
  exact searchers_safe hr t ht D dt (smallMoves_real hB hs) inner loops fuel steps

/-- Merging searchers: their diffusion coefficient is `D` before the first merge and at most 1 after it. -/
theorem C86_merging (hB0 : 0 ≤ B) (D dt : ℝ) (hdt : 0 ≤ dt) (hs : Real.sqrt (2 * max D 1 * dt) * B ≤ a) (radius alpha : ℝ) (hal : 0 ≤ alpha)
    (inner loops fuel steps k : Nat) :
    (∀ g, Succeeds (mergeRun rng sys t.ops inner loops fuel steps (.brownian D) radius alpha dt k g)) ∧
    (∀ n g, Succeeds (ensembleMean (mergeRun rng sys t.ops inner loops fuel steps (.brownian D) radius alpha dt k) n g)) := by
  have h0 : (0 : ℝ) ≤ max D 1 := le_trans (by norm_num) (le_max_right D 1)
  exact mergers_safe hr t ht (scalesIn_real (le_max_right D 1)) D dt (le_max_left D 1)
    (fun c hc => smallMerges_real hB hB0 h0 hdt le_rfl hs c hc) radius alpha hal inner loops fuel steps k
end

/-- The crate's own generator: uniform numbers in (0,1), normal numbers of at most 13.73. -/
theorem C86_generator (t : ZigTables ℝ) (ht : NormalTables t) (n : Nat) :
    (∀ g, 0 < ((t.ops n).uniform g).1 ∧ ((t.ops n).uniform g).1 < 1) ∧ BoundedNormals (t.ops n) 13.73 := by
  refine ⟨fun g => C84_open_interval.1 _ g, fun g => ?_⟩
  show |((t.gaussian n g).getD (Fl.zero, g)).1| ≤ 13.73
  rcases h : t.gaussian n g with _ | ⟨v, g'⟩
  · simp; norm_num
  · exact (C85_bounded t ht n g v g' h).2.le


private theorem fresh_steps {c : ExpStep ℝ} (h : c.Fresh) : ∃ b, StepsUpTo b c := by
  induction h with
  | @new a b l c h =>
    refine ⟨b, ?_⟩
    unfold ExpStep.new at h
    split at h
    · simp at h
    · rename_i hc
      simp only [fl_lt, fl_lit, Bool.or_eq_true, decide_eq_true_eq, not_or, not_lt] at hc
      have ha : 0 ≤ a := le_trans (by push_cast; positivity) hc.1.1
      simp only [Res.ok.injEq] at h
      subst h
      refine ⟨⟨a, l, rfl, ha, hc.1.2⟩, ?_, ha, hc.1.2⟩
      simp only
      split
      · simp only [fl_lit]; push_cast; norm_num
      · split
        · simp only [fl_ofNat, fl_two]; positivity
        · simp only [fl_lit]; push_cast; norm_num
  | @convert a b l tm c h =>
    refine ⟨b, ?_⟩
    unfold ExpStep.convertFrom at h
    split at h
    · simp at h
    · rename_i hc
      simp only [fl_lt, fl_zero, Bool.or_eq_true, decide_eq_true_eq, not_or, not_lt] at hc
      simp only [Res.ok.injEq] at h
      subst h
      exact ⟨⟨a, l, rfl, hc.1.1.2, hc.1.2⟩, by simp only [fl_lit]; push_cast; norm_num, hc.1.1.2, hc.1.2⟩
  | @setTmax c t _ ih =>
    obtain ⟨b, h⟩ := ih
    refine ⟨b, ?_⟩
    unfold ExpStep.setTmax
    split
    · exact h
    · split <;> exact h
  | @setInc c x _ ih =>
    obtain ⟨b, h⟩ := ih
    refine ⟨b, ?_⟩
    unfold ExpStep.setInc
    split
    · exact h
    · rename_i hx
      simp only [fl_le, fl_one, decide_eq_true_eq, not_le] at hx
      obtain ⟨⟨y, l, h1, hy⟩, h2, h3⟩ := h
      rw [h1]
      simp only
      split
      · exact ⟨⟨y, l, rfl, hy⟩, by simp only [fl_ofNat, fl_two]; positivity, h3⟩
      · exact ⟨⟨y, l, rfl, hy⟩, by simp only; linarith, h3⟩

/-- Ensembles of merging searchers with the exponential clock (tests/large_n_simulation.rs), whose steps grow up to `dtMax`: the
only possible failure is that the clock's time is up. -/
theorem C86_large_n {rng : RngOps G ℝ} {B : ℝ} (hB : BoundedNormals rng B) (hB0 : 0 ≤ B) {sys : SysOps G ℝ} {d : Nat}
    {I : Pos ℝ → Prop} {a : ℝ} (hr : SafeRoom sys d I (fun x => |x| ≤ a)) (t : BulkTarget ℝ) (ht : t.targetPos.length = d)
    (clock : ExpStep ℝ) (hfresh : clock.Fresh) (dtMin dtMax : ℝ) (len : Nat) (hty : clock.titype = .exponential dtMin dtMax len)
    (D : ℝ) (hs : Real.sqrt (2 * max D 1 * dtMax) * B ≤ a) (radius alpha : ℝ) (hal : 0 ≤ alpha) (inner loops fuel steps k : Nat)
    (g g1 : G) (v : List (MergeAgent ℝ))
    (hv : makeAgents (fun g => MergeAgent.newUniform sys t.ops inner loops g (.brownian D) radius alpha) k g = some (.ok v, g1))
    (n : Nat) (x) (h : ensembleMean (largeNRun rng sys t.ops inner loops fuel steps) n (LList.from' v, clock, g1) = some x) :
    (∃ m, x.1 = .ok m) ∨ x.1 = .err .unexpectedEnd := by
  obtain ⟨b, hb⟩ := fresh_steps hfresh
  obtain rfl : b = dtMax := by
    obtain ⟨⟨y, l, h1, -⟩, -⟩ := hb
    rw [hty] at h1
    simp only [TimeType.exponential.injEq] at h1
    exact h1.2.1.symm
  have h0 : (0 : ℝ) ≤ max D 1 := le_trans (by norm_num) (le_max_right D 1)
  exact largeN_safe hr t ht (scalesIn_real (le_max_right D 1)) (clockIn_real b)
    (fun dt hdt c hc => smallMerges_real hB hB0 h0 hdt.1 hdt.2 hs c hc) clock hb D (le_max_left D 1) radius alpha hal inner loops fuel steps k
    g g1 v hv n x h

/-! ### the numbers of the crate's tests, with the crate's generator

In tests/single_ptl_rts.rs, tests/rts_n_searcher.rs, tests/n_ptl_rts_iterator.rs, tests/merge_fpt.rs and tests/large_n_simulation.rs the system is a
disc of radius 10, the target has radius 1, the diffusion coefficient is 1 and the time step at most 1/100. -/

/-- With an ideal generator (normal numbers without a bound) every such ensemble fails sooner or later
(`C77_large_ensembles_fail`); with the crate's generator, whose normal numbers are at most 13.73, none does. -/
theorem C86_tests (z : ZigTables ℝ) (hz : NormalTables z) (draws : Nat) (s : Circ ℝ) (hs : Circ.new 10 2 = .ok s) (dt : ℝ) (h0 : 0 ≤ dt)
    (hdt : dt ≤ 1 / 100) (inner loops fuel steps n k : Nat) (g : Pcg64) (radius alpha : ℝ) (hal : 0 ≤ alpha) :
    let rng := z.ops draws
    let target : BulkTarget ℝ := BulkTarget.new [0, 0] 1
    Succeeds (ensembleMean (oneSearcher rng (s.ops rng) target.ops inner loops steps (.brownian 1) dt) n g) ∧
    Succeeds (ensembleMean (oneBuffered rng (s.ops rng) target.ops inner loops steps (.brownian 1) dt) n ([0, 0], g)) ∧
    Succeeds (ensembleMean (nSearchersFpt rng (s.ops rng) target.ops inner loops steps (.brownian 1) dt k) n g) ∧
    Succeeds (ensembleMean (indepRun rng (s.ops rng) target.ops inner loops fuel steps (.brownian 1) dt k) n g) ∧
    Succeeds (ensembleMean (mergeRun rng (s.ops rng) target.ops inner loops fuel steps (.brownian 1) radius alpha dt k) n g) := by
  intro rng target
  obtain ⟨hu, hB⟩ := C86_generator z hz draws
  have hr := (C86_rooms rng hu 2).2.1 10 s hs
  have hsm : Real.sqrt (2 * 1 * dt) * 13.73 ≤ 2 * 10 / Real.sqrt ((2 : ℕ) : ℝ) := by
    have h1 : Real.sqrt (2 * 1 * dt) ≤ 1 / 5 := by
      rw [Real.sqrt_le_left (by norm_num)]; linarith
    have h2 : Real.sqrt ((2 : ℕ) : ℝ) ≤ 2 := by
      rw [Real.sqrt_le_left (by norm_num)]; norm_num
    have h3 : 0 < Real.sqrt ((2 : ℕ) : ℝ) := Real.sqrt_pos.2 (by norm_num)
    rw [le_div_iff₀ h3]
    have h4 : Real.sqrt (2 * 1 * dt) * 13.73 ≤ 3 := by linarith
    exact (mul_le_mul h4 h2 h3.le (by norm_num)).trans (by norm_num)
  obtain ⟨-, -, -, h1, hb, h2, h3⟩ := C86_searchers rng 13.73 hB _ 2 _ _ hr target rfl 1 dt hsm inner loops fuel steps
  refine ⟨h1 n g, hb n [0, 0] g rfl, h2 k n g, h3 k n g, ?_⟩
  exact (C86_merging rng 13.73 hB _ 2 _ _ hr target rfl (by norm_num) 1 dt h0 (by simpa using hsm) radius alpha hal inner loops fuel steps k).2 n g

/-- Their system exists, and so do the tables. -/
example : (∃ s : Circ ℝ, Circ.new 10 2 = .ok s) ∧ ∃ z : ZigTables ℝ, NormalTables z :=
  ⟨⟨⟨.continuousCircular, .reflection, 10, 2⟩, by unfold Circ.new; rw [if_neg (by simp)]⟩, roundedTables, roundedTables_ok⟩

/-- Likewise the clock of tests/large_n_simulation.rs:35, and its steps are small enough. -/
example : (∃ c : ExpStep ℝ, ExpStep.new (1 / 10 ^ 10) (1 / 10 ^ 5) 10 = .ok c ∧ c.Fresh ∧ c.titype = .exponential (1 / 10 ^ 10) (1 / 10 ^ 5) 10) ∧
    Real.sqrt (2 * max 1 1 * (1 / 10 ^ 5)) * 13.73 ≤ 2 * 10 / Real.sqrt ((2 : ℕ) : ℝ) := by
  constructor
  · have hn : ∃ c : ExpStep ℝ, ExpStep.new (1 / 10 ^ 10) (1 / 10 ^ 5) 10 = .ok c ∧ c.titype = .exponential (1 / 10 ^ 10) (1 / 10 ^ 5) 10 := by
      unfold ExpStep.new
      rw [if_neg (by simp only [fl_lt, fl_lit]; push_cast; norm_num)]
      exact ⟨_, rfl, rfl⟩
    obtain ⟨c, h, h'⟩ := hn
    exact ⟨c, h, .new h, h'⟩
  · have h1 : Real.sqrt (2 * max 1 1 * (1 / 10 ^ 5)) ≤ 1 / 5 := by
      rw [Real.sqrt_le_left (by norm_num), max_self]; norm_num
    have h2 : Real.sqrt ((2 : ℕ) : ℝ) ≤ 2 := by
      rw [Real.sqrt_le_left (by norm_num)]; norm_num
    have h3 : 0 < Real.sqrt ((2 : ℕ) : ℝ) := Real.sqrt_pos.2 (by norm_num)
    rw [le_div_iff₀ h3]
    have h4 : Real.sqrt (2 * max 1 1 * (1 / 10 ^ 5)) * 13.73 ≤ 3 := by linarith
    exact (mul_le_mul h4 h2 h3.le (by norm_num)).trans (by norm_num)

end Moledyn.Props
