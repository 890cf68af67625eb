import Verif.Model.Agent
import Verif.Lemmas.System
import Verif.Lemmas.Random
/-
C60: what the constructors of domains, targets and agents accept, what they store, and that a domain they
accepted never panics afterwards.  All statements hold in every arithmetic (in particular in `f64`, where
`a <= b` is false as soon as one side is NaN).
-/
namespace Moledyn.Props
variable {F G : Type} [Fl F]

/-- C60 (cube, `ContCubicSystem::new`): the call aborts exactly when the size is `<= 0`, the dimension is 0
or more axes than there are should be mirrored; otherwise the system has exactly the given parameters. -/
theorem C60_cube (bc : BoundaryCond) (L : F) (n : Nat) :
    (Cubic.new bc L n = .panic ↔
      (Fl.le L Fl.zero = true ∨ n = 0 ∨ ∃ d, bc = .mixed d ∧ n < d)) ∧
    (¬ (Fl.le L Fl.zero = true ∨ n = 0 ∨ ∃ d, bc = .mixed d ∧ n < d) →
      ∃ s, Cubic.new bc L n = .ok s ∧ s.sysType = .continuousRectangular ∧ s.bctype = bc ∧
        s.sysSize = L ∧ s.dim = n) := by
  unfold Cubic.new
  by_cases h1 : Fl.le L Fl.zero = true
  · simp [h1]
  by_cases h2 : n = 0
  · simp [h2]
  cases bc with
  | periodic => simp [h1, h2]
  | reflection => simp [h1, h2]
  | mixed d =>
    by_cases h3 : n < d
    · simp [h1, h2, h3]
    · simp [h1, h2, h3]

/-- C60 (cube, `ContCubicSystem::convert_from`): the same for a system described by arguments; the system
type is stored without being looked at. -/
theorem C60_cube_convert (st : SystemType) (bc : BoundaryCond) (L : F) (n : Nat) :
    (Cubic.convertFrom st bc L n = .panic ↔
      (Fl.le L Fl.zero = true ∨ n = 0 ∨ ∃ d, bc = .mixed d ∧ n < d)) ∧
    (¬ (Fl.le L Fl.zero = true ∨ n = 0 ∨ ∃ d, bc = .mixed d ∧ n < d) →
      ∃ s, Cubic.convertFrom st bc L n = .ok s ∧ s.sysType = st ∧ s.bctype = bc ∧
        s.sysSize = L ∧ s.dim = n) := by
  unfold Cubic.convertFrom
  by_cases h1 : Fl.le L Fl.zero = true
  · simp [h1]
  by_cases h2 : n = 0
  · simp [h2]
  cases bc with
  | periodic => simp [h1, h2]
  | reflection => simp [h1, h2]
  | mixed d =>
    by_cases h3 : n < d
    · simp [h1, h2, h3]
    · simp [h1, h2, h3]

example : ∃ s, Cubic.new (F := ℝ) (.mixed 2) 3 2 = .ok s ∧ s.sysType = .continuousRectangular ∧
    s.bctype = .mixed 2 ∧ s.sysSize = 3 ∧ s.dim = 2 :=
  (C60_cube (F := ℝ) (.mixed 2) 3 2).2 (by simp [Fl.zero])
example : Cubic.new (F := ℝ) (.mixed 3) 3 2 = .panic :=
  (C60_cube (F := ℝ) (.mixed 3) 3 2).1.2 (.inr (.inr ⟨3, rfl, by decide⟩))

/-- C60 (sphere): both ways of building it abort exactly when the radius is `<= 0` or the dimension is 0. -/
theorem C60_sphere (st : SystemType) (bc : BoundaryCond) (R : F) (n : Nat) :
    (Circ.new R n = .panic ↔ (Fl.le R Fl.zero = true ∨ n = 0)) ∧
    (Circ.convertFrom st bc R n = .panic ↔ (Fl.le R Fl.zero = true ∨ n = 0)) ∧
    (¬ (Fl.le R Fl.zero = true ∨ n = 0) →
      (∃ s, Circ.new R n = .ok s ∧ s.sysType = .continuousCircular ∧ s.bctype = .reflection ∧
        s.sysSize = R ∧ s.dim = n) ∧
      (∃ s, Circ.convertFrom st bc R n = .ok s ∧ s.sysType = st ∧ s.bctype = bc ∧
        s.sysSize = R ∧ s.dim = n)) := by
  unfold Circ.new Circ.convertFrom
  by_cases h1 : Fl.le R Fl.zero = true
  · simp [h1]
  by_cases h2 : n = 0
  · simp [h2]
  · simp [h1, h2]

example : Circ.new (-1 : ℝ) 3 = .panic :=
  (C60_sphere .network .periodic (-1 : ℝ) 3).1.2 (.inl (by simp [Fl.zero]))

/-- C60 (cylinder, `ContCylindricalSystem::new`). -/
theorem C60_cylinder (d : Nat) (R L : F) (n : Nat) :
    (Cyl.new d R L n = .panic ↔
      (n < d ∨ Fl.le R Fl.zero = true ∨ Fl.le L Fl.zero = true ∨ n = 0)) ∧
    (¬ (n < d ∨ Fl.le R Fl.zero = true ∨ Fl.le L Fl.zero = true ∨ n = 0) →
      ∃ s, Cyl.new d R L n = .ok s ∧ s.sysType = .continuousCylindrical d ∧ s.bctype = .mixed d ∧
        s.sysRadius = R ∧ s.sysLength = L ∧ s.dim = n) := by
  unfold Cyl.new
  by_cases h0 : n < d
  · simp [h0]
  by_cases h1 : Fl.le R Fl.zero = true
  · simp [h1]
  by_cases h2 : Fl.le L Fl.zero = true
  · simp [h2]
  by_cases h3 : n = 0
  · simp [h3]
  · simp [h0, h1, h2, h3]

/-- C60 (cylinder, `ContCylindricalSystem::convert_from`): the system type must be a cylinder, the boundary
mixed with the same number of axes; the radius is only compared by `< 0`. -/
theorem C60_cylinder_convert (st : SystemType) (bc : BoundaryCond) (R L : F) (n : Nat) :
    (Cyl.convertFrom st bc R L n = .panic ↔
      ¬ ∃ d, st = .continuousCylindrical d ∧ bc = .mixed d ∧ d ≤ n ∧ Fl.lt R Fl.zero = false ∧
        Fl.le L Fl.zero = false ∧ n ≠ 0) ∧
    (∀ d, st = .continuousCylindrical d → bc = .mixed d → d ≤ n → Fl.lt R Fl.zero = false →
        Fl.le L Fl.zero = false → n ≠ 0 →
      ∃ s, Cyl.convertFrom st bc R L n = .ok s ∧ s.sysType = st ∧ s.bctype = bc ∧
        s.sysRadius = R ∧ s.sysLength = L ∧ s.dim = n) := by
  unfold Cyl.convertFrom
  constructor
  · cases st with
    | continuousCylindrical d1 =>
      cases bc with
      | mixed d2 =>
        by_cases h0 : d1 = d2
        · subst h0
          by_cases h1 : n < d1
          · have h1' : ¬ d1 ≤ n := by omega
            simp [h1, h1']
          have h1' : d1 ≤ n := by omega
          cases h2 : Fl.lt R Fl.zero <;> cases h3 : Fl.le L Fl.zero <;> by_cases h4 : n = 0 <;>
            simp [h1, h1', h2, h3, h4]
        · simp only [bne, beq_eq_false_iff_ne.2 h0, Bool.not_false, Bool.true_or, if_true, true_iff]
          rintro ⟨d, h, h', _⟩
          cases h; cases h'; exact h0 rfl
      | _ => simp
    | _ => simp
  · rintro d rfl rfl h1 h2 h3 h4
    have h1' : ¬ n < d := by omega
    simp [h1', h2, h3, h4]

/-- C60 (finding): a cylinder of radius zero is refused by `new` and accepted by `convert_from`. -/
theorem C60_zero_radius :
    Cyl.new 2 (0 : ℝ) 1 3 = .panic ∧
    ∃ s, Cyl.convertFrom (.continuousCylindrical 2) (.mixed 2) (0 : ℝ) 1 3 = .ok s ∧ s.sysRadius = 0 := by
  refine ⟨(C60_cylinder 2 (0 : ℝ) 1 3).1.2 (.inr (.inl (by simp [Fl.zero]))), ?_⟩
  obtain ⟨s, h, _, _, h', _⟩ := (C60_cylinder_convert (.continuousCylindrical 2) (.mixed 2) (0 : ℝ) 1 3).2 2
    rfl rfl (by decide) (by simp [Fl.zero]) (by simp [Fl.zero]) (by decide)
  exact ⟨s, h, h'⟩

/-! ### accepted domains never abort -/

/-- a domain whose methods never abort, whatever positions and displacements they are given, with the one
exception of a displacement with fewer coordinates than the position. -/
def NeverAborts (sys : SysOps G F) : Prop :=
  (∀ p, sys.checkInclusion p ≠ .panic) ∧
  (∀ p dp, (sys.checkBc p dp).2 = .panic ↔ dp.length < p.length) ∧
  (∀ vec, (sys.positionOutToVec vec).2 ≠ .panic) ∧
  (∀ fuel g vec r g', sys.randomPosToVec fuel g vec = some (r, g') → r.2 ≠ .panic)

private theorem bcStep_panic_iff {incl : Pos F → Res Bool} {fold : Pos F → Res (Pos F)} {pos dp : Pos F}
    (h1 : ∀ p, incl p ≠ .panic) (h2 : ∀ p b, incl p = .ok b → fold p ≠ .panic) :
    (bcStep incl fold pos dp).2 = .panic ↔ dp.length < pos.length := by
  constructor
  · intro h
    by_contra hl
    unfold bcStep at h
    rw [mutAdd_eq (by omega)] at h
    dsimp only at h
    rcases hc : incl (List.zipWith (· + ·) pos dp) with b | e | _
    · rw [hc] at h
      cases b with
      | true => simp at h
      | false =>
        dsimp only at h
        rcases hf : fold (List.zipWith (· + ·) pos dp) with q | e | _
        · rw [hf] at h
          dsimp only at h
          rcases hq : incl q with b | e | _
          · rw [hq] at h; cases b <;> simp at h
          · rw [hq] at h; simp at h
          · exact h1 _ hq
        · rw [hf] at h; simp at h
        · exact h2 _ _ hc hf
    · rw [hc] at h; simp at h
    · exact h1 _ hc
  · exact bcStep_short

private theorem rejectLoop_no_panic {α : Type} {try_ : G → Res (Option α) × G}
    (h : ∀ g, (try_ g).1 ≠ .panic) (fuel : Nat) (g : G) (r : Res α) (g' : G)
    (hr : rejectLoop try_ fuel g = some (r, g')) : r ≠ .panic := by
  induction fuel generalizing g with
  | zero => simp [rejectLoop] at hr
  | succ n ih =>
    rw [rejectLoop] at hr
    have hg := h g
    rcases ht : try_ g with ⟨r1, g1⟩
    rw [ht] at hr hg
    rcases r1 with o | e | _
    · cases o with
      | none => exact ih _ hr
      | some a => simp only [Option.some.injEq, Prod.mk.injEq] at hr; rw [← hr.1]; simp
    · simp only [Option.some.injEq, Prod.mk.injEq] at hr; rw [← hr.1]; simp
    · exact absurd rfl hg

private theorem wroteVec_no_panic {vec : Pos F} {o : Option (Res (Pos F) × G)} {r : Pos F × Res Unit} {g' : G}
    (h : ∀ r g, o = some (r, g) → r ≠ .panic) (hr : wroteVec vec o = some (r, g')) : r.2 ≠ .panic := by
  rcases o with _ | ⟨r1, g1⟩
  · simp [wroteVec] at hr
  · have := h r1 g1 rfl
    rcases r1 with p | e | _
    · simp only [wroteVec, Option.some.injEq, Prod.mk.injEq] at hr; rw [← hr.1]; simp
    · simp only [wroteVec, Option.some.injEq, Prod.mk.injEq] at hr; rw [← hr.1]; simp
    · exact absurd rfl this

/-- C60: a cube built by either constructor never aborts. -/
theorem C60_cube_never_aborts (st : SystemType) (bc : BoundaryCond) (L : F) (n : Nat) (s : Cubic F)
    (hs : Cubic.new bc L n = .ok s ∨ Cubic.convertFrom st bc L n = .ok s) (rng : RngOps G F) :
    NeverAborts (s.ops rng) ∧ ∀ g, (s.randomPos rng g).1 ≠ .panic := by
  have hbad : ¬ (Fl.le L Fl.zero = true ∨ n = 0 ∨ ∃ d, bc = .mixed d ∧ n < d) := by
    rcases hs with h | h
    · intro hb; rw [(C60_cube bc L n).1.2 hb] at h; cases h
    · intro hb; rw [(C60_cube_convert st bc L n).1.2 hb] at h; cases h
  obtain ⟨hb, hn⟩ : s.bctype = bc ∧ s.dim = n := by
    rcases hs with h | h
    · obtain ⟨s', h', _, hb, _, hn⟩ := (C60_cube bc L n).2 hbad
      rw [h'] at h; cases h; exact ⟨hb, hn⟩
    · obtain ⟨s', h', _, hb, _, hn⟩ := (C60_cube_convert st bc L n).2 hbad
      rw [h'] at h; cases h; exact ⟨hb, hn⟩
  have hinc : ∀ q, s.checkInclusion q ≠ .panic := by
    intro q; rcases s.checkInclusion_cases q with ⟨_, h⟩ | ⟨_, h⟩ <;> rw [h] <;> simp
  refine ⟨⟨hinc, fun p dp => ?_, fun vec => ?_, fun fuel g vec r g' h => ?_⟩, fun g => ?_⟩
  · show (s.checkBc p dp).2 = _ ↔ _
    rw [Cubic.checkBc_eq]
    refine bcStep_panic_iff hinc fun q b hq => ?_
    have hlen : s.dim = q.length := by
      rcases s.checkInclusion_cases q with ⟨_, h⟩ | ⟨h, _⟩
      · rw [h] at hq; cases hq
      · exact h
    unfold Cubic.fold
    rw [hb]
    cases bc with
    | periodic => simp
    | reflection => simp
    | mixed d =>
      have hd : ¬ q.length < d := by
        rw [← hlen, hn]; intro h; exact hbad (.inr (.inr ⟨d, rfl, h⟩))
      simp [hd]
  · show (s.positionOutOfSystemToVec vec).2 ≠ _
    unfold Cubic.positionOutOfSystemToVec; split <;> simp
  · simp only [Cubic.ops, Option.some.injEq] at h
    unfold Cubic.randomPosToVec at h
    split at h <;> simp only [Prod.mk.injEq] at h <;> rw [← h.1] <;> simp
  · unfold Cubic.randomPos
    simp [Random.getUniformVec, sweep_fresh, Pos.add, Pos.dim, Res.map]

/-- C60: a sphere built by either constructor never aborts. -/
theorem C60_sphere_never_aborts (st : SystemType) (bc : BoundaryCond) (R : F) (n : Nat) (s : Circ F)
    (_hs : Circ.new R n = .ok s ∨ Circ.convertFrom st bc R n = .ok s) (rng : RngOps G F) :
    NeverAborts (s.ops rng) ∧
      ∀ fuel g r g', s.randomPos rng fuel g = some (r, g') → r ≠ .panic := by
  have hinc : ∀ q, s.checkInclusion q ≠ .panic := by
    intro q; rcases s.checkInclusion_cases q with ⟨_, h⟩ | ⟨_, h⟩ <;> rw [h] <;> simp
  have hmap : ∀ q, ((s.checkInclusion q).map fun b => if b then some q else none) ≠ .panic := by
    intro q
    rcases hc : s.checkInclusion q with _ | _ | _
    · simp [Res.map]
    · simp [Res.map]
    · exact absurd hc (hinc q)
  refine ⟨⟨hinc, fun p dp => ?_, fun vec => ?_, fun fuel g vec r g' h => ?_⟩, fun fuel g r g' h => ?_⟩
  · show (s.checkBc p dp).2 = _ ↔ _
    rw [Circ.checkBc_eq]
    exact bcStep_panic_iff hinc fun q b hq => by simp [Circ.fold]
  · show (s.positionOutOfSystemToVec vec).2 ≠ _
    unfold Circ.positionOutOfSystemToVec; split <;> simp
  · refine wroteVec_no_panic (fun r1 g1 h1 => ?_) h
    unfold Circ.randomPosToVec at h1
    split at h1
    · simp only [Option.some.injEq, Prod.mk.injEq] at h1; rw [← h1.1]; simp
    · exact rejectLoop_no_panic (fun g => hmap _) _ _ _ _ h1
  · refine rejectLoop_no_panic (fun g => ?_) _ _ _ _ h
    unfold Circ.propose
    simp only [Random.getUniformVec, sweep_fresh, Pos.add, Pos.dim, List.length_replicate, delivered_length,
      ne_eq, not_true_eq_false, if_false, Res.bind]
    exact hmap _

/-- C60: a cylinder built by either constructor never aborts. -/
theorem C60_cylinder_never_aborts (st : SystemType) (bc : BoundaryCond) (d : Nat) (R L : F) (n : Nat)
    (s : Cyl F) (hs : Cyl.new d R L n = .ok s ∨ Cyl.convertFrom st bc R L n = .ok s) (rng : RngOps G F) :
    NeverAborts (s.ops rng) ∧
      ∀ fuel g r g', s.randomPos rng fuel g = some (r, g') → r ≠ .panic := by
  obtain ⟨k, hk1, hk2, hk3⟩ : ∃ k, s.sysType = .continuousCylindrical k ∧ s.bctype = .mixed k ∧ k ≤ s.dim := by
    rcases hs with h | h
    · have hbad : ¬ (n < d ∨ Fl.le R Fl.zero = true ∨ Fl.le L Fl.zero = true ∨ n = 0) := by
        intro hb; rw [(C60_cylinder d R L n).1.2 hb] at h; cases h
      obtain ⟨s', h', h1, h2, _, _, hn⟩ := (C60_cylinder d R L n).2 hbad
      rw [h'] at h; cases h
      exact ⟨d, h1, h2, by rw [hn]; by_contra hc; exact hbad (.inl (by omega))⟩
    · by_cases hg : ∃ d, st = .continuousCylindrical d ∧ bc = .mixed d ∧ d ≤ n ∧ Fl.lt R Fl.zero = false ∧
        Fl.le L Fl.zero = false ∧ n ≠ 0
      · obtain ⟨k, h1, h2, h3, h4, h5, h6⟩ := hg
        obtain ⟨s', h', g1, g2, _, _, hn⟩ := (C60_cylinder_convert st bc R L n).2 k h1 h2 h3 h4 h5 h6
        rw [h'] at h; cases h
        exact ⟨k, g1.trans h1, g2.trans h2, by rw [hn]; exact h3⟩
      · rw [(C60_cylinder_convert st bc R L n).1.2 hg] at h; cases h
  have hinc : ∀ q, s.checkInclusion q ≠ .panic := by
    intro q
    by_cases hl : s.dim = q.length
    · rw [s.checkInclusion_eq q k hl hk1 (by omega)]; simp
    · rw [s.checkInclusion_dim q hl]; simp
  have hscale : ∀ q : Pos F, q.length = s.dim → s.scaleTest k q ≠ .panic := by
    intro q hq
    unfold Cyl.scaleTest
    rw [if_neg (by omega)]
    dsimp only; split <;> simp
  refine ⟨⟨hinc, fun p dp => ?_, fun vec => ?_, fun fuel g vec r g' h => ?_⟩, fun fuel g r g' h => ?_⟩
  · show (s.checkBc p dp).2 = _ ↔ _
    rw [Cyl.checkBc_eq]
    refine bcStep_panic_iff hinc fun q b hq => ?_
    have hlen : s.dim = q.length := by
      by_contra hl; rw [s.checkInclusion_dim q hl] at hq; cases hq
    unfold Cyl.fold
    rw [hk2]
    have : ¬ q.length < k := by omega
    simp [this]
  · show (s.positionOutOfSystemToVec vec).2 ≠ _
    unfold Cyl.positionOutOfSystemToVec; split <;> simp
  · refine wroteVec_no_panic (fun r1 g1 h1 => ?_) h
    unfold Cyl.randomPosToVec at h1
    rw [hk1] at h1
    dsimp only at h1
    split at h1
    · simp only [Option.some.injEq, Prod.mk.injEq] at h1; rw [← h1.1]; simp
    · rename_i hv
      refine rejectLoop_no_panic (fun g => hscale _ ?_) _ _ _ _ h1
      simp only [Random.getUniformToVecNonstandard, sweep_eq, List.length_zipWith, delivered_length]
      simpa [Pos.clear, Pos.dim] using hv
  · unfold Cyl.randomPos at h
    rw [hk1] at h
    refine rejectLoop_no_panic (fun g => ?_) _ _ _ _ h
    simp only [Random.getUniformVec, sweep_fresh, Pos.add, Pos.dim, List.length_replicate, delivered_length,
      ne_eq, not_true_eq_false, if_false, Res.bind]
    exact hscale _ (by simp)

example (rng : RngOps G ℝ) : ∃ s, Cyl.new 2 (1 : ℝ) 1 3 = .ok s ∧ NeverAborts (s.ops rng) := by
  obtain ⟨s, h, _⟩ := (C60_cylinder 2 (1 : ℝ) 1 3).2 (by simp [Fl.zero])
  exact ⟨s, h, (C60_cylinder_never_aborts .network .periodic 2 1 1 3 s (.inl h) rng).1⟩

/-! ### agents and targets -/

/-- the dimension and the position an initialisation describes: none yet for a uniform start. -/
def startOf : InitType F → Nat × List F
  | .uniform => (0, [])
  | .specificPosition p => (p.length, p)

omit [Fl F] in
/-- C60 (targets): stored as given, nothing is refused. -/
theorem C60_target (tt : TargetType) (pos : Pos F) (r : F) :
    (BulkTarget.new pos r).targetType = .continuousInBulk ∧ (BulkTarget.new pos r).targetPos = pos ∧
    (BulkTarget.new pos r).targetSize = r ∧
    (BulkTarget.convertFrom tt pos r).targetType = tt ∧ (BulkTarget.convertFrom tt pos r).targetPos = pos ∧
    (BulkTarget.convertFrom tt pos r).targetSize = r := ⟨rfl, rfl, rfl, rfl, rfl, rfl⟩

omit [Fl F] in
/-- C60 (independent agents): `convert_from` makes exactly the requested number of agents, every one with
the given tags, starting where the initialisation says. -/
theorem C60_independent (at_ : AgentType) (mt : MoveType F) (it : InitType F) (n : Nat) :
    (IndepAgent.convertFrom at_ mt it n).length = n ∧
    ∀ a ∈ IndepAgent.convertFrom at_ mt it n, a.agentType = at_ ∧ a.mtype = mt ∧ a.itype = it ∧
      (a.dim, a.pos) = startOf it := by
  refine ⟨by simp [IndepAgent.convertFrom], fun a ha => ?_⟩
  rw [List.eq_of_mem_replicate ha]
  cases it <;> exact ⟨rfl, rfl, rfl, rfl⟩

omit [Fl F] in
/-- C60 (merging agents): the same, every one of size 1 and with the given radius and exponent. -/
theorem C60_merging (at_ : AgentType) (mt : MoveType F) (it : InitType F) (r al : F) (n : Nat) :
    (MergeAgent.convertFrom at_ mt it r al n).length = n ∧
    ∀ a ∈ MergeAgent.convertFrom at_ mt it r al n, a.agentType = at_ ∧ a.mtype = mt ∧ a.itype = it ∧
      (a.dim, a.pos) = startOf it ∧ a.ptlRadius = r ∧ a.alpha = al ∧ a.size = 1 := by
  refine ⟨by simp [MergeAgent.convertFrom], fun a ha => ?_⟩
  rw [List.eq_of_mem_replicate ha]
  cases it <;> exact ⟨rfl, rfl, rfl, rfl, rfl, rfl, rfl⟩

/-- C60 (exponential agents): `convert_from` aborts exactly when a specific, non-empty position does not have
the stated dimension; otherwise the agents carry the given parameters, the derived potential prefactor
is the strength and the force prefactor strength over range. -/
theorem C60_exponential (mt : MoveType F) (it : InitType F) (ga : F) (d : Nat) (st : F) (n : Nat) :
    (ExpAgent.convertFrom mt it ga d st n = .panic ↔
      ∃ p, it = .specificPosition p ∧ p.length ≠ 0 ∧ p.length ≠ d) ∧
    ((¬ ∃ p, it = .specificPosition p ∧ p.length ≠ 0 ∧ p.length ≠ d) →
      ∃ l, ExpAgent.convertFrom mt it ga d st n = .ok l ∧ l.length = n ∧
        ∀ a ∈ l, a.agentType = .continuousPassiveInteracting ∧ a.intType = .exponential d ga ∧ a.mtype = mt ∧
          a.itype = it ∧ a.expDim = d ∧ a.pos = (startOf it).2 ∧ a.gamma = ga ∧ a.strength = st ∧
          a.coeffPot = st ∧ a.coeffForce = st / ga) := by
  cases it with
  | uniform =>
    constructor
    · simp [ExpAgent.convertFrom, AgentCore.initPos]
    · intro _
      refine ⟨_, rfl, by simp, fun a ha => ?_⟩
      rw [List.eq_of_mem_replicate ha]
      exact ⟨rfl, rfl, rfl, rfl, rfl, rfl, rfl, rfl, rfl, rfl⟩
  | specificPosition p =>
    constructor
    · unfold ExpAgent.convertFrom
      by_cases hc : p.length ≠ 0 ∧ p.length ≠ d
      · exact ⟨fun _ => ⟨p, rfl, hc⟩, fun _ => if_pos hc⟩
      · refine ⟨fun h => ?_, ?_⟩
        · exact absurd (h.symm.trans (if_neg hc)) (by simp)
        · rintro ⟨q, hq, h⟩
          cases hq; exact absurd h hc
    · intro h
      have hc : ¬ (p.length ≠ 0 ∧ p.length ≠ d) := fun hc => h ⟨p, rfl, hc⟩
      refine ⟨_, if_neg hc, by simp, fun a ha => ?_⟩
      rw [List.eq_of_mem_replicate ha]
      exact ⟨rfl, rfl, rfl, rfl, rfl, rfl, rfl, rfl, rfl, rfl⟩

/-- C60 (Lennard-Jones agents). -/
theorem C60_lennard_jones (mt : MoveType F) (it : InitType F) (ps st : F) (n : Nat) :
    (LJAgent.convertFrom mt it ps st n).length = n ∧
    ∀ a ∈ LJAgent.convertFrom mt it ps st n, a.agentType = .continuousPassiveInteracting ∧
      a.intType = .lennardJones ps ∧ a.mtype = mt ∧ a.itype = it ∧ (a.dim, a.pos) = startOf it ∧
      a.ptlSize = ps ∧ a.strength = st ∧ a.coeffPot = Fl.lit 4 * st ∧ a.coeffForce = Fl.lit 24 * st / ps := by
  refine ⟨by simp [LJAgent.convertFrom], fun a ha => ?_⟩
  rw [List.eq_of_mem_replicate ha]
  cases it <;> exact ⟨rfl, rfl, rfl, rfl, rfl, rfl, rfl, rfl, rfl⟩

/-- C60 (agents at a given position): the four `new`; exponential and Lennard-Jones agents abort exactly
when the interaction is of another kind (or, exponential, of another dimension). -/
theorem C60_new (int : InteractType F) (mt : MoveType F) (pos : Pos F) (st r al : F) :
    (IndepAgent.new mt pos = ⟨.continuousPassiveIndependent, mt, .specificPosition pos, pos.length, pos⟩) ∧
    (MergeAgent.new mt pos r al =
      ⟨.continuousPassiveInteracting, mt, .specificPosition pos, pos.length, pos, r, 1, al⟩) ∧
    (∀ ga, int = .exponential pos.length ga → ExpAgent.new int mt pos st =
      .ok ⟨.continuousPassiveInteracting, int, mt, .specificPosition pos, pos.length, pos, ga, st, st, st / ga⟩) ∧
    ((¬ ∃ ga, int = .exponential pos.length ga) → ExpAgent.new int mt pos st = .panic) ∧
    (∀ ps, int = .lennardJones ps → LJAgent.new int mt pos st =
      .ok ⟨.continuousPassiveInteracting, int, mt, .specificPosition pos, pos.length, pos, ps, st,
        Fl.lit 4 * st, Fl.lit 24 * st / ps⟩) ∧
    ((¬ ∃ ps, int = .lennardJones ps) → LJAgent.new int mt pos st = .panic) := by
  refine ⟨rfl, rfl, ?_, ?_, ?_, ?_⟩
  · rintro ga rfl
    simp [ExpAgent.new, Pos.dim, ExpAgent.coeff]
  · intro h
    cases int with
    | exponential d ga =>
      have : d ≠ pos.length := by rintro rfl; exact h ⟨ga, rfl⟩
      simp [ExpAgent.new, Pos.dim, this]
    | _ => rfl
  · rintro ps rfl; rfl
  · intro h
    cases int with
    | lennardJones ps => exact absurd ⟨ps, rfl⟩ h
    | _ => rfl

example : ExpAgent.convertFrom (F := ℝ) .levy (.specificPosition [1, 2]) 1 3 1 4 = .panic :=
  (C60_exponential .levy (.specificPosition [1, 2]) 1 3 1 4).1.2 ⟨[1, 2], rfl, by decide, by decide⟩

end Moledyn.Props
