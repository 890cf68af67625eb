import Verif.Props.Agents
/-
C79: when and how placing an agent fails.
-/
set_option linter.unusedSimpArgs false
set_option linter.unusedSectionVars false
namespace Moledyn.Props
open Moledyn
variable {G F : Type} [Fl F]

theorem rejectLoop_good {α : Type} {try_ : G → Res (Option α) × G} {P : α → Prop}
    (h : ∀ g, ∃ o, (try_ g).1 = .ok o ∧ ∀ a, o = some a → P a) :
    ∀ (fuel : Nat) (g : G) (r : Res α × G), rejectLoop try_ fuel g = some r → ∃ a g', r = (.ok a, g') ∧ P a := by
  intro fuel
  induction fuel with
  | zero => intro g r hr; simp [rejectLoop] at hr
  | succ fuel ih =>
    intro g r hr
    unfold rejectLoop at hr
    obtain ⟨o, ho, hP⟩ := h g
    rcases ht : try_ g with ⟨x, g1⟩
    rw [ht] at ho hr
    simp only at ho
    subst ho
    cases o with
    | none => exact ih _ _ hr
    | some a =>
      simp only [Option.some.injEq] at hr
      subst hr
      exact ⟨a, g1, rfl, hP a rfl⟩

/-- The three systems draw positions of their dimension (any arithmetic). -/
theorem C79_systems (rng : RngOps G F) :
    (∀ s : Cubic F, SysOps.Draws (s.ops rng) s.dim) ∧ (∀ s : Circ F, SysOps.Draws (s.ops rng) s.dim) ∧
    (∀ (d n : Nat) (R L : F) (s : Cyl F), Cyl.new d R L n = .ok s → SysOps.Draws (s.ops rng) n) := by
  have hlen : ∀ (v : Pos F) (a b : F) (g : G),
      (Random.getUniformToVecNonstandard rng g (v.clear Fl.zero) a b).1.length = v.length := by
    intro v a b g
    simp only [Random.getUniformToVecNonstandard, sweep_eq, List.length_zipWith, delivered_length]
    simp [Pos.clear]
  refine ⟨fun s inner g vec r hv h => ?_, fun s inner g vec r hv h => ?_, fun d n R L s hs inner g vec r hv h => ?_⟩
  · have h' : some (s.randomPosToVec rng g vec) = some r := h
    unfold Cubic.randomPosToVec at h'
    rw [if_neg (by simpa [Pos.dim] using hv)] at h'
    simp only [Option.some.injEq] at h'
    subst h'
    exact ⟨_, _, rfl, by rw [hlen, hv]⟩
  · have h' : wroteVec vec (s.randomPosToVec rng inner g vec) = some r := h
    unfold Circ.randomPosToVec at h'
    rw [if_neg (by simpa [Pos.dim] using hv)] at h'
    rcases hr : rejectLoop (s.proposeToVec rng vec) inner g with _ | x
    · rw [hr] at h'; simp [wroteVec] at h'
    · obtain ⟨a, g', rfl, ha⟩ := rejectLoop_good (P := fun p : Pos F => p.length = s.dim) (fun g => by
        unfold Circ.proposeToVec
        rcases Circ.checkInclusion_cases s (Random.getUniformToVecNonstandard rng g (vec.clear Fl.zero) (-s.sysSize) s.sysSize).1
          with ⟨hd, he⟩ | ⟨hd, he⟩
        · exact absurd (by rw [hlen, hv]) hd
        · simp only [he, Res.map_ok]
          refine ⟨_, rfl, fun a ha => ?_⟩
          split at ha
          · simp only [Option.some.injEq] at ha
            rw [← ha]; exact hd.symm
          · simp at ha) _ _ _ hr
      rw [hr] at h'
      simp only [wroteVec, Option.some.injEq] at h'
      exact ⟨a, g', h'.symm, ha⟩
  · have h' : wroteVec vec (s.randomPosToVec rng inner g vec) = some r := h
    unfold Cyl.new at hs
    split at hs
    · simp at hs
    rename_i hc
    simp only [Bool.or_eq_true, decide_eq_true_eq, not_or, not_lt] at hc
    obtain ⟨⟨⟨hdn, -⟩, -⟩, -⟩ := hc
    simp only [Res.ok.injEq] at hs
    subst hs
    unfold Cyl.randomPosToVec at h'
    simp only at h'
    rw [if_neg (by simpa [Pos.dim] using hv)] at h'
    generalize hq : rejectLoop _ inner g = q at h'
    rcases q with _ | x
    · simp [wroteVec] at h'
    · obtain ⟨a, g', rfl, ha⟩ := rejectLoop_good (P := fun p : Pos F => p.length = n) (fun g => by
        unfold Cyl.scaleTest
        simp only
        rw [if_neg (by rw [hlen, hv]; omega)]
        split
        · refine ⟨_, rfl, fun a ha => ?_⟩
          simp only [Option.some.injEq] at ha
          rw [← ha]
          simp only [List.length_append, List.length_map, List.length_take, List.length_drop, hlen, hv]
          omega
        · exact ⟨_, rfl, fun a ha => by simp at ha⟩) _ _ _ hq
      simp only [wroteVec, Option.some.injEq] at h'
      exact ⟨a, g', h'.symm, ha⟩

theorem draw_outcome {sys : SysOps G F} {n : Nat} (hd : SysOps.Draws sys n) (t : BulkTarget F) (inner : Nat) :
    ∀ (fuel : Nat) (g : G) (pos : Pos F) (r : (Pos F × Res Unit) × G), pos.length = n →
      AgentCore.drawOffTarget sys t.ops inner fuel g pos = some r → Placed t n r.1.2 := by
  intro fuel
  induction fuel with
  | zero => intro g pos r _ h; simp [AgentCore.drawOffTarget] at h
  | succ fuel ih =>
    intro g pos r hp h
    unfold AgentCore.drawOffTarget at h
    rcases hr : sys.randomPosToVec inner g pos with _ | x
    · rw [hr] at h; simp at h
    · obtain ⟨p, g', rfl, hl⟩ := hd _ _ _ _ hp hr
      rw [hr] at h
      simp only at h
      have hf : t.ops.checkFind p = t.checkFind p := rfl
      rw [hf] at h
      by_cases hm : t.targetPos.length = n
      · have : ∃ b, t.checkFind p = .ok b := by
          unfold BulkTarget.checkFind BulkTarget.distance Pos.distance
          rw [if_neg (by simpa [Pos.dim, hl] using hm)]
          simp only [Res.bind_ok]
          split <;> exact ⟨_, rfl⟩
        obtain ⟨b, hb⟩ := this
        rw [hb] at h
        cases b with
        | true => exact ih _ _ _ hl h
        | false =>
          simp only [Option.some.injEq] at h
          subst h
          exact .inl ⟨hm, (), rfl⟩
      · have : t.checkFind p = .err .invalidDimension := by
          unfold BulkTarget.checkFind BulkTarget.distance Pos.distance
          rw [if_pos (by simpa [Pos.dim, hl] using hm)]
          rfl
        rw [this] at h
        simp only [Option.some.injEq] at h
        subst h
        exact .inr ⟨hm, rfl⟩

theorem placed_map {t : BulkTarget F} {n : Nat} {A B : Type} {r : Res A} (f : A → B) (h : Placed t n r) : Placed t n (r.map f) := by
  rcases h with ⟨h1, a, rfl⟩ | ⟨h1, rfl⟩
  · exact .inl ⟨h1, f a, rfl⟩
  · exact .inr ⟨h1, rfl⟩

/-- Any arithmetic, any generator: a call of `new_uniform` that returns, returns an agent if the target has the dimension of
the system, and `InvalidDimension` if not; `InvalidArgumentInput` is returned, before anything is drawn, exactly if an
exponential agent is asked for with another interaction or one of another dimension, or a Lennard-Jones agent with another
interaction.  It never panics. -/
theorem C79_new_uniform (sys : SysOps G F) (n : Nat) (hd : SysOps.Draws sys n) (ho : sys.OutsideDim n) (t : BulkTarget F)
    (inner fuel : Nat) (g g' : G) :
    (∀ mt r, IndepAgent.newUniform sys t.ops inner fuel g mt = some (r, g') → Placed t n r) ∧
    (∀ mt ra al r, MergeAgent.newUniform sys t.ops inner fuel g mt ra al = some (r, g') → Placed t n r) ∧
    (∀ it mt st r, ExpAgent.newUniform sys t.ops inner fuel g it mt st = some (r, g') →
      ((∃ γ, it = .exponential n γ) → Placed t n r) ∧
      ((¬ ∃ γ, it = .exponential n γ) → r = .err .invalidArgumentInput ∧ g' = g)) ∧
    (∀ it mt st r, LJAgent.newUniform sys t.ops inner fuel g it mt st = some (r, g') →
      ((∃ s, it = .lennardJones s) → Placed t n r) ∧
      ((¬ ∃ s, it = .lennardJones s) → r = .err .invalidArgumentInput ∧ g' = g)) := by
  have key : ∀ {A : Type} (f : (Pos F × Res Unit) × G → A) (r : Res A),
      ((AgentCore.drawOffTarget sys t.ops inner fuel g sys.positionOut).map fun x => (x.1.2.map fun _ => f x, x.2)) =
        some (r, g') → Placed t n r := by
    intro A f r h
    rcases hx : AgentCore.drawOffTarget sys t.ops inner fuel g sys.positionOut with _ | x
    · rw [hx] at h; simp at h
    · rw [hx] at h
      simp only [Option.map_some, Option.some.injEq, Prod.mk.injEq] at h
      rw [← h.1]
      exact placed_map _ (draw_outcome hd t inner fuel g _ x ho.1 hx)
  refine ⟨fun mt r h => by unfold IndepAgent.newUniform at h; exact key _ r h,
    fun mt ra al r h => by unfold MergeAgent.newUniform at h; exact key _ r h, fun it mt st r h => ?_, fun it mt st r h => ?_⟩
  · unfold ExpAgent.newUniform at h
    cases it with
    | exponential d ga =>
      simp only at h
      by_cases hdn : d = n
      · subst hdn
        rw [if_neg (by simp [Pos.dim, ho.1])] at h
        exact ⟨fun _ => key _ r h, fun hn => absurd ⟨ga, rfl⟩ hn⟩
      · rw [if_pos (by simpa [Pos.dim, ho.1] using hdn)] at h
        simp only [Option.some.injEq, Prod.mk.injEq] at h
        exact ⟨fun ⟨γ, hγ⟩ => by simp at hγ; exact absurd hγ.1 hdn, fun _ => ⟨h.1.symm, h.2.symm⟩⟩
    | coulomb2D => simp only [Option.some.injEq, Prod.mk.injEq] at h; exact ⟨fun ⟨γ, hγ⟩ => by simp at hγ, fun _ => ⟨h.1.symm, h.2.symm⟩⟩
    | coulomb3D => simp only [Option.some.injEq, Prod.mk.injEq] at h; exact ⟨fun ⟨γ, hγ⟩ => by simp at hγ, fun _ => ⟨h.1.symm, h.2.symm⟩⟩
    | lennardJones _ => simp only [Option.some.injEq, Prod.mk.injEq] at h; exact ⟨fun ⟨γ, hγ⟩ => by simp at hγ, fun _ => ⟨h.1.symm, h.2.symm⟩⟩
  · unfold LJAgent.newUniform at h
    cases it with
    | lennardJones s =>
      exact ⟨fun _ => key _ r h, fun hn => absurd ⟨s, rfl⟩ hn⟩
    | coulomb2D => simp only [Option.some.injEq, Prod.mk.injEq] at h; exact ⟨fun ⟨γ, hγ⟩ => by simp at hγ, fun _ => ⟨h.1.symm, h.2.symm⟩⟩
    | coulomb3D => simp only [Option.some.injEq, Prod.mk.injEq] at h; exact ⟨fun ⟨γ, hγ⟩ => by simp at hγ, fun _ => ⟨h.1.symm, h.2.symm⟩⟩
    | exponential _ _ => simp only [Option.some.injEq, Prod.mk.injEq] at h; exact ⟨fun ⟨γ, hγ⟩ => by simp at hγ, fun _ => ⟨h.1.symm, h.2.symm⟩⟩

/-- Any arithmetic, any generator, any agent, also one from a system of another dimension: a call of `renew_uniform` that
returns, succeeds if the target has the dimension of the system, and returns `InvalidDimension` if not; except that a merging
agent with a Lévy walk is never renewed without an error: it gets its new place and size 1, and `FeatureNotProvided` is
returned. -/
theorem C79_renew_uniform (sys : SysOps G F) (n : Nat) (hd : SysOps.Draws sys n) (ho : sys.OutsideDim n) (t : BulkTarget F)
    (inner fuel : Nat) (g g' : G) :
    (∀ a a' r, IndepAgent.renewUniform sys t.ops inner fuel g a = some ((a', r), g') → Placed t n r) ∧
    (∀ a a' r, ExpAgent.renewUniform sys t.ops inner fuel g a = some ((a', r), g') → Placed t n r) ∧
    (∀ a a' r, LJAgent.renewUniform sys t.ops inner fuel g a = some ((a', r), g') → Placed t n r) ∧
    (∀ a a' r, MergeAgent.renewUniform sys t.ops inner fuel g a = some ((a', r), g') →
      (a.mtype ≠ .levy → Placed t n r) ∧
      (a.mtype = .levy → (t.targetPos.length ≠ n ∧ r = .err .invalidDimension) ∨
        (t.targetPos.length = n ∧ r = .err .featureNotProvided ∧ a'.size = 1 ∧ t.checkFind a'.pos = .ok false))) := by
  have hst : ∀ p, (AgentCore.startPos sys p).1 = sys.positionOut := by
    intro p
    unfold AgentCore.startPos
    by_cases h : p.length = n
    · rw [(ho.2 p).1 h]
    · obtain ⟨e, he⟩ := (ho.2 p).2 h
      rw [he]
  have key : ∀ {A : Type} (f : (Pos F × Res Unit) × G → A) (a' : A) (p : Pos F) (r : Res Unit), p = sys.positionOut →
      ((AgentCore.drawOffTarget sys t.ops inner fuel g p).map fun x => ((f x, x.1.2), x.2)) = some ((a', r), g') →
      Placed t n r := by
    intro A f a' p r hp h
    subst hp
    rcases hx : AgentCore.drawOffTarget sys t.ops inner fuel g sys.positionOut with _ | x
    · rw [hx] at h; simp at h
    · rw [hx] at h
      simp only [Option.map_some, Option.some.injEq, Prod.mk.injEq] at h
      rw [← h.1.2]
      exact draw_outcome hd t inner fuel g _ x ho.1 hx
  refine ⟨fun a a' r h => ?_, fun a a' r h => ?_, fun a a' r h => ?_, fun a a' r h => ?_⟩
  · exact key _ _ _ _ (hst a.pos) h
  · unfold ExpAgent.renewUniform at h
    refine key _ _ _ _ ?_ h
    split <;> exact hst a.pos
  · unfold LJAgent.renewUniform at h
    refine key _ _ _ _ ?_ h
    split <;> exact hst a.pos
  · unfold MergeAgent.renewUniform at h
    simp only [hst] at h
    rcases hx : AgentCore.drawOffTarget sys t.ops inner fuel g sys.positionOut with _ | x
    · rw [hx] at h; simp at h
    · have hP := draw_outcome hd t inner fuel g _ x ho.1 hx
      rw [hx] at h
      rcases x with ⟨⟨p, q⟩, g1⟩
      simp only [Option.map_some, Option.some.injEq] at h
      simp only at hP
      rcases hP with ⟨hm, ⟨⟩, rfl⟩ | ⟨hm, rfl⟩
      · have hfind : t.checkFind p = .ok false := by
          clear h key
          have hf : ∀ p, t.ops.checkFind p = t.checkFind p := fun _ => rfl
          revert hx
          generalize sys.positionOut = p0
          intro hx
          induction fuel generalizing g p0 with
          | zero => simp [AgentCore.drawOffTarget] at hx
          | succ fuel ih =>
            unfold AgentCore.drawOffTarget at hx
            split at hx
            · simp at hx
            · simp at hx
            · simp at hx
            · split at hx
              · rename_i hc
                simp only [Option.some.injEq, Prod.mk.injEq] at hx
                obtain ⟨⟨rfl, -⟩, -⟩ := hx
                exact hc
              · exact ih _ _ hx
              · simp at hx
              · simp at hx
        simp only at h
        unfold MergeAgent.rescale at h
        cases hmt : a.mtype with
        | levy =>
          simp only [hmt, Prod.mk.injEq] at h
          obtain ⟨⟨rfl, rfl⟩, -⟩ := h
          exact ⟨fun hc => absurd rfl hc, fun _ => .inr ⟨hm, rfl, rfl, hfind⟩⟩
        | brownian D =>
          simp only [hmt, Prod.mk.injEq] at h
          obtain ⟨⟨rfl, rfl⟩, -⟩ := h
          exact ⟨fun _ => .inl ⟨hm, (), rfl⟩, fun hc => by simp at hc⟩
      · simp only [Prod.mk.injEq] at h
        obtain ⟨⟨rfl, rfl⟩, -⟩ := h
        exact ⟨fun _ => .inr ⟨hm, rfl⟩, fun _ => .inl ⟨hm, rfl⟩⟩

/-- In a square, with a target on a line: the hypotheses hold, the call returns, and the dimension is blamed. -/
example : ∃ s : Cubic ℝ, Cubic.new .reflection 1 2 = .ok s ∧
    SysOps.Draws (s.ops (⟨fun g => (1 / 2, g + 1), fun g => (0, g)⟩ : RngOps Nat ℝ)) 2 ∧
    (s.ops (⟨fun g => (1 / 2, g + 1), fun g => (0, g)⟩ : RngOps Nat ℝ)).OutsideDim 2 ∧
    ∃ g', IndepAgent.newUniform (s.ops (⟨fun g => (1 / 2, g + 1), fun g => (0, g)⟩ : RngOps Nat ℝ))
      (BulkTarget.new [5] 1).ops 1 1 0 (.brownian 1) = some (.err .invalidDimension, g') := by
  have hD := (C79_systems (⟨fun g => (1 / 2, g + 1), fun g => (0, g)⟩ : RngOps Nat ℝ)).1 ⟨.continuousRectangular, .reflection, 1, 2⟩
  have hO := (C37_systems_outside_dim (⟨fun g => (1 / 2, g + 1), fun g => (0, g)⟩ : RngOps Nat ℝ)).1
    ⟨.continuousRectangular, .reflection, 1, 2⟩
  refine ⟨⟨.continuousRectangular, .reflection, 1, 2⟩, ?_, hD, hO, ?_⟩
  · unfold Cubic.new
    rw [if_neg (by simp [fl_le, fl_zero])]
  · rcases hx : IndepAgent.newUniform (Cubic.ops (⟨fun g => (1 / 2, g + 1), fun g => (0, g)⟩ : RngOps Nat ℝ)
        ⟨.continuousRectangular, .reflection, 1, 2⟩) (BulkTarget.new [5] 1).ops 1 1 0 (.brownian 1) with _ | ⟨r, g'⟩
    · exfalso
      revert hx
      unfold IndepAgent.newUniform AgentCore.drawOffTarget
      simp [Cubic.ops, Cubic.randomPosToVec, Cubic.positionOutOfSystem, Pos.dim, Random.getUniformToVecNonstandard, Random.sweep,
        Pos.clear, BulkTarget.ops, BulkTarget.checkFind, BulkTarget.distance, BulkTarget.new, Pos.distance, Res.bind]
    · have := (C79_new_uniform _ 2 hD hO (BulkTarget.new [5] 1) 1 1 0 g').1 _ _ hx
      rcases this with ⟨h, -⟩ | ⟨-, rfl⟩
      · simp [BulkTarget.new] at h
      · exact ⟨g', rfl⟩

end Moledyn.Props
