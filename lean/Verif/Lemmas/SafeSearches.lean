import Verif.Lemmas.SafeRuns
/-
Helper lemmas: the searches of the test programs succeed when all displacements are small, whatever the numbers are.
-/
namespace Moledyn
open LList
variable {G F : Type} [Fl F] {rng : RngOps G F} {sys : SysOps G F} {d : Nat} {I : Pos F → Prop} {small : F → Prop}
  (hr : SafeRoom sys d I small) (t : BulkTarget F) (ht : t.targetPos.length = d)
include hr ht

theorem searchers_safe (D dt : F) (hs : SmallMoves rng small D dt) (inner loops fuel steps : Nat) :
    (∀ g, Succeeds (oneSearcher rng sys t.ops inner loops steps (.brownian D) dt g)) ∧
    (∀ k g, Succeeds (nSearchersFpt rng sys t.ops inner loops steps (.brownian D) dt k g)) ∧
    (∀ k g, Succeeds (indepRun rng sys t.ops inner loops fuel steps (.brownian D) dt k g)) ∧
    (∀ n g, Succeeds (ensembleMean (oneSearcher rng sys t.ops inner loops steps (.brownian D) dt) n g)) ∧
    (∀ n buf g, buf.length = d → Succeeds (ensembleMean (oneBuffered rng sys t.ops inner loops steps (.brownian D) dt) n (buf, g))) ∧
    (∀ k n g, Succeeds (ensembleMean (nSearchersFpt rng sys t.ops inner loops steps (.brownian D) dt k) n g)) ∧
    (∀ k n g, Succeeds (ensembleMean (indepRun rng sys t.ops inner loops fuel steps (.brownian D) dt k) n g)) := by
  have h1 : ∀ g, Succeeds (oneSearcher rng sys t.ops inner loops steps (.brownian D) dt g) :=
    fun g => oneSearcher_safe hr hs t ht inner loops steps g
  have h2 : ∀ k g, Succeeds (nSearchersFpt rng sys t.ops inner loops steps (.brownian D) dt k g) :=
    fun k g => minLoop_safe _ h1 k g _
  have h3 : ∀ k g, Succeeds (indepRun rng sys t.ops inner loops fuel steps (.brownian D) dt k g) := by
    intro k g x hx
    unfold indepRun at hx
    rcases hm : makeAgents (fun g => IndepAgent.newUniform sys t.ops inner loops g (.brownian D)) k g with _ | ⟨r, g1⟩
    · rw [hm] at hx; simp at hx
    · obtain ⟨⟨v, hv, -, hall⟩, -⟩ := makeAgents_safe (fun _ => True) (SafeWalker I d D) _
        (fun g _ x hx => ⟨newUniform_safe hr t ht inner loops g D x hx, trivial⟩) k g trivial _ hm
      simp only at hv
      subst hv
      rw [hm] at hx
      simp only at hx
      have hl := searchLoop_succeeds (fun _ : F => True) (fun s : LList (IndepAgent F) × G => AllIn (SafeWalker I d D) s.1) (fun x => x = dt)
        (countingTick dt) (walkStep (IndepAgent.walker rng) sys t.ops fuel)
        (fun c _ => ⟨_, rfl, trivial, fun x hx => by rw [← Option.some.inj hx]⟩)
        (fun dt' s hq hj r hr' => by
          subst hq
          refine agentSweep_safe (SafeWalker I d D) _ (walkAct_safe hr t ht (fun x hx => hx.1) (fun x g hx => ?_) (fun x p hx hp => ⟨hp, hx.2⟩))
            fuel _ (intoIter_allIn hj) s.2 r hr'
          obtain ⟨z, g1, e, h⟩ := move_safe (d := d) hs g
          refine ⟨z, g1, ?_, h⟩
          show x.randomMove rng g dt' = _
          unfold IndepAgent.randomMove
          rw [hx.2.1, hx.2.2, e])
        steps Fl.zero (LList.from' v, g1) trivial (from_allIn v hall)
      rcases hsl : searchLoop (countingTick dt) (walkStep (IndepAgent.walker rng) sys t.ops fuel) steps Fl.zero (LList.from' v, g1) with ⟨s, o⟩
      rw [hsl] at hx hl
      cases o with
      | none => simp at hx
      | some r =>
        obtain ⟨⟨o, rfl⟩, -⟩ := hl r rfl
        cases o with
        | none => simp at hx
        | some tm => simp only [Option.some.injEq] at hx; subst hx; exact ⟨tm, rfl⟩
  refine ⟨h1, h2, h3, fun n g => ?_, fun n buf g hb => ?_, fun k n g => ?_, fun k n g => ?_⟩
  · exact ensembleMean_safe (fun _ => True) _ (fun s _ x hx => ⟨h1 s x hx, trivial⟩) n g trivial
  · exact ensembleMean_safe (fun s : Pos F × G => s.1.length = d) _
      (fun s hs' x hx => oneBuffered_safe hr hs t ht inner loops steps s hs' x hx) n (buf, g) hb
  · exact ensembleMean_safe (fun _ => True) _ (fun s _ x hx => ⟨h2 k s x hx, trivial⟩) n g trivial
  · exact ensembleMean_safe (fun _ => True) _ (fun s _ x hx => ⟨h3 k s x hx, trivial⟩) n g trivial

theorem mergers_safe {okA okD : F → Prop} (hD : ScalesIn okA okD) (D dt : F) (hD0 : okD D) (hs : ∀ c, okD c → SmallMoves rng small c dt)
    (radius alpha : F) (hal : okA alpha) (inner loops fuel steps k : Nat) :
    (∀ g, Succeeds (mergeRun rng sys t.ops inner loops fuel steps (.brownian D) radius alpha dt k g)) ∧
    (∀ n g, Succeeds (ensembleMean (mergeRun rng sys t.ops inner loops fuel steps (.brownian D) radius alpha dt k) n g)) := by
  have h1 : ∀ g, Succeeds (mergeRun rng sys t.ops inner loops fuel steps (.brownian D) radius alpha dt k g) := by
    intro g x hx
    unfold mergeRun at hx
    rcases hm : makeAgents (fun g => MergeAgent.newUniform sys t.ops inner loops g (.brownian D) radius alpha) k g with _ | ⟨r, g1⟩
    · rw [hm] at hx; simp at hx
    · obtain ⟨⟨v, hv, -, hall⟩, -⟩ := makeAgents_safe (fun _ => True) (SafeMerger I d okA okD) _
        (fun g _ x hx => ⟨mergeNew_safe hr t ht inner loops g hD0 hal x hx, trivial⟩) k g trivial _ hm
      simp only at hv
      subst hv
      rw [hm] at hx
      simp only at hx
      have hl := searchLoop_succeeds (fun _ : F => True) (fun s : MergeSim G F => AllIn (SafeMerger I d okA okD) s.list) (fun x => x = dt)
        (countingTick dt) (mergeStep rng sys t.ops (fun _ => radius) fuel)
        (fun c _ => ⟨_, rfl, trivial, fun x hx => by rw [← Option.some.inj hx]⟩)
        (fun dt' s hq hj r hr' => by
          subst hq
          exact mergeStep_safe hr t ht hD hs _ fuel s hj r hr')
        steps Fl.zero ⟨LList.from' v, g1, []⟩ trivial (from_allIn v hall)
      unfold mergeFpt at hx
      rcases hsl : searchLoop (countingTick dt) (mergeStep rng sys t.ops (fun _ => radius) fuel) steps Fl.zero
        (⟨LList.from' v, g1, []⟩ : MergeSim G F) with ⟨s, o⟩
      rw [hsl] at hx hl
      cases o with
      | none => simp at hx
      | some r =>
        obtain ⟨⟨o, rfl⟩, -⟩ := hl r rfl
        cases o with
        | none => simp at hx
        | some tm => simp only [Option.some.injEq] at hx; subst hx; exact ⟨tm, rfl⟩
  exact ⟨h1, fun n g => ensembleMean_safe (fun _ => True) _ (fun s _ x hx => ⟨h1 s x hx, trivial⟩) n g trivial⟩

theorem largeN_safe {okA okD : F → Prop} (hD : ScalesIn okA okD) {okC : ExpStep F → Prop} {okT : F → Prop} (hok : ClockIn okC okT)
    (hs : ∀ dt, okT dt → ∀ c, okD c → SmallMoves rng small c dt) (clock : ExpStep F) (hc : okC clock) (D : F) (hD0 : okD D)
    (radius alpha : F) (hal : okA alpha) (inner loops fuel steps k : Nat)
    (g g1 : G) (v : List (MergeAgent F))
    (hv : makeAgents (fun g => MergeAgent.newUniform sys t.ops inner loops g (.brownian D) radius alpha) k g = some (.ok v, g1))
    (n : Nat) (x) (h : ensembleMean (largeNRun rng sys t.ops inner loops fuel steps) n (LList.from' v, clock, g1) = some x) :
    (∃ m, x.1 = .ok m) ∨ x.1 = .err .unexpectedEnd := by
  obtain ⟨⟨w, hw, -, hall⟩, -⟩ := makeAgents_safe (fun _ => True) (SafeMerger I d okA okD) _
    (fun g _ x hx => ⟨mergeNew_safe hr t ht inner loops g hD0 hal x hx, trivial⟩) k g trivial _ hv
  simp only [Res.ok.injEq] at hw
  subst hw
  exact ensembleMean_or (fun s => AllIn (SafeMerger I d okA okD) s.1 ∧ okC s.2.1) .unexpectedEnd _
    (fun s hs' x hx => largeNRun_safe hr t ht hD hok hs inner loops fuel steps s hs'.1 hs'.2 x hx)
    n _ ⟨from_allIn v hall, hc⟩ x h

end Moledyn
