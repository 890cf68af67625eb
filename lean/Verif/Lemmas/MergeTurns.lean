import Verif.Lemmas.SafeRuns
import Verif.Lemmas.Words
import Verif.Props.MoveLaws
import Verif.Props.AgentLaws
import Verif.Spec.SearchLaw
/-
What one turn of merging searchers does, in terms of the numbers drawn.
-/
namespace Moledyn
open LList MeasureTheory
open Props (move_eq checkFind_eq)
set_option linter.unusedSectionVars false

section
variable {S α : Type}

/-- a sweep over the agents, when every agent draws the same number of numbers. -/
theorem agentSweep_counts (act : Nat → S → α → (α × Res Bool) × S) (next : S → S) (K : α → Prop)
    (hnext : ∀ i st a, K a → (act i st a).2 = next st) (n : Nat) :
    ∀ {l : LList α} {s : Slots α} (st : S), Rep l s → (∀ i ∈ s.q0, ∀ a, s.contents[i]? = some a → K a) →
    (agentSweep act n l st).2 = some (.ok false) →
    ∃ s' : Slots α, Rep (agentSweep act n l st).1.1 s' ∧ s'.live = s.live ∧ s'.contents.length = s.contents.length ∧
      (agentSweep act n l st).1.2 = next^[s.q0.length] st ∧
      (∀ i ∈ s.q0, ∃ a, ∃ k < s.q0.length, s.contents[i]? = some a ∧ s'.contents[i]? = some (act i (next^[k] st) a).1.1 ∧
        (act i (next^[k] st) a).1.2 = .ok false) ∧
      ∀ i, i ∉ s.q0 → s'.contents[i]? = s.contents[i]? := by
  induction n with
  | zero => intro l s st _ _ h; simp [agentSweep] at h
  | succ n ih =>
    intro l s st h hK hok
    cases hq : s.q0 with
    | nil =>
      have e : agentSweep act (n + 1) l st = ((l, st), some (.ok false)) := by
        simp only [agentSweep, h.enumMut_nil hq]
      rw [e]
      exact ⟨s, h, rfl, rfl, rfl, by simp, fun _ _ => rfl⟩
    | cons i q =>
      have hsuf : (i :: q) <:+ s.live := hq ▸ h.q0suf
      obtain ⟨a, ha⟩ := h.content (hsuf.subset List.mem_cons_self)
      have hc : l.c0 = some i := by rw [h.c0, hq]; rfl
      have hlt := (List.getElem?_eq_some_iff.1 ha).1
      have hnd : (i :: q).Nodup := (h.nodup).sublist hsuf.sublist
      have hiq : i ∉ q := (List.nodup_cons.1 hnd).1
      obtain ⟨he, hrep⟩ := h.enumMut_cons hq (fun a => (act (l.c0.getD 0) st a).1.1) ha
      have he : l.enumerateMut (fun a => (act (l.c0.getD 0) st a).1.1) =
          ((l.enumerateMut (fun a => (act (l.c0.getD 0) st a).1.1)).1, .ok (some (i, a))) := Prod.ext rfl he
      set l1 := (l.enumerateMut (fun a => (act (l.c0.getD 0) st a).1.1)).1 with hl1
      simp only [hc, Option.getD_some] at hrep
      have hka := hK i (by rw [hq]; simp) a ha
      have hget : ∀ x, (s.contents.set i x)[i]? = some x := fun x => List.getElem?_set_self hlt
      have hne : ∀ x k, k ≠ i → (s.contents.set i x)[k]? = s.contents[k]? :=
        fun x k hk => List.getElem?_set_ne (fun h => hk h.symm)
      have hb : (act i st a).1.2 = .ok false ∧ agentSweep act (n + 1) l st = agentSweep act n l1 (act i st a).2 := by
        cases hb : (act i st a).1.2 with
        | err e =>
          have e' : agentSweep act (n + 1) l st = ((l1, (act i st a).2), some (.err e)) := by
            simp only [agentSweep, he, hb]
          rw [e'] at hok; simp at hok
        | panic =>
          have e' : agentSweep act (n + 1) l st = ((l1, (act i st a).2), some .panic) := by
            simp only [agentSweep, he, hb]
          rw [e'] at hok; simp at hok
        | ok b =>
          cases b with
          | true =>
            have e' : agentSweep act (n + 1) l st = ((l1, (act i st a).2), some (.ok true)) := by
              simp only [agentSweep, he, hb]
            rw [e'] at hok; simp at hok
          | false =>
            exact ⟨rfl, by simp only [agentSweep, he, hb]⟩
      obtain ⟨hb, e'⟩ := hb
      rw [e'] at hok ⊢
      obtain ⟨s', h1, h2, h3, h4, h5, h6⟩ := ih (act i st a).2 hrep (by
        intro k hk x hx
        simp only at hk hx
        have hki : k ≠ i := by rintro rfl; exact hiq hk
        rw [hne _ k hki] at hx
        exact hK k (by rw [hq]; simp [hk]) x hx) hok
      simp only at h2 h3 h4 h5 h6
      refine ⟨s', h1, h2, by rw [h3]; simp, ?_, ?_, ?_⟩
      · rw [h4, hnext i st a hka]
        rfl
      · intro k hk
        rcases List.mem_cons.1 hk with rfl | hk
        · exact ⟨a, 0, by simp, ha, by rw [h6 k hiq, hget]; rfl, hb⟩
        · obtain ⟨x, m, hm, hx, hx', hf⟩ := h5 k hk
          have hki : k ≠ i := fun h => hiq (h ▸ hk)
          rw [hne _ k hki] at hx
          rw [hnext i st a hka] at hx' hf
          exact ⟨x, m + 1, by simp; omega, hx, hx', hf⟩
      · intro k hk
        simp only [List.mem_cons, not_or] at hk
        rw [h6 k hk.2, hne _ k hk.1]
end

/-- a merging searcher in the room `S`, with its diffusion constant. -/
def Merger {d : Nat} (S : Set (Fin d → ℝ)) (D alpha : ℝ) (a : MergeAgent ℝ) : Prop :=
  (∃ x ∈ S, a.pos = List.ofFn x) ∧ a.dim = d ∧ a.alpha = alpha ∧ 1 ≤ a.size ∧
    ∃ c, a.mtype = .brownian c ∧ (c = D ∨ c = (a.size : ℝ) ^ (-alpha))

variable {G : Type} [MeasurableSpace G] {rng : RngOps G ℝ} {sys : SysOps G ℝ} {d : Nat} {S : Set (Fin d → ℝ)} {put : (Fin d → ℝ) → Fin d → ℝ}

theorem merger_add {D alpha : ℝ} {x : MergeAgent ℝ} (y : MergeAgent ℝ) (h : Merger S D alpha x) :
    (x.addSize y.size).2 = .ok () ∧ Merger S D alpha (x.addSize y.size).1 := by
  obtain ⟨h1, h2, h3, h4, c, h5, h6⟩ := h
  unfold MergeAgent.addSize MergeAgent.rescale
  simp only [h5]
  refine ⟨trivial, h1, h2, h3, ?_, _, rfl, .inr ?_⟩
  · simp only; omega
  · simp [h3]

theorem merger_dist {D alpha : ℝ} {x y : MergeAgent ℝ} (hx : Merger S D alpha x) (hy : Merger S D alpha y) :
    ∃ z, x.pos.distance y.pos = .ok z := by
  obtain ⟨⟨p, -, hp⟩, -⟩ := hx
  obtain ⟨⟨q, -, hq⟩, -⟩ := hy
  unfold Pos.distance Pos.dim
  rw [if_neg (by rw [hp, hq]; simp)]
  exact ⟨_, rfl⟩

/-- one move of a merging searcher. -/
theorem merger_act (w : Walls sys S put) (c : Fin d → ℝ) (t : BulkTarget ℝ) (ht : t.targetPos = List.ofFn c) (dt : ℝ) (i : Nat) (g : G)
    (a : MergeAgent ℝ) {x : Fin d → ℝ} {D' : ℝ} (hpos : a.pos = List.ofFn x) (hdim : a.dim = d) (hm : a.mtype = .brownian D') :
    (walkAct (MergeAgent.walker rng) sys t.ops dt i g a).2 = (drawsN rng.gaussian d g).2 ∧
    (put (x + fun i => (drawsN rng.gaussian d g).1 i * Real.sqrt (2 * D' * dt)) ∈ S →
      (walkAct (MergeAgent.walker rng) sys t.ops dt i g a).1.1 =
        { a with pos := List.ofFn (put (x + fun i => (drawsN rng.gaussian d g).1 i * Real.sqrt (2 * D' * dt))) } ∧
      ∃ b, (walkAct (MergeAgent.walker rng) sys t.ops dt i g a).1.2 = .ok b ∧
        (b = false → put (x + fun i => (drawsN rng.gaussian d g).1 i * Real.sqrt (2 * D' * dt)) ∉ nearSet c t.targetSize)) := by
  have em : (MergeAgent.walker rng).randomMove a g dt =
      (.ok (List.ofFn fun i => (drawsN rng.gaussian d g).1 i * Real.sqrt (2 * D' * dt)), (drawsN rng.gaussian d g).2) := by
    show a.randomMove rng g dt = _
    unfold MergeAgent.randomMove
    rw [hdim, hm, move_eq]
  generalize (fun i => (drawsN rng.gaussian d g).1 i * Real.sqrt (2 * D' * dt)) = z at em ⊢
  have ep : (MergeAgent.walker rng).pos a = List.ofFn x := hpos
  by_cases h : put (x + z) ∈ S
  · unfold walkAct
    rw [em]
    simp only
    rw [ep, w.step_ok x z h]
    refine ⟨rfl, fun _ => ⟨rfl, ?_⟩⟩
    by_cases hn : put (x + z) ∈ nearSet c t.targetSize
    · exact ⟨true, (checkFind_eq c _ t ht).1 hn, by simp⟩
    · exact ⟨false, (checkFind_eq c _ t ht).2 hn, fun _ => hn⟩
  · unfold walkAct
    rw [em]
    simp only
    rw [ep, w.step_err x z h]
    exact ⟨rfl, fun h' => absurd h' h⟩

/-- the merging searchers during a search: `n` of them at the start. -/
structure Merging (S : Set (Fin d → ℝ)) (D alpha : ℝ) (n : Nat) (st : MergeSim G ℝ) : Prop where
  all : AllIn (Merger S D alpha) st.list
  len : st.list.contents.length = n
  total : totalSize MergeAgent.mergeOps st.list (liveSlots st.list) = n

/-- the diffusion constants of searchers that have merged from at most `n`. -/
def Slowed (D alpha : ℝ) (n : Nat) (c : ℝ) : Prop := c = D ∨ ∃ m : ℕ, 1 ≤ m ∧ m ≤ n ∧ c = (m : ℝ) ^ (-alpha)

theorem size_le {D alpha : ℝ} {n : Nat} {st : MergeSim G ℝ} (hst : Merging S D alpha n st) {i : Nat} (hi : i ∈ liveSlots st.list)
    {a : MergeAgent ℝ} (ha : st.list.contents[i]? = some a) : Merger S D alpha a ∧ a.size ≤ n := by
  refine ⟨hst.all.2 a (List.mem_of_getElem? ha), ?_⟩
  rw [← hst.total]
  unfold totalSize
  have : a.size = (fun i => (st.list.contents[i]?.map MergeAgent.mergeOps.size).getD 0) i := by
    simp [ha, MergeAgent.mergeOps]
  rw [this]
  exact List.single_le_sum (by simp) _ (List.mem_map.2 ⟨i, hi, rfl⟩)

/-- One turn of searchers who are in `Q`, which contains the room: it does not fail; if the target is not found, every searcher that is still there has made a step with its own
numbers, and none of them is in the target. -/
theorem merge_turn (hsys : LibrarySystem rng sys) (w : Walls sys S put) {Q : Set (Fin d → ℝ)} (hQ : S ⊆ Q) (c : Fin d → ℝ) (t : BulkTarget ℝ) (ht : t.targetPos = List.ofFn c)
    {rad : MergeAgent ℝ → ℝ} (hrad : LibraryRadius rad) {fuel n : Nat} (hfuel : n * n < fuel) {D alpha dt : ℝ} {st : MergeSim G ℝ}
    (hst : Merging Q D alpha n st) (Z : Set (Fin d → ℝ))
    (hsafe : ∀ x ∈ Q, ∀ z ∈ Z, ∀ c, Slowed D alpha n c → put (x + fun i => z i * Real.sqrt (2 * c * dt)) ∈ S)
    (hZ : ∀ k, (drawsN rng.gaussian d (later (drawsN rng.gaussian d) k st.rng)).1 ∈ Z) :
    ∃ b, (mergeStep rng sys t.ops rad fuel dt st).2 = some (.ok b) ∧
      (∃ j, (mergeStep rng sys t.ops rad fuel dt st).1.rng = later (drawsN rng.gaussian d) j st.rng) ∧ (b = false →
      Merging Q D alpha n (mergeStep rng sys t.ops rad fuel dt st).1 ∧
      (mergeStep rng sys t.ops rad fuel dt st).1.rng = later (drawsN rng.gaussian d) (liveSlots st.list).length st.rng ∧
      ∀ i ∈ liveSlots (mergeStep rng sys t.ops rad fuel dt st).1.list, i ∈ liveSlots st.list ∧
        ∃ a a' x c', ∃ k < (liveSlots st.list).length, st.list.contents[i]? = some a ∧
          (mergeStep rng sys t.ops rad fuel dt st).1.list.contents[i]? = some a' ∧ a.pos = List.ofFn x ∧ a.mtype = .brownian c' ∧
          a'.pos = List.ofFn (put (x + fun i => (drawsN rng.gaussian d (later (drawsN rng.gaussian d) k st.rng)).1 i * Real.sqrt (2 * c' * dt))) ∧
          put (x + fun i => (drawsN rng.gaussian d (later (drawsN rng.gaussian d) k st.rng)).1 i * Real.sqrt (2 * c' * dt)) ∉
            nearSet c t.targetSize) := by
  have hsl : ∀ {i : Nat}, i ∈ liveSlots st.list → ∀ {a : MergeAgent ℝ}, st.list.contents[i]? = some a → a.size ≤ n :=
    fun hi _ ha => (size_le hst hi ha).2
  obtain ⟨⟨⟨s, hrep⟩, hk⟩, hlen, htot⟩ := hst
  set q := drawsN rng.gaussian d with hq
  set act := walkAct (MergeAgent.walker rng) sys t.ops dt with hact
  have hkc : ∀ (i : Nat) a, s.contents[i]? = some a → Merger Q D alpha a :=
    fun i a ha => hk a (by rw [hrep.contents_eq]; exact List.mem_of_getElem? ha)
  have hlive := liveSlots_rep hrep
  have hsz : ∀ {i : Nat}, i ∈ s.live → ∀ {a : MergeAgent ℝ}, s.contents[i]? = some a → a.size ≤ n := by
    intro i hi a ha
    exact hsl (by rw [hlive]; exact hi) (by rw [hrep.contents_eq]; exact ha)
  -- a searcher's move, in a state of the generator that may come up
  have hmove : ∀ i g a, Merger Q D alpha a → (act i g a).2 = (q g).2 ∧ (a.size ≤ n → (q g).1 ∈ Z → ∃ x c', a.pos = List.ofFn x ∧ a.mtype = .brownian c' ∧
      (act i g a).1.1 = { a with pos := List.ofFn (put (x + fun i => (q g).1 i * Real.sqrt (2 * c' * dt))) } ∧
      Merger Q D alpha (act i g a).1.1 ∧ ∃ b, (act i g a).1.2 = .ok b ∧
        (b = false → put (x + fun i => (q g).1 i * Real.sqrt (2 * c' * dt)) ∉ nearSet c t.targetSize)) := by
    intro i g a ⟨⟨x, hx, hpos⟩, hdim, hal, hsz, c', hm, hc'⟩
    obtain ⟨h1, h2⟩ := merger_act (rng := rng) w c t ht dt i g a hpos hdim hm
    refine ⟨h1, fun hn hz => ?_⟩
    have hin := hsafe x hx _ hz c' (hc'.imp_right fun h => ⟨_, hsz, hn, h⟩)
    obtain ⟨h3, h4⟩ := h2 hin
    refine ⟨x, c', hpos, hm, h3, ?_, h4⟩
    rw [show (act i g a).1.1 = _ from h3]
    exact ⟨⟨_, hQ hin, rfl⟩, hdim, hal, hsz, c', hm, hc'⟩
  obtain ⟨sx, hrx, hnone, hokk, -, -⟩ := mergeStep_rep hsys t.ops hrad fuel dt st hrep
  have hfu : s.contents.length * s.contents.length < fuel := by rw [← hrep.contents_eq, hlen]; exact hfuel
  have hnone := hnone hfu
  have hi : Rep st.list.intoIter { s with q0 := s.live } := hrep.intoIter
  -- the moves do not fail
  obtain ⟨s0, -, -, -, -, a5, -, a7, a8⟩ := agentSweep_rep act (fun _ _ _ _ => True) (fun g => ∃ k, g = later q k st.rng) fuel st.rng hi
    ⟨0, rfl⟩ (by
      rintro i g a b - ha ⟨k, rfl⟩ -
      refine ⟨trivial, k + 1, ?_⟩
      rw [(hmove i _ a (hkc i a ha)).1, later_succ'])
  simp only at a5 a7 a8
  have hcount := agentSweep_counts act (fun g => (q g).2) (Merger Q D alpha) (fun i g a ha => (hmove i g a ha).1) fuel st.rng hi
    (fun i _ a ha => hkc i a ha)
  rcases hsw : agentSweep act fuel st.list.intoIter st.rng with ⟨⟨l1, g1⟩, o⟩
  rw [hsw] at a5 a7 a8 hcount
  simp only at a5 a7 a8 hcount
  have hlen' : s.live.length ≤ s.contents.length := by
    have := rep_length_live hrep; rwa [hrep.contents_eq] at this
  cases o with
  | none => exact absurd rfl (a5 (by nlinarith))
  | some r =>
    have hok : ∃ b, r = .ok b := by
      by_contra hne
      push Not at hne
      obtain ⟨i, hil, a, g, ha, ⟨k, rfl⟩, hr⟩ := a8 r ⟨rfl, hne⟩
      obtain ⟨-, hz⟩ := hmove i (later q k st.rng) a (hkc i a ha)
      obtain ⟨-, -, -, -, -, -, b, hb, -⟩ := hz (hsz hil ha) (hZ k)
      exact hne b (by rw [← hr, hb])
    obtain ⟨b, rfl⟩ := hok
    cases b with
    | true =>
      have estep : mergeStep rng sys t.ops rad fuel dt st = (⟨l1, g1, st.merges⟩, some (.ok true)) := by
        unfold mergeStep
        rw [← hact, hsw]
      rw [estep]
      exact ⟨true, rfl, (a7 rfl).1, by simp⟩
    | false =>
      obtain ⟨s1, h1, h2, h3, h4, h5, h6⟩ := hcount rfl
      have hall1 : ∀ (i : Nat) a, s1.contents[i]? = some a → Merger Q D alpha a := by
        intro i a ha
        by_cases hil : i ∈ s.live
        · obtain ⟨x, k, -, hx, hx', -⟩ := h5 i hil
          rw [hx'] at ha
          obtain rfl := Option.some.inj ha
          obtain ⟨-, hz⟩ := hmove i (later q k st.rng) x (hkc i x hx)
          obtain ⟨-, -, -, -, -, hM, -⟩ := hz (hsz hil hx) (hZ k)
          exact hM
        · rw [h6 i hil] at ha
          exact hkc i a ha
      have hd := h1.intoDoubleIter
      have hdo : l1.intoDoubleIter.2 = .ok () := by
        have := hd.2
        simpa [LList.step, Slots.step] using this
      have hdi : l1.intoDoubleIter = (l1.intoDoubleIter.1, .ok ()) := Prod.ext rfl hdo
      have hd1 : Rep l1.intoDoubleIter.1 { s1 with q0 := s1.live, q1 := s1.live.tail } := hd.1
      generalize l1.intoDoubleIter.1 = l2 at hdi hd1
      have hall2 : AllIn (Merger Q D alpha) l2 := by
        refine ⟨⟨_, hd1⟩, ?_⟩
        intro x hx
        rw [hd1.contents_eq] at hx
        obtain ⟨i, hi'⟩ := List.mem_iff_getElem?.1 hx
        exact hall1 i x hi'
      have hmp := mergePass_all (Merger Q D alpha) (fun x y => merger_dist) (fun x y hx _ => merger_add y hx) rad fuel l2 hall2 st.merges
      obtain ⟨s2, b1, -, b3⟩ := mergePass_rep rad (library_radius hrad) fuel st.merges hd1 (pairOk_start s1)
      rcases hps : pairSweep (mergeAct rad) fuel l2 st.merges with ⟨⟨l3, ms⟩, o3⟩
      rw [hps] at hmp b1 b3
      simp only at hmp b1 b3
      cases o3 with
      | none =>
        have estep : mergeStep rng sys t.ops rad fuel dt st = (⟨l3, g1, ms⟩, none) := by
          unfold mergeStep
          rw [← hact, hsw]
          simp only [hdi]
          rw [hps]
        rw [estep] at hnone; simp at hnone
      | some r3 =>
        obtain ⟨rfl, hall3⟩ := hmp r3 rfl
        obtain ⟨c1, c2, -, -, -⟩ := b3 rfl
        have estep : mergeStep rng sys t.ops rad fuel dt st = (⟨l3, g1, ms⟩, some (.ok false)) := by
          unfold mergeStep
          rw [← hact, hsw]
          simp only [hdi]
          rw [hps]
        have hl3 := liveSlots_rep b1
        obtain ⟨e1, e2, -⟩ := hokk false (by rw [estep])
        rw [estep] at e2 hrx ⊢
        refine ⟨false, rfl, ⟨s.live.length, h4⟩, fun _ => ⟨⟨hall3, ?_, ?_⟩, ?_, ?_⟩⟩
        · show l3.contents.length = n
          rw [show l3.contents = sx.contents from hrx.contents_eq, e1, ← hrep.contents_eq, hlen]
        · show totalSize MergeAgent.mergeOps l3 (liveSlots l3) = n
          rw [← htot, hlive, ← e2, show liveSlots l3 = sx.live from liveSlots_rep hrx]
        · show g1 = _
          rw [h4, hlive]; rfl
        · show ∀ i ∈ liveSlots l3, _
          intro i hil
          rw [hl3] at hil
          have hi1 : i ∈ s1.live := c1 i hil
          rw [h2] at hi1
          rw [hlive]
          refine ⟨hi1, ?_⟩
          obtain ⟨a, k, hk', ha, ha', hf⟩ := h5 i hi1
          obtain ⟨-, hz⟩ := hmove i (later q k st.rng) a (hkc i a ha)
          obtain ⟨x, c', hx, hm, hnew, -, b, hb, hnf⟩ := hz (hsz hi1 ha) (hZ k)
          have hbf : b = false := by
            have : (act i (later q k st.rng) a).1.2 = .ok false := hf
            rw [hb] at this
            exact Res.ok.inj this
          rcases c2 i with ⟨hn, -⟩ | ⟨y, y', hy, hy', hsb⟩
          · rw [ha'] at hn; simp at hn
          · have hy2 : y = (act i (later q k st.rng) a).1.1 := by
              have : s1.contents[i]? = some y := hy
              rw [ha'] at this
              exact (Option.some.inj this).symm
            refine ⟨a, y', x, c', k, hk', by rw [hrep.contents_eq]; exact ha, by show l3.contents[i]? = _; rw [b1.contents_eq]; exact hy', hx, hm, ?_, hnf hbf⟩
            rw [hsb.1, hy2, hnew]

theorem live_bounds {D alpha : ℝ} {n : Nat} (hn : 0 < n) {st : MergeSim G ℝ} (hst : Merging S D alpha n st) :
    0 < (liveSlots st.list).length ∧ (liveSlots st.list).length ≤ n := by
  obtain ⟨⟨s, hs⟩, -⟩ := hst.all
  constructor
  · rw [List.length_pos_iff]
    intro h
    have := hst.total
    rw [h] at this
    simp [totalSize] at this
    omega
  · rw [liveSlots_rep hs, ← hst.len]
    exact rep_length_live hs

/-- As long as the target is not found, one of the searchers makes steps of its own: it uses the numbers drawn in groups
`k 0 < k 1 < …`.  The time steps may differ. -/
theorem merge_track (hsys : LibrarySystem rng sys) (w : Walls sys S put) {Q : Set (Fin d → ℝ)} (hQ : S ⊆ Q) (c : Fin d → ℝ) (t : BulkTarget ℝ) (ht : t.targetPos = List.ofFn c)
    {rad : MergeAgent ℝ → ℝ} (hrad : LibraryRadius rad) {fuel n : Nat} (hfuel : n * n < fuel) (hn : 0 < n) {D alpha : ℝ} {dt : ℕ → ℝ}
    {at' : ℕ → MergeSim G ℝ} (hsucc : ∀ m, at' (m + 1) = (mergeStep rng sys t.ops rad fuel (dt m) (at' m)).1)
    (hst : Merging Q D alpha n (at' 0)) (Z : Set (Fin d → ℝ))
    (hsafe : ∀ m, ∀ x ∈ Q, ∀ z ∈ Z, ∀ c, Slowed D alpha n c → put (x + fun i => z i * Real.sqrt (2 * c * dt m)) ∈ S)
    (hZ : ∀ k, (drawsN rng.gaussian d (later (drawsN rng.gaussian d) k (at' 0).rng)).1 ∈ Z) (T : Nat) :
    (∃ m < T, (∀ j < m, (mergeStep rng sys t.ops rad fuel (dt j) (at' j)).2 = some (.ok false)) ∧
      (mergeStep rng sys t.ops rad fuel (dt m) (at' m)).2 = some (.ok true) ∧
      ∃ j, (mergeStep rng sys t.ops rad fuel (dt m) (at' m)).1.rng = later (drawsN rng.gaussian d) j (at' 0).rng) ∨
    ∃ (x : ℕ → Fin d → ℝ) (c' : ℕ → ℝ) (k : ℕ → ℕ), x 0 ∈ Q ∧ k 0 ≤ 2 * n ∧ (∀ m, k m < k (m + 1) ∧ k (m + 1) ≤ k m + 2 * n) ∧
      ∀ m < T, Slowed D alpha n (c' m) ∧ x m ∈ Q ∧ x (m + 1) = put (x m + fun i =>
          (drawsN rng.gaussian d (later (drawsN rng.gaussian d) (k m) (at' 0).rng)).1 i * Real.sqrt (2 * c' m * dt m)) ∧
        x (m + 1) ∉ nearSet c t.targetSize := by
  set step := fun m => mergeStep rng sys t.ops rad fuel (dt m) with hstep
  set q := drawsN rng.gaussian d with hq
  have hsucc : ∀ m, at' (m + 1) = (step m (at' m)).1 := hsucc
  by_cases hfound : ∃ m < T, (∀ j < m, (step j (at' j)).2 = some (.ok false)) ∧ (step m (at' m)).2 = some (.ok true) ∧
      ∃ j, (step m (at' m)).1.rng = later q j (at' 0).rng
  · exact .inl hfound
  right
  set U : ℕ → ℕ := fun m => ∑ j ∈ Finset.range m, if j < T then (liveSlots (at' j).list).length else 1 with hU
  have hUs : ∀ m, U (m + 1) = U m + if m < T then (liveSlots (at' m).list).length else 1 := fun m => Finset.sum_range_succ _ _
  have key : ∀ m ≤ T, (∀ j < m, (step j (at' j)).2 = some (.ok false)) ∧ Merging Q D alpha n (at' m) ∧ (at' m).rng = later q (U m) (at' 0).rng := by
    intro m
    induction m with
    | zero => exact fun _ => ⟨by omega, hst, by simp [hU, later]⟩
    | succ m ih =>
      intro hm
      obtain ⟨i1, i2, i3⟩ := ih (by omega)
      obtain ⟨b, hb, ⟨j, hj⟩, hb'⟩ := merge_turn hsys w hQ c t ht hrad hfuel i2 Z (hsafe m) (fun k => by
        rw [i3, ← later_add]; exact hZ _)
      cases b with
      | true => exact absurd ⟨m, by omega, i1, hb, U m + j, by rw [later_add, ← i3]; exact hj⟩ hfound
      | false =>
        obtain ⟨h1, h2, -⟩ := hb' rfl
        refine ⟨?_, by rw [hsucc]; exact h1, ?_⟩
        · intro j hj
          rcases Nat.lt_succ_iff_lt_or_eq.1 hj with hj | rfl
          · exact i1 j hj
          · exact hb
        · rw [hsucc, hUs, if_pos (by omega), later_add, ← i3]
          exact h2
  have turn : ∀ m < T, ∀ i ∈ liveSlots (at' (m + 1)).list, i ∈ liveSlots (at' m).list ∧
        ∃ a a' x c', ∃ k < (liveSlots (at' m).list).length, (at' m).list.contents[i]? = some a ∧
          (at' (m + 1)).list.contents[i]? = some a' ∧ a.pos = List.ofFn x ∧ a.mtype = .brownian c' ∧
          a'.pos = List.ofFn (put (x + fun i => (q (later q (U m + k) (at' 0).rng)).1 i * Real.sqrt (2 * c' * dt m))) ∧
          put (x + fun i => (q (later q (U m + k) (at' 0).rng)).1 i * Real.sqrt (2 * c' * dt m)) ∉ nearSet c t.targetSize := by
    intro m hm
    obtain ⟨i1, i2, i3⟩ := key m (by omega)
    obtain ⟨j1, -, -⟩ := key (m + 1) (by omega)
    obtain ⟨b, hb, ⟨j, hj⟩, hb'⟩ := merge_turn hsys w hQ c t ht hrad hfuel i2 Z (hsafe m) (fun k => by
      rw [i3, ← later_add]; exact hZ _)
    have hbf : b = false := by
      have := j1 m (by omega)
      rw [show (step m (at' m)).2 = _ from hb] at this
      exact Res.ok.inj (Option.some.inj this)
    obtain ⟨-, -, h3⟩ := hb' hbf
    rw [← hsucc m, i3] at h3
    intro i hi
    obtain ⟨h4, a, a', x, c', k, hk, e1, e2, e3, e4, e5, e6⟩ := h3 i hi
    rw [← later_add] at e5 e6
    exact ⟨h4, a, a', x, c', k, hk, e1, e2, e3, e4, e5, e6⟩
  -- a searcher that is there at the end
  obtain ⟨i, hi⟩ : ∃ i, i ∈ liveSlots (at' T).list := List.exists_mem_of_length_pos (live_bounds hn (key T le_rfl).2.1).1
  have hlive : ∀ j ≤ T, i ∈ liveSlots (at' (T - j)).list := by
    intro j
    induction j with
    | zero => exact fun _ => hi
    | succ j ih =>
      intro hj
      have := (turn (T - (j + 1)) (by omega) i (by rw [show T - (j + 1) + 1 = T - j by omega]; exact ih (by omega))).1
      exact this
  have hlive : ∀ m ≤ T, i ∈ liveSlots (at' m).list := fun m hm => by
    have := hlive (T - m) (by omega)
    rwa [show T - (T - m) = m by omega] at this
  have hpos : ∀ m, ∃ x : Fin d → ℝ, m ≤ T → x ∈ Q ∧ ∃ a, (at' m).list.contents[i]? = some a ∧ a.pos = List.ofFn x := by
    intro m
    by_cases hm : m ≤ T
    · obtain ⟨-, h2, -⟩ := key m hm
      obtain ⟨⟨s, hs⟩, -⟩ := h2.all
      obtain ⟨a, ha⟩ := hs.content (by rw [← liveSlots_rep hs]; exact hlive m hm)
      rw [← hs.contents_eq] at ha
      obtain ⟨⟨⟨x, hx, hp⟩, -⟩, -⟩ := size_le h2 (hlive m hm) ha
      exact ⟨x, fun _ => ⟨hx, a, ha, hp⟩⟩
    · exact ⟨fun _ => 0, fun h => absurd h hm⟩
  choose X hX using hpos
  have hmv : ∀ m, ∃ (k : ℕ) (c' : ℝ), m < T → k < (liveSlots (at' m).list).length ∧ Slowed D alpha n c' ∧
      X (m + 1) = put (X m + fun i => (q (later q (U m + k) (at' 0).rng)).1 i * Real.sqrt (2 * c' * dt m)) ∧ X (m + 1) ∉ nearSet c t.targetSize := by
    intro m
    by_cases hm : m < T
    · obtain ⟨-, a, a', x, c', k, hk, e1, e2, e3, e4, e5, e6⟩ := turn m hm i (hlive (m + 1) (by omega))
      obtain ⟨-, b, hb, hbx⟩ := hX m (by omega)
      obtain ⟨-, b', hb', hbx'⟩ := hX (m + 1) (by omega)
      rw [e1] at hb
      obtain rfl := Option.some.inj hb
      rw [e2] at hb'
      obtain rfl := Option.some.inj hb'
      have ex : x = X m := List.ofFn_injective (e3.symm.trans hbx)
      subst ex
      have ex' : X (m + 1) = _ := List.ofFn_injective (hbx'.symm.trans e5)
      obtain ⟨⟨-, -, -, hs1, c2, hc2, hc3⟩, hsz⟩ := size_le (key m (by omega)).2.1 (hlive m (by omega)) e1
      rw [e4] at hc2
      obtain rfl : c' = c2 := by injection hc2
      exact ⟨k, c', fun _ => ⟨hk, hc3.imp_right fun h => ⟨_, hs1, hsz, h⟩, ex', by rw [ex']; exact e6⟩⟩
    · exact ⟨0, 0, fun h => absurd h hm⟩
  choose κ c' hκ using hmv
  have hl : ∀ m, 1 ≤ (if m < T then (liveSlots (at' m).list).length else 1) ∧ (if m < T then (liveSlots (at' m).list).length else 1) ≤ n := by
    intro m
    split
    · rename_i hm
      exact live_bounds hn (key m (by omega)).2.1
    · exact ⟨le_rfl, hn⟩
  have hkU : ∀ m, U m ≤ (if m < T then U m + κ m else U m) ∧ (if m < T then U m + κ m else U m) < U (m + 1) := by
    intro m
    rw [hUs]
    split
    · rename_i hm
      have := (hκ m hm).1
      omega
    · omega
  refine ⟨X, c', fun m => if m < T then U m + κ m else U m, (hX 0 (by omega)).1, ?_, ?_, ?_⟩
  · have h1 := (hkU 0).2
    have h2 := hUs 0
    have h3 := (hl 0).2
    have h4 : U 0 = 0 := by simp [hU]
    simp only at h1 ⊢
    omega
  · intro m
    have h1 := hkU m
    have h2 := hkU (m + 1)
    have h3 := hUs m
    have h4 := hUs (m + 1)
    have h5 := (hl m).2
    have h6 := (hl (m + 1)).2
    simp only
    omega
  · intro m hm
    obtain ⟨-, h2, h3, h4⟩ := hκ m hm
    simp only [if_pos hm]
    exact ⟨h2, (hX m (by omega)).1, h3, h4⟩
end Moledyn
