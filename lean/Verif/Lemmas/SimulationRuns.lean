import Verif.Lemmas.Simulation
import Verif.Lemmas.LinkedListSweep
import Verif.Spec.Simulation
import Verif.Props.System
/-
Helper lemmas: steps and runs of the simulations.
-/
namespace Moledyn
open LList
variable {G F S C α : Type}

theorem rep_length_live {l : LList α} {s : Slots α} (h : Rep l s) : s.live.length ≤ l.contents.length := by
  have hsub : s.live ⊆ List.range l.contents.length := by
    intro i hi
    have := h.bound i hi
    rw [h.len] at this
    simpa using this
  have := (h.nodup.subperm hsub).length_le
  simpa using this

theorem liveSlots_rep {l : LList α} {s : Slots α} (h : Rep l s) : liveSlots l = s.live := by
  have hi : Rep l.intoIter { s with q0 := s.live } := h.intoIter
  have hl := rep_length_live h
  unfold liveSlots
  rw [collect_rep hi (l.contents.length + 1) (by show s.live.length < _; omega)]

theorem mem_liveAgents {l : LList α} {s : Slots α} (h : Rep l s) {a : α} :
    a ∈ liveAgents l ↔ ∃ i ∈ s.live, s.contents[i]? = some a := by
  unfold liveAgents
  rw [liveSlots_rep h, List.mem_filterMap, h.contents_eq]

theorem filterMap_eq_map_of {β : Type} (f : Nat → Option β) (g : β → Nat) (is : List Nat)
    (h : ∀ i ∈ is, ∃ b, f i = some b) :
    ((is.filterMap f).map g).sum = (is.map fun i => ((f i).map g).getD 0).sum := by
  induction is with
  | nil => rfl
  | cons i is ih =>
    obtain ⟨b, hb⟩ := h i (by simp)
    rw [List.filterMap_cons, hb]
    simp only [List.map_cons, List.sum_cons, hb, Option.map_some, Option.getD_some]
    rw [ih (fun k hk => h k (by simp [hk]))]

theorem totalSize_rep {l : LList α} {s : Slots α} (h : Rep l s) (m : MergeOps α) :
    totalSize m l s.live = ((liveAgents l).map m.size).sum := by
  unfold totalSize liveAgents
  rw [liveSlots_rep h]
  rw [filterMap_eq_map_of (fun i => l.contents[i]?) m.size s.live]
  intro i hi
  rw [h.contents_eq]
  exact h.content hi

theorem length_liveAgents {l : LList α} {s : Slots α} (h : Rep l s) :
    (liveAgents l).length = s.live.length := by
  have := filterMap_eq_map_of (fun i => l.contents[i]?) (fun _ => 1) s.live (by
    intro i hi
    rw [h.contents_eq]
    exact h.content hi)
  have e : (s.live.map fun i => ((l.contents[i]?).map fun _ => 1).getD 0) = s.live.map fun _ => 1 := by
    apply List.map_congr_left
    intro i hi
    obtain ⟨a, ha⟩ := h.content hi
    rw [h.contents_eq, ha]
    rfl
  rw [e] at this
  unfold liveAgents
  rw [liveSlots_rep h]
  simpa using this

theorem pairsOf_of_sublist {is : List Nat} {i j : Nat} (h : [i, j].Sublist is) : (i, j) ∈ pairsOf is := by
  induction is with
  | nil => simp at h
  | cons k is ih =>
    rw [pairsOf, List.mem_append]
    cases h with
    | cons _ h => exact .inr (ih h)
    | cons_cons _ h =>
      left
      simp only [List.mem_map, Prod.mk.injEq, true_and, exists_eq_right]
      exact h.subset (by simp)

variable [Fl F]

theorem library_sound {rng : RngOps G F} {sys : SysOps G F} (h : LibrarySystem rng sys) (p dp : Pos F) :
    (sys.checkBc p dp).2 = .ok () → sys.checkInclusion (sys.checkBc p dp).1 = .ok true := by
  rcases h with ⟨s, rfl⟩ | ⟨s, rfl⟩ | ⟨s, rfl⟩
  · exact (Props.C19_accepted_is_inside s ⟨.network, .periodic, Fl.zero, 0⟩
      ⟨.network, .periodic, Fl.zero, Fl.zero, 0⟩ p dp).1
  · exact (Props.C19_accepted_is_inside ⟨.network, .periodic, Fl.zero, 0⟩ s
      ⟨.network, .periodic, Fl.zero, Fl.zero, 0⟩ p dp).2.1
  · exact (Props.C19_accepted_is_inside ⟨.network, .periodic, Fl.zero, 0⟩
      ⟨.network, .periodic, Fl.zero, 0⟩ s p dp).2.2

omit [Fl F] in
theorem library_radius {rad : MergeAgent F → F} (h : LibraryRadius rad) (a b : MergeAgent F)
    (hb : SameBody a b) : rad b = rad a := by
  rcases h with ⟨r, rfl⟩ | rfl
  · rfl
  · exact hb.2.1

/-- what one accepted move of a walker amounts to. -/
structure Moved (w : Walker G F α) (sys : SysOps G F) (target : TargetOps F) (a : α) (b : Bool) (a' : α) :
    Prop where
  how : ∃ p, a' = w.setPos a p ∧ sys.checkInclusion p = .ok true ∧ target.checkFind p = .ok b

theorem walkAct_moved (w : Walker G F α) {rng : RngOps G F} {sys : SysOps G F} (hsys : LibrarySystem rng sys)
    (target : TargetOps F) (dt : F) (i : Nat) (g : G) (a : α) (b : Bool)
    (h : (walkAct w sys target dt i g a).1.2 = .ok b) :
    Moved w sys target a b (walkAct w sys target dt i g a).1.1 := by
  unfold walkAct at h ⊢
  rcases hm : w.randomMove a g dt with ⟨r, g1⟩
  rw [hm] at h
  cases r with
  | err e => simp at h
  | panic => simp at h
  | ok dp =>
    simp only at h ⊢
    have hs := library_sound hsys (w.pos a) dp
    rcases hb : sys.checkBc (w.pos a) dp with ⟨p, r⟩
    rw [hb] at h hs
    cases r with
    | err e => simp at h
    | panic => simp at h
    | ok _ =>
      simp only at h hs ⊢
      exact ⟨p, rfl, hs trivial, h⟩

/-- one step of the merging simulation. -/
theorem mergeStep_rep {rng : RngOps G F} {sys : SysOps G F} (hsys : LibrarySystem rng sys)
    (target : TargetOps F) {rad : MergeAgent F → F} (hrad : LibraryRadius rad) (fuel : Nat) (dt : F)
    (st : MergeSim G F) {s : Slots (MergeAgent F)} (h : Rep st.list s) :
    ∃ s' : Slots (MergeAgent F), Rep (mergeStep rng sys target rad fuel dt st).1.list s' ∧
      (s.contents.length * s.contents.length < fuel → (mergeStep rng sys target rad fuel dt st).2 ≠ none) ∧
      (∀ b, (mergeStep rng sys target rad fuel dt st).2 = some (.ok b) →
        s'.contents.length = s.contents.length ∧
        totalSize MergeAgent.mergeOps (mergeStep rng sys target rad fuel dt st).1.list s'.live =
          totalSize MergeAgent.mergeOps st.list s.live ∧
        s'.live.length + (mergeStep rng sys target rad fuel dt st).1.merges.length =
          s.live.length + st.merges.length) ∧
      ((mergeStep rng sys target rad fuel dt st).2 = some (.ok false) →
        (∀ i ∈ s'.live, ∀ a, s'.contents[i]? = some a → sys.checkInclusion a.pos = .ok true ∧
          target.checkFind a.pos = .ok false) ∧
        (∀ p ∈ pairsOf s'.live, ∃ a b d, s'.contents[p.1]? = some a ∧
          s'.contents[p.2]? = some b ∧ a.pos.distance b.pos = .ok d ∧ Fl.lt d (Fl.two * rad a) = false)) ∧
      ((mergeStep rng sys target rad fuel dt st).2 = some (.ok true) →
        (∃ k ∈ s'.live, ∃ a, s'.contents[k]? = some a ∧ sys.checkInclusion a.pos = .ok true ∧
          target.checkFind a.pos = .ok true) ∧
        ∀ i ∈ s'.live, ∀ a, s'.contents[i]? = some a → sys.checkInclusion a.pos = .ok true ∨
          (i ∈ s.live ∧ s.contents[i]? = some a)) := by
  have hi : Rep st.list.intoIter { s with q0 := s.live } := h.intoIter
  obtain ⟨s1, a1, a2, a3, a4, a5, a6, a7, a8⟩ :=
    agentSweep_rep (walkAct (MergeAgent.walker rng) sys target dt)
      (fun _ a b a' => Moved (MergeAgent.walker rng) sys target a b a') (fun _ => True) fuel st.rng hi trivial
      (fun i g a b _ _ _ hb => ⟨walkAct_moved _ hsys target dt i g a b hb, trivial⟩)
  have hlen : s.live.length ≤ s.contents.length := by
    have := rep_length_live h; rwa [h.contents_eq] at this
  simp only at a2 a3 a4 a5 a6 a7 a8
  rcases hsw : agentSweep (walkAct (MergeAgent.walker rng) sys target dt) fuel st.list.intoIter st.rng with
    ⟨⟨l1, g1⟩, o⟩
  rw [hsw] at a1 a5 a6 a7 a8
  simp only at a1 a5 a6 a7 a8
  -- sizes do not change during the moves
  have hsize : (∀ i : Nat, s1.contents[i]? = s.contents[i]? ∨ ∃ a a' b, s.contents[i]? = some a ∧
      s1.contents[i]? = some a' ∧ Moved (MergeAgent.walker rng) sys target a b a') →
      totalSize MergeAgent.mergeOps l1 s1.live = totalSize MergeAgent.mergeOps st.list s.live := by
    intro hall
    unfold totalSize
    rw [a2, a1.contents_eq, h.contents_eq]
    congr 1
    apply List.map_congr_left
    intro i _
    rcases hall i with e | ⟨a, a', b, ha, ha', ⟨p, rfl, _⟩⟩
    · rw [e]
    · rw [ha, ha']; rfl
  match o, a5, a6, a7, a8, hsw with
  | none, a5, a6, a7, a8, hsw =>
    have e : mergeStep rng sys target rad fuel dt st = (⟨l1, g1, st.merges⟩, none) := by
      unfold mergeStep; rw [hsw]
    rw [e]
    refine ⟨s1, a1, ?_, by simp, by simp, by simp⟩
    intro hf _
    refine a5 ?_ rfl
    nlinarith
  | some (.err er), a5, a6, a7, a8, hsw =>
    have e : mergeStep rng sys target rad fuel dt st = (⟨l1, g1, st.merges⟩, some (.err er)) := by
      unfold mergeStep; rw [hsw]
    rw [e]
    exact ⟨s1, a1, by simp, by simp, by simp, by simp⟩
  | some .panic, a5, a6, a7, a8, hsw =>
    have e : mergeStep rng sys target rad fuel dt st = (⟨l1, g1, st.merges⟩, some .panic) := by
      unfold mergeStep; rw [hsw]
    rw [e]
    exact ⟨s1, a1, by simp, by simp, by simp, by simp⟩
  | some (.ok true), a5, a6, a7, a8, hsw =>
    have e : mergeStep rng sys target rad fuel dt st = (⟨l1, g1, st.merges⟩, some (.ok true)) := by
      unfold mergeStep; rw [hsw]
    rw [e]
    obtain ⟨-, k, hk, ⟨a, a', hka, hka', ⟨p, rfl, hp1, hp2⟩⟩, hrest⟩ := a7 rfl
    have hk' : k ∈ s1.live := by rw [a2]; exact hk
    refine ⟨s1, a1, by simp, ?_, by simp, ?_⟩
    · intro b _
      refine ⟨a4, hsize ?_, by rw [a2]⟩
      intro i
      by_cases hik : i = k
      · subst hik; exact .inr ⟨a, _, true, hka, hka', ⟨p, rfl, hp1, hp2⟩⟩
      · rcases hrest i hik with e | ⟨_, x, x', hx, hx', hm⟩
        · exact .inl e
        · exact .inr ⟨x, x', false, hx, hx', hm⟩
    · intro _
      refine ⟨⟨k, hk', _, hka', hp1, hp2⟩, ?_⟩
      intro i hi' x hx
      by_cases hik : i = k
      · subst hik
        rw [hka'] at hx
        simp only [Option.some.injEq] at hx
        subst hx
        exact .inl hp1
      · rcases hrest i hik with e | ⟨_, y, y', hy, hy', ⟨q, rfl, hq, _⟩⟩
        · right
          rw [e] at hx
          rw [a2] at hi'
          exact ⟨hi', hx⟩
        · rw [hy'] at hx
          simp only [Option.some.injEq] at hx
          subst hx
          exact .inl hq
  | some (.ok false), a5, a6, a7, a8, hsw =>
    obtain ⟨-, hq, hrest⟩ := a6 rfl
    have hd : Rep l1.intoDoubleIter.1 { s1 with q0 := s1.live, q1 := s1.live.tail } := a1.intoDoubleIter.1
    have hdo : l1.intoDoubleIter.2 = .ok () := by
      have := a1.intoDoubleIter.2
      simpa [LList.step, Slots.step] using this
    obtain ⟨s2, b1, b2, b3⟩ := mergePass_rep rad (library_radius hrad) fuel st.merges hd (pairOk_start s1)
    rw [pending_start] at b2 b3
    have hdi : l1.intoDoubleIter = (l1.intoDoubleIter.1, .ok ()) := Prod.ext rfl hdo
    set l2 := l1.intoDoubleIter.1 with hl2
    have hl2c : l2.contents = l1.contents := by rw [hd.contents_eq, a1.contents_eq]
    rcases hps : pairSweep (mergeAct rad) fuel l2 st.merges with ⟨⟨l3, ms⟩, o3⟩
    rw [hps] at b1 b2 b3
    simp only at b1 b2 b3
    have hlive1 : ∀ i ∈ s1.live, ∀ a, s1.contents[i]? = some a → sys.checkInclusion a.pos = .ok true ∧
        target.checkFind a.pos = .ok false := by
      intro i hi' x hx
      rw [a2] at hi'
      obtain ⟨y, y', hy, hy', ⟨q, rfl, hq1, hq2⟩⟩ := hq i hi'
      rw [hy'] at hx
      simp only [Option.some.injEq] at hx
      subst hx
      exact ⟨hq1, hq2⟩
    have hsz := hsize (by
      intro i
      by_cases hil : i ∈ s.live
      · obtain ⟨y, y', hy, hy', hm⟩ := hq i hil
        exact .inr ⟨y, y', false, hy, hy', hm⟩
      · exact .inl (hrest i hil))
    have hpl : (pairsOf s1.live).length ≤ s.contents.length * s.contents.length := by
      have := length_pairsOf s1.live
      rw [a2] at this ⊢
      have h3 : s.live.length * (s.live.length - 1) ≤ s.contents.length * s.contents.length :=
        Nat.mul_le_mul hlen (by omega)
      omega
    match o3, b2, b3, hps with
    | none, b2, b3, hps =>
      have e : mergeStep rng sys target rad fuel dt st = (⟨l3, g1, ms⟩, none) := by
        unfold mergeStep; rw [hsw]; simp only; rw [hdi]; simp only; rw [hps]
      rw [e]
      refine ⟨s2, b1, ?_, by simp, by simp, by simp⟩
      intro hf _
      exact b2 (by omega) rfl
    | some (.err er), b2, b3, hps =>
      have e : mergeStep rng sys target rad fuel dt st = (⟨l3, g1, ms⟩, some (.err er)) := by
        unfold mergeStep; rw [hsw]; simp only; rw [hdi]; simp only; rw [hps]
      rw [e]
      exact ⟨s2, b1, by simp, by simp, by simp, by simp⟩
    | some .panic, b2, b3, hps =>
      have e : mergeStep rng sys target rad fuel dt st = (⟨l3, g1, ms⟩, some .panic) := by
        unfold mergeStep; rw [hsw]; simp only; rw [hdi]; simp only; rw [hps]
      rw [e]
      exact ⟨s2, b1, by simp, by simp, by simp, by simp⟩
    | some (.ok ()), b2, b3, hps =>
      have e : mergeStep rng sys target rad fuel dt st = (⟨l3, g1, ms⟩, some (.ok false)) := by
        unfold mergeStep; rw [hsw]; simp only; rw [hdi]; simp only; rw [hps]
      rw [e]
      obtain ⟨m1, m2, m3, m4, m5⟩ := b3 rfl
      refine ⟨s2, b1, by simp, ?_, ?_, by simp⟩
      · intro b _
        simp only
        refine ⟨?_, ?_, by rw [m4, a2]⟩
        · have h1 : ∀ i : Nat, s1.contents.length ≤ i ↔ s2.contents.length ≤ i := by
            intro i
            rw [← List.getElem?_eq_none_iff, ← List.getElem?_eq_none_iff]
            rcases m2 i with ⟨e1, e2⟩ | ⟨y, y', e1, e2, _⟩
            · simp [e1, e2]
            · simp [e1, e2]
          have h2 := (h1 s1.contents.length).1 le_rfl
          have h3 := (h1 s2.contents.length).2 le_rfl
          omega
        rw [m3, ← hsz]
        unfold totalSize
        rw [hl2c]
      · intro _
        have hback : ∀ i ∈ s2.live, ∀ a, s2.contents[i]? = some a → i ∈ s1.live ∧
            ∃ a0, s1.contents[i]? = some a0 ∧ SameBody a0 a := by
          intro i hi' x hx
          refine ⟨m1 i hi', ?_⟩
          rcases m2 i with ⟨_, hn⟩ | ⟨y, y', hy, hy', hb⟩
          · rw [hn] at hx; simp at hx
          · rw [hy'] at hx
            simp only [Option.some.injEq] at hx
            subst hx
            exact ⟨y, hy, hb⟩
        constructor
        · intro i hi' x hx
          obtain ⟨hi1, a0, ha0, hb⟩ := hback i hi' x hx
          have := hlive1 i hi1 a0 ha0
          rwa [← hb.1] at this
        · intro p hp
          have hp' := (mem_pairsOf b1.sorted p.1 p.2).1 hp
          have hpp : p ∈ pairsOf s1.live :=
            (mem_pairsOf a1.sorted p.1 p.2).2 ⟨m1 _ hp'.1, m1 _ hp'.2.1, hp'.2.2⟩
          obtain ⟨a, b, d, ha, hb, hd', hl'⟩ := m5 p hpp hp'.1 hp'.2.1
          obtain ⟨x, hx⟩ := b1.content hp'.1
          obtain ⟨y, hy⟩ := b1.content hp'.2.1
          obtain ⟨-, x0, hx0, hbx⟩ := hback _ hp'.1 x hx
          obtain ⟨-, y0, hy0, hby⟩ := hback _ hp'.2.1 y hy
          rw [ha] at hx0
          rw [hb] at hy0
          simp only [Option.some.injEq] at hx0 hy0
          subst hx0 hy0
          refine ⟨x, y, d, hx, hy, ?_, ?_⟩
          · rw [hbx.1, hby.1]; exact hd'
          · rw [library_radius hrad _ _ hbx]; exact hl'


/-! ### the loop over time -/

omit [Fl F] in
/-- A time loop keeps what each successful step keeps; `I` before the loop and after unfinished steps, `J`
after an unfinished step, `K` after the last one. -/
theorem searchLoop_inv (tick : C → C × Res (Option (F × F))) (step : F → S → S × Option (Res Bool))
    (I J K : S → Prop) (hJ : ∀ dt s, I s → (step dt s).2 = some (.ok false) → I (step dt s).1 ∧ J (step dt s).1)
    (hK : ∀ dt s, I s → (step dt s).2 = some (.ok true) → K (step dt s).1)
    (hN : ∀ dt s, I s → (step dt s).2 ≠ none) (n : Nat) (c : C) (s : S) (hI : I s) :
    ((searchLoop tick step n c s).2 = none → I (searchLoop tick step n c s).1.2 ∧
      (0 < n → J (searchLoop tick step n c s).1.2)) ∧
    ((searchLoop tick step n c s).2 = some (.ok none) → I (searchLoop tick step n c s).1.2) ∧
    (∀ t, (searchLoop tick step n c s).2 = some (.ok (some t)) → K (searchLoop tick step n c s).1.2) := by
  induction n generalizing c s with
  | zero => simp [searchLoop, hI]
  | succ n ih =>
    rcases ht : tick c with ⟨c1, r⟩
    match r, ht with
    | .ok none, ht => simp [searchLoop, ht, hI]
    | .err e, ht => simp [searchLoop, ht]
    | .panic, ht => simp [searchLoop, ht]
    | .ok (some (t, dt)), ht =>
      rcases hs : step dt s with ⟨s1, o⟩
      have h1 := hJ dt s hI
      have h2 := hK dt s hI
      have h3 := hN dt s hI
      rw [hs] at h1 h2 h3
      match o, hs, h1, h2, h3 with
      | none, hs, h1, h2, h3 => exact absurd rfl h3
      | some (.err e), hs, h1, h2, h3 => simp [searchLoop, ht, hs]
      | some .panic, hs, h1, h2, h3 => simp [searchLoop, ht, hs]
      | some (.ok true), hs, h1, h2, h3 =>
        simp only [searchLoop, ht, hs]
        refine ⟨by simp, by simp, fun _ _ => h2 rfl⟩
      | some (.ok false), hs, h1, h2, h3 =>
        have e : searchLoop tick step (n + 1) c s = searchLoop tick step n c1 s1 := by
          simp only [searchLoop, ht, hs]
        rw [e]
        obtain ⟨i1, i2⟩ := h1 rfl
        obtain ⟨k1, k2, k3⟩ := ih c1 s1 i1
        refine ⟨fun hn => ⟨(k1 hn).1, fun _ => ?_⟩, k2, k3⟩
        by_cases h0 : 0 < n
        · exact (k1 hn).2 h0
        · obtain rfl : n = 0 := by omega
          simpa [searchLoop] using i2

omit [Fl F] in
/-- How a time loop that found the target got there. -/
theorem searchLoop_found (tick : C → C × Res (Option (F × F))) (step : F → S → S × Option (Res Bool))
    (n : Nat) (c : C) (s : S) (t : F) (h : (searchLoop tick step n c s).2 = some (.ok (some t))) :
    ∃ k dt, k < n ∧ (∀ m ≤ k, (searchLoop tick step m c s).2 = none) ∧
      tick (searchLoop tick step k c s).1.1 = ((searchLoop tick step n c s).1.1, .ok (some (t, dt))) ∧
      step dt (searchLoop tick step k c s).1.2 = ((searchLoop tick step n c s).1.2, some (.ok true)) ∧
      searchLoop tick step (k + 1) c s = searchLoop tick step n c s := by
  induction n generalizing c s with
  | zero => simp [searchLoop] at h
  | succ n ih =>
    rcases ht : tick c with ⟨c1, r⟩
    match r, ht with
    | .ok none, ht => simp [searchLoop, ht] at h
    | .err e, ht => simp [searchLoop, ht] at h
    | .panic, ht => simp [searchLoop, ht] at h
    | .ok (some (t', dt)), ht =>
      rcases hs : step dt s with ⟨s1, o⟩
      match o, hs with
      | none, hs => simp [searchLoop, ht, hs] at h
      | some (.err e), hs => simp [searchLoop, ht, hs] at h
      | some .panic, hs => simp [searchLoop, ht, hs] at h
      | some (.ok true), hs =>
        have hh : t' = t := by simpa [searchLoop, ht, hs] using h
        subst hh
        refine ⟨0, dt, by omega, ?_, ?_, ?_, ?_⟩
        · intro m hm
          obtain rfl : m = 0 := by omega
          rfl
        · simp [searchLoop, ht, hs]
        · simp [searchLoop, ht, hs]
        · simp [searchLoop, ht, hs]
      | some (.ok false), hs =>
        have e : ∀ m, searchLoop tick step (m + 1) c s = searchLoop tick step m c1 s1 := by
          intro m
          simp only [searchLoop, ht, hs]
        rw [e] at h
        obtain ⟨k, d, k1, k2, k3, k4, k5⟩ := ih c1 s1 h
        refine ⟨k + 1, d, by omega, ?_, ?_, ?_, ?_⟩
        · intro m hm
          cases m with
          | zero => rfl
          | succ m => rw [e]; exact k2 m (by omega)
        · rw [e, e]; exact k3
        · rw [e, e]; exact k4
        · rw [e, e]; exact k5

omit [Fl F] in
/-- How a time loop that found nothing got there. -/
theorem searchLoop_ended (tick : C → C × Res (Option (F × F))) (step : F → S → S × Option (Res Bool))
    (n : Nat) (c : C) (s : S) (h : (searchLoop tick step n c s).2 = some (.ok none)) :
    ∃ k, k < n ∧ (∀ m ≤ k, (searchLoop tick step m c s).2 = none) ∧
      tick (searchLoop tick step k c s).1.1 = ((searchLoop tick step n c s).1.1, .ok none) ∧
      (searchLoop tick step k c s).1.2 = (searchLoop tick step n c s).1.2 := by
  induction n generalizing c s with
  | zero => simp [searchLoop] at h
  | succ n ih =>
    rcases ht : tick c with ⟨c1, r⟩
    match r, ht with
    | .ok none, ht =>
      refine ⟨0, by omega, ?_, by simp [searchLoop, ht], by simp [searchLoop, ht]⟩
      intro m hm
      obtain rfl : m = 0 := by omega
      rfl
    | .err e, ht => simp [searchLoop, ht] at h
    | .panic, ht => simp [searchLoop, ht] at h
    | .ok (some (t', dt)), ht =>
      rcases hs : step dt s with ⟨s1, o⟩
      match o, hs with
      | none, hs => simp [searchLoop, ht, hs] at h
      | some (.err e), hs => simp [searchLoop, ht, hs] at h
      | some .panic, hs => simp [searchLoop, ht, hs] at h
      | some (.ok true), hs => simp [searchLoop, ht, hs] at h
      | some (.ok false), hs =>
        have e : ∀ m, searchLoop tick step (m + 1) c s = searchLoop tick step m c1 s1 := by
          intro m
          simp only [searchLoop, ht, hs]
        rw [e] at h
        obtain ⟨k, k1, k2, k3, k4⟩ := ih c1 s1 h
        refine ⟨k + 1, by omega, ?_, ?_, ?_⟩
        · intro m hm
          cases m with
          | zero => rfl
          | succ m => rw [e]; exact k2 m (by omega)
        · rw [e, e]; exact k3
        · rw [e, e]; exact k4

end Moledyn
