import Verif.Model.Simulation
import Verif.Lemmas.LinkedListMerge
/-
Helper lemmas about the simulation loops.
-/
namespace Moledyn
namespace LList
variable {G F S C α : Type}

/-! ### one call of the sweeps -/

theorem Rep.enumMut_nil {l : LList α} {s : Slots α} (h : Rep l s) (hq : s.q0 = []) (f : α → α) :
    l.enumerateMut f = (l, .ok none) := by
  have hc : l.c0 = none := by rw [h.c0, hq]; rfl
  simp [LList.enumerateMut, hc]

theorem Rep.enumMut_cons {l : LList α} {s : Slots α} (h : Rep l s) {i : Nat} {q : List Nat}
    (hq : s.q0 = i :: q) (f : α → α) {a : α} (ha : s.contents[i]? = some a) :
    (l.enumerateMut f).2 = .ok (some (i, a)) ∧
      Rep (l.enumerateMut f).1 { s with q0 := q, contents := s.contents.set i (f a) } := by
  have hst := h.step (.nextMut f)
  simp only [LList.step, Slots.step, hq] at hst
  have hm : s.contents.modify i f = s.contents.set i (f a) := by
    apply List.ext_getElem?
    intro k
    rw [List.getElem?_modify, List.getElem?_set]
    by_cases hik : i = k
    · subst hik
      have hlt := (List.getElem?_eq_some_iff.1 ha).1
      rw [List.getElem?_eq_getElem hlt] at ha
      simp only [Option.some.injEq] at ha
      simp [ha, hlt]
    · simp [hik]
  refine ⟨?_, by rw [← hm]; exact hst.1⟩
  have h2 := hst.2
  rw [ha] at h2
  simpa using h2

theorem Rep.content {l : LList α} {s : Slots α} (h : Rep l s) {i : Nat} (hi : i ∈ s.live) :
    ∃ a, s.contents[i]? = some a := by
  have := h.bound i hi
  rw [h.len, h.contents_eq] at this
  exact ⟨_, List.getElem?_eq_getElem this⟩

theorem Rep.enumDouble_none {l : LList α} {s : Slots α} (h : Rep l s) (hq : s.q0 = [] ∨ s.q1 = []) :
    l.enumerateDouble = (l, .ok none) := by
  unfold LList.enumerateDouble
  rw [h.indiciesDouble_none hq]

theorem Rep.enumDouble_some {l : LList α} {s : Slots α} (h : Rep l s) {i j : Nat} {t u : List Nat}
    (hq : s.q0 = i :: t) (hq1 : s.q1 = j :: u) {a b : α} (ha : s.contents[i]? = some a)
    (hb : s.contents[j]? = some b) :
    l.enumerateDouble.2 = .ok (some (i, a, j, b)) ∧
      Rep l.enumerateDouble.1 (if u = [] then { s with q0 := t, q1 := t.tail } else { s with q1 := u }) := by
  have hst := h.step .nextPair
  simp only [LList.step, Slots.step, hq, hq1] at hst
  refine ⟨?_, by rw [hq]; exact hst.1⟩
  have h2 := hst.2
  rw [ha, hb] at h2
  simpa using h2

end LList
open LList
variable {G F S C α : Type}

/-! ### sweeping over the agents -/

/-- What a sweep over the agents does, in terms of what the body does to each agent (`T i a b a'`: body on slot
`i` turns `a` into `a'` and answers `b`). -/
theorem agentSweep_rep (act : Nat → S → α → (α × Res Bool) × S) (T : Nat → α → Bool → α → Prop)
    (I : S → Prop) (n : Nat) :
    ∀ {l : LList α} {s : Slots α} (st : S), Rep l s → I st →
    (∀ i st a b, i ∈ s.q0 → s.contents[i]? = some a → I st → (act i st a).1.2 = .ok b →
      T i a b (act i st a).1.1 ∧ I (act i st a).2) →
    ∃ s' : Slots α, Rep (agentSweep act n l st).1.1 s' ∧ s'.live = s.live ∧ s'.q1 = s.q1 ∧
      s'.contents.length = s.contents.length ∧
      (s.q0.length < n → (agentSweep act n l st).2 ≠ none) ∧
      ((agentSweep act n l st).2 = some (.ok false) → I (agentSweep act n l st).1.2 ∧
        (∀ i ∈ s.q0, ∃ a a', s.contents[i]? = some a ∧ s'.contents[i]? = some a' ∧ T i a false a') ∧
        (∀ i, i ∉ s.q0 → s'.contents[i]? = s.contents[i]?)) ∧
      ((agentSweep act n l st).2 = some (.ok true) → I (agentSweep act n l st).1.2 ∧
        ∃ k ∈ s.q0, (∃ a a', s.contents[k]? = some a ∧ s'.contents[k]? = some a' ∧ T k a true a') ∧
        (∀ i, i ≠ k → s'.contents[i]? = s.contents[i]? ∨
          (i ∈ s.q0 ∧ ∃ a a', s.contents[i]? = some a ∧ s'.contents[i]? = some a' ∧ T i a false a'))) ∧
      (∀ r, ((agentSweep act n l st).2 = some r ∧ ∀ b, r ≠ .ok b) →
        ∃ i ∈ s.q0, ∃ a st', s.contents[i]? = some a ∧ I st' ∧ (act i st' a).1.2 = r) := by
  induction n with
  | zero =>
    intro l s st h _ _
    exact ⟨s, h, rfl, rfl, rfl, by omega, by simp [agentSweep], by simp [agentSweep],
      by intro r hr; simp [agentSweep] at hr⟩
  | succ n ih =>
    intro l s st h hI hact
    cases hq : s.q0 with
    | nil =>
      have e : agentSweep act (n + 1) l st = ((l, st), some (.ok false)) := by
        simp only [agentSweep, h.enumMut_nil hq]
      rw [e]
      refine ⟨s, h, rfl, rfl, rfl, by simp, ?_, by simp, ?_⟩
      · exact fun _ => ⟨hI, by simp, fun _ _ => rfl⟩
      · rintro r ⟨hr, hb⟩
        simp at hr
        exact absurd hr.symm (hb false)
    | cons i q =>
      have hsuf : (i :: q) <:+ s.live := hq ▸ h.q0suf
      obtain ⟨a, ha⟩ := h.content (hsuf.subset List.mem_cons_self)
      have hc : l.c0 = some i := by rw [h.c0, hq]; rfl
      have hlt := (List.getElem?_eq_some_iff.1 ha).1
      have hnd : (i :: q).Nodup := (h.nodup).sublist hsuf.sublist
      have hiq : i ∉ q := (List.nodup_cons.1 hnd).1
      obtain ⟨hr, hrep⟩ := h.enumMut_cons hq (fun a => (act (l.c0.getD 0) st a).1.1) ha
      rw [hc] at hr hrep
      simp only [Option.getD_some] at hr hrep
      have he : l.enumerateMut (fun a => (act (l.c0.getD 0) st a).1.1) =
          ((l.enumerateMut (fun a => (act i st a).1.1)).1, .ok (some (i, a))) := by
        rw [hc]
        simp only [Option.getD_some]
        exact Prod.ext rfl hr
      set l1 := (l.enumerateMut (fun a => (act i st a).1.1)).1 with hl1
      have hget : ∀ x, (s.contents.set i x)[i]? = some x := fun x => List.getElem?_set_self hlt
      have hne : ∀ x k, k ≠ i → (s.contents.set i x)[k]? = s.contents[k]? :=
        fun x k hk => List.getElem?_set_ne (fun h => hk h.symm)
      cases hb : (act i st a).1.2 with
      | err e =>
        have e' : agentSweep act (n + 1) l st = ((l1, (act i st a).2), some (.err e)) := by
          simp only [agentSweep, he, hb]
        rw [e']
        refine ⟨_, hrep, rfl, rfl, by simp, by simp, by simp, by simp, ?_⟩
        rintro r ⟨hr', _⟩
        simp at hr'
        exact ⟨i, by simp, a, st, ha, hI, by rw [hb, hr']⟩
      | panic =>
        have e' : agentSweep act (n + 1) l st = ((l1, (act i st a).2), some .panic) := by
          simp only [agentSweep, he, hb]
        rw [e']
        refine ⟨_, hrep, rfl, rfl, by simp, by simp, by simp, by simp, ?_⟩
        rintro r ⟨hr', _⟩
        simp at hr'
        exact ⟨i, by simp, a, st, ha, hI, by rw [hb, hr']⟩
      | ok b =>
        obtain ⟨hT, hI'⟩ := hact i st a b (by rw [hq]; simp) ha hI hb
        cases b with
        | true =>
          have e' : agentSweep act (n + 1) l st = ((l1, (act i st a).2), some (.ok true)) := by
            simp only [agentSweep, he, hb]
          rw [e']
          refine ⟨_, hrep, rfl, rfl, by simp, by simp, by simp, ?_, ?_⟩
          · intro _
            exact ⟨hI', i, by simp, ⟨a, _, ha, hget _, hT⟩, fun k hk => .inl (hne _ k hk)⟩
          · rintro r ⟨hr', hb'⟩
            simp at hr'
            exact absurd hr'.symm (hb' true)
        | false =>
          have e' : agentSweep act (n + 1) l st = agentSweep act n l1 (act i st a).2 := by
            simp only [agentSweep, he, hb]
          rw [e']
          obtain ⟨s', h1, h2, h3, h4, h5, h6, h7, h8⟩ := ih (act i st a).2 hrep hI' (by
            intro k st' x b' hk hx hI2 hb'
            simp only at hk hx
            have hki : k ≠ i := by rintro rfl; exact hiq hk
            rw [hne _ k hki] at hx
            exact hact k st' x b' (by rw [hq]; simp [hk]) hx hI2 hb')
          simp only at h2 h3 h4 h5 h6 h7 h8
          refine ⟨s', h1, h2, h3, by rw [h4]; simp, ?_, ?_, ?_, ?_⟩
          · intro hn; apply h5; simp at hn; omega
          · intro ho
            obtain ⟨hI3, hq', hrest⟩ := h6 ho
            refine ⟨hI3, ?_, ?_⟩
            · intro k hk
              rcases List.mem_cons.1 hk with rfl | hk
              · exact ⟨a, _, ha, by rw [hrest k hiq, hget], hT⟩
              · obtain ⟨x, x', hx, hx', hTx⟩ := hq' k hk
                have hki : k ≠ i := fun h => hiq (h ▸ hk)
                rw [hne _ k hki] at hx
                exact ⟨x, x', hx, hx', hTx⟩
            · intro k hk
              simp only [List.mem_cons, not_or] at hk
              rw [hrest k hk.2, hne _ k hk.1]
          · intro ho
            obtain ⟨hI3, k, hk, ⟨x, x', hx, hx', hTx⟩, hrest⟩ := h7 ho
            have hki : k ≠ i := by rintro rfl; exact hiq hk
            rw [hne _ k hki] at hx
            refine ⟨hI3, k, by simp [hk], ⟨x, x', hx, hx', hTx⟩, ?_⟩
            intro m hm
            by_cases hmi : m = i
            · subst hmi
              right
              refine ⟨by simp, a, (act m st a).1.1, ha, ?_, hT⟩
              rcases hrest m hm with h | ⟨h, _⟩
              · rw [h, hget]
              · exact absurd h hiq
            · rcases hrest m hm with h | ⟨h, y, y', hy, hy', hTy⟩
              · left; rw [h, hne _ m hmi]
              · right
                rw [hne _ m hmi] at hy
                exact ⟨by simp [h], y, y', hy, hy', hTy⟩
          · rintro r hr'
            obtain ⟨k, hk, x, st', hx, hI3, hax⟩ := h8 r hr'
            have hki : k ≠ i := by rintro rfl; exact hiq hk
            rw [hne _ k hki] at hx
            exact ⟨k, by simp [hk], x, st', hx, hI3, hax⟩


/-! ### sweeping over the pairs, merging close ones -/

variable [Fl F]

/-- the state of the pair queues after the pair `(i, j)` was handed out. -/
def afterPair (s : Slots α) (t u : List Nat) : Slots α :=
  if u = [] then { s with q0 := t, q1 := t.tail } else { s with q1 := u }

omit [Fl F] in
/-- deleting the partner just handed out strikes out its pairs. -/
theorem pairOk_delPartner {l : LList α} {s : Slots α} (h : Rep l s) (hp : PairOk s) {i j : Nat}
    {t u : List Nat} (hq : s.q0 = i :: t) (hq1 : s.q1 = j :: u) :
    i ≠ j ∧ PairOk (Slots.delS (afterPair s t u) j) ∧
      pending (Slots.delS (afterPair s t u) j) =
        (pending (afterPair s t u)).filter (fun q => q.1 ≠ j ∧ q.2 ≠ j) := by
  have hnd : s.live.Nodup := h.nodup
  have hnq : s.q0.Nodup := hnd.sublist h.q0suf.sublist
  have hs := hp.suf i t hq
  rw [hq1] at hs
  rw [hq] at hnq
  have hij : i ≠ j := by
    rintro rfl
    exact (List.nodup_cons.1 hnq).1 (hs.subset (by simp))
  refine ⟨hij, ?_⟩
  obtain ⟨h3, h4⟩ := pairOk_next hp hq hq1
  unfold afterPair
  by_cases hu : u = []
  · subst hu
    simp only [if_true]
    apply pairOk_del_fresh rfl
    intro hh
    simp only at hh ⊢
    cases t with
    | nil => rfl
    | cons k t =>
      simp at hh
      subst hh
      simp only [List.tail_cons]
      by_contra hne
      have hnt := (List.nodup_cons.1 hnq).2
      have hlast := suffix_getLast? hs (by simp)
      have : t.getLast? = some k := by
        rw [← suffix_getLast? (List.suffix_cons k t) hne, hlast]; simp
      exact (List.nodup_cons.1 hnt).1 (List.mem_of_getLast? this)
  · simp only [if_neg hu] at h3 ⊢
    refine pairOk_del_mid h3 (i := i) (t := t) hq hu j hij ?_
    have hn1 : s.q1.Nodup := hnd.sublist h.q1suf.sublist
    rw [hq1] at hn1
    exact (List.nodup_cons.1 hn1).1

/-- the parts of an agent that merging keeps. -/
def SameBody (a b : MergeAgent F) : Prop := b.pos = a.pos ∧ b.ptlRadius = a.ptlRadius ∧ b.dim = a.dim

omit [Fl F] in
theorem SameBody.refl (a : MergeAgent F) : SameBody a a := ⟨rfl, rfl, rfl⟩

omit [Fl F] in
theorem SameBody.trans {a b c : MergeAgent F} (h : SameBody a b) (h' : SameBody b c) : SameBody a c :=
  ⟨h'.1.trans h.1, h'.2.1.trans h.2.1, h'.2.2.trans h.2.2⟩

theorem addSize_sameBody (a : MergeAgent F) (k : Nat) :
    SameBody a (a.addSize k).1 ∧ (a.addSize k).1.size = a.size + k := by
  unfold MergeAgent.addSize MergeAgent.rescale
  cases a.mtype <;> exact ⟨⟨rfl, rfl, rfl⟩, rfl⟩

/-- the pair loop of the merging simulations. -/
theorem mergePass_rep (rad : MergeAgent F → F)
    (hrad : ∀ a b : MergeAgent F, SameBody a b → rad b = rad a) (n : Nat) :
    ∀ {l : LList (MergeAgent F)} {s : Slots (MergeAgent F)} (ms : List (Nat × Nat)), Rep l s → PairOk s →
    ∃ s' : Slots (MergeAgent F), Rep (pairSweep (mergeAct rad) n l ms).1.1 s' ∧
      ((pending s).length < n → (pairSweep (mergeAct rad) n l ms).2 ≠ none) ∧
      ((pairSweep (mergeAct rad) n l ms).2 = some (.ok ()) →
        (∀ i ∈ s'.live, i ∈ s.live) ∧
        (∀ i : Nat, (s.contents[i]? = none ∧ s'.contents[i]? = none) ∨
          ∃ a a', s.contents[i]? = some a ∧ s'.contents[i]? = some a' ∧ SameBody a a') ∧
        totalSize MergeAgent.mergeOps (pairSweep (mergeAct rad) n l ms).1.1 s'.live =
          totalSize MergeAgent.mergeOps l s.live ∧
        s'.live.length + (pairSweep (mergeAct rad) n l ms).1.2.length = s.live.length + ms.length ∧
        (∀ p ∈ pending s, p.1 ∈ s'.live → p.2 ∈ s'.live → ∃ a b d, s.contents[p.1]? = some a ∧
          s.contents[p.2]? = some b ∧ a.pos.distance b.pos = .ok d ∧ Fl.lt d (Fl.two * rad a) = false)) := by
  induction n with
  | zero =>
    intro l s ms h _
    exact ⟨s, h, by omega, by simp [pairSweep]⟩
  | succ n ih =>
    intro l s ms h hp
    by_cases hnil : s.q0 = [] ∨ s.q1 = []
    · have e : pairSweep (mergeAct rad) (n + 1) l ms = ((l, ms), some (.ok ())) := by
        simp only [pairSweep, h.enumDouble_none hnil]
      rw [e]
      refine ⟨s, h, by simp, fun _ => ⟨fun _ hi => hi, ?_, rfl, rfl, ?_⟩⟩
      · intro i
        cases hc : s.contents[i]? with
        | none => exact .inl ⟨rfl, rfl⟩
        | some a => exact .inr ⟨a, a, rfl, rfl, SameBody.refl a⟩
      · rw [(pending_nil hp).2 hnil]; simp
    · rw [not_or] at hnil
      obtain ⟨i, t, hq⟩ := List.exists_cons_of_ne_nil hnil.1
      obtain ⟨j, u, hq1⟩ := List.exists_cons_of_ne_nil hnil.2
      have hi : i ∈ s.live := h.q0suf.subset (by rw [hq]; simp)
      have hj : j ∈ s.live := h.q1suf.subset (by rw [hq1]; simp)
      obtain ⟨a, ha⟩ := h.content hi
      obtain ⟨b, hb⟩ := h.content hj
      obtain ⟨hr, hrep⟩ := h.enumDouble_some hq hq1 ha hb
      obtain ⟨hp1, hpend⟩ := pairOk_next hp hq hq1
      obtain ⟨hij, hp2, hpend2⟩ := pairOk_delPartner h hp hq hq1
      have he : l.enumerateDouble = (l.enumerateDouble.1, .ok (some (i, a, j, b))) := Prod.ext rfl hr
      set l1 := l.enumerateDouble.1 with hl1
      change Rep l1 (afterPair s t u) at hrep
      change PairOk (afterPair s t u) at hp1
      change pending s = (i, j) :: pending (afterPair s t u) at hpend
      have hlv : (afterPair s t u).live = s.live := by unfold afterPair; split <;> rfl
      have hct : (afterPair s t u).contents = s.contents := by unfold afterPair; split <;> rfl
      have hcl : l1.contents = l.contents := by rw [hrep.contents_eq, hct, h.contents_eq]
      cases hd : a.pos.distance b.pos with
      | err e =>
        have e' : pairSweep (mergeAct rad) (n + 1) l ms = ((l1, ms), some (.err e)) := by
          simp only [pairSweep, he, mergeAct, hd]
        rw [e']
        exact ⟨_, hrep, by simp, by simp⟩
      | panic =>
        have e' : pairSweep (mergeAct rad) (n + 1) l ms = ((l1, ms), some .panic) := by
          simp only [pairSweep, he, mergeAct, hd]
        rw [e']
        exact ⟨_, hrep, by simp, by simp⟩
      | ok d =>
        by_cases hlt : Fl.lt d (Fl.two * rad a) = true
        · -- a merge
          have ha1 : l1.contents[i]? = some a := by rw [hrep.contents_eq, hct, ha]
          have hb1 : l1.contents[j]? = some b := by rw [hrep.contents_eq, hct, hb]
          have hsz := addSize_sameBody a b.size
          cases hadd : (a.addSize b.size).2 with
          | err e =>
            have hm : l1.merge MergeAgent.mergeOps i j =
                ({ l1 with contents := l1.contents.set i (a.addSize b.size).1 }, .err e) := by
              unfold LList.merge
              rw [hb1, ha1]
              simp only [MergeAgent.mergeOps, hadd]
            have e' : pairSweep (mergeAct rad) (n + 1) l ms =
                (({ l1 with contents := l1.contents.set i (a.addSize b.size).1 }, ms), some (.err e)) := by
              simp only [pairSweep, he, mergeAct, hd, hlt, if_true, hm]
            rw [e']
            exact ⟨_, hrep.setContent i (a.addSize b.size).1, by simp, by simp⟩
          | panic =>
            have hm : l1.merge MergeAgent.mergeOps i j =
                ({ l1 with contents := l1.contents.set i (a.addSize b.size).1 }, .panic) := by
              unfold LList.merge
              rw [hb1, ha1]
              simp only [MergeAgent.mergeOps, hadd]
            have e' : pairSweep (mergeAct rad) (n + 1) l ms =
                (({ l1 with contents := l1.contents.set i (a.addSize b.size).1 }, ms), some .panic) := by
              simp only [pairSweep, he, mergeAct, hd, hlt, if_true, hm]
            rw [e']
            exact ⟨_, hrep.setContent i (a.addSize b.size).1, by simp, by simp⟩
          | ok x =>
            obtain ⟨hrm, hrok⟩ := hrep.merge MergeAgent.mergeOps ha1 hb1 hadd (by rw [hlv]; exact hj)
            have hm : l1.merge MergeAgent.mergeOps i j = ((l1.merge MergeAgent.mergeOps i j).1, .ok ()) :=
              Prod.ext rfl hrok
            have e' : pairSweep (mergeAct rad) (n + 1) l ms =
                pairSweep (mergeAct rad) n (l1.merge MergeAgent.mergeOps i j).1 (ms ++ [(i, j)]) := by
              simp only [pairSweep, he, mergeAct, hd, hlt, if_true]
              rw [hm]
            rw [e']
            set s2 := Slots.delS { afterPair s t u with
              contents := (afterPair s t u).contents.set i (a.addSize b.size).1 } j with hs2
            have hrm' : Rep (l1.merge MergeAgent.mergeOps i j).1 s2 := hrm
            have hpe : pending s2 = pending (Slots.delS (afterPair s t u) j) := rfl
            have hpo : PairOk s2 := ⟨hp2.suf, hp2.emp⟩
            have hlv2 : s2.live = s.live.filter (· ≠ j) := by
              show (afterPair s t u).live.filter (· ≠ j) = _
              rw [hlv]
            have hct2 : s2.contents = s.contents.set i (a.addSize b.size).1 := by
              show (afterPair s t u).contents.set i _ = _
              rw [hct]
            have hib : i < s.contents.length := (List.getElem?_eq_some_iff.1 ha).1
            obtain ⟨s', k1, k2, k3⟩ := ih (ms ++ [(i, j)]) hrm' hpo
            refine ⟨s', k1, ?_, ?_⟩
            · intro hn
              apply k2
              rw [hpe, hpend2]
              rw [hpend] at hn
              simp only [List.length_cons] at hn
              have := List.length_filter_le (fun q : Nat × Nat => decide (q.1 ≠ j ∧ q.2 ≠ j))
                (pending (afterPair s t u))
              omega
            · intro ho
              obtain ⟨m1, m2, m3, m4, m5⟩ := k3 ho
              have hmem : ∀ k ∈ s'.live, k ∈ s.live ∧ k ≠ j := by
                intro k hk
                have := m1 k hk
                rw [hlv2] at this
                simpa using this
              have hbody : ∀ (k : Nat) (x : MergeAgent F), s.contents[k]? = some x →
                  ∃ y, s2.contents[k]? = some y ∧ SameBody x y := by
                intro k x hx
                rw [hct2]
                by_cases hki : k = i
                · subst hki
                  rw [hx] at ha
                  simp only [Option.some.injEq] at ha
                  subst ha
                  exact ⟨_, List.getElem?_set_self hib, hsz.1⟩
                · exact ⟨x, by rw [List.getElem?_set_ne (fun h => hki h.symm), hx], SameBody.refl x⟩
              refine ⟨fun k hk => (hmem k hk).1, ?_, ?_, ?_, ?_⟩
              · intro k
                cases hx : s.contents[k]? with
                | none =>
                  left
                  have h2n : s2.contents[k]? = none := by
                    rw [hct2]
                    rw [List.getElem?_eq_none_iff] at hx ⊢
                    simpa using hx
                  rcases m2 k with ⟨_, h2⟩ | ⟨_, _, h2, _⟩
                  · exact ⟨rfl, h2⟩
                  · rw [h2n] at h2; simp at h2
                | some x =>
                  right
                  obtain ⟨y, hy, hxy⟩ := hbody k x hx
                  rcases m2 k with ⟨h1, _⟩ | ⟨z, z', h1, h2, h3⟩
                  · rw [hy] at h1; simp at h1
                  · rw [hy] at h1
                    simp only [Option.some.injEq] at h1
                    subst h1
                    exact ⟨x, z', rfl, h2, hxy.trans h3⟩
              · rw [m3, hlv2]
                have hcm : (l1.merge MergeAgent.mergeOps i j).1.contents =
                    l.contents.set i (a.addSize b.size).1 := by
                  rw [hrm'.contents_eq, hct2, h.contents_eq]
                unfold totalSize
                rw [hcm]
                have hal : l.contents[i]? = some a := by rw [h.contents_eq]; exact ha
                have hbl : l.contents[j]? = some b := by rw [h.contents_eq]; exact hb
                have hil : i < l.contents.length := (List.getElem?_eq_some_iff.1 hal).1
                have q1 := sum_filter_ne (fun k => ((l.contents.set i (a.addSize b.size).1)[k]?.map
                  MergeAgent.mergeOps.size).getD 0) s.live j h.nodup hj
                have q2 := sum_update (fun k => ((l.contents.set i (a.addSize b.size).1)[k]?.map
                  MergeAgent.mergeOps.size).getD 0)
                  (fun k => (l.contents[k]?.map MergeAgent.mergeOps.size).getD 0) s.live i b.size h.nodup hi
                  (by simp only [List.getElem?_set_self hil, hal, Option.map_some, Option.getD_some]
                      exact hsz.2)
                  (by intro k _ hk; simp only [List.getElem?_set_ne (fun h => hk h.symm)])
                have hbz : MergeAgent.mergeOps.size b = b.size := rfl
                simp only [List.getElem?_set_ne hij, hbl, Option.map_some, Option.getD_some, hbz] at q1
                omega
              · rw [hlv2] at m4
                have := length_filter_ne s.live j h.nodup hj
                simp only [List.length_append, List.length_singleton] at m4
                omega
              · intro p hpp hp1' hp2'
                rw [hpend] at hpp
                rcases List.mem_cons.1 hpp with rfl | hpp
                · exact absurd rfl (hmem _ hp2').2
                · have hin : p ∈ pending s2 := by
                    rw [hpe, hpend2, List.mem_filter]
                    exact ⟨hpp, by simp [(hmem _ hp1').2, (hmem _ hp2').2]⟩
                  obtain ⟨x, y, d', hx, hy, hdd, hll⟩ := m5 p hin hp1' hp2'
                  obtain ⟨x0, hx0⟩ := h.content (hmem _ hp1').1
                  obtain ⟨y0, hy0⟩ := h.content (hmem _ hp2').1
                  obtain ⟨x1, hx1, hbx⟩ := hbody _ _ hx0
                  obtain ⟨y1, hy1, hby⟩ := hbody _ _ hy0
                  rw [hx] at hx1
                  rw [hy] at hy1
                  simp only [Option.some.injEq] at hx1 hy1
                  subst hx1 hy1
                  refine ⟨x0, y0, d', hx0, hy0, ?_, ?_⟩
                  · rw [← hbx.1, ← hby.1]; exact hdd
                  · rw [← hrad _ _ hbx]; exact hll
        · -- no merge
          have e' : pairSweep (mergeAct rad) (n + 1) l ms = pairSweep (mergeAct rad) n l1 ms := by
            simp only [pairSweep, he, mergeAct, hd, hlt]
            simp
          rw [e']
          obtain ⟨s', k1, k2, k3⟩ := ih ms hrep hp1
          refine ⟨s', k1, ?_, ?_⟩
          · intro hn
            apply k2
            rw [hpend] at hn
            simpa using hn
          · intro ho
            obtain ⟨m1, m2, m3, m4, m5⟩ := k3 ho
            rw [hlv] at m1 m3 m4
            rw [hct] at m2 m5
            refine ⟨m1, m2, ?_, m4, ?_⟩
            · rw [m3]; unfold totalSize; rw [hcl]
            · intro p hpp hp1' hp2'
              rw [hpend] at hpp
              rcases List.mem_cons.1 hpp with rfl | hpp
              · exact ⟨a, b, d, ha, hb, hd, by simpa using hlt⟩
              · exact m5 p hpp hp1' hp2'

end Moledyn
