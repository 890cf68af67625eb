import Verif.Lemmas.LinkedListSweep
/-
Helper lemmas for pushes during a sweep, merging, `connect_all` and `clear`.
-/
namespace Moledyn
namespace LList
variable {α : Type}

/-- slots returned by a sweep with pushes and deletions: increasing, taken from the queue or new -/
theorem returned_sorted {l : LList α} {s : Slots α} (h : Rep l s) (ops : List (Op α))
    (hops : ∀ op ∈ ops, op.sweepOp = true) :
    (returnedSlots (l.run ops).2).Pairwise (· < ·) ∧
    ∀ k ∈ returnedSlots (l.run ops).2, k ∈ s.q0 ∨ (s.q0 ≠ [] ∧ s.contents.length ≤ k) := by
  induction ops generalizing l s with
  | nil => simp [LList.run, returnedSlots]
  | cons op ops ih =>
    have hstep := h.step op
    have hop := hops op (by simp)
    obtain ⟨ih1, ih2⟩ := ih hstep.1 (fun o ho => hops o (List.mem_cons_of_mem _ ho))
    simp only [LList.run, returnedSlots, List.filterMap_cons] at ih1 ih2 ⊢
    cases op with
    | push a =>
      have : (l.step (.push a)).2.slot? = none := by rw [hstep.2]; rfl
      rw [this]
      refine ⟨ih1, fun k hk => ?_⟩
      rcases ih2 k hk with hq | ⟨hq, hl⟩
      · simp only [Slots.step, Slots.extend] at hq
        split at hq
        · simp at hq
        · rename_i hne
          rcases List.mem_append.1 hq with hq | hq
          · exact Or.inl hq
          · simp at hq; exact Or.inr ⟨hne, by omega⟩
      · simp only [Slots.step, Slots.extend] at hq hl
        simp at hl
        refine Or.inr ⟨?_, by omega⟩
        intro hc; simp [hc] at hq
    | del i =>
      have : (l.step (.del i)).2.slot? = none := by
        rw [hstep.2]; simp only [Slots.step]; split <;> rfl
      rw [this]
      refine ⟨ih1, fun k hk => ?_⟩
      rcases ih2 k hk with hq | ⟨hq, hl⟩
      · simp only [Slots.step] at hq
        split at hq
        · simp at hq; exact Or.inl hq.1
        · exact Or.inl hq
      · simp only [Slots.step] at hq hl
        split at hq
        · rename_i hi
          rw [if_pos hi] at hl
          refine Or.inr ⟨?_, hl⟩
          intro hc; simp [hc] at hq
        · rename_i hi
          rw [if_neg hi] at hl
          exact Or.inr ⟨hq, hl⟩
    | connectAll => simp [Op.sweepOp] at hop
    | intoIter => simp [Op.sweepOp] at hop
    | intoDoubleIter => simp [Op.sweepOp] at hop
    | nextPair => simp [Op.sweepOp] at hop
    | next =>
      rcases step_item h .next (Or.inl rfl) with ⟨hq, ho, hs⟩ | ⟨i, q, x, hq, ho, hq', hl'⟩
      · rw [ho]
        simp only [Out.slot?]
        rw [hs] at ih2
        exact ⟨ih1, ih2⟩
      · rw [ho]
        simp only [Out.slot?, List.pairwise_cons, List.mem_cons]
        have hsort := h.sorted.sublist h.q0suf.sublist
        rw [hq, List.pairwise_cons] at hsort
        have hlen : (s.step .next).1.contents.length = s.contents.length := by
          simp only [Slots.step, hq]
        have hib : i < s.contents.length := by
          have := h.bound i (h.q0suf.subset (by rw [hq]; simp))
          rw [h.len, h.contents_eq] at this; exact this
        rw [hq', hlen] at ih2
        refine ⟨⟨fun k hk => ?_, ih1⟩, fun k hk => ?_⟩
        · rcases ih2 k hk with hk | ⟨_, hk⟩
          · exact hsort.1 k hk
          · omega
        · rw [hq]
          rcases hk with rfl | hk
          · exact Or.inl (by simp)
          · rcases ih2 k hk with hk | ⟨_, hk⟩
            · exact Or.inl (by simp [hk])
            · exact Or.inr ⟨by simp, hk⟩
    | nextMut f =>
      rcases step_item h (.nextMut f) (Or.inr ⟨f, rfl⟩) with ⟨hq, ho, hs⟩ | ⟨i, q, x, hq, ho, hq', hl'⟩
      · rw [ho]
        simp only [Out.slot?]
        rw [hs] at ih2
        exact ⟨ih1, ih2⟩
      · rw [ho]
        simp only [Out.slot?, List.pairwise_cons, List.mem_cons]
        have hsort := h.sorted.sublist h.q0suf.sublist
        rw [hq, List.pairwise_cons] at hsort
        have hlen : (s.step (.nextMut f)).1.contents.length = s.contents.length := by
          simp only [Slots.step, hq, List.length_modify]
        have hib : i < s.contents.length := by
          have := h.bound i (h.q0suf.subset (by rw [hq]; simp))
          rw [h.len, h.contents_eq] at this; exact this
        rw [hq', hlen] at ih2
        refine ⟨⟨fun k hk => ?_, ih1⟩, fun k hk => ?_⟩
        · rcases ih2 k hk with hk | ⟨_, hk⟩
          · exact hsort.1 k hk
          · omega
        · rw [hq]
          rcases hk with rfl | hk
          · exact Or.inl (by simp)
          · rcases ih2 k hk with hk | ⟨_, hk⟩
            · exact Or.inl (by simp [hk])
            · exact Or.inr ⟨by simp, hk⟩

theorem Rep.indicies_none_iff {l : LList α} {s : Slots α} (h : Rep l s) :
    l.indicies.2 = .ok none ↔ s.q0 = [] := by
  constructor
  · intro hn
    cases hq : s.q0 with
    | nil => rfl
    | cons i q => rw [(h.indicies_cons hq).1] at hn; simp at hn
  · intro hq; rw [h.indicies_nil hq]

/-- overwriting a content keeps the representation -/
theorem Rep.setContent {l : LList α} {s : Slots α} (h : Rep l s) (i : Nat) (x : α) :
    Rep { l with contents := l.contents.set i x } { s with contents := s.contents.set i x } :=
  { contents_eq := by simp [h.contents_eq]
    len := by simp [h.len]
    sorted := h.sorted, bound := h.bound, head := h.head, tail := h.tail, chain := h.chain,
    dead := h.dead, q0suf := h.q0suf, q1suf := h.q1suf, c0 := h.c0, c1 := h.c1, c2 := h.c2 }

/-- a successful merge of two live slots -/
theorem Rep.merge {l : LList α} {s : Slots α} (h : Rep l s) (m : MergeOps α) {i j : Nat} {a b : α}
    (ha : l.contents[i]? = some a) (hb : l.contents[j]? = some b)
    (hok : (m.addSize a (m.size b)).2 = .ok ()) (hj : j ∈ s.live) :
    Rep (l.merge m i j).1
      (Slots.delS { s with contents := s.contents.set i (m.addSize a (m.size b)).1 } j) ∧
    (l.merge m i j).2 = .ok () := by
  have h1 := h.setContent i (m.addSize a (m.size b)).1
  have h2 := h1.delS j
  have h3 := (h1.del j).2
  simp only [LList.step, Slots.step, if_pos hj] at h3
  unfold LList.merge
  rw [hb, ha]
  simp only [hok]
  refine ⟨h2, ?_⟩
  simpa using h3

theorem sum_filter_ne (f : Nat → Nat) (live : List Nat) (j : Nat) (hn : live.Nodup) (hj : j ∈ live) :
    ((live.filter (· ≠ j)).map f).sum + f j = (live.map f).sum := by
  induction live with
  | nil => simp at hj
  | cons a t ih =>
    rw [List.nodup_cons] at hn
    by_cases haj : a = j
    · subst haj
      have : t.filter (· ≠ a) = t := by
        rw [List.filter_eq_self]; intro x hx
        simp; rintro rfl; exact hn.1 hx
      simp only [List.filter_cons, ne_eq, not_true_eq_false, decide_false, Bool.false_eq_true,
        if_false, List.map_cons, List.sum_cons]
      simp only [ne_eq] at this
      rw [this]; omega
    · have hj' : j ∈ t := by
        rcases List.mem_cons.1 hj with h | h
        · exact absurd h.symm haj
        · exact h
      have := ih hn.2 hj'
      simp only [ne_eq, decide_not] at this
      simp [haj]
      omega

theorem sum_update (f g : Nat → Nat) (live : List Nat) (i d : Nat) (hn : live.Nodup) (hi : i ∈ live)
    (hfi : f i = g i + d) (hne : ∀ k ∈ live, k ≠ i → f k = g k) :
    (live.map f).sum = (live.map g).sum + d := by
  induction live with
  | nil => simp at hi
  | cons a t ih =>
    rw [List.nodup_cons] at hn
    simp only [List.map_cons, List.sum_cons]
    by_cases hai : a = i
    · subst hai
      have : t.map f = t.map g := by
        apply List.map_congr_left
        intro k hk
        exact hne k (by simp [hk]) (by rintro rfl; exact hn.1 hk)
      rw [this, hfi]; omega
    · have hi' : i ∈ t := by
        rcases List.mem_cons.1 hi with h | h
        · exact absurd h.symm hai
        · exact h
      rw [ih hn.2 hi' (fun k hk => hne k (by simp [hk])), hne a (by simp) hai]; omega

theorem length_filter_ne (live : List Nat) (j : Nat) (hn : live.Nodup) (hj : j ∈ live) :
    (live.filter (· ≠ j)).length + 1 = live.length := by
  have := sum_filter_ne (fun _ => 1) live j hn hj
  simpa using this

/-- a sequence of valid merges -/
theorem mergeMany_rep (m : MergeOps α) (good : α → Prop)
    (hgood : ∀ a k, good a → (m.addSize a k).2 = .ok () ∧
      m.size (m.addSize a k).1 = m.size a + k ∧ good (m.addSize a k).1)
    (ps : List (Nat × Nat)) :
    ∀ {l : LList α} {s : Slots α}, Rep l s → (∀ i ∈ s.live, ∀ a, l.contents[i]? = some a → good a) →
    ValidMerges s.live ps →
    ∃ s' : Slots α, Rep (mergeMany m l ps).1 s' ∧ s'.live = liveAfterMerges s.live ps ∧
      (∀ r ∈ (mergeMany m l ps).2, r = .ok ()) ∧
      (mergeMany m l ps).2.length = ps.length ∧
      totalSize m (mergeMany m l ps).1 s'.live = totalSize m l s.live ∧
      s'.live.length + ps.length = s.live.length ∧
      (∀ i ∈ s'.live, ∀ a, (mergeMany m l ps).1.contents[i]? = some a → good a) := by
  induction ps with
  | nil =>
    intro l s h hg _
    exact ⟨s, h, rfl, by simp [mergeMany], rfl, rfl, by simp, hg⟩
  | cons p ps ih =>
    intro l s h hg hv
    obtain ⟨i, j⟩ := p
    obtain ⟨hi, hj, hij, hv⟩ := hv
    simp only at hi hj hij hv
    have hib : i < l.contents.length := by have := h.bound i hi; rwa [h.len] at this
    have hjb : j < l.contents.length := by have := h.bound j hj; rwa [h.len] at this
    obtain ⟨a, ha⟩ : ∃ a, l.contents[i]? = some a := ⟨_, List.getElem?_eq_getElem hib⟩
    obtain ⟨b, hb⟩ : ∃ b, l.contents[j]? = some b := ⟨_, List.getElem?_eq_getElem hjb⟩
    obtain ⟨hok, hsz, hgd⟩ := hgood a (m.size b) (hg i hi a ha)
    obtain ⟨hrep, hres⟩ := h.merge m ha hb hok hj
    have hcont : (l.merge m i j).1.contents = l.contents.set i (m.addSize a (m.size b)).1 := by
      rw [hrep.contents_eq]; simp only [Slots.delS]; rw [h.contents_eq]
    have hlive : (Slots.delS { s with contents := s.contents.set i (m.addSize a (m.size b)).1 } j).live
        = s.live.filter (· ≠ j) := rfl
    obtain ⟨s', hr', hl', hall, hlen, htot, hcnt, hg'⟩ := ih hrep (by
      intro k hk x hx
      rw [hcont] at hx
      rw [hlive] at hk
      have hk' := (List.mem_filter.1 hk).1
      by_cases hki : k = i
      · subst hki
        rw [List.getElem?_set_self hib] at hx
        simp at hx; subst hx; exact hgd
      · rw [List.getElem?_set_ne (fun h => hki h.symm)] at hx
        exact hg k hk' x hx) (by rw [hlive]; exact hv)
    refine ⟨s', hr', ?_, ?_, ?_, ?_, ?_, hg'⟩
    · rw [hl', hlive]; rfl
    · intro r hr
      simp only [mergeMany, List.mem_cons] at hr
      rcases hr with rfl | hr
      · exact hres
      · exact hall r hr
    · simp only [mergeMany, List.length_cons]; rw [hlen]
    · simp only [mergeMany]
      rw [htot, hlive]
      unfold totalSize
      rw [hcont]
      have h1 := sum_filter_ne (fun k => ((l.contents.set i (m.addSize a (m.size b)).1)[k]?.map m.size).getD 0) s.live j h.nodup hj
      have h2 := sum_update (fun k => ((l.contents.set i (m.addSize a (m.size b)).1)[k]?.map m.size).getD 0) (fun k => (l.contents[k]?.map m.size).getD 0) s.live i (m.size b) h.nodup hi
        (by simp only [List.getElem?_set_self hib, ha, Option.map_some, Option.getD_some, hsz])
        (by intro k _ hk; simp only [List.getElem?_set_ne (fun h => hk h.symm)])
      simp only [List.getElem?_set_ne hij, hb, Option.map_some, Option.getD_some] at h1
      omega
    · rw [hlive] at hcnt
      have := length_filter_ne s.live j h.nodup hj
      simp only [List.length_cons]
      omega

/-- `connect_all` in terms of `from` -/
theorem Rep.connectAll_eq {l : LList α} {s : Slots α} (h : Rep l s) :
    l.connectAll = ({ from' l.contents with c0 := l.c0, c1 := l.c1, c2 := l.c2 }, .ok ()) := by
  unfold LList.connectAll from'
  by_cases h0 : l.contents.length = 0
  · have : l.links = [] := by rw [← List.length_eq_zero_iff, h.len, h0]
    simp [h0, this, Node.listWithLength]
  · have hn : ¬ l.links.length < l.contents.length := by rw [h.len]; omega
    have hd : l.links.drop l.contents.length = [] := by
      rw [List.drop_eq_nil_iff, h.len]
    simp only [if_neg h0, if_neg hn, hd, List.append_nil]
    rfl

/-- a sweep that writes through `get_mut` -/
theorem mapSweep_rep (f : α → α) (n : Nat) :
    ∀ {l : LList α} {s : Slots α}, Rep l s → s.q0.length < n →
    (mapSweep f n l).2 = true ∧
    Rep (mapSweep f n l).1 { s with q0 := [], contents := s.q0.foldl (fun c i => c.modify i f) s.contents } := by
  induction n with
  | zero => intro l s _ hn; omega
  | succ n ih =>
    intro l s h hn
    have hst := h.step (.nextMut f)
    simp only [LList.step, Slots.step] at hst
    cases hq : s.q0 with
    | nil =>
      have hc : l.c0 = none := by rw [h.c0, hq]; rfl
      have : l.enumerateMut f = (l, .ok none) := by simp [enumerateMut, hc]
      simp only [mapSweep, this, List.foldl_nil, true_and]
      have hs : { s with q0 := [], contents := s.contents } = s := by cases s; simp_all
      rw [hs]; exact h
    | cons i q =>
      rw [hq] at hst hn
      simp only at hst
      obtain ⟨x, hx⟩ := h.suffix_content (hq ▸ h.q0suf : (i :: q) <:+ s.live)
      have hx' : s.contents[i]? = some x := by rw [← h.contents_eq]; exact hx
      have h2 : (l.enumerateMut f).2 = .ok (some (i, x)) := by
        have := hst.2; rw [hx'] at this; simpa using this
      simp only [mapSweep]
      have hsplit : l.enumerateMut f = ((l.enumerateMut f).1, .ok (some (i, x))) := by
        rw [← h2]
      rw [hsplit]
      simp only [List.foldl_cons]
      exact ih hst.1 (by simpa using hn)

theorem foldl_modify_getElem? (f : α → α) (is : List Nat) (hn : is.Nodup) (c : List α) (k : Nat) :
    (is.foldl (fun c i => c.modify i f) c)[k]? = if k ∈ is then c[k]?.map f else c[k]? := by
  induction is generalizing c with
  | nil => simp
  | cons i is ih =>
    rw [List.nodup_cons] at hn
    rw [List.foldl_cons, ih hn.2]
    by_cases hki : k = i
    · subst hki
      simp [hn.1]
    · have : i ≠ k := fun h => hki h.symm
      simp [hki, this]

end LList
end Moledyn
