import Verif.Model.ExpProgram
import Verif.Lemmas.FreshEnsembles
/-
Helper lemmas: the reused agents and buffers of examples/mfpt_exp.rs leave no trace.
-/
namespace Moledyn
open LList
set_option linter.unusedSimpArgs false
variable {G F S C α : Type}

/-! ### loops in lockstep -/

theorem agentSweep_rel {R : S → S → Prop} {act : Nat → S → α → (α × Res Bool) × S}
    (hact : ∀ i s s' a, R s s' → (act i s' a).1 = (act i s a).1 ∧ R (act i s a).2 (act i s' a).2)
    (n : Nat) (l : LList α) (s s' : S) (h : R s s') :
    (agentSweep act n l s').1.1 = (agentSweep act n l s).1.1 ∧
    (agentSweep act n l s').2 = (agentSweep act n l s).2 ∧
    R (agentSweep act n l s).1.2 (agentSweep act n l s').1.2 := by
  induction n generalizing l s s' with
  | zero => exact ⟨rfl, rfl, h⟩
  | succ n ih =>
    unfold agentSweep
    have hf : (fun a => (act (l.c0.getD 0) s' a).1.1) = (fun a => (act (l.c0.getD 0) s a).1.1) := by
      funext a; rw [(hact _ s s' a h).1]
    rw [hf]
    rcases l.enumerateMut (fun a => (act (l.c0.getD 0) s a).1.1) with ⟨l1, r⟩
    match r with
    | .ok none => exact ⟨rfl, rfl, h⟩
    | .err e => exact ⟨rfl, rfl, h⟩
    | .panic => exact ⟨rfl, rfl, h⟩
    | .ok (some (i, a)) =>
      obtain ⟨h1, h2⟩ := hact i s s' a h
      simp only [h1]
      match (act i s a).1.2 with
      | .ok false => exact ih l1 _ _ h2
      | .ok true => exact ⟨rfl, rfl, h2⟩
      | .err e => exact ⟨rfl, rfl, h2⟩
      | .panic => exact ⟨rfl, rfl, h2⟩

theorem pairSweep_rel {R : S → S → Prop} {act : Nat → α → Nat → α → LList α → S → (LList α × S) × Res Unit}
    (hact : ∀ i a j b l s s', R s s' → (act i a j b l s').1.1 = (act i a j b l s).1.1 ∧
      (act i a j b l s').2 = (act i a j b l s).2 ∧ R (act i a j b l s).1.2 (act i a j b l s').1.2)
    (n : Nat) (l : LList α) (s s' : S) (h : R s s') :
    (pairSweep act n l s').1.1 = (pairSweep act n l s).1.1 ∧
    (pairSweep act n l s').2 = (pairSweep act n l s).2 ∧
    R (pairSweep act n l s).1.2 (pairSweep act n l s').1.2 := by
  induction n generalizing l s s' with
  | zero => exact ⟨rfl, rfl, h⟩
  | succ n ih =>
    unfold pairSweep
    rcases l.enumerateDouble with ⟨l1, r⟩
    match r with
    | .ok none => exact ⟨rfl, rfl, h⟩
    | .err e => exact ⟨rfl, rfl, h⟩
    | .panic => exact ⟨rfl, rfl, h⟩
    | .ok (some (i, a, j, b)) =>
      obtain ⟨h1, h2, h3⟩ := hact i a j b l1 s s' h
      rcases hx : act i a j b l1 s with ⟨⟨l2, s2⟩, r⟩
      rcases hx' : act i a j b l1 s' with ⟨⟨l2', s2'⟩, r'⟩
      rw [hx, hx'] at h1 h2 h3
      simp only at h1 h2 h3
      subst h1 h2
      match r' with
      | .ok () => simp only [hx, hx']; exact ih _ _ _ h3
      | .err e => simp only [hx, hx']; exact ⟨trivial, trivial, h3⟩
      | .panic => simp only [hx, hx']; exact ⟨trivial, trivial, h3⟩

/-! ### a structure that the loops keep -/

/-- links and the unused third cursor untouched, as many contents, every content still of the kind `K`. -/
structure Keeps (K : α → Prop) (l l1 : LList α) : Prop where
  links : l1.links = l.links
  c2 : l1.c2 = l.c2
  len : l1.contents.length = l.contents.length
  kind : (∀ a ∈ l.contents, K a) → ∀ a ∈ l1.contents, K a

theorem Keeps.refl (K : α → Prop) (l : LList α) : Keeps K l l := ⟨rfl, rfl, rfl, fun h => h⟩

theorem Keeps.trans {K : α → Prop} {l l1 l2 : LList α} (h : Keeps K l l1) (h' : Keeps K l1 l2) : Keeps K l l2 :=
  ⟨h'.links.trans h.links, h'.c2.trans h.c2, h'.len.trans h.len, fun hk => h'.kind (h.kind hk)⟩

theorem Keeps.same {K : α → Prop} {l l1 : LList α} (h1 : l1.links = l.links) (h2 : l1.c2 = l.c2)
    (h3 : l1.contents = l.contents) : Keeps K l l1 := ⟨h1, h2, by rw [h3], fun h => by rw [h3]; exact h⟩

theorem enumerateMut_Keeps {K : α → Prop} (l : LList α) (f : α → α) (hf : ∀ a, K a → K (f a)) :
    Keeps K l (l.enumerateMut f).1 := by
  unfold LList.enumerateMut
  rcases l.c0 with _ | idx
  · exact Keeps.refl _ _
  simp only
  rcases l.links[idx]? with _ | nd
  · exact Keeps.refl _ _
  simp only
  rcases hcc : l.contents[idx]? with _ | b
  · exact Keeps.same rfl rfl rfl
  · refine ⟨rfl, rfl, by simp, fun h a ha => ?_⟩
    rcases List.mem_or_eq_of_mem_set ha with ha | rfl
    · exact h a ha
    · exact hf _ (h b (List.mem_of_getElem? hcc))

theorem enumerateDouble_Keeps (K : α → Prop) (l : LList α) : Keeps K l l.enumerateDouble.1 := by
  have h : Keeps K l l.indiciesDouble.1 := by
    unfold LList.indiciesDouble
    repeat' split
    all_goals exact Keeps.same rfl rfl rfl
  unfold LList.enumerateDouble
  rcases hi : l.indiciesDouble with ⟨l1, r⟩
  rw [hi] at h
  match r with
  | .ok none => exact h
  | .err e => exact h
  | .panic => exact h
  | .ok (some (i, j)) =>
    simp only
    split
    · exact h
    · exact h

theorem intoDoubleIter_Keeps (K : α → Prop) (l : LList α) : Keeps K l l.intoDoubleIter.1 := by
  unfold LList.intoDoubleIter
  repeat' split
  all_goals exact Keeps.same rfl rfl rfl

theorem agentSweep_Keeps {K : α → Prop} {act : Nat → S → α → (α × Res Bool) × S}
    (hact : ∀ i s a, K a → K (act i s a).1.1) (n : Nat) (l : LList α) (s : S) :
    Keeps K l (agentSweep act n l s).1.1 := by
  induction n generalizing l s with
  | zero => exact Keeps.refl _ _
  | succ n ih =>
    unfold agentSweep
    have h1 := enumerateMut_Keeps l (fun a => (act (l.c0.getD 0) s a).1.1) (fun a ha => hact _ s a ha)
    rcases he : l.enumerateMut (fun a => (act (l.c0.getD 0) s a).1.1) with ⟨l1, r⟩
    rw [he] at h1
    match r with
    | .ok none => exact h1
    | .err e => exact h1
    | .panic => exact h1
    | .ok (some (i, a)) =>
      simp only
      match (act i s a).1.2 with
      | .ok false => exact h1.trans (ih l1 _)
      | .ok true => exact h1
      | .err e => exact h1
      | .panic => exact h1

theorem pairSweep_Keeps {K : α → Prop} {act : Nat → α → Nat → α → LList α → S → (LList α × S) × Res Unit}
    (hact : ∀ i a j b l s, (act i a j b l s).1.1 = l) (n : Nat) (l : LList α) (s : S) :
    Keeps K l (pairSweep act n l s).1.1 := by
  induction n generalizing l s with
  | zero => exact Keeps.refl _ _
  | succ n ih =>
    unfold pairSweep
    have h1 := enumerateDouble_Keeps K l
    rcases he : l.enumerateDouble with ⟨l1, r⟩
    rw [he] at h1
    match r with
    | .ok none => exact h1
    | .err e => exact h1
    | .panic => exact h1
    | .ok (some (i, a, j, b)) =>
      have hl := hact i a j b l1 s
      rcases hx : act i a j b l1 s with ⟨⟨l2, s2⟩, r⟩
      rw [hx] at hl
      simp only at hl
      subst hl
      match r with
      | .ok () => simp only [hx]; exact h1.trans (ih _ _)
      | .err e => simp only [hx]; exact h1
      | .panic => simp only [hx]; exact h1

/-! ### buffers -/

/-- a list of buffers, all slots live, with the given dimensions. -/
def Shape (L : List Nat) (mv : LList (Pos F)) : Prop :=
  ∃ w x y, mv = (from' w).withCursors x y ∧ w.map List.length = L

/-- the same buffers, except for the cursors of the list. -/
def SameBuf (L : List Nat) (mv mv' : LList (Pos F)) : Prop :=
  ∃ w x y x' y', mv = (from' w).withCursors x y ∧ mv' = (from' w).withCursors x' y' ∧ w.map List.length = L

theorem SameBuf.left {L : List Nat} {mv mv' : LList (Pos F)} (h : SameBuf L mv mv') : Shape L mv := by
  obtain ⟨w, x, y, x', y', rfl, -, rfl⟩ := h; exact ⟨w, x, y, rfl, rfl⟩

theorem SameBuf.right {L : List Nat} {mv mv' : LList (Pos F)} (h : SameBuf L mv mv') : Shape L mv' := by
  obtain ⟨w, x, y, x', y', -, rfl, rfl⟩ := h; exact ⟨w, x', y', rfl, rfl⟩

theorem SameBuf.contents {L : List Nat} {mv mv' : LList (Pos F)} (h : SameBuf L mv mv') :
    mv'.contents = mv.contents := by
  obtain ⟨w, x, y, x', y', rfl, rfl, -⟩ := h; rfl

theorem SameBuf.set {L : List Nat} {mv mv' : LList (Pos F)} (h : SameBuf L mv mv') (i : Nat) (p q : Pos F)
    (hp : mv.contents[i]? = some p) (hq : q.length = p.length) :
    SameBuf L { mv with contents := mv.contents.set i q } { mv' with contents := mv'.contents.set i q } := by
  obtain ⟨w, x, y, x', y', rfl, rfl, rfl⟩ := h
  have hp : w[i]? = some p := hp
  refine ⟨w.set i q, x, y, x', y', ?_, ?_, ?_⟩
  · unfold LList.withCursors from'; simp
  · unfold LList.withCursors from'; simp
  · rw [List.map_set, hq]
    apply List.ext_getElem?
    intro j
    rw [List.getElem?_set]
    split
    · rename_i hij; subst hij
      simp only [List.length_map, List.getElem?_map, hp, Option.map_some]
      rw [if_pos (List.getElem?_eq_some_iff.1 hp).1]
    · rfl

theorem mutZip_length (op : F → F → F) (a b : Pos F) : (Pos.mutZip op a b).1.length = a.length := by
  induction a generalizing b with
  | nil => rfl
  | cons x xs ih =>
    cases b with
    | nil => rfl
    | cons y ys => simp [Pos.mutZip, ih]

theorem bufMod_rel {L : List Nat} {mv mv' : LList (Pos F)} (h : SameBuf L mv mv') (i : Nat)
    (f : Pos F → Pos F × Res Unit) (hf : ∀ p, (f p).1.length = p.length) :
    (bufMod mv' i f).2 = (bufMod mv i f).2 ∧ SameBuf L (bufMod mv i f).1 (bufMod mv' i f).1 := by
  unfold bufMod
  rw [h.contents]
  rcases hp : mv.contents[i]? with _ | p
  · exact ⟨rfl, h⟩
  · refine ⟨rfl, ?_⟩
    have := h.set i p (f p).1 hp (hf p)
    rw [h.contents] at this
    exact this

theorem mapSweep_c1 (f : α → α) (n : Nat) (l : LList α) (y : Option Nat) :
    mapSweep f n { l with c1 := y } = ({ (mapSweep f n l).1 with c1 := y }, (mapSweep f n l).2) := by
  induction n generalizing l with
  | zero => rfl
  | succ n ih =>
    unfold mapSweep
    rw [enumerateMut_c1]
    rcases l.enumerateMut f with ⟨l1, r⟩
    match r with
    | .ok none => rfl
    | .err e => rfl
    | .panic => rfl
    | .ok (some x) => exact ih l1

theorem mapSweep_from (f : α → α) (rest : List α) : ∀ (done : List α) (fuel : Nat), rest.length < fuel →
    mapSweep f fuel { from' (done ++ rest) with c0 := if rest = [] then none else some done.length } =
      (from' (done ++ rest.map f), true) := by
  induction rest with
  | nil =>
    intro done fuel hf
    obtain ⟨fuel, rfl⟩ : ∃ k, fuel = k + 1 := ⟨fuel - 1, by simp at hf; omega⟩
    simp only [if_true, List.map_nil]
    unfold mapSweep LList.enumerateMut
    rfl
  | cons a rest ih =>
    intro done fuel hf
    obtain ⟨fuel, rfl⟩ : ∃ k, fuel = k + 1 := ⟨fuel - 1, by simp at hf; omega⟩
    simp only [List.cons_ne_nil, if_false, reduceCtorEq]
    have hlink : (from' (done ++ a :: rest)).links[done.length]? =
        some (connNode (done.length + (rest.length + 1)) done.length) := by
      show (Node.listWithLength _)[done.length]? = _
      rw [listWithLength_getElem?, if_pos (by simp)]
      simp
    have hcont : (done ++ a :: rest)[done.length]? = some a := by simp
    have hstep : ({ from' (done ++ a :: rest) with c0 := some done.length } : LList α).enumerateMut f =
        ({ from' ((done ++ [f a]) ++ rest) with c0 := if rest = [] then none else some (done ++ [f a]).length },
          .ok (some (done.length, a))) := by
      unfold LList.enumerateMut
      simp only [hlink]
      have : (from' (done ++ a :: rest)).contents = done ++ a :: rest := rfl
      simp only [this, hcont]
      congr 1
      have e1 : (done ++ a :: rest).set done.length (f a) = (done ++ [f a]) ++ rest := by
        rw [List.set_append_right _ _ (le_refl _)]; simp
      have e2 : (done ++ a :: rest).length = ((done ++ [f a]) ++ rest).length := by simp
      have e3 : (connNode (done.length + (rest.length + 1)) done.length).next =
          if rest = [] then none else some (done ++ [f a]).length := by
        unfold connNode
        cases rest with
        | nil => simp
        | cons b rest => simp
      rw [e1, e3]
      unfold from'
      rw [e2]
    unfold mapSweep
    rw [hstep]
    simp only
    rw [ih (done ++ [f a]) fuel (by simp at hf; omega)]
    simp

theorem clearAll_from (f : α → α) (w : List α) (x y : Option Nat) (fuel : Nat) (hf : w.length < fuel) :
    ((from' w).withCursors x y).clearAll f fuel = ((from' (w.map f)).withCursors none y, true) := by
  have h := mapSweep_from f w [] fuel hf
  simp only [List.nil_append] at h
  have e : ((from' w).withCursors x y).intoIter =
      { ({ from' w with c0 := if w = [] then none else some ([] : List α).length } : LList α) with c1 := y } := by
    unfold LList.withCursors LList.intoIter from'
    simp only [List.length_eq_zero_iff, List.length_nil]
  unfold LList.clearAll
  rw [e, mapSweep_c1, h]
  rfl

variable [Fl F]

theorem clear_shape {L : List Nat} {mv : LList (Pos F)} (h : Shape L mv) {fuel : Nat} (hf : L.length < fuel) :
    ∃ y, mv.clearAll (Pos.clear Fl.zero) fuel =
      ((from' (L.map fun k => List.replicate k Fl.zero)).withCursors none y, true) := by
  obtain ⟨w, x, y, rfl, rfl⟩ := h
  refine ⟨y, ?_⟩
  rw [clearAll_from _ _ _ _ _ (by simpa using hf)]
  congr 3
  rw [List.map_map]
  apply List.map_congr_left
  intro p _
  simp [Pos.clear, List.map_const']

theorem dispLoop_length (n : Nat) (p q v : Pos F) (s : F) : (AgentCore.dispLoop n p q v s).1.length = v.length := by
  induction n generalizing p q v s with
  | zero => simp [AgentCore.dispLoop]
  | succ n ih =>
    cases p <;> cases q <;> cases v <;> simp [AgentCore.dispLoop, ih]

theorem dispLoop_overwrites (n : Nat) (p q v v' : Pos F) (s : F) (h1 : v.length = n) (h2 : v'.length = n) :
    (AgentCore.dispLoop n p q v' s).2 = (AgentCore.dispLoop n p q v s).2 ∧
    (∀ x, (AgentCore.dispLoop n p q v s).2 = .ok x →
      (AgentCore.dispLoop n p q v' s).1 = (AgentCore.dispLoop n p q v s).1) := by
  induction n generalizing p q v v' s with
  | zero =>
    have e1 := List.eq_nil_of_length_eq_zero h1
    have e2 := List.eq_nil_of_length_eq_zero h2
    subst e1 e2
    exact ⟨rfl, fun _ _ => rfl⟩
  | succ n ih =>
    cases v with
    | nil => simp at h1
    | cons a v =>
      cases v' with
      | nil => simp at h2
      | cons b v' =>
        cases p with
        | nil => simp [AgentCore.dispLoop]
        | cons x p =>
          cases q with
          | nil => simp [AgentCore.dispLoop]
          | cons y q =>
            obtain ⟨k1, k2⟩ := ih p q v v' (s + Fl.powi (y - x) 2) (by simpa using h1) (by simpa using h2)
            refine ⟨k1, fun z hz => ?_⟩
            have := k2 z hz
            show (y - x) :: _ = (y - x) :: _
            rw [this]

theorem mutual_open {d1 d2 : Nat} (p1 p2 v : Pos F) (hd : d1 = d2) (hv : v.length = d1) :
    AgentCore.mutualDisplacementToVec d1 p1 d2 p2 v =
      match AgentCore.dispLoop d1 p1 p2 v Fl.zero with
      | (v, .ok s) => (v.mutScalarMul (Fl.one / Fl.sqrt s), .ok (Fl.sqrt s))
      | (v, .err e) => (v, .err e)
      | (v, .panic) => (v, .panic) := by
  unfold AgentCore.mutualDisplacementToVec
  rw [if_neg (by simp [Pos.dim, hd, hv])]
  rcases AgentCore.dispLoop d1 p1 p2 v Fl.zero with ⟨u, r | e | _⟩ <;> rfl

theorem mutualToVec_rel (d1 : Nat) (p1 : Pos F) (d2 : Nat) (p2 v v' : Pos F) (h : v'.length = v.length) :
    let r := AgentCore.mutualDisplacementToVec d1 p1 d2 p2 v
    let r' := AgentCore.mutualDisplacementToVec d1 p1 d2 p2 v'
    r'.2 = r.2 ∧ r.1.length = v.length ∧ r'.1.length = v.length ∧ (∀ x, r.2 = .ok x → r'.1 = r.1) := by
  by_cases hc : d1 ≠ d2 ∨ d1 ≠ v.length
  · have e1 : AgentCore.mutualDisplacementToVec d1 p1 d2 p2 v = (v, .err .invalidDimension) := if_pos hc
    have e2 : AgentCore.mutualDisplacementToVec d1 p1 d2 p2 v' = (v', .err .invalidDimension) :=
      if_pos (by rw [Pos.dim, h]; exact hc)
    simp only [e1, e2]
    exact ⟨trivial, trivial, h, by simp⟩
  · have hv : v.length = d1 := by push Not at hc; exact hc.2.symm
    obtain ⟨k1, k2⟩ := dispLoop_overwrites d1 p1 p2 v v' Fl.zero hv (by rw [h, hv])
    have l1 := dispLoop_length d1 p1 p2 v Fl.zero
    have l2 := dispLoop_length d1 p1 p2 v' Fl.zero
    have hdd : d1 = d2 := by push Not at hc; exact hc.1
    rw [mutual_open p1 p2 v hdd hv, mutual_open p1 p2 v' hdd (by rw [h, hv])]
    rcases hx : AgentCore.dispLoop d1 p1 p2 v Fl.zero with ⟨u, r⟩
    rcases hx' : AgentCore.dispLoop d1 p1 p2 v' Fl.zero with ⟨u', r'⟩
    rw [hx, hx'] at k1 k2
    rw [hx] at l1
    rw [hx'] at l2
    simp only at k1 k2 l1 l2
    subst k1
    match r' with
    | .ok s =>
      have := k2 s rfl
      subst this
      simp [Pos.mutScalarMul, l1]
    | .err e => simp [l1, l2, h]
    | .panic => simp [l1, l2, h]

/-- the two states of the pair loop differ only where the next step overwrites. -/
def SameForce (L : List Nat) (m : Nat) (s s' : Pos F × LList (Pos F)) : Prop :=
  s.1.length = m ∧ s'.1.length = m ∧ SameBuf L s.2 s'.2

theorem forceAct_rel {L : List Nat} {m : Nat} (dt : F) (i : Nat) (a : ExpAgent F) (j : Nat) (b : ExpAgent F)
    (l : LList (ExpAgent F)) (s s' : Pos F × LList (Pos F)) (h : SameForce L m s s') :
    (forceAct dt i a j b l s').1.1 = (forceAct dt i a j b l s).1.1 ∧
    (forceAct dt i a j b l s').2 = (forceAct dt i a j b l s).2 ∧
    SameForce L m (forceAct dt i a j b l s).1.2 (forceAct dt i a j b l s').1.2 := by
  obtain ⟨h1, h2, h3⟩ := h
  obtain ⟨k1, k2, k3, k4⟩ := mutualToVec_rel a.expDim a.pos b.expDim b.pos s.1 s'.1 (by rw [h1, h2])
  unfold forceAct
  have e : a.mutualDisplacementToVec b s.1 =
    AgentCore.mutualDisplacementToVec a.expDim a.pos b.expDim b.pos s.1 := rfl
  have e' : a.mutualDisplacementToVec b s'.1 =
    AgentCore.mutualDisplacementToVec a.expDim a.pos b.expDim b.pos s'.1 := rfl
  rw [e, e']
  rcases hx : AgentCore.mutualDisplacementToVec a.expDim a.pos b.expDim b.pos s.1 with ⟨d, r⟩
  rcases hx' : AgentCore.mutualDisplacementToVec a.expDim a.pos b.expDim b.pos s'.1 with ⟨d', r'⟩
  rw [hx, hx'] at k1 k4
  rw [hx] at k2
  rw [hx'] at k3
  simp only at k1 k2 k3 k4
  subst k1
  match r' with
  | .err e => exact ⟨rfl, rfl, by rw [k2, h1], by rw [k3, h1], h3⟩
  | .panic => exact ⟨rfl, rfl, by rw [k2, h1], by rw [k3, h1], h3⟩
  | .ok x =>
    have := k4 x rfl
    subst this
    simp only
    have hm : (d'.mutScalarMul (a.force x * dt)).length = m := by simp [Pos.mutScalarMul, k2, h1]
    obtain ⟨b1, b2⟩ := bufMod_rel h3 i (fun p => p.mutSub (d'.mutScalarMul (a.force x * dt)))
      (fun p => mutZip_length _ _ _)
    generalize hy : Moledyn.bufMod s.2 i (fun p => p.mutSub (d'.mutScalarMul (a.force x * dt))) = y at b1 b2
    generalize hy' : Moledyn.bufMod s'.2 i (fun p => p.mutSub (d'.mutScalarMul (a.force x * dt))) = y' at b1 b2
    obtain ⟨y1, y2⟩ := y
    obtain ⟨y1', y2'⟩ := y'
    simp only at b1 b2
    subst b1
    match y2' with
    | .err e => exact ⟨rfl, rfl, hm, hm, b2⟩
    | .panic => exact ⟨rfl, rfl, hm, hm, b2⟩
    | .ok () =>
      obtain ⟨c1, c2⟩ := bufMod_rel b2 j (fun p => p.mutAdd (d'.mutScalarMul (a.force x * dt)))
        (fun p => mutZip_length _ _ _)
      exact ⟨rfl, c1, hm, hm, c2⟩

theorem forceAct_list (dt : F) (i : Nat) (a : ExpAgent F) (j : Nat) (b : ExpAgent F) (l : LList (ExpAgent F))
    (s : Pos F × LList (Pos F)) : (forceAct dt i a j b l s).1.1 = l := by
  unfold forceAct
  rcases a.mutualDisplacementToVec b s.1 with ⟨d, r | e | _⟩
  · simp only
    split
    · rfl
    · rfl
  · rfl
  · rfl

omit [Fl F] in
theorem sweep_length (draw : G → F × G) (f : F → F → F) (v : Pos F) (g : G) :
    (Random.sweep draw f v g).1.length = v.length := by
  induction v generalizing g with
  | nil => rfl
  | cons x xs ih => simp [Random.sweep, ih]

theorem randomToVec_length (rng : RngOps G F) (a : ExpAgent F) (g : G) (dt : F) (v : Pos F) :
    (a.randomMoveToVec rng g dt v).1.1.length = v.length := by
  unfold ExpAgent.randomMoveToVec AgentCore.randomMoveToVec
  split
  · rfl
  · split
    · exact sweep_length _ _ _ _
    · rfl

theorem limitMove_len (limit : F) (v : Pos F) : (limitMove limit v).length = v.length := by
  unfold limitMove
  simp only
  split
  · simp [Pos.mutScalarMul]
  · rfl

/-- the two states of the agent loop differ only in the cursors of the buffers. -/
def SameMove (L : List Nat) (s s' : G × LList (Pos F)) : Prop := s'.1 = s.1 ∧ SameBuf L s.2 s'.2

theorem expMoveAct_rel {L : List Nat} (rng : RngOps G F) (sys : SysOps G F) (target : TargetOps F) (limit dt : F)
    (i : Nat) (s s' : G × LList (Pos F)) (a : ExpAgent F) (h : SameMove L s s') :
    (expMoveAct rng sys target limit dt i s' a).1 = (expMoveAct rng sys target limit dt i s a).1 ∧
    SameMove L (expMoveAct rng sys target limit dt i s a).2 (expMoveAct rng sys target limit dt i s' a).2 := by
  obtain ⟨h1, h2⟩ := h
  unfold expMoveAct
  rw [h1, h2.contents]
  rcases hv : s.2.contents[i]? with _ | v0
  · exact ⟨rfl, h1, h2⟩
  simp only
  have hl := randomToVec_length rng a s.1 dt v0
  have hset : ∀ q : Pos F, q.length = v0.length →
      SameBuf L { s.2 with contents := s.2.contents.set i q } { s'.2 with contents := s.2.contents.set i q } := by
    intro q hq
    have := h2.set i v0 q hv hq
    rw [h2.contents] at this
    exact this
  rcases hm : a.randomMoveToVec rng s.1 dt v0 with ⟨⟨v1, r | e | _⟩, g1⟩
  · rw [hm] at hl
    simp only at hl ⊢
    have := hset (limitMove limit v1) (by rw [limitMove_len, hl])
    rcases hb : sys.checkBc a.pos (limitMove limit v1) with ⟨p, r | e | _⟩
    · exact ⟨rfl, rfl, this⟩
    · exact ⟨rfl, rfl, this⟩
    · exact ⟨rfl, rfl, this⟩
  · rw [hm] at hl; exact ⟨rfl, rfl, hset _ hl⟩
  · rw [hm] at hl; exact ⟨rfl, rfl, hset _ hl⟩

theorem expMoveAct_kind (rng : RngOps G F) (sys : SysOps G F) (target : TargetOps F) (limit dt : F) (a0 : ExpAgent F)
    (i : Nat) (s : G × LList (Pos F)) (a : ExpAgent F) (h : ∃ p, a = { a0 with pos := p }) :
    ∃ p, (expMoveAct rng sys target limit dt i s a).1.1 = { a0 with pos := p } := by
  obtain ⟨p0, rfl⟩ := h
  unfold expMoveAct
  rcases s.2.contents[i]? with _ | v0
  · exact ⟨_, rfl⟩
  simp only
  rcases ExpAgent.randomMoveToVec rng { a0 with pos := p0 } s.1 dt v0 with ⟨⟨v1, r | e | _⟩, g1⟩
  · simp only
    rcases sys.checkBc p0 (limitMove limit v1) with ⟨p, r | e | _⟩
    · exact ⟨_, rfl⟩
    · exact ⟨_, rfl⟩
    · exact ⟨_, rfl⟩
  · exact ⟨_, rfl⟩
  · exact ⟨_, rfl⟩

/-! ### one step, one search -/

/-- two states of the program that the next ensemble cannot tell apart. -/
structure Alike (L : List Nat) (m : Nat) (st st' : ExpSim G F) : Prop where
  list : ∃ x y, st'.list = st.list.withCursors x y
  rng : st'.rng = st.rng
  disp : st.displacement.length = m
  disp' : st'.displacement.length = m
  moves : Shape L st.moves
  moves' : Shape L st'.moves

theorem expStep_alike {L : List Nat} {m : Nat} (rng : RngOps G F) (sys : SysOps G F) (target : TargetOps F)
    (limit dt : F) {fuel : Nat} (hf : L.length < fuel) {st st' : ExpSim G F} (h : Alike L m st st') :
    (expStep rng sys target limit fuel dt st').2 = (expStep rng sys target limit fuel dt st).2 ∧
    Alike L m (expStep rng sys target limit fuel dt st).1 (expStep rng sys target limit fuel dt st').1 := by
  obtain ⟨⟨x, y, h1⟩, h2, h3, h4, h5, h6⟩ := h
  obtain ⟨z, c1⟩ := clear_shape h5 hf
  obtain ⟨z', c2⟩ := clear_shape h6 hf
  have hbuf : SameBuf L ((from' (L.map fun k => List.replicate k (Fl.zero : F))).withCursors none z)
      ((from' (L.map fun k => List.replicate k (Fl.zero : F))).withCursors none z') :=
    ⟨_, _, _, _, _, rfl, rfl, by rw [List.map_map]; simp [Function.comp_def]⟩
  generalize (from' (L.map fun k => List.replicate k (Fl.zero : F))).withCursors none z = mv at c1 hbuf
  generalize (from' (L.map fun k => List.replicate k (Fl.zero : F))).withCursors none z' = mv' at c2 hbuf
  obtain ⟨d1, d2, x', y', d3⟩ := intoDoubleIter_cursors st.list x y
  rw [← h1] at d1 d2 d3
  unfold expStep
  rw [c1, c2]
  simp only
  rcases hd : st.list.intoDoubleIter with ⟨l1, r⟩
  rcases hd' : st'.list.intoDoubleIter with ⟨l1', r'⟩
  rw [hd, hd'] at d1 d2 d3
  simp only at d1 d2 d3
  subst d1
  match r' with
  | .err e => exact ⟨rfl, ⟨x', y', d3⟩, h2, h3, h4, hbuf.left, hbuf.right⟩
  | .panic => exact ⟨rfl, ⟨x', y', d3⟩, h2, h3, h4, hbuf.left, hbuf.right⟩
  | .ok () =>
    obtain rfl := d2 rfl
    simp only
    obtain ⟨p1, p2, p3⟩ := pairSweep_rel (R := SameForce L m) (act := forceAct dt)
      (fun i a j b l s s' h => forceAct_rel dt i a j b l s s' h) fuel l1' (st.displacement, mv)
      (st'.displacement, mv') ⟨h3, h4, hbuf⟩
    rcases hp : pairSweep (forceAct dt) fuel l1' (st.displacement, mv) with ⟨⟨l2, d, mv2⟩, o⟩
    rcases hp' : pairSweep (forceAct dt) fuel l1' (st'.displacement, mv') with ⟨⟨l2', d', mv2'⟩, o'⟩
    rw [hp, hp'] at p1 p2 p3
    simp only at p1 p2 p3
    subst p1 p2
    obtain ⟨q1, q2, q3⟩ := p3
    simp only at q1 q2 q3
    match o' with
    | none => exact ⟨rfl, ⟨l2'.c0, l2'.c1, rfl⟩, h2, q1, q2, q3.left, q3.right⟩
    | some (.err e) => exact ⟨rfl, ⟨l2'.c0, l2'.c1, rfl⟩, h2, q1, q2, q3.left, q3.right⟩
    | some .panic => exact ⟨rfl, ⟨l2'.c0, l2'.c1, rfl⟩, h2, q1, q2, q3.left, q3.right⟩
    | some (.ok ()) =>
      simp only
      obtain ⟨a1, a2, a3, a4⟩ := agentSweep_rel (R := SameMove L) (act := expMoveAct rng sys target limit dt)
        (fun i s s' a h => expMoveAct_rel rng sys target limit dt i s s' a h) fuel l2'.intoIter (st.rng, mv2)
        (st'.rng, mv2') ⟨h2, q3⟩
      refine ⟨a2, ⟨(agentSweep (expMoveAct rng sys target limit dt) fuel l2'.intoIter (st.rng, mv2)).1.1.c0,
        (agentSweep (expMoveAct rng sys target limit dt) fuel l2'.intoIter (st.rng, mv2)).1.1.c1, ?_⟩, a3, q1, q2,
        a4.left, a4.right⟩
      simp only
      rw [a1]
      rfl

theorem expStep_Keeps (rng : RngOps G F) (sys : SysOps G F) (target : TargetOps F) (limit dt : F) (fuel : Nat)
    (a0 : ExpAgent F) (st : ExpSim G F) :
    Keeps (fun a => ∃ p, a = { a0 with pos := p }) st.list (expStep rng sys target limit fuel dt st).1.list := by
  unfold expStep
  rcases st.moves.clearAll (Pos.clear Fl.zero) fuel with ⟨mv1, b⟩
  cases b with
  | false => exact Keeps.refl _ _
  | true =>
    simp only
    have k1 := intoDoubleIter_Keeps (fun a : ExpAgent F => ∃ p, a = { a0 with pos := p }) st.list
    rcases hl : st.list.intoDoubleIter with ⟨l1, r⟩
    rw [hl] at k1
    match r with
    | .err e => exact k1
    | .panic => exact k1
    | .ok () =>
      simp only
      have k2 := pairSweep_Keeps (K := fun a : ExpAgent F => ∃ p, a = { a0 with pos := p }) (act := forceAct dt)
        (fun i a j b l s => forceAct_list dt i a j b l s) fuel l1 (st.displacement, mv1)
      rcases hp : pairSweep (forceAct dt) fuel l1 (st.displacement, mv1) with ⟨⟨l2, d, mv2⟩, o⟩
      rw [hp] at k2
      match o with
      | none => exact k1.trans k2
      | some (.err e) => exact k1.trans k2
      | some .panic => exact k1.trans k2
      | some (.ok ()) =>
        simp only
        have k3 := agentSweep_Keeps (K := fun a : ExpAgent F => ∃ p, a = { a0 with pos := p })
          (act := expMoveAct rng sys target limit dt) (fun i s a h => expMoveAct_kind rng sys target limit dt a0 i s a h)
          fuel l2.intoIter (st.rng, mv2)
        have k4 : Keeps (fun a : ExpAgent F => ∃ p, a = { a0 with pos := p }) l2 l2.intoIter := Keeps.same rfl rfl rfl
        exact k1.trans (k2.trans (k4.trans k3))

theorem searchLoop_alike {L : List Nat} {m : Nat} (rng : RngOps G F) (sys : SysOps G F) (target : TargetOps F)
    (limit : F) {fuel : Nat} (hf : L.length < fuel) (tick : C → C × Res (Option (F × F))) (n : Nat) (c : C)
    {st st' : ExpSim G F} (h : Alike L m st st') :
    (searchLoop tick (expStep rng sys target limit fuel) n c st').2 =
      (searchLoop tick (expStep rng sys target limit fuel) n c st).2 ∧
    Alike L m (searchLoop tick (expStep rng sys target limit fuel) n c st).1.2
      (searchLoop tick (expStep rng sys target limit fuel) n c st').1.2 := by
  induction n generalizing c st st' with
  | zero => exact ⟨rfl, h⟩
  | succ n ih =>
    unfold searchLoop
    rcases ht : tick c with ⟨c1, o⟩
    match o with
    | .ok none => exact ⟨rfl, h⟩
    | .err e => exact ⟨rfl, h⟩
    | .panic => exact ⟨rfl, h⟩
    | .ok (some (t, dt)) =>
      obtain ⟨e1, e2⟩ := expStep_alike rng sys target limit dt hf h
      simp only
      rcases hm : expStep rng sys target limit fuel dt st with ⟨s2, o2⟩
      rcases hm' : expStep rng sys target limit fuel dt st' with ⟨s2', o2'⟩
      rw [hm, hm'] at e1 e2
      simp only at e1 e2
      subst e1
      match o2' with
      | none => exact ⟨rfl, e2⟩
      | some (.ok true) => exact ⟨rfl, e2⟩
      | some (.err e) => exact ⟨rfl, e2⟩
      | some .panic => exact ⟨rfl, e2⟩
      | some (.ok false) => exact ih c1 e2

theorem searchLoop_Keeps (rng : RngOps G F) (sys : SysOps G F) (target : TargetOps F)
    (limit : F) (fuel : Nat) (tick : C → C × Res (Option (F × F))) (a0 : ExpAgent F) (n : Nat) (c : C)
    (st : ExpSim G F) :
    Keeps (fun a => ∃ p, a = { a0 with pos := p }) st.list
      (searchLoop tick (expStep rng sys target limit fuel) n c st).1.2.list := by
  induction n generalizing c st with
  | zero => exact Keeps.refl _ _
  | succ n ih =>
    unfold searchLoop
    rcases ht : tick c with ⟨c1, o⟩
    match o with
    | .ok none => exact Keeps.refl _ _
    | .err e => exact Keeps.refl _ _
    | .panic => exact Keeps.refl _ _
    | .ok (some (t, dt)) =>
      have e1 := expStep_Keeps rng sys target limit dt fuel a0 st
      simp only
      rcases hm : expStep rng sys target limit fuel dt st with ⟨s2, o2⟩
      rw [hm] at e1
      match o2 with
      | none => exact e1
      | some (.ok true) => exact e1
      | some (.err e) => exact e1
      | some .panic => exact e1
      | some (.ok false) => exact e1.trans (ih c1 s2)

end Moledyn
