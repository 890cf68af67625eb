import Verif.Lemmas.SimulationRuns
import Verif.Lemmas.System
import Mathlib.Algebra.BigOperators.Group.List.Basic
/-
Helper lemmas about the pair loop of examples/mfpt_exp.rs.
-/
namespace Moledyn
open LList
variable {G F S C α : Type}

/-- a pair loop whose body leaves the list alone, as a fold over the pairs. -/
def pairFold (body : Nat → α → Nat → α → S → S × Res Unit) (c : List α) : List (Nat × Nat) → S → S × Res Unit
  | [], s => (s, .ok ())
  | p :: ps, s =>
    match c[p.1]?, c[p.2]? with
    | some a, some b =>
      match body p.1 a p.2 b s with
      | (s1, .ok ()) => pairFold body c ps s1
      | (s1, r) => (s1, r)
    | _, _ => (s, .panic)

theorem pairSweep_fold (act : Nat → α → Nat → α → LList α → S → (LList α × S) × Res Unit)
    (body : Nat → α → Nat → α → S → S × Res Unit)
    (hact : ∀ i a j b l s, act i a j b l s = ((l, (body i a j b s).1), (body i a j b s).2)) (n : Nat) :
    ∀ {l : LList α} {s : Slots α} (st : S), Rep l s → PairOk s → (pending s).length < n →
    ∃ s' : Slots α, Rep (pairSweep act n l st).1.1 s' ∧ s'.live = s.live ∧ s'.contents = s.contents ∧
      (pairSweep act n l st).1.2 = (pairFold body s.contents (pending s) st).1 ∧
      (pairSweep act n l st).2 = some (pairFold body s.contents (pending s) st).2 := by
  induction n with
  | zero => intro l s st _ _ hn; omega
  | succ n ih =>
    intro l s st h hp hn
    by_cases hnil : s.q0 = [] ∨ s.q1 = []
    · have e : pairSweep act (n + 1) l st = ((l, st), some (.ok ())) := by
        simp only [pairSweep, h.enumDouble_none hnil]
      rw [e, (pending_nil hp).2 hnil]
      exact ⟨s, h, rfl, rfl, rfl, rfl⟩
    · rw [not_or] at hnil
      obtain ⟨i, t, hq⟩ := List.exists_cons_of_ne_nil hnil.1
      obtain ⟨j, u, hq1⟩ := List.exists_cons_of_ne_nil hnil.2
      obtain ⟨a, ha⟩ := h.content (h.q0suf.subset (by rw [hq]; simp) : i ∈ s.live)
      obtain ⟨b, hb⟩ := h.content (h.q1suf.subset (by rw [hq1]; simp) : j ∈ s.live)
      obtain ⟨hr, hrep⟩ := h.enumDouble_some hq hq1 ha hb
      obtain ⟨hp1, hpend⟩ := pairOk_next hp hq hq1
      have he : l.enumerateDouble = (l.enumerateDouble.1, .ok (some (i, a, j, b))) := Prod.ext rfl hr
      change Rep _ (afterPair s t u) at hrep
      change PairOk (afterPair s t u) at hp1
      change pending s = (i, j) :: pending (afterPair s t u) at hpend
      have hlv : (afterPair s t u).live = s.live := by unfold afterPair; split <;> rfl
      have hct : (afterPair s t u).contents = s.contents := by unfold afterPair; split <;> rfl
      rw [hpend] at hn ⊢
      cases hb2 : (body i a j b st).2 with
      | ok x =>
        have hbe : body i a j b st = ((body i a j b st).1, .ok ()) := Prod.ext rfl hb2
        have e : pairSweep act (n + 1) l st = pairSweep act n l.enumerateDouble.1 (body i a j b st).1 := by
          simp only [pairSweep]
          rw [he]
          simp only [hact]
          rw [hb2]
        obtain ⟨s', k1, k2, k3, k4, k5⟩ := ih (body i a j b st).1 hrep hp1 (by simp at hn; omega)
        have ef : pairFold body s.contents ((i, j) :: pending (afterPair s t u)) st =
            pairFold body s.contents (pending (afterPair s t u)) (body i a j b st).1 := by
          simp only [pairFold, ha, hb]
          rw [hbe]
        rw [e, ef]
        rw [hct] at k3 k4 k5
        exact ⟨s', k1, by rw [k2, hlv], k3, k4, k5⟩
      | err x =>
        have hbe : body i a j b st = ((body i a j b st).1, .err x) := Prod.ext rfl hb2
        have e : pairSweep act (n + 1) l st = ((l.enumerateDouble.1, (body i a j b st).1), some (.err x)) := by
          simp only [pairSweep]
          rw [he]
          simp only [hact]
          rw [hb2]
        have ef : pairFold body s.contents ((i, j) :: pending (afterPair s t u)) st =
            ((body i a j b st).1, .err x) := by
          simp only [pairFold, ha, hb]
          rw [hbe]
        rw [e, ef]
        exact ⟨_, hrep, hlv, hct, rfl, rfl⟩
      | panic =>
        have hbe : body i a j b st = ((body i a j b st).1, .panic) := Prod.ext rfl hb2
        have e : pairSweep act (n + 1) l st = ((l.enumerateDouble.1, (body i a j b st).1), some .panic) := by
          simp only [pairSweep]
          rw [he]
          simp only [hact]
          rw [hb2]
        have ef : pairFold body s.contents ((i, j) :: pending (afterPair s t u)) st =
            ((body i a j b st).1, .panic) := by
          simp only [pairFold, ha, hb]
          rw [hbe]
        rw [e, ef]
        exact ⟨_, hrep, hlv, hct, rfl, rfl⟩

/-! ### the force body -/

/-- `forceAct` without the list. -/
def forceBody [Fl F] (dt : F) (i : Nat) (a : ExpAgent F) (j : Nat) (b : ExpAgent F)
    (s : Pos F × LList (Pos F)) : (Pos F × LList (Pos F)) × Res Unit :=
  ((forceAct dt i a j b (LList.from' []) s).1.2, (forceAct dt i a j b (LList.from' []) s).2)

theorem forceAct_body [Fl F] (dt : F) (i : Nat) (a : ExpAgent F) (j : Nat) (b : ExpAgent F)
    (l : LList (ExpAgent F)) (s : Pos F × LList (Pos F)) :
    forceAct dt i a j b l s = ((l, (forceBody dt i a j b s).1), (forceBody dt i a j b s).2) := by
  unfold forceBody forceAct
  rcases a.mutualDisplacementToVec b s.1 with ⟨d, r | e | _⟩
  · simp only
    generalize hx : bufMod s.2 i (fun p => p.mutSub (d.mutScalarMul (a.force r * dt))) = x
    rcases x with ⟨b1, r | e | _⟩ <;> simp only
  · rfl
  · rfl

theorem dispLoop_real (p q v : List ℝ) (hq : p.length = q.length) (hv : p.length = v.length) (s : ℝ) :
    AgentCore.dispLoop p.length p q v s =
      (List.zipWith (· - ·) q p, .ok (s + Pos.sumSq (List.zipWith (· - ·) q p))) := by
  induction p generalizing q v s with
  | nil =>
    obtain rfl : q = [] := List.length_eq_zero_iff.1 hq.symm
    obtain rfl : v = [] := List.length_eq_zero_iff.1 hv.symm
    simp [AgentCore.dispLoop]
  | cons x p ih =>
    cases q with
    | nil => simp at hq
    | cons y q =>
      cases v with
      | nil => simp at hv
      | cons z v =>
        simp only [List.length_cons, AgentCore.dispLoop]
        rw [ih q v (by simpa using hq) (by simpa using hv)]
        simp [Pos.sumSq]
        ring

theorem toVec_real {a b : ExpAgent ℝ} {d : Nat} (ha : a.expDim = d) (hb : b.expDim = d) (hpa : a.pos.length = d)
    (hpb : b.pos.length = d) (v : Pos ℝ) (hv : v.length = d) :
    a.mutualDisplacementToVec b v =
      ((List.zipWith (· - ·) b.pos a.pos).map (· * (1 / radius (List.zipWith (· - ·) b.pos a.pos))),
        .ok (radius (List.zipWith (· - ·) b.pos a.pos))) := by
  unfold ExpAgent.mutualDisplacementToVec AgentCore.mutualDisplacementToVec Pos.dim
  rw [if_neg (by rw [ha, hb, hv]; simp), ha, ← hpa, show (Fl.zero : ℝ) = 0 from fl_zero,
    dispLoop_real a.pos b.pos v (by rw [hpa, hpb]) (by rw [hpa, hv]) 0]
  simp only [Pos.mutScalarMul, fl_sqrt, fl_mul, fl_lit, Rat.cast_one, zero_add]
  rfl

theorem getD_zipWith (f : ℝ → ℝ → ℝ) (p q : List ℝ) (d k : Nat) (hp : p.length = d) (hq : q.length = d) (hk : k < d) :
    (List.zipWith f p q).getD k 0 = f (p.getD k 0) (q.getD k 0) := by
  simp only [List.getD_eq_getElem?_getD]
  rw [List.getElem?_eq_getElem (by simp [hp, hq, hk]), List.getElem?_eq_getElem (by omega),
    List.getElem?_eq_getElem (by omega)]
  simp

/-- a buffer slot is fine: it holds a point of the right dimension. -/
def BufOk (d : Nat) (c : List (Pos ℝ)) (x : Nat) : Prop := ∃ p, c[x]? = some p ∧ p.length = d

theorem bufMod_real (op : ℝ → ℝ → ℝ) (buf : LList (Pos ℝ)) (i d : Nat) (v : Pos ℝ) (hv : v.length = d)
    (hi : BufOk d buf.contents i) :
    bufMod buf i (fun p => Pos.mutZip op p v) =
      ({ buf with contents := (bufMod buf i (fun p => Pos.mutZip op p v)).1.contents }, .ok ()) ∧
    (∀ x, BufOk d buf.contents x → BufOk d (bufMod buf i (fun p => Pos.mutZip op p v)).1.contents x) ∧
    (∀ x k, k < d → bufAt (bufMod buf i (fun p => Pos.mutZip op p v)).1.contents x k =
      if x = i then op (bufAt buf.contents x k) (v.getD k 0) else bufAt buf.contents x k) := by
  obtain ⟨p, hp, hpl⟩ := hi
  have hlt := (List.getElem?_eq_some_iff.1 hp).1
  have hz := Pos.mutZip_fst op p v (by omega)
  unfold bufMod
  simp only [hp, hz]
  refine ⟨trivial, ?_, ?_⟩
  · rintro x ⟨q, hq, hql⟩
    by_cases hx : i = x
    · subst hx
      exact ⟨_, by rw [List.getElem?_set_self hlt], by simp [hpl, hv]⟩
    · exact ⟨q, by rw [List.getElem?_set_ne hx, hq], hql⟩
  · intro x k hk
    unfold bufAt
    by_cases hx : x = i
    · subst hx
      rw [List.getElem?_set_self hlt, if_pos rfl, hp]
      exact getD_zipWith op p v d k hpl hv hk
    · rw [List.getElem?_set_ne (fun h => hx h.symm), if_neg hx]

theorem forceBody_real (dt : ℝ) {a b : ExpAgent ℝ} {d : Nat} (ha : a.expDim = d) (hb : b.expDim = d)
    (hpa : a.pos.length = d) (hpb : b.pos.length = d) (i j : Nat) (s : Pos ℝ × LList (Pos ℝ))
    (hs : s.1.length = d) (hi : BufOk d s.2.contents i) (hj : BufOk d s.2.contents j) :
    (forceBody dt i a j b s).2 = .ok () ∧ (forceBody dt i a j b s).1.1.length = d ∧
    (forceBody dt i a j b s).1.2 = { s.2 with contents := (forceBody dt i a j b s).1.2.contents } ∧
    (forceBody dt i a j b s).1.2.contents.length = s.2.contents.length ∧
    (∀ x, BufOk d s.2.contents x → BufOk d (forceBody dt i a j b s).1.2.contents x) ∧
    (∀ x k, k < d → bufAt (forceBody dt i a j b s).1.2.contents x k = bufAt s.2.contents x k +
      ((if x = j then pushOf dt a b k else 0) - (if x = i then pushOf dt a b k else 0))) := by
  set r := radius (List.zipWith (· - ·) b.pos a.pos) with hr
  set d2 : Pos ℝ := ((List.zipWith (· - ·) b.pos a.pos).map (· * (1 / r))).map (· * (a.force r * dt)) with hd2
  have hd2l : d2.length = d := by rw [hd2]; simp [hpa, hpb]
  have hd2k : ∀ k, k < d → d2.getD k 0 = pushOf dt a b k := by
    intro k hk
    rw [hd2, List.map_map, List.getD_eq_getElem?_getD, List.getElem?_map,
      List.getElem?_eq_getElem (by simp [hpa, hpb, hk])]
    simp only [Option.map_some, Option.getD_some, Function.comp, List.getElem_zipWith]
    unfold pushOf
    simp only
    rw [← hr, List.getD_eq_getElem?_getD, List.getD_eq_getElem?_getD, List.getElem?_eq_getElem (by omega),
      List.getElem?_eq_getElem (by omega)]
    simp only [Option.getD_some]
    ring
  obtain ⟨m1, m2, m3⟩ := bufMod_real (· - ·) s.2 i d d2 hd2l hi
  set b1 := (bufMod s.2 i (fun p => Pos.mutZip (· - ·) p d2)).1 with hb1
  obtain ⟨n1, n2, n3⟩ := bufMod_real (· + ·) b1 j d d2 hd2l (m2 j hj)
  set b2 := (bufMod b1 j (fun p => Pos.mutZip (· + ·) p d2)).1 with hb2
  have e : forceBody dt i a j b s = ((d2, b2), .ok ()) := by
    unfold forceBody forceAct
    rw [toVec_real ha hb hpa hpb s.1 hs]
    simp only
    have e1 : bufMod s.2 i (fun p => p.mutSub (Pos.mutScalarMul
        ((List.zipWith (· - ·) b.pos a.pos).map (· * (1 / radius (List.zipWith (· - ·) b.pos a.pos))))
        (a.force (radius (List.zipWith (· - ·) b.pos a.pos)) * dt))) = (b1, .ok ()) :=
      Prod.ext rfl (by
        have := congrArg Prod.snd m1
        exact this)
    rw [e1]
    simp only
    have e2 : bufMod b1 j (fun p => p.mutAdd (Pos.mutScalarMul
        ((List.zipWith (· - ·) b.pos a.pos).map (· * (1 / radius (List.zipWith (· - ·) b.pos a.pos))))
        (a.force (radius (List.zipWith (· - ·) b.pos a.pos)) * dt))) = (b2, .ok ()) :=
      Prod.ext rfl (by
        have := congrArg Prod.snd n1
        exact this)
    rw [e2]
    rfl
  rw [e]
  refine ⟨rfl, hd2l, ?_, ?_, fun x hx => n2 x (m2 x hx), ?_⟩
  · have h1 := congrArg Prod.fst n1
    have h2 := congrArg Prod.fst m1
    simp only at h1 h2
    show b2 = { s.2 with contents := b2.contents }
    have h1' : b2 = { b1 with contents := b2.contents } := h1
    have h2' : b1 = { s.2 with contents := b1.contents } := h2
    rw [h2'] at h1'
    exact h1'
  · show b2.contents.length = _
    have hlen : ∀ (buf : LList (Pos ℝ)) (i : Nat) (f : Pos ℝ → Pos ℝ × Res Unit),
        (bufMod buf i f).1.contents.length = buf.contents.length := by
      intro buf i f
      unfold bufMod
      split <;> simp
    rw [hb2, hlen, hb1, hlen]
  · intro x k hk
    show bufAt b2.contents x k = _
    rw [n3 x k hk, m3 x k hk]
    rw [hd2k k hk]
    split_ifs <;> ring

/-- what the pairs `ps` add to slot `x`. -/
noncomputable def pairPushes (dt : ℝ) (c : List (ExpAgent ℝ)) (ps : List (Nat × Nat)) (x k : Nat) : ℝ :=
  (ps.map fun p => (if x = p.2 then pushBetween dt c p.1 p.2 k else 0) -
    (if x = p.1 then pushBetween dt c p.1 p.2 k else 0)).sum

theorem forceFold_real (dt : ℝ) (c : List (ExpAgent ℝ)) (d : Nat) (ps : List (Nat × Nat)) :
    ∀ (s : Pos ℝ × LList (Pos ℝ)), s.1.length = d →
    (∀ p ∈ ps, (∃ a, c[p.1]? = some a ∧ a.expDim = d ∧ a.pos.length = d) ∧
      (∃ b, c[p.2]? = some b ∧ b.expDim = d ∧ b.pos.length = d) ∧ BufOk d s.2.contents p.1 ∧
      BufOk d s.2.contents p.2) →
    let r := pairFold (forceBody dt) c ps s
    r.2 = .ok () ∧ r.1.1.length = d ∧ r.1.2 = { s.2 with contents := r.1.2.contents } ∧
    r.1.2.contents.length = s.2.contents.length ∧
    (∀ x, BufOk d s.2.contents x → BufOk d r.1.2.contents x) ∧
    (∀ x k, k < d → bufAt r.1.2.contents x k = bufAt s.2.contents x k + pairPushes dt c ps x k) := by
  induction ps with
  | nil =>
    intro s hs _
    exact ⟨rfl, hs, rfl, rfl, fun _ h => h, fun x k _ => by simp [pairFold, pairPushes]⟩
  | cons p ps ih =>
    intro s hs hps
    obtain ⟨⟨a, ha, ha1, ha2⟩, ⟨b, hb, hb1, hb2⟩, hi, hj⟩ := hps p (by simp)
    obtain ⟨f1, f2, f3, f4, f5, f6⟩ := forceBody_real dt ha1 hb1 ha2 hb2 p.1 p.2 s hs hi hj
    have e : pairFold (forceBody dt) c (p :: ps) s = pairFold (forceBody dt) c ps (forceBody dt p.1 a p.2 b s).1 := by
      have hbe : forceBody dt p.1 a p.2 b s = ((forceBody dt p.1 a p.2 b s).1, .ok ()) := Prod.ext rfl f1
      simp only [pairFold, ha, hb]
      rw [hbe]
    intro r
    have hr : r = pairFold (forceBody dt) c ps (forceBody dt p.1 a p.2 b s).1 := e
    obtain ⟨g1, g2, g3, g4, g5, g6⟩ := ih (forceBody dt p.1 a p.2 b s).1 f2 (by
      intro q hq
      obtain ⟨h1, h2, h3, h4⟩ := hps q (by simp [hq])
      exact ⟨h1, h2, f5 _ h3, f5 _ h4⟩)
    rw [hr]
    refine ⟨g1, g2, ?_, by rw [g4, f4], fun x hx => g5 x (f5 x hx), ?_⟩
    · rw [f3] at g3
      exact g3
    · intro x k hk
      rw [g6 x k hk, f6 x k hk]
      have : pushBetween dt c p.1 p.2 k = pushOf dt a b k := by unfold pushBetween; rw [ha, hb]
      simp only [pairPushes, List.map_cons, List.sum_cons, this]
      ring

/-! ### sums over pairs -/

theorem pairPushes_append (dt : ℝ) (c : List (ExpAgent ℝ)) (ps qs : List (Nat × Nat)) (x k : Nat) :
    pairPushes dt c (ps ++ qs) x k = pairPushes dt c ps x k + pairPushes dt c qs x k := by
  simp [pairPushes]

theorem sum_ite_mem (t : List Nat) (hnd : t.Nodup) (x : Nat) (f : Nat → ℝ) :
    (t.map fun j => if x = j then f j else 0).sum = if x ∈ t then f x else 0 := by
  induction t with
  | nil => simp
  | cons y t ih =>
    rw [List.nodup_cons] at hnd
    rw [List.map_cons, List.sum_cons, ih hnd.2]
    by_cases hx : x = y
    · subst hx; simp [hnd.1]
    · simp [hx]

theorem pairPushes_pairsOf (dt : ℝ) (c : List (ExpAgent ℝ)) (k : Nat) (live : List Nat)
    (hs : live.Pairwise (· < ·)) (x : Nat) :
    pairPushes dt c (pairsOf live) x k = if x ∈ live then totalPush dt c live x k else 0 := by
  induction live with
  | nil => simp [pairPushes, pairsOf]
  | cons i t ih =>
    rw [List.pairwise_cons] at hs
    have hnd : t.Nodup := hs.2.imp (fun h => by omega)
    have hit : i ∉ t := fun h => by have := hs.1 i h; omega
    rw [pairsOf, pairPushes_append, ih hs.2]
    have e1 : pairPushes dt c (t.map fun j => (i, j)) x k =
        (t.map fun j => (if x = j then pushBetween dt c i j k else 0) -
          (if x = i then pushBetween dt c i j k else 0)).sum := by
      simp [pairPushes, List.map_map, Function.comp_def]
    rw [e1]
    by_cases hxi : x = i
    · subst hxi
      rw [if_neg hit, if_pos (by simp)]
      unfold totalPush
      rw [List.map_cons, List.sum_cons]
      simp only [lt_irrefl, if_false, zero_add, add_zero]
      congr 1
      apply List.map_congr_left
      intro j hj
      have := hs.1 j hj
      have h1 : ¬ x = j := by omega
      have h2 : ¬ j < x := by omega
      simp [h1, h2, this]
    · simp only [hxi, if_false, sub_zero]
      rw [sum_ite_mem t hnd x (fun j => pushBetween dt c i j k)]
      by_cases hxt : x ∈ t
      · have := hs.1 x hxt
        rw [if_pos hxt, if_pos hxt, if_pos (by simp [hxt])]
        unfold totalPush
        rw [List.map_cons, List.sum_cons, if_pos this]
      · rw [if_neg hxt, if_neg hxt, if_neg (by simp [hxt, hxi])]
        simp

theorem pairPushes_total (dt : ℝ) (c : List (ExpAgent ℝ)) (k : Nat) (live : List Nat) (hnd : live.Nodup)
    (ps : List (Nat × Nat)) (h : ∀ p ∈ ps, p.1 ∈ live ∧ p.2 ∈ live) :
    (live.map fun x => pairPushes dt c ps x k).sum = 0 := by
  induction ps with
  | nil => simp [pairPushes]
  | cons p ps ih =>
    have hp := h p (by simp)
    have e : ∀ x, pairPushes dt c (p :: ps) x k = ((if x = p.2 then pushBetween dt c p.1 p.2 k else 0) -
        (if x = p.1 then pushBetween dt c p.1 p.2 k else 0)) + pairPushes dt c ps x k := by
      intro x; simp [pairPushes]
    simp only [e]
    rw [List.sum_map_add, ih (fun q hq => h q (by simp [hq])), add_zero]
    simp only [sub_eq_add_neg]
    rw [List.sum_map_add]
    have hneg : ∀ (f : Nat → ℝ) (t : List Nat), (t.map fun x => - f x).sum = - (t.map f).sum := by
      intro f t
      induction t with
      | nil => simp
      | cons y t ih => simp [ih]; ring
    rw [hneg]
    have e2 : ∀ y, y ∈ live → (live.map fun x => if x = y then pushBetween dt c p.1 p.2 k else 0).sum =
        pushBetween dt c p.1 p.2 k := by
      intro y hy
      have := sum_ite_mem live hnd y (fun _ => pushBetween dt c p.1 p.2 k)
      simp only [eq_comm (a := y)] at this
      rw [this, if_pos hy]
    rw [e2 _ hp.1, e2 _ hp.2]
    ring

end Moledyn
