import Verif.Lemmas.MergeChain
import Verif.Lemmas.MergeFinds
/-
The programs with merging searchers carry out the process of Spec/MergeLaw.
-/
namespace Moledyn
open LList MeasureTheory
open Props (move_eq checkFind_eq)
set_option linter.unusedSectionVars false

variable {n d : Nat}

/-- a searcher that has merged from `m`, at `p`. -/
noncomputable def crew (D alpha radius : ℝ) (m : ℕ) (p : Fin d → ℝ) : MergeAgent ℝ :=
  ⟨.continuousPassiveInteracting, .brownian (slowedTo D alpha m), .uniform, d, List.ofFn p, radius, m, alpha⟩

/-- the slots of the searchers. -/
def slotsOf (cr : Crowd n) : List Nat := cr.map fun a => a.1.val

/-- the searchers are in their slots. -/
def Holds (D alpha radius : ℝ) (y : Fin n → Fin d → ℝ) (v : List (MergeAgent ℝ)) (cr : Crowd n) : Prop :=
  ∀ a ∈ cr, v[a.1.val]? = some (crew D alpha radius a.2 (y a.1)) ∧ 1 ≤ a.2

theorem slotsOf_append (a b : Crowd n) : slotsOf (a ++ b) = slotsOf a ++ slotsOf b := List.map_append
theorem slotsOf_cons (a : Fin n × ℕ) (b : Crowd n) : slotsOf (a :: b) = a.1.val :: slotsOf b := rfl

theorem filter_slots {A B : Crowd n} {j : Fin n} {k : ℕ} (h : (slotsOf (A ++ (j, k) :: B)).Nodup) :
    (slotsOf (A ++ (j, k) :: B)).filter (· ≠ j.val) = slotsOf (A ++ B) := by
  rw [slotsOf_append, slotsOf_cons] at h ⊢
  rw [List.nodup_append] at h
  obtain ⟨-, h2, h3⟩ := h
  rw [List.nodup_cons] at h2
  rw [List.filter_append, List.filter_cons, slotsOf_append]
  have e1 : (slotsOf A).filter (· ≠ j.val) = slotsOf A := List.filter_eq_self.2 fun x hx => by
    simpa using h3 x hx j.val (by simp)
  have e2 : (slotsOf B).filter (· ≠ j.val) = slotsOf B := List.filter_eq_self.2 fun x hx => by
    have : x ≠ j.val := by rintro rfl; exact h2.1 hx
    simpa using this
  rw [e1, e2]
  simp

theorem absorb_take (close : Fin n → Fin n → Bool) {i j : Fin n} (h : close i j = true) (m k : ℕ) (kept u : Crowd n) :
    absorb close ((i, m) :: (kept ++ (j, k) :: u)) = absorb close ((i, m + k) :: (kept ++ u)) := by
  rw [absorb_cons, absorb_cons]
  simp only [List.filter_append, List.filter_cons, h, if_true, List.map_append, List.map_cons, List.sum_append, List.sum_cons]
  simp
  omega

theorem absorb_skip (close : Fin n → Fin n → Bool) {i : Fin n} (m : ℕ) {kept : Crowd n} (h : ∀ a ∈ kept, close i a.1 = false) :
    absorb close ((i, m) :: kept) = (i, m) :: absorb close kept := by
  rw [absorb_cons]
  have e1 : (kept.filter fun a => close i a.1) = [] := List.filter_eq_nil_iff.2 fun a ha => by simp [h a ha]
  have e2 : (kept.filter fun a => !close i a.1) = kept := List.filter_eq_self.2 fun a ha => by simp [h a ha]
  rw [e1, e2]
  simp

theorem crew_add {D alpha radius : ℝ} {m k : ℕ} (hm : 1 ≤ m) (hk : 1 ≤ k) (p : Fin d → ℝ) :
    (crew D alpha radius m p).addSize k = (crew D alpha radius (m + k) p, .ok ()) := by
  have e : m + k ≠ 1 := by omega
  simp [MergeAgent.addSize, MergeAgent.rescale, crew, slowedTo, e]

theorem crew_dist {D alpha radius : ℝ} {m k : ℕ} (p p' : Fin d → ℝ) :
    (crew D alpha radius m p).pos.distance (crew D alpha radius k p').pos = .ok (Real.sqrt (∑ i, (p i - p' i) ^ 2)) := by
  show Pos.distance (List.ofFn p) (List.ofFn p') = _
  rw [Pos.distance_eq _ _ (by simp)]
  congr 2
  unfold Pos.sumSq Pos.diff
  rw [show List.zipWith (· - ·) (List.ofFn p) (List.ofFn p') = List.ofFn fun i => p i - p' i from
    List.ext_getElem (by simp) fun i h1 h2 => by simp]
  rw [List.map_ofFn, List.sum_ofFn]
  rfl

theorem holds_set {D alpha radius : ℝ} {y : Fin n → Fin d → ℝ} {v : List (MergeAgent ℝ)} {A B : Crowd n} {i : Fin n} {m m' : ℕ} (hm : 1 ≤ m')
    (h : Holds D alpha radius y v (A ++ (i, m) :: B)) (hnd : (slotsOf (A ++ (i, m) :: B)).Nodup) :
    Holds D alpha radius y (v.set i.val (crew D alpha radius m' (y i))) (A ++ (i, m') :: B) := by
  have hi := h (i, m) (by simp)
  have hlt := (List.getElem?_eq_some_iff.1 hi.1).1
  have hne : ∀ a ∈ A ++ B, a.1.val ≠ i.val := by
    intro a ha e
    have : a.1.val ∈ slotsOf (A ++ B) := List.mem_map.2 ⟨a, ha, rfl⟩
    rw [← filter_slots hnd] at this
    simp [e] at this
  intro a ha
  by_cases hai : a = (i, m')
  · subst hai
    exact ⟨List.getElem?_set_self hlt, hm⟩
  · have ha' : a ∈ A ++ B := by
      simp only [List.mem_append, List.mem_cons] at ha ⊢
      tauto
    rw [List.getElem?_set_ne fun e => hne a ha' e.symm]
    exact h a (by simp only [List.mem_append, List.mem_cons] at ha' ⊢; tauto)

/-- The pair loop merges those that are close. -/
theorem pass_run {D alpha radius : ℝ} {rad : MergeAgent ℝ → ℝ} (hrad : ∀ m (p : Fin d → ℝ), rad (crew D alpha radius m p) = radius)
    (y : Fin n → Fin d → ℝ) (f : ℕ) :
    (∀ {l : LList (MergeAgent ℝ)} {s : Slots (MergeAgent ℝ)} (ms : List (Nat × Nat)) (pre r : Crowd n), Rep l s →
      s.live = slotsOf (pre ++ r) → s.q0 = slotsOf r → s.q1 = (slotsOf r).tail → Holds D alpha radius y s.contents (pre ++ r) →
      ∀ o, (pairSweep (mergeAct rad) f l ms).2 = some o → o = .ok () ∧ ∃ s', Rep (pairSweep (mergeAct rad) f l ms).1.1 s' ∧
        s'.live = slotsOf (pre ++ absorb (closeAt (2 * radius) y) r) ∧ Holds D alpha radius y s'.contents (pre ++ absorb (closeAt (2 * radius) y) r) ∧
        s'.contents.length = s.contents.length) ∧
    (∀ {l : LList (MergeAgent ℝ)} {s : Slots (MergeAgent ℝ)} (ms : List (Nat × Nat)) (pre : Crowd n) (i : Fin n) (m : ℕ) (kept u : Crowd n), Rep l s →
      u ≠ [] → (∀ a ∈ kept, closeAt (2 * radius) y i a.1 = false) →
      s.live = slotsOf (pre ++ (i, m) :: (kept ++ u)) → s.q0 = slotsOf ((i, m) :: (kept ++ u)) → s.q1 = slotsOf u →
      Holds D alpha radius y s.contents (pre ++ (i, m) :: (kept ++ u)) →
      ∀ o, (pairSweep (mergeAct rad) f l ms).2 = some o → o = .ok () ∧ ∃ s', Rep (pairSweep (mergeAct rad) f l ms).1.1 s' ∧
        s'.live = slotsOf (pre ++ absorb (closeAt (2 * radius) y) ((i, m) :: (kept ++ u))) ∧
        Holds D alpha radius y s'.contents (pre ++ absorb (closeAt (2 * radius) y) ((i, m) :: (kept ++ u))) ∧
        s'.contents.length = s.contents.length) := by
  set cl := closeAt (2 * radius) y with hcl
  have hclt : ∀ i j, Fl.lt (Real.sqrt (∑ k, (y i k - y j k) ^ 2)) (Fl.two * radius) = cl i j := by
    intro i j
    rw [hcl]
    unfold closeAt nearSet
    simp [fl_lt]
  induction f with
  | zero => exact ⟨fun ms pre r _ _ _ _ _ o h => by simp [pairSweep] at h, fun ms pre i m kept u _ _ _ _ _ _ _ o h => by simp [pairSweep] at h⟩
  | succ f ih =>
    have inner : ∀ {l : LList (MergeAgent ℝ)} {s : Slots (MergeAgent ℝ)} (ms : List (Nat × Nat)) (pre : Crowd n) (i : Fin n) (m : ℕ) (kept u : Crowd n), Rep l s →
      u ≠ [] → (∀ a ∈ kept, cl i a.1 = false) →
      s.live = slotsOf (pre ++ (i, m) :: (kept ++ u)) → s.q0 = slotsOf ((i, m) :: (kept ++ u)) → s.q1 = slotsOf u →
      Holds D alpha radius y s.contents (pre ++ (i, m) :: (kept ++ u)) →
      ∀ o, (pairSweep (mergeAct rad) (f + 1) l ms).2 = some o → o = .ok () ∧ ∃ s', Rep (pairSweep (mergeAct rad) (f + 1) l ms).1.1 s' ∧
        s'.live = slotsOf (pre ++ absorb cl ((i, m) :: (kept ++ u))) ∧
        Holds D alpha radius y s'.contents (pre ++ absorb cl ((i, m) :: (kept ++ u))) ∧
        s'.contents.length = s.contents.length := by
      intro l s ms pre i m kept u h hu hkept hlive hq0 hq1 hH o ho
      obtain ⟨⟨j, k⟩, u, rfl⟩ := List.exists_cons_of_ne_nil hu
      obtain ⟨ha, hm1⟩ := hH (i, m) (by simp)
      obtain ⟨hb, hk1⟩ := hH (j, k) (by simp)
      simp only at ha hb hm1 hk1
      obtain ⟨hr, hrep⟩ := h.enumDouble_some (t := slotsOf (kept ++ (j, k) :: u)) (u := slotsOf u) hq0 hq1 ha hb
      have he : l.enumerateDouble = (l.enumerateDouble.1, .ok (some (i.val, crew D alpha radius m (y i), j.val, crew D alpha radius k (y j)))) := Prod.ext rfl hr
      generalize l.enumerateDouble.1 = l1 at he hrep
      change Rep l1 (afterPair s (slotsOf (kept ++ (j, k) :: u)) (slotsOf u)) at hrep
      have hlv : (afterPair s (slotsOf (kept ++ (j, k) :: u)) (slotsOf u)).live = s.live := by unfold afterPair; split <;> rfl
      have hct : (afterPair s (slotsOf (kept ++ (j, k) :: u)) (slotsOf u)).contents = s.contents := by unfold afterPair; split <;> rfl
      have hnd := h.nodup
      rw [hlive] at hnd
      have hnd0 : (slotsOf (kept ++ (j, k) :: u)).Nodup := by
        rw [slotsOf_append, slotsOf_cons] at hnd
        exact (List.nodup_cons.1 (List.nodup_append.1 hnd).2.1).2
      have hnu : j.val ∉ slotsOf u := by
        rw [slotsOf_append, slotsOf_cons] at hnd0
        exact (List.nodup_cons.1 (List.nodup_append.1 hnd0).2.1).1
      have hsu : slotsOf u = [] ↔ u = [] := by unfold slotsOf; simp
      have hd := crew_dist (D := D) (alpha := alpha) (radius := radius) (m := m) (k := k) (y i) (y j)
      by_cases hlt : cl i j = true
      · -- a merge
        have ha1 : l1.contents[i.val]? = some (crew D alpha radius m (y i)) := by rw [hrep.contents_eq, hct, ha]
        have hb1 : l1.contents[j.val]? = some (crew D alpha radius k (y j)) := by rw [hrep.contents_eq, hct, hb]
        have hadd := crew_add (D := D) (alpha := alpha) (radius := radius) hm1 hk1 (y i)
        obtain ⟨hrm, hrok⟩ := hrep.merge MergeAgent.mergeOps ha1 hb1 (by simp only [MergeAgent.mergeOps]; exact congrArg Prod.snd hadd)
          (by rw [hlv, hlive]; exact List.mem_map.2 ⟨(j, k), by simp, rfl⟩)
        have hm : l1.merge MergeAgent.mergeOps i.val j.val = ((l1.merge MergeAgent.mergeOps i.val j.val).1, .ok ()) := Prod.ext rfl hrok
        have e' : pairSweep (mergeAct rad) (f + 1) l ms =
            pairSweep (mergeAct rad) f (l1.merge MergeAgent.mergeOps i.val j.val).1 (ms ++ [(i.val, j.val)]) := by
          simp only [pairSweep, he, mergeAct, hd, hrad, hclt, hlt, if_true]
          rw [hm]
        rw [e'] at ho ⊢
        have hset : (MergeAgent.mergeOps.addSize (crew D alpha radius m (y i)) (MergeAgent.mergeOps.size (crew D alpha radius k (y j)))).1 =
            crew D alpha radius (m + k) (y i) := congrArg Prod.fst hadd
        rw [hset, hct] at hrm
        have hH1 : Holds D alpha radius y (s.contents.set i.val (crew D alpha radius (m + k) (y i))) (pre ++ (i, m + k) :: (kept ++ u)) := by
          intro a ha
          refine holds_set (by omega) hH hnd a ?_
          simp only [List.mem_append, List.mem_cons] at ha ⊢
          tauto
        have hl2 : s.live.filter (· ≠ j.val) = slotsOf (pre ++ (i, m + k) :: (kept ++ u)) := by
          have e : pre ++ (i, m) :: (kept ++ (j, k) :: u) = (pre ++ (i, m) :: kept) ++ (j, k) :: u := by simp
          rw [hlive, e, filter_slots (by rw [← e]; exact hnd)]
          simp [slotsOf]
        rw [absorb_take cl hlt]
        generalize (l1.merge MergeAgent.mergeOps i.val j.val).1 = l2 at hrm ho
        by_cases hu' : u = []
        · subst hu'
          rw [List.append_nil] at hH1 hl2 ⊢
          rw [absorb_skip cl _ hkept]
          have e3 : ∀ X : Crowd n, pre ++ (i, m + k) :: X = (pre ++ [(i, m + k)]) ++ X := by simp
          rw [e3] at hH1 hl2 ⊢
          have := ih.1 (ms ++ [(i.val, j.val)]) (pre ++ [(i, m + k)]) kept hrm (by
              show (afterPair s _ _).live.filter _ = _
              rw [hlv]; exact hl2) (by
              show (afterPair s (slotsOf (kept ++ [(j, k)])) (slotsOf ([] : Crowd n))).q0.filter _ = _
              unfold afterPair
              rw [if_pos (show slotsOf ([] : Crowd n) = [] from rfl)]
              simp only
              rw [filter_slots hnd0, List.append_nil]) (by
              show (afterPair s (slotsOf (kept ++ [(j, k)])) (slotsOf ([] : Crowd n))).q1.filter _ = _
              unfold afterPair
              rw [if_pos (show slotsOf ([] : Crowd n) = [] from rfl)]
              simp only
              rcases kept with _ | ⟨b, kept⟩
              · rfl
              · rw [List.cons_append, slotsOf_cons, List.tail_cons, slotsOf_cons, List.tail_cons]
                rw [List.cons_append, slotsOf_cons] at hnd0
                rw [filter_slots (List.nodup_cons.1 hnd0).2, List.append_nil]) hH1 o ho
          obtain ⟨h1, s', h2, h3, h4, h5⟩ := this
          refine ⟨h1, s', h2, h3, h4, ?_⟩
          rw [h5]
          simp [Slots.delS]
        · have := ih.2 (ms ++ [(i.val, j.val)]) pre i (m + k) kept u hrm hu' hkept (by
              show (afterPair s _ _).live.filter _ = _
              rw [hlv]; exact hl2) (by
              show (afterPair s (slotsOf (kept ++ (j, k) :: u)) (slotsOf u)).q0.filter _ = _
              unfold afterPair
              rw [if_neg (by rw [hsu]; exact hu')]
              simp only
              rw [hq0, ← List.cons_append, filter_slots (A := (i, m) :: kept)]
              · rfl
              · rw [← List.cons_append] at hnd
                rw [slotsOf_append] at hnd
                exact (List.nodup_append.1 hnd).2.1) (by
              show (afterPair s (slotsOf (kept ++ (j, k) :: u)) (slotsOf u)).q1.filter _ = _
              unfold afterPair
              rw [if_neg (by rw [hsu]; exact hu')]
              simp only
              refine List.filter_eq_self.2 fun x hx => ?_
              have : x ≠ j.val := by rintro rfl; exact hnu hx
              simpa using this) hH1 o ho
          obtain ⟨h1, s', h2, h3, h4, h5⟩ := this
          refine ⟨h1, s', h2, h3, h4, ?_⟩
          rw [h5]
          simp [Slots.delS]
      · have hltf : cl i j = false := by simpa using hlt
        have e' : pairSweep (mergeAct rad) (f + 1) l ms = pairSweep (mergeAct rad) f l1 ms := by
          simp only [pairSweep, he, mergeAct, hd, hrad, hclt, hltf]
          simp
        rw [e'] at ho ⊢
        have hkept' : ∀ a ∈ kept ++ [(j, k)], cl i a.1 = false := by
          intro a ha
          rcases List.mem_append.1 ha with ha | ha
          · exact hkept a ha
          · rw [List.mem_singleton.1 ha]; exact hltf
        by_cases hu' : u = []
        · subst hu'
          rw [absorb_skip cl _ hkept']
          have e3 : ∀ X : Crowd n, pre ++ (i, m) :: X = (pre ++ [(i, m)]) ++ X := by simp
          rw [e3] at hH hlive ⊢
          have := ih.1 ms (pre ++ [(i, m)]) (kept ++ [(j, k)]) hrep (by rw [hlv]; exact hlive) (by
              unfold afterPair
              rw [if_pos (show slotsOf ([] : Crowd n) = [] from rfl)]) (by
              unfold afterPair
              rw [if_pos (show slotsOf ([] : Crowd n) = [] from rfl)]) (by rw [hct]; exact hH) o ho
          obtain ⟨h1, s', h2, h3, h4, h5⟩ := this
          exact ⟨h1, s', h2, h3, h4, by rw [h5, hct]⟩
        · have e4 : kept ++ (j, k) :: u = (kept ++ [(j, k)]) ++ u := by simp
          rw [e4] at hH hlive hrep hlv hct hq0 ⊢
          have := ih.2 ms pre i m (kept ++ [(j, k)]) u hrep hu' hkept' (by rw [hlv]; exact hlive) (by
              unfold afterPair
              rw [if_neg (by rw [hsu]; exact hu')]
              exact hq0) (by
              unfold afterPair
              rw [if_neg (by rw [hsu]; exact hu')]) (by rw [hct]; exact hH) o ho
          obtain ⟨h1, s', h2, h3, h4, h5⟩ := this
          exact ⟨h1, s', h2, h3, h4, by rw [h5, hct]⟩
    refine ⟨?_, inner⟩
    intro l s ms pre r h hlive hq0 hq1 hH o ho
    rcases r with _ | ⟨⟨i, m⟩, u⟩
    · have e : pairSweep (mergeAct rad) (f + 1) l ms = ((l, ms), some (.ok ())) := by
        simp only [pairSweep, h.enumDouble_none (.inl hq0)]
      rw [e] at ho ⊢
      rw [absorb_nil]
      exact ⟨(Option.some.inj ho).symm, s, h, hlive, hH, rfl⟩
    · by_cases hu : u = []
      · subst hu
        have e : pairSweep (mergeAct rad) (f + 1) l ms = ((l, ms), some (.ok ())) := by
          simp only [pairSweep, h.enumDouble_none (.inr hq1)]
        rw [e] at ho ⊢
        rw [absorb_skip cl m (by simp), absorb_nil]
        exact ⟨(Option.some.inj ho).symm, s, h, hlive, hH, rfl⟩
      · exact inner ms pre i m [] u h hu (by simp) hlive hq0 hq1 hH o ho

theorem holds_move {D alpha radius : ℝ} {y : Fin n → Fin d → ℝ} {v : List (MergeAgent ℝ)} {A B : Crowd n} {i : Fin n} {m : ℕ} (p : Fin d → ℝ)
    (h : Holds D alpha radius y v (A ++ (i, m) :: B)) (hnd : (slotsOf (A ++ (i, m) :: B)).Nodup) :
    Holds D alpha radius (Function.update y i p) (v.set i.val (crew D alpha radius m p)) (A ++ (i, m) :: B) := by
  have hi := h (i, m) (by simp)
  have hlt := (List.getElem?_eq_some_iff.1 hi.1).1
  have hne : ∀ a ∈ A ++ B, a.1.val ≠ i.val := by
    intro a ha e
    have : a.1.val ∈ slotsOf (A ++ B) := List.mem_map.2 ⟨a, ha, rfl⟩
    rw [← filter_slots hnd] at this
    simp [e] at this
  intro a ha
  by_cases hai : a = (i, m)
  · subst hai
    simp only [Function.update_self]
    exact ⟨List.getElem?_set_self hlt, hi.2⟩
  · have ha' : a ∈ A ++ B := by
      simp only [List.mem_append, List.mem_cons] at ha ⊢
      tauto
    rw [List.getElem?_set_ne fun e => hne a ha' e.symm, Function.update_of_ne fun e => hne a ha' (by rw [e])]
    exact h a ha

variable {G : Type} [MeasurableSpace G] {rng : RngOps G ℝ} {sys : SysOps G ℝ} {S : Set (Fin d → ℝ)} {put : (Fin d → ℝ) → Fin d → ℝ}

/-- one searcher's step in the program. -/
theorem crew_act (w : Walls sys S put) (c : Fin d → ℝ) (t : BulkTarget ℝ) (ht : t.targetPos = List.ofFn c) (dt : ℝ) (i : Nat) (g : G)
    {D alpha radius : ℝ} (m : ℕ) (x p : Fin d → ℝ)
    (hp : p = put (x + fun i => (drawsN rng.gaussian d g).1 i * Real.sqrt (2 * slowedTo D alpha m * dt))) :
    (p ∉ S → walkAct (MergeAgent.walker rng) sys t.ops dt i g (crew D alpha radius m x) =
      ((crew D alpha radius m p, .err .tooLargeTimeStep), (drawsN rng.gaussian d g).2)) ∧
    (p ∈ S → p ∈ nearSet c t.targetSize → walkAct (MergeAgent.walker rng) sys t.ops dt i g (crew D alpha radius m x) =
      ((crew D alpha radius m p, .ok true), (drawsN rng.gaussian d g).2)) ∧
    (p ∈ S → p ∉ nearSet c t.targetSize → walkAct (MergeAgent.walker rng) sys t.ops dt i g (crew D alpha radius m x) =
      ((crew D alpha radius m p, .ok false), (drawsN rng.gaussian d g).2)) := by
  have em : (MergeAgent.walker rng).randomMove (crew D alpha radius m x) g dt =
      (.ok (List.ofFn fun i => (drawsN rng.gaussian d g).1 i * Real.sqrt (2 * slowedTo D alpha m * dt)), (drawsN rng.gaussian d g).2) := by
    show (crew D alpha radius m x).randomMove rng g dt = _
    unfold MergeAgent.randomMove
    rw [show (crew D alpha radius m x).dim = d from rfl, show (crew D alpha radius m x).mtype = .brownian (slowedTo D alpha m) from rfl, move_eq]
  generalize (fun i => (drawsN rng.gaussian d g).1 i * Real.sqrt (2 * slowedTo D alpha m * dt)) = z at em hp
  have ep : (MergeAgent.walker rng).pos (crew D alpha radius m x) = List.ofFn x := rfl
  refine ⟨fun h => ?_, fun h h2 => ?_, fun h h2 => ?_⟩
  all_goals
    unfold walkAct
    rw [em]
    simp only
    rw [ep]
  · rw [w.step_err x z (hp ▸ h), ← hp]; rfl
  · rw [w.step_ok x z (hp ▸ h), ← hp]
    simp only
    rw [(checkFind_eq c p t ht).1 h2]; rfl
  · rw [w.step_ok x z (hp ▸ h), ← hp]
    simp only
    rw [(checkFind_eq c p t ht).2 h2]; rfl

section
variable (w : Walls sys S put) (c : Fin d → ℝ) (t : BulkTarget ℝ) (ht : t.targetPos = List.ofFn c) (D alpha radius : ℝ) (clk : ℕ → Option ℝ)
include w ht

/-- The loop over the searchers: each makes its step of the process. -/
theorem sweep_run {dt : ℝ} (k : ℕ) (hk : clk k = some dt) : ∀ (todo dn : Crowd n) (y : Fin n → Fin d → ℝ) (g : G)
    {l : LList (MergeAgent ℝ)} {s : Slots (MergeAgent ℝ)} (f : ℕ), todo ≠ [] → todo.length < f → Rep l s → s.live = slotsOf (dn ++ todo) →
    s.q0 = slotsOf todo → Holds D alpha radius y s.contents (dn ++ todo) →
    ∃ j, j < todo.length ∧
      (∀ m < j, ((drawStep (mergeMove (worldOf put S (nearSet c t.targetSize) D alpha radius clk)) (drawsN rng.gaussian d))^[m + 1]
        ((⟨k, dn, todo, none⟩, y), g)).1.1.over = none) ∧
      ((∃ dn' todo' y' g' l', (drawStep (mergeMove (worldOf put S (nearSet c t.targetSize) D alpha radius clk)) (drawsN rng.gaussian d))^[j + 1] ((⟨k, dn, todo, none⟩, y), g) =
          ((⟨k, dn', todo', some .found⟩, y'), g') ∧
          agentSweep (walkAct (MergeAgent.walker rng) sys t.ops dt) f l g = ((l', g'), some (.ok true))) ∨
       (∃ dn' todo' y' g' l', (drawStep (mergeMove (worldOf put S (nearSet c t.targetSize) D alpha radius clk)) (drawsN rng.gaussian d))^[j + 1] ((⟨k, dn, todo, none⟩, y), g) =
          ((⟨k, dn', todo', some .tooFar⟩, y'), g') ∧
          agentSweep (walkAct (MergeAgent.walker rng) sys t.ops dt) f l g = ((l', g'), some (.err .tooLargeTimeStep))) ∨
       (∃ y' g' l' s', (drawStep (mergeMove (worldOf put S (nearSet c t.targetSize) D alpha radius clk)) (drawsN rng.gaussian d))^[j + 1] ((⟨k, dn, todo, none⟩, y), g) =
          ((⟨k + 1, [], absorb (closeAt (2 * radius) y') (dn ++ todo), if (clk (k + 1)).isNone then some .clock else none⟩, y'), g') ∧
          agentSweep (walkAct (MergeAgent.walker rng) sys t.ops dt) f l g = ((l', g'), some (.ok false)) ∧ Rep l' s' ∧
          s'.live = slotsOf (dn ++ todo) ∧ Holds D alpha radius y' s'.contents (dn ++ todo) ∧ s'.contents.length = s.contents.length)) := by
  set W := worldOf put S (nearSet c t.targetSize) D alpha radius clk with hW
  set act := walkAct (MergeAgent.walker rng) sys t.ops dt with hact
  intro todo
  induction todo with
  | nil => intro dn y g l s f h; exact absurd rfl h
  | cons im rest ih =>
    obtain ⟨i, m⟩ := im
    intro dn y g l s f _ hf h hlive hq hH
    obtain ⟨f, rfl⟩ : ∃ f', f = f' + 1 := ⟨f - 1, by omega⟩
    have hf' : rest.length < f := by simp at hf; omega
    have ha := (hH (i, m) (by simp)).1
    simp only at ha
    have hc : l.c0 = some i.val := by rw [h.c0, hq]; rfl
    obtain ⟨he, hrep⟩ := h.enumMut_cons (i := i.val) (q := slotsOf rest) hq (fun a => (act (l.c0.getD 0) g a).1.1) ha
    have he : l.enumerateMut (fun a => (act (l.c0.getD 0) g a).1.1) =
        ((l.enumerateMut (fun a => (act (l.c0.getD 0) g a).1.1)).1, .ok (some (i.val, crew D alpha radius m (y i)))) := Prod.ext rfl he
    generalize (l.enumerateMut (fun a => (act (l.c0.getD 0) g a).1.1)).1 = l1 at he hrep
    simp only [hc, Option.getD_some] at hrep
    obtain ⟨p, hp⟩ : ∃ p, p = put (y i + fun j => (drawsN rng.gaussian d g).1 j * Real.sqrt (2 * slowedTo D alpha m * dt)) := ⟨_, rfl⟩
    obtain ⟨c1, c2, c3⟩ := crew_act (rng := rng) w c t ht dt i.val g (radius := radius) m (y i) p hp
    have hmv : movedTo W k y i m (drawsN rng.gaussian d g).1 = p := by
      rw [hp]; unfold movedTo; rw [hW]; simp only [hk, Option.getD_some]
    have hnd := h.nodup
    rw [hlive] at hnd
    by_cases h1 : p ∈ S
    · by_cases h2 : p ∈ nearSet c t.targetSize
      · refine ⟨0, by simp, by simp, .inl ⟨dn, (i, m) :: rest, Function.update y i p, (drawsN rng.gaussian d g).2, l1, ?_, ?_⟩⟩
        · show drawStep _ _ _ = _
          unfold drawStep
          rw [move_found W (by rw [hmv]; exact h1) (by rw [hmv]; exact h2), hmv]
        · simp only [agentSweep, he]
          rw [hact, c2 h1 h2]
      · have hrep' : Rep l1 { s with q0 := slotsOf rest, contents := s.contents.set i.val (crew D alpha radius m p) } := by
          rw [hact, c3 h1 h2] at hrep; exact hrep
        have hH' : Holds D alpha radius (Function.update y i p) (s.contents.set i.val (crew D alpha radius m p)) (dn ++ (i, m) :: rest) :=
          holds_move p hH hnd
        have hsw : agentSweep act (f + 1) l g = agentSweep act f l1 (drawsN rng.gaussian d g).2 := by
          simp only [agentSweep, he]
          rw [hact, c3 h1 h2]
        by_cases h3 : rest = []
        · subst h3
          obtain ⟨f, rfl⟩ : ∃ f', f = f' + 1 := ⟨f - 1, by simp at hf'; omega⟩
          refine ⟨0, by simp, by simp, .inr (.inr ⟨Function.update y i p, (drawsN rng.gaussian d g).2, l1, _, ?_, ?_, hrep', hlive, hH', by simp⟩)⟩
          · show drawStep _ _ _ = _
            unfold drawStep
            rw [move_last W (by rw [hmv]; exact h1) (by rw [hmv]; exact h2), hmv]
          · rw [hsw]
            simp only [agentSweep, hrep'.enumMut_nil (by rfl)]
        · have e3 : dn ++ (i, m) :: rest = (dn ++ [(i, m)]) ++ rest := by simp
          obtain ⟨j, hj, hon, hend⟩ := ih (dn ++ [(i, m)]) (Function.update y i p) (drawsN rng.gaussian d g).2 f h3 hf' hrep'
            (by rw [← e3]; exact hlive) rfl (by rw [← e3]; exact hH')
          have hst : drawStep (mergeMove W) (drawsN rng.gaussian d) ((⟨k, dn, (i, m) :: rest, none⟩, y), g) =
              ((⟨k, dn ++ [(i, m)], rest, none⟩, Function.update y i p), (drawsN rng.gaussian d g).2) := by
            unfold drawStep
            rw [move_next W (by rw [hmv]; exact h1) (by rw [hmv]; exact h2) h3, hmv]
          refine ⟨j + 1, by simp; omega, fun m' hm' => ?_, ?_⟩
          · rw [Function.iterate_succ_apply, hst]
            rcases m' with _ | m'
            · rfl
            · exact hon m' (by omega)
          · rw [Function.iterate_succ_apply, hst, hsw, e3]
            simpa using hend
    · refine ⟨0, by simp, by simp, .inr (.inl ⟨dn, (i, m) :: rest, Function.update y i p, (drawsN rng.gaussian d g).2, l1, ?_, ?_⟩)⟩
      · show drawStep _ _ _ = _
        unfold drawStep
        rw [move_tooFar W (by rw [hmv]; exact h1), hmv]
      · simp only [agentSweep, he]
        rw [hact, c1 h1]

/-- the program is at the beginning of a turn. -/
structure TurnStart (D alpha radius : ℝ) (cr : Crowd n) (y : Fin n → Fin d → ℝ) (st : MergeSim G ℝ) : Prop where
  someone : cr ≠ []
  rep : ∃ s, Rep st.list s ∧ s.live = slotsOf cr ∧ Holds D alpha radius y s.contents cr ∧ s.contents.length = n

/-- A turn of the program. -/
theorem turn_run {rad : MergeAgent ℝ → ℝ} (hrad : LibraryRadius rad) (hrad' : ∀ m (p : Fin d → ℝ), rad (crew D alpha radius m p) = radius)
    {fuel : ℕ} (hfuel : n * n < fuel) {dt : ℝ} (k : ℕ) (hk : clk k = some dt) (cr : Crowd n) (y : Fin n → Fin d → ℝ) (st : MergeSim G ℝ)
    (hst : TurnStart D alpha radius cr y st) :
    ∃ j, (∀ m < j, ((drawStep (mergeMove (worldOf put S (nearSet c t.targetSize) D alpha radius clk)) (drawsN rng.gaussian d))^[m + 1]
        ((⟨k, [], cr, none⟩, y), st.rng)).1.1.over = none) ∧
      ((∃ dn' todo' y' st', (drawStep (mergeMove (worldOf put S (nearSet c t.targetSize) D alpha radius clk)) (drawsN rng.gaussian d))^[j + 1] ((⟨k, [], cr, none⟩, y), st.rng) =
          ((⟨k, dn', todo', some .found⟩, y'), st'.rng) ∧ mergeStep rng sys t.ops rad fuel dt st = (st', some (.ok true))) ∨
       (∃ dn' todo' y' st', (drawStep (mergeMove (worldOf put S (nearSet c t.targetSize) D alpha radius clk)) (drawsN rng.gaussian d))^[j + 1] ((⟨k, [], cr, none⟩, y), st.rng) =
          ((⟨k, dn', todo', some .tooFar⟩, y'), st'.rng) ∧ mergeStep rng sys t.ops rad fuel dt st = (st', some (.err .tooLargeTimeStep))) ∨
       (∃ cr' y' st', (drawStep (mergeMove (worldOf put S (nearSet c t.targetSize) D alpha radius clk)) (drawsN rng.gaussian d))^[j + 1] ((⟨k, [], cr, none⟩, y), st.rng) =
          ((⟨k + 1, [], cr', if (clk (k + 1)).isNone then some .clock else none⟩, y'), st'.rng) ∧
          mergeStep rng sys t.ops rad fuel dt st = (st', some (.ok false)) ∧ TurnStart D alpha radius cr' y' st')) := by
  obtain ⟨hne, s, hrep, hlive, hH, hlen⟩ := hst
  have hcl : cr.length ≤ n := by
    have := rep_length_live hrep
    rw [hrep.contents_eq, hlen, hlive] at this
    simpa [slotsOf] using this
  have hi : Rep st.list.intoIter { s with q0 := s.live } := hrep.intoIter
  obtain ⟨j, -, hon, hend⟩ := sweep_run w c t ht D alpha radius clk k hk cr [] y st.rng fuel hne (by nlinarith) hi hlive hlive hH
  refine ⟨j, hon, ?_⟩
  rcases hend with ⟨dn', todo', y', g', l', h1, h2⟩ | ⟨dn', todo', y', g', l', h1, h2⟩ | ⟨y', g', l', s', h1, h2, h3, h4, h5, h6⟩
  · refine .inl ⟨dn', todo', y', ⟨l', g', st.merges⟩, h1, ?_⟩
    unfold mergeStep
    rw [h2]
  · refine .inr (.inl ⟨dn', todo', y', ⟨l', g', st.merges⟩, h1, ?_⟩)
    unfold mergeStep
    rw [h2]
  · rw [List.nil_append] at h1 h4 h5
    have hd := h3.intoDoubleIter
    have hdo : l'.intoDoubleIter.2 = .ok () := by
      have := hd.2
      simpa [LList.step, Slots.step] using this
    have hdi : l'.intoDoubleIter = (l'.intoDoubleIter.1, .ok ()) := Prod.ext rfl hdo
    have hd1 : Rep l'.intoDoubleIter.1 { s' with q0 := s'.live, q1 := s'.live.tail } := hd.1
    generalize l'.intoDoubleIter.1 = l2 at hdi hd1
    have hlen' : s'.contents.length = n := h6.trans hlen
    obtain ⟨s2, b1, b2, -⟩ := mergePass_rep rad (library_radius hrad) fuel st.merges hd1 (pairOk_start s')
    have hpn : (pending { s' with q0 := s'.live, q1 := s'.live.tail }).length < fuel := by
      rw [pending_start]
      have h7 := length_pairsOf s'.live
      have h8 : s'.live.length = cr.length := by rw [h4]; simp [slotsOf]
      have h9 : s'.live.length * (s'.live.length - 1) ≤ n * n := Nat.mul_le_mul (by omega) (by omega)
      omega
    have hps := (pass_run hrad' y' fuel).1 st.merges [] cr hd1 h4 h4 (by rw [← h4]) h5
    rcases hx : pairSweep (mergeAct rad) fuel l2 st.merges with ⟨⟨l3, ms⟩, o⟩
    rw [hx] at hps b2
    cases o with
    | none => exact absurd rfl (b2 hpn)
    | some o =>
      obtain ⟨rfl, s3, e1, e2, e3, e4⟩ := hps o rfl
      refine .inr (.inr ⟨_, y', ⟨l3, g', ms⟩, h1, ?_, ⟨?_, s3, e1, e2, e3, e4.trans hlen'⟩⟩)
      · unfold mergeStep
        rw [h2]
        simp only [hdi]
        rw [hx]
      · obtain ⟨⟨i, m⟩, r, rfl⟩ := List.exists_cons_of_ne_nil hne
        rw [absorb_cons]
        simp

/-- The search of the program: if it ends, it is as the process ends; if it is not over after `steps` turns, the process is
not over either. -/
theorem loop_run {rad : MergeAgent ℝ → ℝ} (hrad : LibraryRadius rad) (hrad' : ∀ m (p : Fin d → ℝ), rad (crew D alpha radius m p) = radius)
    {fuel : ℕ} (hfuel : n * n < fuel) {C : Type} (tick : C → C × Res (Option (ℝ × ℝ))) (time : ℕ → ℝ) (steps : ℕ) :
    ∀ (k : ℕ) (c0 : C) (cr : Crowd n) (y : Fin n → Fin d → ℝ) (st : MergeSim G ℝ),
      (∀ j, (∀ i < j, (clk (k + i)).isSome) → output tick j c0 = .ok ((clk (k + j)).map fun dt => (time (k + j), dt))) → (clk k).isSome →
      TurnStart D alpha radius cr y st →
    (∃ (N : ℕ) (e : Ending) (r : (C × MergeSim G ℝ)) (T : ℕ),
      (∀ m < N, ((drawStep (mergeMove (worldOf put S (nearSet c t.targetSize) D alpha radius clk)) (drawsN rng.gaussian d))^[m + 1]
        ((⟨k, [], cr, none⟩, y), st.rng)).1.1.over = none) ∧
      ((drawStep (mergeMove (worldOf put S (nearSet c t.targetSize) D alpha radius clk)) (drawsN rng.gaussian d))^[N + 1] ((⟨k, [], cr, none⟩, y), st.rng)).1.1.over = some e ∧
      mergeOutcome ((drawStep (mergeMove (worldOf put S (nearSet c t.targetSize) D alpha radius clk)) (drawsN rng.gaussian d))^[N + 1] ((⟨k, [], cr, none⟩, y), st.rng)).1 = (T + 1, e) ∧
      r.2.rng = ((drawStep (mergeMove (worldOf put S (nearSet c t.targetSize) D alpha radius clk)) (drawsN rng.gaussian d))^[N + 1] ((⟨k, [], cr, none⟩, y), st.rng)).2 ∧
      searchLoop tick (mergeStep rng sys t.ops rad fuel) steps c0 st = (r, some (match e with
        | .found => .ok (some (time T))
        | .tooFar => .err .tooLargeTimeStep
        | .clock => .ok none))) ∨
    ((searchLoop tick (mergeStep rng sys t.ops rad fuel) steps c0 st).2 = none ∧ ∃ M, steps ≤ M + 1 ∧
      ∀ m < M, ((drawStep (mergeMove (worldOf put S (nearSet c t.targetSize) D alpha radius clk)) (drawsN rng.gaussian d))^[m + 1]
        ((⟨k, [], cr, none⟩, y), st.rng)).1.1.over = none) := by
  set F := drawStep (mergeMove (worldOf put S (nearSet c t.targetSize) D alpha radius clk)) (drawsN rng.gaussian d) with hF
  induction steps with
  | zero =>
    intro k c0 cr y st _ _ _
    exact .inr ⟨rfl, 0, by omega, by simp⟩
  | succ steps ih =>
    intro k c0 cr y st hclk hk hst
    obtain ⟨dt, hdt⟩ := Option.isSome_iff_exists.1 hk
    have htick : (tick c0).2 = .ok (some (time k, dt)) := by
      have := hclk 0 (by simp)
      simp only [Nat.add_zero, hdt, Option.map_some] at this
      exact this
    have htick : tick c0 = ((tick c0).1, .ok (some (time k, dt))) := Prod.ext rfl htick
    obtain ⟨j, hon, hend⟩ := turn_run (rng := rng) w c t ht D alpha radius clk hrad hrad' hfuel k hdt cr y st hst
    rw [← hF] at hon hend
    rcases hend with ⟨dn', todo', y', st', h1, h2⟩ | ⟨dn', todo', y', st', h1, h2⟩ | ⟨cr', y', st', h1, h2, h3⟩
    · refine .inl ⟨j, .found, ((tick c0).1, st'), k, hon, by rw [h1], by rw [h1]; simp [mergeOutcome], by rw [h1], ?_⟩
      rw [searchLoop, htick]
      simp only
      rw [h2]
    · refine .inl ⟨j, .tooFar, ((tick c0).1, st'), k, hon, by rw [h1], by rw [h1]; simp [mergeOutcome], by rw [h1], ?_⟩
      rw [searchLoop, htick]
      simp only
      rw [h2]
    · have hloop : searchLoop tick (mergeStep rng sys t.ops rad fuel) (steps + 1) c0 st =
          searchLoop tick (mergeStep rng sys t.ops rad fuel) steps (tick c0).1 st' := by
        rw [searchLoop, htick]
        simp only
        rw [h2]
      have hclk' : ∀ j, (∀ i < j, (clk (k + 1 + i)).isSome) → output tick j (tick c0).1 = .ok ((clk (k + 1 + j)).map fun dt => (time (k + 1 + j), dt)) := by
        intro j hj
        have := hclk (j + 1) (fun i hi => by
          rcases i with _ | i
          · simpa using hk
          · have := hj i (by omega)
            rwa [show k + (i + 1) = k + 1 + i by omega])
        rw [show k + (j + 1) = k + 1 + j by omega] at this
        exact this
      rw [hloop]
      cases hnext : clk (k + 1) with
      | none =>
        rw [hnext] at h1
        simp only [Option.isNone_none, if_true] at h1
        rcases steps with _ | steps
        · exact .inr ⟨rfl, j, by omega, hon⟩
        · have h0 : (tick (tick c0).1).2 = .ok none := by
            have := hclk' 0 (by simp)
            simp only [Nat.add_zero, hnext, Option.map_none] at this
            exact this
          have h0 : tick (tick c0).1 = ((tick (tick c0).1).1, .ok none) := Prod.ext rfl h0
          refine .inl ⟨j, .clock, ((tick (tick c0).1).1, st'), k, hon, by rw [h1], by rw [h1]; simp [mergeOutcome], by rw [h1], ?_⟩
          rw [searchLoop, h0]
      | some dt' =>
        rw [hnext] at h1
        simp only [Option.isNone_some, Bool.false_eq_true, if_false] at h1
        have hshift : ∀ m, F^[m + 1] ((⟨k + 1, [], cr', none⟩, y'), st'.rng) = F^[m + (j + 1) + 1] ((⟨k, [], cr, none⟩, y), st.rng) := by
          intro m
          rw [← h1, ← Function.iterate_add_apply]
          congr 1
          omega
        have honx : ∀ M, (∀ m < M, (F^[m + 1] ((⟨k + 1, [], cr', none⟩, y'), st'.rng)).1.1.over = none) →
            ∀ m < M + (j + 1), (F^[m + 1] ((⟨k, [], cr, none⟩, y), st.rng)).1.1.over = none := by
          intro M hM m hm
          by_cases hmj : m < j
          · exact hon m hmj
          · by_cases hmj : m = j
            · rw [hmj, h1]
            · have := hM (m - (j + 1)) (by omega)
              rw [hshift, show m - (j + 1) + (j + 1) = m by omega] at this
              exact this
        rcases ih (k + 1) (tick c0).1 cr' y' st' hclk' (by rw [hnext]; rfl) h3 with ⟨N, e, r, T, a1, a2, a3, a4, a5⟩ | ⟨a1, M, a2, a3⟩
        · rw [hshift] at a2 a3 a4
          exact .inl ⟨N + (j + 1), e, r, T, honx N a1, a2, a3, a4, a5⟩
        · exact .inr ⟨a1, M + (j + 1), by omega, honx M a3⟩
end

end Moledyn
