import Verif.Props.DatasetHash
import Verif.Props.AnalysisVec
import Verif.Props.AnalysisProcess
import Verif.Props.EndToEnd
/-
C51 continued: the order in which the directory lists its files does not matter for any of the three analyses
(exact arithmetic), with one exception: an analysis of several values made for 0 values and an empty line of data.
-/
set_option linter.unusedSimpArgs false
namespace Moledyn.Props
open Moledyn

variable {A D K : Type}

/-! ### steps that commute -/

/-- two steps that may fail: done in either order they succeed together and with the same result. -/
def Commutes (f g : A → Res A) : Prop := ∀ a c, (f a).bind g = .ok c ↔ (g a).bind f = .ok c

theorem Commutes.symm {f g : A → Res A} (h : Commutes f g) : Commutes g f := fun a c => (h a c).symm

theorem commutes_of {f g : A → Res A} (h1 : ∀ a c, (f a).bind g = .ok c → (g a).bind f = .ok c)
    (h2 : ∀ a c, (g a).bind f = .ok c → (f a).bind g = .ok c) : Commutes f g := fun a c => ⟨h1 a c, h2 a c⟩

theorem Commutes.comp {f g h : A → Res A} (h1 : Commutes f g) (h2 : Commutes f h) :
    Commutes f (fun a => (g a).bind h) := by
  intro a c
  constructor
  · intro hh
    obtain ⟨b, hb, hb2⟩ := Res.bind_eq_ok.1 hh
    obtain ⟨d, hd, hd2⟩ := Res.bind_eq_ok.1 hb2
    have := (h1 a d).1 (Res.bind_eq_ok.2 ⟨b, hb, hd⟩)
    obtain ⟨e, he, he2⟩ := Res.bind_eq_ok.1 this
    have := (h2 e c).1 (Res.bind_eq_ok.2 ⟨d, he2, hd2⟩)
    obtain ⟨k, hk, hk2⟩ := Res.bind_eq_ok.1 this
    exact Res.bind_eq_ok.2 ⟨k, Res.bind_eq_ok.2 ⟨e, he, hk⟩, hk2⟩
  · intro hh
    obtain ⟨k, hk, hk2⟩ := Res.bind_eq_ok.1 hh
    obtain ⟨e, he, he2⟩ := Res.bind_eq_ok.1 hk
    have := (h2 e c).2 (Res.bind_eq_ok.2 ⟨k, he2, hk2⟩)
    obtain ⟨d, hd, hd2⟩ := Res.bind_eq_ok.1 this
    have := (h1 a d).2 (Res.bind_eq_ok.2 ⟨e, he, hd⟩)
    obtain ⟨b, hb, hb2⟩ := Res.bind_eq_ok.1 this
    exact Res.bind_eq_ok.2 ⟨b, hb, Res.bind_eq_ok.2 ⟨d, hb2, hd2⟩⟩

/-- lines that commute pairwise may be read in any order. -/
theorem lines_perm (z : Analyzer A) (I : A → Prop) (hI : ∀ a w c, I a → z.line a w = .ok c → I c)
    (hc : ∀ a, I a → ∀ w w' c, (z.line a w).bind (fun a => z.line a w') = .ok c →
      (z.line a w').bind (fun a => z.line a w) = .ok c) {r r' : Reader} (h : r.Perm r') :
    ∀ a, I a → ∀ c, z.lines a r = .ok c → z.lines a r' = .ok c := by
  induction h with
  | nil => intro a _ c h; exact h
  | cons x h ih =>
    intro a ha c hh
    cases x with
    | error t => simp [Analyzer.lines] at hh
    | ok w =>
      simp only [Analyzer.lines] at hh ⊢
      obtain ⟨b, hb, hb2⟩ := Res.bind_eq_ok.1 hh
      exact Res.bind_eq_ok.2 ⟨b, hb, ih b (hI a w b ha hb) c hb2⟩
  | swap x y l =>
    intro a ha c hh
    cases x with
    | error t =>
      cases y with
      | error u => simp [Analyzer.lines] at hh
      | ok v =>
        simp only [Analyzer.lines] at hh
        obtain ⟨b, -, hb2⟩ := Res.bind_eq_ok.1 hh
        simp at hb2
    | ok w =>
      cases y with
      | error u => simp [Analyzer.lines] at hh
      | ok v =>
        simp only [Analyzer.lines] at hh ⊢
        obtain ⟨b, hb, hb2⟩ := Res.bind_eq_ok.1 hh
        obtain ⟨d, hd, hd2⟩ := Res.bind_eq_ok.1 hb2
        obtain ⟨e, he, he2⟩ := Res.bind_eq_ok.1 (hc a ha v w d (Res.bind_eq_ok.2 ⟨b, hb, hd⟩))
        exact Res.bind_eq_ok.2 ⟨e, he, Res.bind_eq_ok.2 ⟨d, he2, hd2⟩⟩
  | trans _ _ ih1 ih2 => intro a ha c hh; exact ih2 a ha c (ih1 a ha c hh)

/-- an analysis whose lines may be read in any order does not depend on the order of the files: the groups and
what they hold are the same. -/
theorem loop_perm [DecidableEq K] (z : Analyzer A)
    (hz : ∀ a0, z.fresh = .ok a0 → ∀ r r' : Reader, r.Perm r' → ∀ c, z.lines a0 r = .ok c → z.lines a0 r' = .ok c)
    (cls : D → K) (fromFile : Reader → Res D × Reader) (es es' : List Entry) (hp : es.Perm es')
    (m : List (D × A)) (h : z.loop (fun a b => decide (cls a = cls b)) fromFile [] es = .ok m) :
    ∃ m', z.loop (fun a b => decide (cls a = cls b)) fromFile [] es' = .ok m' ∧
      (∀ p ∈ m, ∃ p' ∈ m', cls p'.1 = cls p.1 ∧ p'.2 = p.2) ∧
      (∀ p' ∈ m', ∃ p ∈ m, cls p.1 = cls p'.1 ∧ p.2 = p'.2) := by
  have hok : ∃ m', z.loop (fun a b => decide (cls a = cls b)) fromFile [] es' = .ok m' := by
    obtain ⟨h1, h2⟩ := (C51_succeeds_iff _ cls fromFile es).1 ⟨m, h⟩
    refine (C51_succeeds_iff _ cls fromFile es').2 ⟨fun e he => h1 e (hp.mem_iff.2 he), ?_⟩
    intro e he d rd hd
    obtain ⟨a0, a, h3, h4⟩ := h2 e (hp.mem_iff.2 he) d rd hd
    exact ⟨a0, a, h3, hz a0 h3 _ _ (groupData_perm cls fromFile d hp) a h4⟩
  obtain ⟨m', h'⟩ := hok
  have key : ∀ p ∈ m, ∀ p' ∈ m', cls p'.1 = cls p.1 → p'.2 = p.2 := by
    intro p hpm p' hp'm hc
    obtain ⟨-, a0, h1, h2⟩ := (C51_groups _ cls fromFile es m h).2 p hpm
    obtain ⟨-, a1, h3, h4⟩ := (C51_groups _ cls fromFile es' m' h').2 p' hp'm
    rw [h1] at h3
    have e1 := Res.ok.inj h3
    subst e1
    rw [groupData_congr cls fromFile hc] at h4
    have := hz a0 h1 _ _ (groupData_perm cls fromFile p.1 hp) _ h2
    rw [h4] at this
    exact Res.ok.inj this
  refine ⟨m', h', ?_, ?_⟩
  · intro p hpm
    obtain ⟨⟨e, he, rd, hrd⟩, -⟩ := (C51_groups _ cls fromFile es m h).2 p hpm
    obtain ⟨p', ⟨hp'm, hc⟩, -⟩ := (C51_groups _ cls fromFile es' m' h').1 e (hp.mem_iff.1 he) p.1 rd hrd
    exact ⟨p', hp'm, hc, key p hpm p' hp'm hc⟩
  · intro p' hp'm
    obtain ⟨⟨e, he, rd, hrd⟩, -⟩ := (C51_groups _ cls fromFile es' m' h').2 p' hp'm
    obtain ⟨p, ⟨hpm, hc⟩, -⟩ := (C51_groups _ cls fromFile es m h).1 e (hp.mem_iff.2 he) p'.1 rd hrd
    exact ⟨p, hpm, hc, (key p hpm p' hp'm hc.symm).symm⟩

/-! ### counting commutes -/

theorem bump_ok {T : Type} {f : T → T} {v v' : List T} {i : Nat} :
    Hist.bump f v i = (v', .ok ()) ↔ ∃ x, v[i]? = some x ∧ v' = v.set i (f x) := by
  unfold Hist.bump
  cases h : v[i]? with
  | none => simp
  | some x => simp [eq_comm]

theorem bump_comm {T : Type} (f g : T → T) (hfg : ∀ x, f (g x) = g (f x)) {v v1 v2 : List T} {i j : Nat}
    (h1 : Hist.bump f v i = (v1, .ok ())) (h2 : Hist.bump g v1 j = (v2, .ok ())) :
    ∃ w, Hist.bump g v j = (w, .ok ()) ∧ Hist.bump f w i = (v2, .ok ()) := by
  obtain ⟨x, hx, rfl⟩ := bump_ok.1 h1
  obtain ⟨y, hy, rfl⟩ := bump_ok.1 h2
  have hi : i < v.length := (List.getElem?_eq_some_iff.1 hx).1
  by_cases hij : i = j
  · subst hij
    rw [List.getElem?_set_self hi] at hy
    injection hy with hy
    subst hy
    refine ⟨_, bump_ok.2 ⟨x, hx, rfl⟩, bump_ok.2 ⟨g x, List.getElem?_set_self hi, ?_⟩⟩
    rw [List.set_set, List.set_set, hfg]
  · rw [List.getElem?_set_ne hij] at hy
    refine ⟨_, bump_ok.2 ⟨y, hy, rfl⟩, bump_ok.2 ⟨x, ?_, ?_⟩⟩
    · rw [List.getElem?_set_ne (Ne.symm hij)]; exact hx
    · exact List.set_comm _ _ hij

theorem bumpAt_comm {v v1 v2 : List Nat} {o o' : Option Nat}
    (h1 : Hist.bumpAt v o = (v1, .ok ())) (h2 : Hist.bumpAt v1 o' = (v2, .ok ())) :
    ∃ w, Hist.bumpAt v o' = (w, .ok ()) ∧ Hist.bumpAt w o = (v2, .ok ()) := by
  cases o with
  | none =>
    simp only [Hist.bumpAt, Prod.mk.injEq, and_true] at h1
    subst h1
    exact ⟨v2, h2, rfl⟩
  | some i =>
    cases o' with
    | none =>
      simp only [Hist.bumpAt, Prod.mk.injEq, and_true] at h2
      subst h2
      exact ⟨v, rfl, h1⟩
    | some j => exact bump_comm _ _ (fun _ => rfl) h1 h2

theorem settled_ok {r : A × Res Unit} {a : A} : settled r = .ok a ↔ r = (a, .ok ()) := by
  obtain ⟨x, o⟩ := r
  cases o with
  | ok u => cases u; simp [settled, Res.map]
  | err e => simp [settled, Res.map]
  | panic => simp [settled, Res.map]

/-! ### first-passage times -/

theorem time_add_ok {a c : TimeAnalysis ℝ} {t : ℝ} : a.addEnsemble t = (c, .ok ()) ↔
    ∃ n l, Hist.bumpAt a.count (a.bins.binPos t) = (n, .ok ()) ∧
      Hist.bumpAt a.lcount (a.bins.lbinPos t) = (l, .ok ()) ∧
      c = { a with ensemble := a.ensemble + 1, mean := a.mean + t, stddev := a.stddev + t * t, count := n, lcount := l } := by
  unfold TimeAnalysis.addEnsemble
  simp only [fl_add, fl_mul]
  match h1 : Hist.bumpAt a.count (a.bins.binPos t) with
  | (n, .ok ()) =>
    simp only [h1]
    match h2 : Hist.bumpAt a.lcount (a.bins.lbinPos t) with
    | (l, .ok ()) => simp [h2, eq_comm]
    | (l, .err e) => simp [h2]
    | (l, .panic) => simp [h2]
  | (n, .err e) => simp [h1]
  | (n, .panic) => simp [h1]

theorem time_add_comm {a b c : TimeAnalysis ℝ} {t u : ℝ} (h1 : a.addEnsemble t = (b, .ok ()))
    (h2 : b.addEnsemble u = (c, .ok ())) :
    ∃ d, a.addEnsemble u = (d, .ok ()) ∧ d.addEnsemble t = (c, .ok ()) := by
  obtain ⟨n, l, h3, h4, rfl⟩ := time_add_ok.1 h1
  obtain ⟨n', l', h5, h6, rfl⟩ := time_add_ok.1 h2
  obtain ⟨w, h7, h8⟩ := bumpAt_comm h3 h5
  obtain ⟨w', h9, h10⟩ := bumpAt_comm h4 h6
  refine ⟨_, time_add_ok.2 ⟨w, w', h7, h9, rfl⟩, time_add_ok.2 ⟨n', l', h8, h10, ?_⟩⟩
  simp only [TimeAnalysis.mk.injEq, true_and, and_true]
  refine ⟨?_, ?_⟩ <;> ring

theorem time_commutes (t u : ℝ) : Commutes (fun a : TimeAnalysis ℝ => settled (a.addEnsemble t))
    (fun a => settled (a.addEnsemble u)) := by
  have : ∀ t u : ℝ, ∀ (a c : TimeAnalysis ℝ), (settled (a.addEnsemble t)).bind (fun a => settled (a.addEnsemble u)) = .ok c →
      (settled (a.addEnsemble u)).bind (fun a => settled (a.addEnsemble t)) = .ok c := by
    intro t u a c h
    obtain ⟨b, hb, hb2⟩ := Res.bind_eq_ok.1 h
    obtain ⟨d, hd, hd2⟩ := time_add_comm (settled_ok.1 hb) (settled_ok.1 hb2)
    exact Res.bind_eq_ok.2 ⟨d, settled_ok.2 hd, settled_ok.2 hd2⟩
  exact commutes_of (this t u) (this u t)

/-! ### several values -/

open TimeVecAnalysis in
theorem addLoop_comm (B : Bins ℝ) (ts us : List ℝ) (hlen : ts.length = us.length) (s s1 s2 : TimeVecAnalysis.Acc ℝ)
    (h1 : addLoop B ts s = (s1, .ok ())) (h2 : addLoop B us s1 = (s2, .ok ())) :
    ∃ w, addLoop B us s = (w, .ok ()) ∧ addLoop B ts w = (s2, .ok ()) := by
  have step : ∀ (t : ℝ) (ts : List ℝ) (s s1 : TimeVecAnalysis.Acc ℝ), addLoop B (t :: ts) s = (s1, .ok ()) ↔
      ∃ m ms d ds c cs l ls c' l' r, s = ⟨m :: ms, d :: ds, c :: cs, l :: ls⟩ ∧
        Hist.bumpAt c (B.binPos t) = (c', .ok ()) ∧ Hist.bumpAt l (B.lbinPos t) = (l', .ok ()) ∧
        addLoop B ts ⟨ms, ds, cs, ls⟩ = (r, .ok ()) ∧
        s1 = ⟨(m + t) :: r.means, (d + t * t) :: r.stddevs, c' :: r.count, l' :: r.lcount⟩ := by
    intro t ts s s1
    obtain ⟨mm, dd, cc, ll⟩ := s
    cases mm with
    | nil => simp [addLoop]
    | cons m ms =>
    cases dd with
    | nil => simp [addLoop]
    | cons d ds =>
    cases cc with
    | nil => simp [addLoop]
    | cons c cs =>
    cases ll with
    | nil => simp [addLoop]
    | cons l ls =>
      simp only [addLoop, fl_add, fl_mul]
      constructor
      · intro h
        match h1 : Hist.bumpAt c (B.binPos t) with
        | (c', .ok ()) =>
          simp only [h1] at h
          match h2 : Hist.bumpAt l (B.lbinPos t) with
          | (l', .ok ()) =>
            simp only [h2, Prod.mk.injEq] at h
            exact ⟨m, ms, d, ds, c, cs, l, ls, c', l', _, rfl, h1, h2, Prod.ext rfl h.2, h.1.symm⟩
          | (l', .err e) => simp [h2] at h
          | (l', .panic) => simp [h2] at h
        | (c', .err e) => simp [h1] at h
        | (c', .panic) => simp [h1] at h
      · rintro ⟨m', ms', d', ds', x, cs', y, ls', c', l', r, e1, h1, h2, h3, rfl⟩
        simp only [TimeVecAnalysis.Acc.mk.injEq, List.cons.injEq] at e1
        obtain ⟨⟨rfl, rfl⟩, ⟨rfl, rfl⟩, ⟨rfl, rfl⟩, rfl, rfl⟩ := e1
        simp only [h1, h2, h3]
  induction ts generalizing us s s1 s2 with
  | nil =>
    have : us = [] := List.length_eq_zero_iff.1 hlen.symm
    subst this
    exact ⟨s1, h1, h2⟩
  | cons t ts ih =>
    cases us with
    | nil => simp at hlen
    | cons u us =>
      obtain ⟨m, ms, d, ds, c, cs, l, ls, c', l', r, rfl, h3, h4, h5, rfl⟩ := (step t ts s s1).1 h1
      obtain ⟨m1, ms1, d1, ds1, c1, cs1, l1, ls1, c2, l2, r2, e1, h6, h7, h8, rfl⟩ := (step u us _ s2).1 h2
      simp only [TimeVecAnalysis.Acc.mk.injEq, List.cons.injEq] at e1
      obtain ⟨⟨rfl, rfl⟩, ⟨rfl, rfl⟩, ⟨rfl, rfl⟩, rfl, rfl⟩ := e1
      obtain ⟨w, h9, h10⟩ := bumpAt_comm h3 h6
      obtain ⟨w', h11, h12⟩ := bumpAt_comm h4 h7
      obtain ⟨q, h13, h14⟩ := ih us (by simpa using hlen) ⟨ms, ds, cs, ls⟩ r r2 h5 h8
      refine ⟨_, (step u us _ _).2 ⟨m, ms, d, ds, c, cs, l, ls, w, w', q, rfl, h9, h11, h13, rfl⟩,
        (step t ts _ _).2 ⟨_, _, _, _, _, _, _, _, c2, l2, r2, rfl, h10, h12, h14, ?_⟩⟩
      simp only [TimeVecAnalysis.Acc.mk.injEq, List.cons.injEq, and_true, true_and]
      refine ⟨?_, ?_⟩ <;> ring

theorem vec_add_ok {a c : TimeVecAnalysis ℝ} (hn : a.numVar ≠ 0) {ts : List ℝ} : a.addEnsemble ts = (c, .ok ()) ↔
    a.numVar = ts.length ∧ ∃ r, TimeVecAnalysis.addLoop a.bins ts ⟨a.means, a.stddevs, a.count, a.lcount⟩ = (r, .ok ()) ∧
      c = { a with ensemble := a.ensemble + 1, means := r.means, stddevs := r.stddevs, count := r.count, lcount := r.lcount } := by
  unfold TimeVecAnalysis.addEnsemble
  simp only [if_neg hn]
  by_cases hl : a.numVar = ts.length
  · rw [if_neg (by simpa using hl)]
    simp only [Prod.mk.injEq]
    constructor
    · rintro ⟨h1, h2⟩
      exact ⟨hl, _, Prod.ext rfl h2, h1.symm⟩
    · rintro ⟨-, r, h1, rfl⟩
      rw [h1]
      exact ⟨rfl, rfl⟩
  · rw [if_pos (by simpa using hl)]
    simp [hl]

theorem vec_add_comm {a b c : TimeVecAnalysis ℝ} (hn : a.numVar ≠ 0) {ts us : List ℝ}
    (h1 : a.addEnsemble ts = (b, .ok ())) (h2 : b.addEnsemble us = (c, .ok ())) :
    ∃ d, a.addEnsemble us = (d, .ok ()) ∧ d.addEnsemble ts = (c, .ok ()) := by
  obtain ⟨hl, r, h3, rfl⟩ := (vec_add_ok hn).1 h1
  obtain ⟨hl', r', h4, rfl⟩ := (vec_add_ok (by exact hn)).1 h2
  simp only at hl' h4
  obtain ⟨w, h5, h6⟩ := addLoop_comm a.bins ts us (hl.symm.trans hl') _ r r' h3 h4
  exact ⟨_, (vec_add_ok hn).2 ⟨hl', w, h5, rfl⟩, (vec_add_ok (by exact hn)).2 ⟨hl, r', h6, rfl⟩⟩

/-! ### processes -/

open ProcessAnalysis in
theorem bump3_ok {c c' : List Nat} {m m' s s' : List ℝ} {v : ℝ} {o : Option Nat} :
    bump3 c m s v o = ((c', m', s'), .ok ()) ↔
      match o with
      | none => c' = c ∧ m' = m ∧ s' = s
      | some i => Hist.bump (· + 1) c i = (c', .ok ()) ∧ Hist.bump (· + v) m i = (m', .ok ()) ∧
          Hist.bump (· + v * v) s i = (s', .ok ()) := by
  cases o with
  | none => simp [bump3, eq_comm]
  | some i =>
    simp only [bump3, fl_add, fl_mul]
    match h1 : Hist.bump (· + 1) c i with
    | (x, .ok ()) =>
      simp only [h1]
      match h2 : Hist.bump (· + v) m i with
      | (y, .ok ()) =>
        simp only [h2]
        match h3 : Hist.bump (· + v * v) s i with
        | (z, o) => simp [h3]; tauto
      | (y, .err e) => simp [h2]
      | (y, .panic) => simp [h2]
    | (x, .err e) => simp [h1]
    | (x, .panic) => simp [h1]

open ProcessAnalysis in
theorem bump3_comm {c c1 c2 : List Nat} {m m1 m2 s s1 s2 : List ℝ} {v u : ℝ} {o o' : Option Nat}
    (h1 : bump3 c m s v o = ((c1, m1, s1), .ok ())) (h2 : bump3 c1 m1 s1 u o' = ((c2, m2, s2), .ok ())) :
    ∃ c3 m3 s3, bump3 c m s u o' = ((c3, m3, s3), .ok ()) ∧ bump3 c3 m3 s3 v o = ((c2, m2, s2), .ok ()) := by
  rw [bump3_ok] at h1 h2
  cases o with
  | none =>
    obtain ⟨rfl, rfl, rfl⟩ := h1
    exact ⟨c2, m2, s2, bump3_ok.2 h2, rfl⟩
  | some i =>
    cases o' with
    | none =>
      obtain ⟨rfl, rfl, rfl⟩ := h2
      exact ⟨c, m, s, rfl, bump3_ok.2 h1⟩
    | some j =>
      simp only at h1 h2
      obtain ⟨x, hx, hx2⟩ := bump_comm _ _ (fun _ => rfl) h1.1 h2.1
      obtain ⟨y, hy, hy2⟩ := bump_comm _ _ (fun t => add_right_comm t u v) h1.2.1 h2.2.1
      obtain ⟨z, hz, hz2⟩ := bump_comm _ _ (fun t => add_right_comm t (u * u) (v * v)) h1.2.2 h2.2.2
      exact ⟨x, y, z, bump3_ok.2 ⟨hx, hy, hz⟩, bump3_ok.2 ⟨hx2, hy2, hz2⟩⟩

theorem pair_add_ok {a d : ProcessAnalysis ℝ} {t v : ℝ} : a.addPair t v = (d, .ok ()) ↔
    ∃ c m s lc lm ls, ProcessAnalysis.bump3 a.count a.mean a.stddev v (a.bins.binPos t) = ((c, m, s), .ok ()) ∧
      ProcessAnalysis.bump3 a.lcount a.logMean a.logStddev v (a.bins.lbinPos t) = ((lc, lm, ls), .ok ()) ∧
      d = ⟨a.longTermMean + v, a.longTermStddev + v * v, a.totPoint + 1, a.ensemble, a.bins, m, s, c, lm, ls, lc⟩ := by
  unfold ProcessAnalysis.addPair
  simp only [fl_add, fl_mul]
  match h1 : ProcessAnalysis.bump3 a.count a.mean a.stddev v (a.bins.binPos t) with
  | ((c, m, s), .ok ()) =>
    simp only [h1]
    match h2 : ProcessAnalysis.bump3 a.lcount a.logMean a.logStddev v (a.bins.lbinPos t) with
    | ((lc, lm, ls), .ok ()) => simp [h2, eq_comm]
    | ((lc, lm, ls), .err e) => simp [h2]
    | ((lc, lm, ls), .panic) => simp [h2]
  | ((c, m, s), .err e) => simp [h1]
  | ((c, m, s), .panic) => simp [h1]

theorem pair_add_comm {a b d : ProcessAnalysis ℝ} {t v t' v' : ℝ} (h1 : a.addPair t v = (b, .ok ()))
    (h2 : b.addPair t' v' = (d, .ok ())) :
    ∃ e, a.addPair t' v' = (e, .ok ()) ∧ e.addPair t v = (d, .ok ()) := by
  obtain ⟨c, m, s, lc, lm, ls, h3, h4, rfl⟩ := pair_add_ok.1 h1
  obtain ⟨c', m', s', lc', lm', ls', h5, h6, rfl⟩ := pair_add_ok.1 h2
  simp only at h5 h6
  obtain ⟨x, y, z, h7, h8⟩ := bump3_comm h3 h5
  obtain ⟨x', y', z', h9, h10⟩ := bump3_comm h4 h6
  refine ⟨_, pair_add_ok.2 ⟨x, y, z, x', y', z', h7, h9, rfl⟩,
    pair_add_ok.2 ⟨c', m', s', lc', lm', ls', h8, h10, ?_⟩⟩
  simp only [ProcessAnalysis.mk.injEq, and_true, true_and]
  refine ⟨?_, ?_⟩ <;> ring

/-- one word of a line of a process. -/
noncomputable def pairStep (f : NumFmt ℝ) (w : Str) (a : ProcessAnalysis ℝ) : Res (ProcessAnalysis ℝ) :=
  (pairFromStr f w).bind fun p => settled (a.addPair p.1 p.2)

theorem pairStep_commutes (f : NumFmt ℝ) (w w' : Str) : Commutes (pairStep f w) (pairStep f w') := by
  have : ∀ (w w' : Str) (a c : ProcessAnalysis ℝ), (pairStep f w a).bind (pairStep f w') = .ok c →
      (pairStep f w' a).bind (pairStep f w) = .ok c := by
    intro w w' a c h
    obtain ⟨b, hb, hb2⟩ := Res.bind_eq_ok.1 h
    obtain ⟨p, hp, hp2⟩ := Res.bind_eq_ok.1 hb
    obtain ⟨q, hq, hq2⟩ := Res.bind_eq_ok.1 hb2
    obtain ⟨d, hd, hd2⟩ := pair_add_comm (settled_ok.1 hp2) (settled_ok.1 hq2)
    exact Res.bind_eq_ok.2 ⟨d, Res.bind_eq_ok.2 ⟨q, hq, settled_ok.2 hd⟩, Res.bind_eq_ok.2 ⟨p, hp, settled_ok.2 hd2⟩⟩
  exact commutes_of (this w w') (this w' w)

theorem addPairs_cons (f : NumFmt ℝ) (w : Str) (ws : List Str) :
    (fun a => addPairs f a (w :: ws)) = fun a => (pairStep f w a).bind fun a => addPairs f a ws := by
  funext a
  simp only [addPairs, pairStep]
  cases pairFromStr f w <;> rfl

theorem addPairs_commutes_step (f : NumFmt ℝ) (g : ProcessAnalysis ℝ → Res (ProcessAnalysis ℝ)) (ws : List Str)
    (hg : ∀ w, Commutes g (pairStep f w)) : Commutes g (fun a => addPairs f a ws) := by
  induction ws with
  | nil =>
    intro a c
    simp only [addPairs, Res.bind_ok]
    rw [Res.bind_eq_ok]
    constructor
    · rintro ⟨b, hb, hb2⟩; rw [hb, ← Res.ok.inj hb2]
    · intro h; exact ⟨c, h, rfl⟩
  | cons w ws ih =>
    rw [addPairs_cons]
    exact (hg w).comp ih

theorem addPairs_commutes (f : NumFmt ℝ) (ws ws' : List Str) :
    Commutes (fun a => addPairs f a ws) (fun a => addPairs f a ws') :=
  addPairs_commutes_step f _ ws' fun w => (addPairs_commutes_step f _ ws fun w' => pairStep_commutes f w w').symm

theorem ensemble_commutes_pair (f : NumFmt ℝ) (w : Str) :
    Commutes (fun a : ProcessAnalysis ℝ => .ok a.addEnsemble) (pairStep f w) := by
  intro a c
  simp only [Res.bind_ok, pairStep]
  cases hp : pairFromStr f w with
  | err e => simp
  | panic => simp
  | ok p =>
    simp only [Res.bind_ok]
    rw [settled_ok, pair_add_ok, Res.bind_eq_ok]
    constructor
    · rintro ⟨n, m, s, lc, lm, ls, h1, h2, rfl⟩
      exact ⟨_, settled_ok.2 (pair_add_ok.2 ⟨n, m, s, lc, lm, ls, h1, h2, rfl⟩), rfl⟩
    · rintro ⟨b, hb, hb2⟩
      obtain ⟨n, m, s, lc, lm, ls, h1, h2, rfl⟩ := pair_add_ok.1 (settled_ok.1 hb)
      exact ⟨n, m, s, lc, lm, ls, h1, h2, (Res.ok.inj hb2).symm⟩

theorem process_line_commutes (f : NumFmt ℝ) (mn mx b l : ℝ) (w w' : Str) :
    Commutes (fun a => (processAnalyzer f mn mx b l).line a w) (fun a => (processAnalyzer f mn mx b l).line a w') := by
  have e : ∀ w : Str, (fun a => (processAnalyzer f mn mx b l).line a w) =
      fun a => (addPairs f a (Str.words (Str.trim w))).bind fun a => .ok a.addEnsemble := by
    intro w; funext a
    show (addPairs f a (Str.words (Str.trim w))).map ProcessAnalysis.addEnsemble = _
    cases addPairs f a (Str.words (Str.trim w)) <;> rfl
  rw [e w, e w']
  have h1 := fun ws => addPairs_commutes_step f (fun a => .ok a.addEnsemble) ws (ensemble_commutes_pair f)
  refine Commutes.comp (Commutes.symm (Commutes.comp (addPairs_commutes f _ _) (h1 _).symm)) (Commutes.symm (Commutes.comp (h1 _) ?_))
  exact fun a c => Iff.rfl

/-! ### the theorems -/

/-- Reading the files of a directory in another order gives the same groups with the same statistics: first-passage
times, any window and bins. -/
theorem C51_file_order_times [DecidableEq K] (f : NumFmt ℝ) (mn mx b l : ℝ) (cls : D → K)
    (fromFile : Reader → Res D × Reader) (es es' : List Entry) (hp : es.Perm es') (m : List (D × TimeAnalysis ℝ))
    (h : (timeAnalyzer f mn mx b l).loop (fun a b => decide (cls a = cls b)) fromFile [] es = .ok m) :
    ∃ m', (timeAnalyzer f mn mx b l).loop (fun a b => decide (cls a = cls b)) fromFile [] es' = .ok m' ∧
      (∀ p ∈ m, ∃ p' ∈ m', cls p'.1 = cls p.1 ∧ p'.2 = p.2) ∧
      (∀ p' ∈ m', ∃ p ∈ m, cls p.1 = cls p'.1 ∧ p.2 = p'.2) := by
  refine loop_perm _ (fun a0 _ r r' hr => lines_perm _ (fun _ => True) (fun _ _ _ _ _ => trivial) ?_ hr a0 trivial)
    cls fromFile es es' hp m h
  intro a _ w w' c hh
  obtain ⟨x, hx, hx2⟩ := Res.bind_eq_ok.1 hh
  obtain ⟨t, ht, ht2⟩ := Res.bind_eq_ok.1 hx
  obtain ⟨u, hu, hu2⟩ := Res.bind_eq_ok.1 hx2
  obtain ⟨y, hy, hy2⟩ := Res.bind_eq_ok.1 ((time_commutes t u a c).1 (Res.bind_eq_ok.2 ⟨x, ht2, hu2⟩))
  exact Res.bind_eq_ok.2 ⟨y, Res.bind_eq_ok.2 ⟨u, hu, hy⟩, Res.bind_eq_ok.2 ⟨t, ht, hy2⟩⟩

/-- The same for analyses of a given, positive number of values per line. -/
theorem C51_file_order_rows [DecidableEq K] (f : NumFmt ℝ) (n : Nat) (hn : 0 < n) (mn mx b l : ℝ) (cls : D → K)
    (fromFile : Reader → Res D × Reader) (es es' : List Entry) (hp : es.Perm es') (m : List (D × TimeVecAnalysis ℝ))
    (h : (vecAnalyzer f n mn mx b l).loop (fun a b => decide (cls a = cls b)) fromFile [] es = .ok m) :
    ∃ m', (vecAnalyzer f n mn mx b l).loop (fun a b => decide (cls a = cls b)) fromFile [] es' = .ok m' ∧
      (∀ p ∈ m, ∃ p' ∈ m', cls p'.1 = cls p.1 ∧ p'.2 = p.2) ∧
      (∀ p' ∈ m', ∃ p ∈ m, cls p.1 = cls p'.1 ∧ p.2 = p'.2) := by
  refine loop_perm _ (fun a0 ha0 r r' hr => lines_perm _ (fun a => a.numVar ≠ 0) ?_ ?_ hr a0 ?_)
    cls fromFile es es' hp m h
  · intro a w c ha hc
    obtain ⟨xs, -, hx⟩ := Res.bind_eq_ok.1 hc
    obtain ⟨-, r, -, rfl⟩ := (vec_add_ok ha).1 (settled_ok.1 hx)
    exact ha
  · intro a ha w w' c hh
    obtain ⟨x, hx, hx2⟩ := Res.bind_eq_ok.1 hh
    obtain ⟨t, ht, ht2⟩ := Res.bind_eq_ok.1 hx
    obtain ⟨u, hu, hu2⟩ := Res.bind_eq_ok.1 hx2
    obtain ⟨y, hy, hy2⟩ := vec_add_comm ha (settled_ok.1 ht2) (settled_ok.1 hu2)
    exact Res.bind_eq_ok.2 ⟨y, Res.bind_eq_ok.2 ⟨u, hu, settled_ok.2 hy⟩, Res.bind_eq_ok.2 ⟨t, ht, settled_ok.2 hy2⟩⟩
  · simp only [vecAnalyzer] at ha0
    match hb : Bins.updateFromBinSize Bins.new mn mx b l with
    | (B, .ok ()) =>
      rw [hb] at ha0
      rw [← Res.ok.inj ha0]
      exact Nat.pos_iff_ne_zero.1 hn
    | (B, .err e) => rw [hb] at ha0; simp at ha0
    | (B, .panic) => rw [hb] at ha0; simp at ha0

/-- The same for processes in time. -/
theorem C51_file_order_processes [DecidableEq K] (f : NumFmt ℝ) (mn mx b l : ℝ) (cls : D → K)
    (fromFile : Reader → Res D × Reader) (es es' : List Entry) (hp : es.Perm es') (m : List (D × ProcessAnalysis ℝ))
    (h : (processAnalyzer f mn mx b l).loop (fun a b => decide (cls a = cls b)) fromFile [] es = .ok m) :
    ∃ m', (processAnalyzer f mn mx b l).loop (fun a b => decide (cls a = cls b)) fromFile [] es' = .ok m' ∧
      (∀ p ∈ m, ∃ p' ∈ m', cls p'.1 = cls p.1 ∧ p'.2 = p.2) ∧
      (∀ p' ∈ m', ∃ p ∈ m, cls p.1 = cls p'.1 ∧ p.2 = p'.2) :=
  loop_perm _ (fun a0 _ _ _ hr => lines_perm _ (fun _ => True) (fun _ _ _ _ _ => trivial)
    (fun a _ w w' c hh => (process_line_commutes f mn mx b l w w' a c).1 hh) hr a0 trivial)
    cls fromFile es es' hp m h

/-- a number outside of the window is counted in no bin. -/
theorem outside_bins {mn mx b l x : ℝ} {B : Bins ℝ}
    (hset : Bins.updateFromBinSize Bins.new mn mx b l = (B, .ok ())) (hx : mx < x) :
    B.binPos x = none ∧ B.lbinPos x = none := by
  have hB : B.maxTime = mx := by
    unfold Bins.updateFromBinSize at hset
    split at hset
    · simp at hset
    · simp only [Prod.mk.injEq, and_true] at hset
      rw [← hset]
  unfold Bins.binPos Bins.lbinPos
  simp [hB, hx]

/-- Finding: an analysis of several values made for 0 values adapts to the first line it is given.  Then the order
of the files matters when one of them has an empty line of data: with that file first the analysis succeeds,
with it last it panics.  (The files here: two files of one class, the one with an empty line, the other with one
number above the window.) -/
theorem C51_zero_columns_order (f : NumFmt ℝ) (mn mx b l x : ℝ) (B : Bins ℝ) (w h h' : Str)
    (hset : Bins.updateFromBinSize Bins.new mn mx b l = (B, .ok ())) (hw : Str.words (Str.trim w) = [w])
    (hp : f.parse w = some x) (hx : mx < x) :
    (∃ m, (vecAnalyzer f 0 mn mx b l).loop (fun a b : Unit => decide (a = b)) (fun rd => (.ok (), rd)) []
      [.file [.ok h, .ok []], .file [.ok h', .ok w]] = .ok m) ∧
    (vecAnalyzer f 0 mn mx b l).loop (fun a b : Unit => decide (a = b)) (fun rd => (.ok (), rd)) []
      [.file [.ok h', .ok w], .file [.ok h, .ok []]] = .panic := by
  obtain ⟨o1, o2⟩ := outside_bins hset hx
  have hfr : (vecAnalyzer f 0 mn mx b l).fresh =
      .ok (TimeVecAnalysis.allocateVectors { TimeVecAnalysis.new 0 with bins := B }) := by
    simp only [vecAnalyzer, hset]
  have hl : ∀ a : TimeVecAnalysis ℝ, (vecAnalyzer f 0 mn mx b l).line a w = settled (a.addEnsemble [x]) := by
    intro a
    simp only [vecAnalyzer, hw, parseWords, hp, Res.expect, Res.bind_ok, Res.map_ok]
  have hl0 : ∀ a : TimeVecAnalysis ℝ, (vecAnalyzer f 0 mn mx b l).line a [] = settled (a.addEnsemble []) := by
    intro a
    simp only [vecAnalyzer]
    rfl
  have hw1 : ∀ n : Nat, (TimeVecAnalysis.addEnsemble { TimeVecAnalysis.allocateVectors
        { TimeVecAnalysis.new 0 with bins := B } with ensemble := n } [x]) =
      ({ numVar := 1, bins := B, ensemble := n + 1, means := [0 + x], stddevs := [0 + x * x],
         hist := [List.replicate B.numBin 0], lhist := [List.replicate B.numLbin 0],
         count := [List.replicate B.numBin 0], lcount := [List.replicate B.numLbin 0] }, .ok ()) := by
    intro n
    simp [TimeVecAnalysis.addEnsemble, TimeVecAnalysis.allocateVectors, TimeVecAnalysis.new, TimeVecAnalysis.addLoop,
      o1, o2, Hist.bumpAt]
  have hw0 : TimeVecAnalysis.addEnsemble (TimeVecAnalysis.allocateVectors
        { TimeVecAnalysis.new 0 with bins := B }) [] =
      ({ TimeVecAnalysis.allocateVectors { TimeVecAnalysis.new 0 with bins := B } with ensemble := 1 }, .ok ()) := by
    simp [TimeVecAnalysis.addEnsemble, TimeVecAnalysis.allocateVectors, TimeVecAnalysis.new, TimeVecAnalysis.addLoop]
  constructor
  · refine ⟨[((), { numVar := 1, bins := B, ensemble := 2, means := [0 + x], stddevs := [0 + x * x],
                    hist := [List.replicate B.numBin 0], lhist := [List.replicate B.numLbin 0],
                    count := [List.replicate B.numBin 0], lcount := [List.replicate B.numLbin 0] })], ?_⟩
    simp only [Analyzer.loop, Analyzer.entry, Analyzer.mem, Analyzer.update, Analyzer.lines, List.any_nil,
      Bool.false_eq_true, if_false, hfr, Res.map_ok, Res.bind_ok, List.nil_append, List.drop_succ_cons, List.drop_zero,
      decide_true, if_true, hl0, hw0, settled, List.any_cons, Bool.true_or, hl, hw1]
  · have h1 := hw1 0
    have e0 : { TimeVecAnalysis.allocateVectors { (TimeVecAnalysis.new 0 : TimeVecAnalysis ℝ) with bins := B } with ensemble := 0 } =
        TimeVecAnalysis.allocateVectors { (TimeVecAnalysis.new 0 : TimeVecAnalysis ℝ) with bins := B } := rfl
    rw [e0] at h1
    simp only [Analyzer.loop, Analyzer.entry, Analyzer.mem, Analyzer.update, Analyzer.lines, List.any_nil,
      Bool.false_eq_true, if_false, hfr, Res.map_ok, Res.bind_ok, List.nil_append, List.drop_succ_cons, List.drop_zero,
      decide_true, if_true, settled, List.any_cons, Bool.true_or, hl, h1, hl0]
    simp [TimeVecAnalysis.addEnsemble]

/-- the hypotheses of the four theorems are met by small directories. -/
theorem order_words : Str.words (Str.trim (chars! "12")) = [chars! "12"] ∧ wholeFmt.parse (chars! "12") = some 12 ∧
    wholeFmt.parse (Str.trim (chars! "12")) = some 12 := by
  have : Str.parseNat (chars! "12") = some 12 := by decide +kernel
  have t : Str.trim (chars! "12") = chars! "12" := by decide +kernel
  refine ⟨by decide +kernel, ?_, ?_⟩
  · simp only [wholeFmt, this]; norm_num
  · rw [t]; simp only [wholeFmt, this]; norm_num

example : ∃ B, Bins.updateFromBinSize (Bins.new : Bins ℝ) 1 10 1 2 = (B, .ok ()) ∧
    (vecAnalyzer wholeFmt 0 1 10 1 2).loop (fun a b : Unit => decide (a = b)) (fun rd => (.ok (), rd)) []
      [.file [.ok [], .ok (chars! "12")], .file [.ok [], .ok []]] = .panic := by
  obtain ⟨B, hB, -⟩ := exampleBins
  exact ⟨B, hB, (C51_zero_columns_order wholeFmt 1 10 1 2 12 B (chars! "12") [] [] hB order_words.1 order_words.2.1
    (by norm_num)).2⟩

/-- two files of two classes, read in both orders. -/
noncomputable def orderEntries (l : Str) : List Entry := [.file [.ok [], .ok l], .file [.ok (chars! "x"), .ok l, .ok l]]

/-- the class of a file of the example: its first line. -/
def orderClass (rd : Reader) : Res Str × Reader :=
  match rd with
  | .ok h :: _ => (.ok h, rd)
  | _ => (.panic, rd)

theorem order_loop {A : Type} (z : Analyzer A) (l : Str) (a0 a1 a2 : A) (h0 : z.fresh = .ok a0)
    (h1 : z.line a0 l = .ok a1) (h2 : z.line a1 l = .ok a2) :
    z.loop (fun a b : Str => decide (id a = id b)) orderClass [] (orderEntries l) =
      .ok [([], a1), (chars! "x", a2)] := by
  have e : (decide (([] : Str) = chars! "x")) = false := by decide
  simp only [orderEntries, orderClass, Analyzer.loop, Analyzer.entry, Analyzer.mem, Analyzer.update, Analyzer.lines,
    List.any_nil, Bool.false_eq_true, if_false, h0, Res.map_ok, Res.bind_ok, List.nil_append, List.drop_succ_cons,
    List.drop_zero, decide_true, if_true, h1, h2, List.any_cons, id, e, Bool.or_self, List.cons_append]

example : ∃ m, (timeAnalyzer wholeFmt 1 10 1 2).loop (fun a b : Str => decide (id a = id b)) orderClass []
    (orderEntries (chars! "12")) = .ok m ∧ m.map (fun p => (p.1, p.2.ensemble, p.2.mean)) = [([], 1, 12), (chars! "x", 2, 24)] := by
  obtain ⟨B, hB, -⟩ := exampleBins
  obtain ⟨o1, o2⟩ := outside_bins hB (show (10 : ℝ) < 12 by norm_num)
  have hl : ∀ a : TimeAnalysis ℝ, (timeAnalyzer wholeFmt 1 10 1 2).line a (chars! "12") = settled (a.addEnsemble 12) := by
    intro a
    simp only [timeAnalyzer, order_words.2.2, Res.expect, Res.bind_ok]
  have hadd : ∀ (n : Nat) (x y : ℝ), TimeAnalysis.addEnsemble
        { bins := B, ensemble := n, mean := x, stddev := y,
          hist := List.replicate B.numBin 0, lhist := List.replicate B.numLbin 0,
          count := List.replicate B.numBin 0, lcount := List.replicate B.numLbin 0 } 12 =
      ({ bins := B, ensemble := n + 1, mean := x + 12, stddev := y + 12 * 12,
         hist := List.replicate B.numBin 0, lhist := List.replicate B.numLbin 0,
         count := List.replicate B.numBin 0, lcount := List.replicate B.numLbin 0 }, .ok ()) := by
    intro n x y
    simp [TimeAnalysis.addEnsemble, o1, o2, Hist.bumpAt]
  refine ⟨_, order_loop _ _ _ _ _ (by simp [timeAnalyzer, hB, TimeAnalysis.allocateVectors, TimeAnalysis.new])
    ((hl _).trans (settled_ok.2 (hadd 0 0 0))) ((hl _).trans (settled_ok.2 (hadd 1 (0 + 12) (0 + 12 * 12)))), ?_⟩
  norm_num

example : ∃ m, (vecAnalyzer wholeFmt 1 1 10 1 2).loop (fun a b : Str => decide (id a = id b)) orderClass []
    (orderEntries (chars! "12")) = .ok m ∧ m.map (fun p => (p.1, p.2.ensemble, p.2.means)) =
      [([], 1, [12]), (chars! "x", 2, [24])] := by
  obtain ⟨B, hB, -⟩ := exampleBins
  obtain ⟨o1, o2⟩ := outside_bins hB (show (10 : ℝ) < 12 by norm_num)
  have hl : ∀ a : TimeVecAnalysis ℝ, (vecAnalyzer wholeFmt 1 1 10 1 2).line a (chars! "12") = settled (a.addEnsemble [12]) := by
    intro a
    simp only [vecAnalyzer, order_words.1, parseWords, order_words.2.1, Res.expect, Res.bind_ok, Res.map_ok]
  have hadd : ∀ (n : Nat) (x y : ℝ), TimeVecAnalysis.addEnsemble
        { numVar := 1, bins := B, ensemble := n, means := [x], stddevs := [y],
          hist := [List.replicate B.numBin 0], lhist := [List.replicate B.numLbin 0],
          count := [List.replicate B.numBin 0], lcount := [List.replicate B.numLbin 0] } [12] =
      ({ numVar := 1, bins := B, ensemble := n + 1, means := [x + 12], stddevs := [y + 12 * 12],
         hist := [List.replicate B.numBin 0], lhist := [List.replicate B.numLbin 0],
         count := [List.replicate B.numBin 0], lcount := [List.replicate B.numLbin 0] }, .ok ()) := by
    intro n x y
    simp [TimeVecAnalysis.addEnsemble, TimeVecAnalysis.addLoop, o1, o2, Hist.bumpAt]
  refine ⟨_, order_loop _ _ _ _ _ (by simp [vecAnalyzer, hB, TimeVecAnalysis.allocateVectors, TimeVecAnalysis.new])
    ((hl _).trans (settled_ok.2 (hadd 0 0 0))) ((hl _).trans (settled_ok.2 (hadd 1 (0 + 12) (0 + 12 * 12)))), ?_⟩
  norm_num

example : ∃ m, (processAnalyzer wholeFmt 1 10 1 2).loop (fun a b : Str => decide (id a = id b)) orderClass []
    (orderEntries (chars! "(12,12)")) = .ok m ∧ m.map (fun p => (p.1, p.2.ensemble, p.2.longTermMean)) =
      [([], 1, 12), (chars! "x", 2, 24)] := by
  obtain ⟨B, hB, -⟩ := exampleBins
  obtain ⟨o1, o2⟩ := outside_bins hB (show (10 : ℝ) < 12 by norm_num)
  have hw : Str.words (Str.trim (chars! "(12,12)")) = [chars! "(12,12)"] := by decide +kernel
  have hs : Str.splitBy (· == ',') ((chars! "(12,12)").filter fun c => c != '(' && c != ')') = [chars! "12", chars! "12"] := by
    decide +kernel
  have hl : ∀ a : ProcessAnalysis ℝ, (processAnalyzer wholeFmt 1 10 1 2).line a (chars! "(12,12)") =
      (settled (a.addPair 12 12)).map ProcessAnalysis.addEnsemble := by
    intro a
    simp only [processAnalyzer, hw, addPairs, pairFromStr, hs, parseWords, order_words.2.1, Res.expect, Res.bind_ok, Res.map_ok]
    cases settled (a.addPair 12 12) <;> rfl
  have hadd : ∀ (n k : Nat) (x y : ℝ), ProcessAnalysis.addPair
        { bins := B, ensemble := n, totPoint := k, longTermMean := x, longTermStddev := y,
          mean := List.replicate B.numBin 0, stddev := List.replicate B.numBin 0,
          logMean := List.replicate B.numLbin 0, logStddev := List.replicate B.numLbin 0,
          count := List.replicate B.numBin 0, lcount := List.replicate B.numLbin 0 } 12 12 =
      ({ bins := B, ensemble := n, totPoint := k + 1, longTermMean := x + 12, longTermStddev := y + 12 * 12,
         mean := List.replicate B.numBin 0, stddev := List.replicate B.numBin 0,
         logMean := List.replicate B.numLbin 0, logStddev := List.replicate B.numLbin 0,
         count := List.replicate B.numBin 0, lcount := List.replicate B.numLbin 0 }, .ok ()) := by
    intro n k x y
    simp [ProcessAnalysis.addPair, o1, o2, ProcessAnalysis.bump3]
  refine ⟨_, order_loop _ _ _ _ _ (by simp [processAnalyzer, hB, ProcessAnalysis.allocateVectors, ProcessAnalysis.new])
    ((hl _).trans (congrArg (Res.map ProcessAnalysis.addEnsemble) (settled_ok.2 (hadd 0 0 0 0))))
    ((hl _).trans (congrArg (Res.map ProcessAnalysis.addEnsemble) (settled_ok.2 (hadd 1 1 (0 + 12) (0 + 12 * 12))))), ?_⟩
  norm_num [ProcessAnalysis.addEnsemble]

end Moledyn.Props
