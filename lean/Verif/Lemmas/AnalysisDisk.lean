import Verif.Spec.AnalysisDisk
import Mathlib.Data.List.Basic
import Mathlib.Tactic.SplitIfs
import Mathlib.Tactic.Set
/-
Lemmas about the calls of `analyze`: what they leave when they are cut short (`Does`), and what they use up (`Frame`, `Costs`).
-/
set_option linter.unusedSimpArgs false
namespace Moledyn

/-! ### files -/

namespace Files

theorem set_same (fs : Files) (p t : Str) : fs.set p t p = some t := by simp [set]
theorem set_other (fs : Files) (p t : Str) {q : Str} (h : q ≠ p) : fs.set p t q = fs q := by simp [set, h]
theorem append_same {fs : Files} {p u : Str} (t : Str) (h : fs p = some u) : fs.append p t p = some (u ++ t) := by simp [append, h]
theorem append_other (fs : Files) (p t : Str) {q : Str} (h : q ≠ p) : fs.append p t q = fs q := by simp [append, h]

theorem lay_nil (fs : Files) : fs.lay [] = fs := rfl
theorem lay_append (fs : Files) (a b : List Written) : fs.lay (a ++ b) = (fs.lay a).lay b := by simp [lay]
theorem lay_cons (fs : Files) (w : Written) (b : List Written) : fs.lay (w :: b) = (fs.set w.path w.text).lay b := rfl

theorem lay_congr {fs gs : Files} {q : Str} (h : fs q = gs q) (ws : List Written) : fs.lay ws q = gs.lay ws q := by
  induction ws generalizing fs gs with
  | nil => exact h
  | cons w ws ih =>
    rw [lay_cons, lay_cons]
    refine ih ?_
    by_cases hq : q = w.path
    · subst hq; rw [set_same, set_same]
    · rw [set_other _ _ _ hq, set_other _ _ _ hq, h]

theorem lay_absent {fs : Files} {q : Str} (ws : List Written) (h : ∀ w ∈ ws, w.path ≠ q) : fs.lay ws q = fs q := by
  induction ws generalizing fs with
  | nil => rfl
  | cons w ws ih =>
    rw [lay_cons, ih fun w hw => h w (by simp [hw])]
    exact set_other _ _ _ (Ne.symm (h w (by simp)))

end Files

namespace Begun

theorem refl (ws : List Written) : Begun ws ws := by
  induction ws with
  | nil => exact .none _
  | cons w ws ih => exact .next w ws ws ih

theorem left {vs ws : List Written} (h : Begun vs ws) (ws' : List Written) : Begun vs (ws ++ ws') := by
  induction h with
  | none ws => exact .none _
  | cut w t ws h => exact .cut w t _ h
  | next w vs ws _ ih => exact .next w vs _ ih

theorem right (ws : List Written) {vs' ws' : List Written} (h : Begun vs' ws') : Begun (ws ++ vs') (ws ++ ws') := by
  induction ws with
  | nil => exact h
  | cons w ws ih => exact .next w _ _ ih

theorem path {vs ws : List Written} (h : Begun vs ws) : ∀ v ∈ vs, ∃ w ∈ ws, w.path = v.path ∧ v.text <+: w.text := by
  induction h with
  | none ws => simp
  | cut w t ws h => intro v hv; simp only [List.mem_singleton] at hv; subst hv; exact ⟨w, by simp, rfl, h⟩
  | next w vs ws _ ih =>
    intro v hv
    rcases List.mem_cons.1 hv with rfl | hv
    · exact ⟨v, by simp, rfl, List.prefix_refl _⟩
    · obtain ⟨w', h1, h2⟩ := ih v hv
      exact ⟨w', by simp [h1], h2⟩

end Begun

/-! ### writing -/

theorem writeAll_spec (p : Str) (rs : List Answer) (fs : Files) (s : Str) :
    (∀ q, q ≠ p → (writeAll p rs fs s).1 q = fs q) ∧
    (∃ u, s = u ++ (writeAll p rs fs s).2.1 ∧ ∀ t, fs p = some t → (writeAll p rs fs s).1 p = some (t ++ u)) ∧
    (∀ rest, (writeAll p rs fs s).2.2 = .ok rest → (writeAll p rs fs s).2.1 = []) := by
  induction rs generalizing fs s with
  | nil =>
    cases s with
    | nil => simp [writeAll]
    | cons c s => simp [writeAll]
  | cons r rs ih =>
    cases s with
    | nil => simp [writeAll]
    | cons c s =>
      rcases r with ⟨⟨⟩ | n⟩ | t
      · simp [writeAll]
      · obtain ⟨h1, ⟨u, h2, h3⟩, h4⟩ := ih (fs.append p ((c :: s).take (n + 1))) ((c :: s).drop (n + 1))
        simp only [writeAll]
        refine ⟨fun q hq => (h1 q hq).trans (Files.append_other _ _ _ hq), ⟨(c :: s).take (n + 1) ++ u, ?_, ?_⟩, h4⟩
        · rw [List.append_assoc, ← h2, List.take_append_drop]
        · intro t ht
          rw [h3 _ (Files.append_same _ ht), List.append_assoc]
      · simp [writeAll]

/-- What was used of the answers. -/
def FrameAt {X : Type} (g : List Answer → X × Ended) (rs : List Answer) : Prop :=
  ∀ w rest, g rs = (w, .ok rest) → ∃ used, rs = used ++ rest ∧ ∀ ext, g (used ++ ext) = (w, .ok ext)

theorem writeAll_frame (p : Str) (rs : List Answer) (fs : Files) (s : Str) (rest : List Answer)
    (h : (writeAll p rs fs s).2.2 = .ok rest) :
    ∃ used, rs = used ++ rest ∧ ∀ ext, writeAll p (used ++ ext) fs s =
      ((writeAll p rs fs s).1, (writeAll p rs fs s).2.1, .ok ext) := by
  induction rs generalizing fs s with
  | nil =>
    cases s with
    | nil => simp only [writeAll, Ended.ok.injEq] at h; subst h; exact ⟨[], rfl, fun ext => by simp [writeAll]⟩
    | cons c s => simp [writeAll] at h
  | cons r rs ih =>
    cases s with
    | nil => simp only [writeAll, Ended.ok.injEq] at h; subst h; exact ⟨[], rfl, fun ext => by simp [writeAll]⟩
    | cons c s =>
      rcases r with ⟨⟨⟩ | n⟩ | t
      · simp [writeAll] at h
      · simp only [writeAll] at h
        obtain ⟨used, h1, h2⟩ := ih _ _ h
        refine ⟨.done (n + 1) :: used, by simp [h1], fun ext => ?_⟩
        simp only [List.cons_append, writeAll]
        exact h2 ext
      · simp [writeAll] at h

theorem writeAll_progress (p : Str) (rs : List Answer) (fs : Files) (s : Str) (hp : Progress rs) (hl : s.length ≤ rs.length) :
    ∃ rest, (writeAll p rs fs s).2.2 = .ok rest ∧ Progress rest ∧ rs.length ≤ rest.length + s.length := by
  induction rs generalizing fs s with
  | nil =>
    cases s with
    | nil => exact ⟨[], by simp [writeAll], hp, by simp⟩
    | cons c s => simp at hl
  | cons r rs ih =>
    cases s with
    | nil => exact ⟨r :: rs, by simp [writeAll], hp, by simp⟩
    | cons c s =>
      obtain ⟨n, rfl⟩ := hp r (by simp)
      simp only [writeAll]
      have hd : ((c :: s).drop (n + 1)).length ≤ s.length := by simp
      obtain ⟨rest, h1, h2, h3⟩ := ih (fs.append p ((c :: s).take (n + 1))) ((c :: s).drop (n + 1))
        (fun r hr => hp r (by simp [hr])) (by simp only [List.length_cons] at hl; omega)
      exact ⟨rest, h1, h2, by simp only [List.length_cons]; omega⟩

/-! ### calls that are cut short -/

open OnDisk

/-- The calls `cs` add `line` to the table and write the files `ws`, or less, if they are cut short. -/
structure DoesFrom (cap : Nat) (sum line : Str) (ws : List Written) (d : Str) (w : OnDisk) (r : OnDisk × Ended) : Prop where
  left : ∃ d' vs, Begun vs ws ∧ r.1.files sum = some d' ∧ (∀ q, q ≠ sum → r.1.files q = w.files.lay vs q) ∧
    d' ++ r.1.buf <+: d ++ w.buf ++ line ∧
    ((∃ rest, r.2 = .ok rest) → vs = ws ∧ d' ++ r.1.buf = d ++ w.buf ++ line) ∧
    ((w.buf ++ line).length < cap → d' = d)
  full : r.1.buf.length ≤ cap
  dirs : r.1.dirs = w.dirs

def Does (cap : Nat) (sum : Str) (cs : List Cmd) (line : Str) (ws : List Written) : Prop :=
  ∀ w rs d, w.files sum = some d → w.buf.length ≤ cap → DoesFrom cap sum line ws d w (exec cap sum w cs rs)

theorem exec_append (cap : Nat) (sum : Str) (w : OnDisk) (a b : List Cmd) (rs : List Answer) :
    exec cap sum w (a ++ b) rs = match exec cap sum w a rs with
      | (w, .ok rs) => exec cap sum w b rs
      | r => r := by
  induction a generalizing w rs with
  | nil => rfl
  | cons c a ih =>
    simp only [List.cons_append, exec]
    rcases hs : step cap sum w c rs with ⟨w', r | ⟨t, r⟩ | _⟩
    · simp only []; exact ih w' r
    · rfl
    · rfl

theorem Does.nil (cap : Nat) (sum : Str) : Does cap sum [] [] [] := by
  intro w rs d hd hb
  refine ⟨⟨d, [], .none _, hd, fun q _ => rfl, by simp [exec], fun _ => ⟨rfl, by simp [exec]⟩, fun _ => rfl⟩, hb, rfl⟩

theorem Does.append {cap : Nat} {sum : Str} {a b : List Cmd} {la lb : Str} {wa wb : List Written}
    (ha : Does cap sum a la wa) (hb : Does cap sum b lb wb) : Does cap sum (a ++ b) (la ++ lb) (wa ++ wb) := by
  intro w rs d hd hl
  rw [exec_append]
  have h1 := ha w rs d hd hl
  rcases hs : exec cap sum w a rs with ⟨w', e⟩
  rw [hs] at h1
  obtain ⟨⟨d1, v1, g1, g2, g3, g4, g5, g6⟩, gf, gd⟩ := h1
  simp only at g2 g3 g4 g5 gf gd
  have bad : (∀ rest, e ≠ .ok rest) → DoesFrom cap sum (la ++ lb) (wa ++ wb) d w (w', e) := by
    intro hne
    refine ⟨⟨d1, v1, g1.left _, g2, g3, ?_, fun ⟨rest, hr⟩ => absurd hr (hne rest), fun hs => g6 ?_⟩, gf, gd⟩
    · exact g4.trans ⟨lb, by simp⟩
    · simp only [List.length_append] at hs ⊢; omega
  cases e with
  | err t rest => exact bad (by simp)
  | killed => exact bad (by simp)
  | ok rest =>
    obtain ⟨rfl, g7⟩ := g5 ⟨rest, rfl⟩
    obtain ⟨⟨d2, v2, k1, k2, k3, k4, k5, k6⟩, kf, kd⟩ := hb w' rest d1 g2 gf
    simp only
    refine ⟨⟨d2, v1 ++ v2, Begun.right _ k1, k2, ?_, ?_, ?_, ?_⟩, kf, kd.trans gd⟩
    · intro q hq
      rw [k3 q hq, Files.lay_append]
      exact Files.lay_congr (g3 q hq) _
    · rw [g7, List.append_assoc _ la lb] at k4; exact k4
    · intro hr
      obtain ⟨rfl, k7⟩ := k5 hr
      exact ⟨rfl, by rw [k7, g7]; simp⟩
    · intro hs
      have h0 := g6 (by simp only [List.length_append] at hs ⊢; omega)
      subst h0
      refine k6 ?_
      have : w'.buf = w.buf ++ la := by simpa [List.append_assoc] using g7
      rw [this]; simpa [List.append_assoc] using hs

/-- the `BufWriter`. -/
theorem put_does {cap : Nat} {sum : Str} (once : Bool) (w : OnDisk) (s : Str) (rs : List Answer) (d : Str)
    (ho : once = true → s.length < cap) (hd : w.files sum = some d) (hb : w.buf.length ≤ cap) :
    DoesFrom cap sum s [] d w (put cap sum once w s rs) := by
  -- the second half
  have next : ∀ (w1 : OnDisk) (rs1 : List Answer) (d1 : Str), w1.files sum = some d1 →
      (∀ q, q ≠ sum → w1.files q = w.files q) → d1 ++ w1.buf = d ++ w.buf → w1.dirs = w.dirs →
      w1.buf.length + s.length ≤ cap ∨ w1.buf = [] → ((w.buf ++ s).length < cap → d1 = d) →
      DoesFrom cap sum s [] d w (if cap ≤ s.length then
        if once then
          let r := writeOnce sum rs1 w1.files s
          ({ w1 with files := r.1 }, r.2)
        else
          let r := writeAll sum rs1 w1.files s
          ({ w1 with files := r.1 }, r.2.2)
      else ({ w1 with buf := w1.buf ++ s }, .ok rs1)) := by
    intro w1 rs1 d1 h1 h2 h3 h4 h5 h6
    by_cases hc : cap ≤ s.length
    · rw [if_pos hc]
      have hof : once = false := by cases once with | false => rfl | true => exact absurd (ho rfl) (by omega)
      subst hof
      have hbe : w1.buf = [] := by
        rcases h5 with h5 | h5
        · exact List.eq_nil_of_length_eq_zero (by omega)
        · exact h5
      simp only [Bool.false_eq_true, if_false]
      obtain ⟨k1, ⟨u, k2, k3⟩, k4⟩ := writeAll_spec sum rs1 w1.files s
      have hd1 : d1 = d ++ w.buf := by simpa [hbe] using h3
      refine ⟨⟨d1 ++ u, [], .none _, k3 _ h1, fun q hq => (k1 q hq).trans (h2 q hq), ?_, ?_, ?_⟩, ?_, h4⟩
      · simp only [hbe, List.append_nil, hd1]
        rw [List.prefix_append_right_inj]
        exact ⟨_, k2.symm⟩
      · rintro ⟨rest, hr⟩
        refine ⟨rfl, ?_⟩
        have := k4 rest hr
        rw [this, List.append_nil] at k2
        simp only [hbe, List.append_nil, hd1, ← k2]
      · intro hs; simp only [List.length_append] at hs; omega
      · simp [hbe]
    · rw [if_neg hc]
      have hlen : w1.buf.length + s.length ≤ cap := by
        rcases h5 with h5 | h5
        · exact h5
        · simp [h5]; omega
      refine ⟨⟨d1, [], .none _, h1, h2, ?_, ?_, h6⟩, by simpa using hlen, h4⟩
      · simp only [← List.append_assoc, h3]; exact List.prefix_refl _
      · intro _; exact ⟨rfl, by simp only [← List.append_assoc, h3]⟩
  unfold put
  simp only
  by_cases hc : cap < w.buf.length + s.length
  · rw [if_pos hc]
    obtain ⟨k1, ⟨u, k2, k3⟩, k4⟩ := writeAll_spec sum rs w.files w.buf
    have hwb : u ++ (writeAll sum rs w.files w.buf).2.1 = w.buf := k2.symm
    rcases hw : writeAll sum rs w.files w.buf with ⟨fs, b, e⟩
    rw [hw] at k1 k3 k4 hwb
    simp only at k1 k3 k4 hwb
    have bad : (∀ rest, e ≠ .ok rest) → DoesFrom cap sum s [] d w ({ w with files := fs, buf := b }, e) := by
      intro hne
      refine ⟨⟨d ++ u, [], .none _, k3 _ hd, k1, ?_, fun ⟨rest, hr⟩ => absurd hr (hne rest), ?_⟩, ?_, rfl⟩
      · simp only [List.append_assoc, List.prefix_append_right_inj]
        rw [hwb]
        exact ⟨s, rfl⟩
      · intro hs; simp only [List.length_append] at hs; omega
      · have := congrArg List.length hwb
        simp only [List.length_append] at this
        simp only; omega
    cases e with
    | err t rest => exact bad (by simp)
    | killed => exact bad (by simp)
    | ok rest =>
      have hb0 := k4 rest rfl
      subst hb0
      have hu : u = w.buf := by simpa using hwb
      subst hu
      simp only
      exact next ⟨fs, w.dirs, []⟩ rest (d ++ w.buf) (k3 _ hd) k1 (by simp) rfl (.inr rfl)
        (fun hs => by simp only [List.length_append] at hs; omega)
  · rw [if_neg hc]
    exact next w rs d hd (fun _ _ => rfl) rfl rfl (.inl (by omega)) (fun _ => rfl)

theorem Does.single {cap : Nat} {sum : Str} {c : Cmd} {line : Str} {ws : List Written}
    (h : ∀ w rs d, w.files sum = some d → w.buf.length ≤ cap → DoesFrom cap sum line ws d w (step cap sum w c rs)) :
    Does cap sum [c] line ws := by
  intro w rs d hd hb
  have := h w rs d hd hb
  simp only [exec]
  rcases hs : step cap sum w c rs with ⟨w', r | ⟨t, r⟩ | _⟩ <;> rw [hs] at this <;> exact this

theorem Does.table (cap : Nat) (sum s : Str) : Does cap sum [.table s] s [] :=
  .single fun w rs d hd hb => by
    have : step cap sum w (.table s) rs = put cap sum false w s rs := by cases rs <;> rfl
    rw [this]; exact put_does false w s rs d (by simp) hd hb

theorem Does.tableOnce (cap : Nat) (sum s : Str) (h : s.length < cap) : Does cap sum [.tableOnce s] s [] :=
  .single fun w rs d hd hb => by
    have : step cap sum w (.tableOnce s) rs = put cap sum true w s rs := by cases rs <;> rfl
    rw [this]; exact put_does true w s rs d (fun _ => h) hd hb

theorem Does.tables (cap : Nat) (sum : Str) (ss : List Str) : Does cap sum (ss.map .table) ss.flatten [] := by
  induction ss with
  | nil => exact .nil _ _
  | cons s ss ih => exact (Does.table cap sum s).append ih

/-- the rows of a distribution. -/
theorem exec_files (cap : Nat) (sum p : Str) (ss : List Str) (w : OnDisk) (rs : List Answer) (t : Str)
    (ht : w.files p = some t) :
    ∃ u, u <+: ss.flatten ∧ (exec cap sum w (ss.map (.file p)) rs).1.files p = some (t ++ u) ∧
      (∀ q, q ≠ p → (exec cap sum w (ss.map (.file p)) rs).1.files q = w.files q) ∧
      (exec cap sum w (ss.map (.file p)) rs).1.buf = w.buf ∧ (exec cap sum w (ss.map (.file p)) rs).1.dirs = w.dirs ∧
      ((∃ rest, (exec cap sum w (ss.map (.file p)) rs).2 = .ok rest) → u = ss.flatten) := by
  induction ss generalizing w rs t with
  | nil => exact ⟨[], by simp, by simpa [exec] using ht, fun _ _ => rfl, rfl, rfl, fun _ => rfl⟩
  | cons s ss ih =>
    obtain ⟨k1, ⟨u, k2, k3⟩, k4⟩ := writeAll_spec p rs w.files s
    have hstep : step cap sum w (.file p s) rs =
        ({ w with files := (writeAll p rs w.files s).1 }, (writeAll p rs w.files s).2.2) := by cases rs <;> rfl
    simp only [List.map_cons, exec, hstep]
    rcases hw : writeAll p rs w.files s with ⟨fs, b, e⟩
    rw [hw] at k1 k2 k3 k4
    simp only at k1 k2 k3 k4
    cases e with
    | err tg rest =>
      refine ⟨u, ⟨b ++ ss.flatten, by simp [k2]⟩, k3 t ht, k1, rfl, rfl, by simp⟩
    | killed =>
      refine ⟨u, ⟨b ++ ss.flatten, by simp [k2]⟩, k3 t ht, k1, rfl, rfl, by simp⟩
    | ok rest =>
      have hb0 := k4 rest rfl
      subst hb0
      rw [List.append_nil] at k2
      subst k2
      obtain ⟨v, j1, j2, j3, j4, j5, j6⟩ := ih { w with files := fs } rest (t ++ s) (k3 t ht)
      simp only
      refine ⟨s ++ v, by simpa using j1, by rw [j2, List.append_assoc], fun q hq => (j3 q hq).trans (k1 q hq), j4, j5, ?_⟩
      intro hr
      rw [j6 hr]; rfl

theorem Does.file (cap : Nat) (sum p : Str) (ss : List Str) (hp : p ≠ sum) :
    Does cap sum (.create p :: ss.map (.file p)) [] [⟨p, ss.flatten⟩] := by
  intro w rs d hd hb
  rcases rs with _ | ⟨r | t, rs⟩
  · exact ⟨⟨d, [], .none _, hd, fun _ _ => rfl, by simp [exec, step], by simp [exec, step], fun _ => rfl⟩, hb, rfl⟩
  · simp only [exec, step]
    obtain ⟨u, h1, h2, h3, h4, h5, h6⟩ := exec_files cap sum p ss { w with files := w.files.set p [] } rs []
      (Files.set_same _ _ _)
    simp only [List.nil_append] at h2 h4 h5
    refine ⟨⟨d, [⟨p, u⟩], .cut ⟨p, ss.flatten⟩ u [] h1, ?_, ?_, ?_, ?_, fun _ => rfl⟩, by rw [h4]; exact hb, h5⟩
    · rw [h3 _ (Ne.symm hp), ← hd]; exact Files.set_other _ _ _ (Ne.symm hp)
    · intro q _
      by_cases hq : q = p
      · subst hq; rw [h2]; exact (Files.set_same _ _ _).symm
      · rw [h3 q hq]; exact (Files.set_other _ _ _ hq).trans (Files.set_other _ _ _ hq).symm
    · rw [h4]; simp
    · intro hr; rw [h6 hr, h4]; simp
  · exact ⟨⟨d, [], .none _, hd, fun _ _ => rfl, by simp [exec, step], by simp [exec, step], fun _ => rfl⟩, hb, rfl⟩

/-! ### what is used up -/

theorem put_frame (cap : Nat) (sum : Str) (once : Bool) (w : OnDisk) (s : Str) (rs : List Answer) :
    FrameAt (put cap sum once w s) rs := by
  have next : ∀ (w1 : OnDisk) (rs1 : List Answer), FrameAt (fun rs1 => if cap ≤ s.length then
        if once then
          let r := writeOnce sum rs1 w1.files s
          (({ w1 with files := r.1 } : OnDisk), r.2)
        else
          let r := writeAll sum rs1 w1.files s
          ({ w1 with files := r.1 }, r.2.2)
      else ({ w1 with buf := w1.buf ++ s }, .ok rs1)) rs1 := by
    intro w1 rs1 w' rest h
    by_cases hc : cap ≤ s.length
    · simp only [if_pos hc] at h ⊢
      cases once with
      | true =>
        simp only [if_true] at h ⊢
        rcases rs1 with _ | ⟨n | t, rs1⟩
        · simp [writeOnce] at h
        · simp only [writeOnce, Prod.mk.injEq, Ended.ok.injEq] at h
          refine ⟨[.done n], by simp [h.2], fun ext => by simp [writeOnce, h.1]⟩
        · simp [writeOnce] at h
      | false =>
        simp only [Bool.false_eq_true, if_false] at h ⊢
        simp only [Prod.mk.injEq] at h
        obtain ⟨used, h1, h2⟩ := writeAll_frame sum rs1 w1.files s rest h.2
        exact ⟨used, h1, fun ext => by rw [h2 ext]; simp [h.1]⟩
    · simp only [if_neg hc, Prod.mk.injEq, Ended.ok.injEq] at h ⊢
      exact ⟨[], by simp [h.2], fun ext => ⟨h.1, rfl⟩⟩
  intro w' rest h
  unfold put at h ⊢
  simp only at h ⊢
  by_cases hc : cap < w.buf.length + s.length
  · simp only [if_pos hc] at h ⊢
    rcases hw : writeAll sum rs w.files w.buf with ⟨fs, b, e⟩
    rw [hw] at h
    cases e with
    | err t r => simp at h
    | killed => simp at h
    | ok r =>
      simp only at h
      obtain ⟨used, h1, h2⟩ := writeAll_frame sum rs w.files w.buf r (by rw [hw])
      rw [hw] at h2
      obtain ⟨used', h3, h4⟩ := next ⟨fs, w.dirs, b⟩ r w' rest h
      refine ⟨used ++ used', by rw [h1, h3, List.append_assoc], fun ext => ?_⟩
      rw [List.append_assoc, h2]
      exact h4 ext
  · simp only [if_neg hc] at h ⊢
    exact next w rs w' rest h

theorem step_frame (cap : Nat) (sum : Str) (w : OnDisk) (c : Cmd) (rs : List Answer) : FrameAt (step cap sum w c) rs := by
  intro w' rest h
  cases c with
  | mkdir p =>
    rcases rs with _ | ⟨n | t, rs⟩
    · simp [step] at h
    · simp only [step, Prod.mk.injEq, Ended.ok.injEq] at h
      exact ⟨[.done n], by simp [h.2], fun ext => by simp [step, h.1]⟩
    · simp [step] at h
  | create p =>
    rcases rs with _ | ⟨n | t, rs⟩
    · simp [step] at h
    · simp only [step, Prod.mk.injEq, Ended.ok.injEq] at h
      exact ⟨[.done n], by simp [h.2], fun ext => by simp [step, h.1]⟩
    · simp [step] at h
  | file p s =>
    have e : ∀ rs, step cap sum w (.file p s) rs =
        ({ w with files := (writeAll p rs w.files s).1 }, (writeAll p rs w.files s).2.2) := fun rs => by cases rs <;> rfl
    rw [e, Prod.mk.injEq] at h
    obtain ⟨used, h1, h2⟩ := writeAll_frame p rs w.files s rest h.2
    exact ⟨used, h1, fun ext => by rw [e, h2 ext]; simp [h.1]⟩
  | table s =>
    have e : step cap sum w (.table s) = put cap sum false w s := by funext rs; cases rs <;> rfl
    rw [e] at h ⊢; exact put_frame cap sum false w s rs w' rest h
  | tableOnce s =>
    have e : step cap sum w (.tableOnce s) = put cap sum true w s := by funext rs; cases rs <;> rfl
    rw [e] at h ⊢; exact put_frame cap sum true w s rs w' rest h

theorem exec_frame (cap : Nat) (sum : Str) (w : OnDisk) (cs : List Cmd) (rs : List Answer) :
    FrameAt (exec cap sum w cs) rs := by
  induction cs generalizing w rs with
  | nil =>
    intro w' rest h
    simp only [exec, Prod.mk.injEq, Ended.ok.injEq] at h
    exact ⟨[], by simp [h.2], fun ext => by simp [exec, h.1]⟩
  | cons c cs ih =>
    intro w' rest h
    simp only [exec] at h ⊢
    rcases hs : step cap sum w c rs with ⟨w1, r | ⟨t, r⟩ | _⟩
    · rw [hs] at h
      simp only at h
      obtain ⟨used, h1, h2⟩ := step_frame cap sum w c rs w1 r hs
      obtain ⟨used', h3, h4⟩ := ih w1 r w' rest h
      refine ⟨used ++ used', by rw [h1, h3, List.append_assoc], fun ext => ?_⟩
      rw [List.append_assoc, h2]
      exact h4 ext
    · rw [hs] at h; simp at h
    · rw [hs] at h; simp at h

/-- an upper bound for the number of answers a call needs. -/
def Cmd.cost : Cmd → Nat
  | .mkdir _ => 1
  | .create _ => 1
  | .file _ s => s.length + 1
  | .table s => s.length + 1
  | .tableOnce s => s.length + 1

theorem put_progress (cap : Nat) (sum : Str) (once : Bool) (w : OnDisk) (s : Str) (rs : List Answer) (hp : Progress rs)
    (hl : w.buf.length + (s.length + 1) ≤ rs.length) :
    ∃ rest, (put cap sum once w s rs).2 = .ok rest ∧ Progress rest ∧
      rs.length + (put cap sum once w s rs).1.buf.length ≤ rest.length + (w.buf.length + (s.length + 1)) := by
  have next : ∀ (w1 : OnDisk) (rs1 : List Answer), Progress rs1 → s.length + 1 ≤ rs1.length →
      ∃ rest, ((if cap ≤ s.length then
        if once then
          let r := writeOnce sum rs1 w1.files s
          (({ w1 with files := r.1 } : OnDisk), r.2)
        else
          let r := writeAll sum rs1 w1.files s
          ({ w1 with files := r.1 }, r.2.2)
      else ({ w1 with buf := w1.buf ++ s }, .ok rs1)) : OnDisk × Ended).2 = .ok rest ∧ Progress rest ∧
      rs1.length + ((if cap ≤ s.length then
        if once then
          let r := writeOnce sum rs1 w1.files s
          (({ w1 with files := r.1 } : OnDisk), r.2)
        else
          let r := writeAll sum rs1 w1.files s
          ({ w1 with files := r.1 }, r.2.2)
      else ({ w1 with buf := w1.buf ++ s }, .ok rs1)) : OnDisk × Ended).1.buf.length ≤
        rest.length + (w1.buf.length + (s.length + 1)) := by
    intro w1 rs1 hp1 hl1
    by_cases hc : cap ≤ s.length
    · simp only [if_pos hc]
      cases once with
      | true =>
        simp only [if_true]
        rcases rs1 with _ | ⟨r, rs1⟩
        · simp at hl1
        · obtain ⟨n, rfl⟩ := hp1 r (by simp)
          exact ⟨rs1, rfl, fun r hr => hp1 r (by simp [hr]), by simp; omega⟩
      | false =>
        simp only [Bool.false_eq_true, if_false]
        obtain ⟨rest, h1, h2, h3⟩ := writeAll_progress sum rs1 w1.files s hp1 (by omega)
        exact ⟨rest, h1, h2, by omega⟩
    · simp only [if_neg hc]
      exact ⟨rs1, rfl, hp1, by simp only [List.length_append]; omega⟩
  unfold put
  simp only
  by_cases hc : cap < w.buf.length + s.length
  · simp only [if_pos hc]
    obtain ⟨r, h1, h2, h3⟩ := writeAll_progress sum rs w.files w.buf hp (by omega)
    have h4 := (writeAll_spec sum rs w.files w.buf).2.2 r h1
    rcases hw : writeAll sum rs w.files w.buf with ⟨fs, b, e⟩
    rw [hw] at h1 h4
    simp only at h1 h4
    subst h1 h4
    simp only
    obtain ⟨rest, k1, k2, k3⟩ := next ⟨fs, w.dirs, []⟩ r h2 (by omega)
    refine ⟨rest, k1, k2, ?_⟩
    simp only [List.length_nil] at k3
    omega
  · simp only [if_neg hc]
    exact next w rs hp (by omega)

theorem step_progress (cap : Nat) (sum : Str) (w : OnDisk) (c : Cmd) (rs : List Answer) (hp : Progress rs)
    (hl : w.buf.length + c.cost ≤ rs.length) :
    ∃ rest, (step cap sum w c rs).2 = .ok rest ∧ Progress rest ∧
      rs.length + (step cap sum w c rs).1.buf.length ≤ rest.length + (w.buf.length + c.cost) := by
  cases c with
  | mkdir p =>
    rcases rs with _ | ⟨r, rs⟩
    · simp [Cmd.cost] at hl
    · obtain ⟨n, rfl⟩ := hp r (by simp)
      exact ⟨rs, rfl, fun r hr => hp r (by simp [hr]), by simp [Cmd.cost, step]; omega⟩
  | create p =>
    rcases rs with _ | ⟨r, rs⟩
    · simp [Cmd.cost] at hl
    · obtain ⟨n, rfl⟩ := hp r (by simp)
      exact ⟨rs, rfl, fun r hr => hp r (by simp [hr]), by simp [Cmd.cost, step]; omega⟩
  | file p s =>
    have e : step cap sum w (.file p s) rs =
        ({ w with files := (writeAll p rs w.files s).1 }, (writeAll p rs w.files s).2.2) := by cases rs <;> rfl
    rw [e]
    simp only [Cmd.cost] at hl ⊢
    obtain ⟨rest, h1, h2, h3⟩ := writeAll_progress p rs w.files s hp (by omega)
    exact ⟨rest, h1, h2, by omega⟩
  | table s =>
    have e : step cap sum w (.table s) rs = put cap sum false w s rs := by cases rs <;> rfl
    rw [e]; exact put_progress cap sum false w s rs hp hl
  | tableOnce s =>
    have e : step cap sum w (.tableOnce s) rs = put cap sum true w s rs := by cases rs <;> rfl
    rw [e]; exact put_progress cap sum true w s rs hp hl

theorem exec_progress (cap : Nat) (sum : Str) (w : OnDisk) (cs : List Cmd) (rs : List Answer) (hp : Progress rs)
    (hl : w.buf.length + (cs.map Cmd.cost).sum ≤ rs.length) :
    ∃ rest, (exec cap sum w cs rs).2 = .ok rest ∧ Progress rest ∧
      rs.length + (exec cap sum w cs rs).1.buf.length ≤ rest.length + (w.buf.length + (cs.map Cmd.cost).sum) := by
  induction cs generalizing w rs with
  | nil => exact ⟨rs, rfl, hp, by simp [exec]⟩
  | cons c cs ih =>
    simp only [List.map_cons, List.sum_cons] at hl ⊢
    obtain ⟨r, h1, h2, h3⟩ := step_progress cap sum w c rs hp (by omega)
    simp only [exec]
    rcases hs : step cap sum w c rs with ⟨w1, e⟩
    rw [hs] at h1 h3
    simp only at h1 h3
    subst h1
    simp only
    obtain ⟨rest, k1, k2, k3⟩ := ih w1 r h2 (by omega)
    exact ⟨rest, k1, k2, by omega⟩

theorem writeAll_healthy (p : Str) (rs : List Answer) (fs : Files) (s : Str) (hp : Progress rs) (t : Nat) (r : List Answer) :
    (writeAll p rs fs s).2.2 ≠ .err t r := by
  induction rs generalizing fs s with
  | nil => cases s <;> simp [writeAll]
  | cons x rs ih =>
    cases s with
    | nil => simp [writeAll]
    | cons c s =>
      obtain ⟨n, rfl⟩ := hp x (by simp)
      simp only [writeAll]
      exact ih _ _ (fun r hr => hp r (by simp [hr]))

theorem writeOnce_healthy (p : Str) (rs : List Answer) (fs : Files) (s : Str) (hp : Progress rs) (t : Nat) (r : List Answer) :
    (writeOnce p rs fs s).2 ≠ .err t r := by
  cases rs with
  | nil => simp [writeOnce]
  | cons x rs =>
    obtain ⟨n, rfl⟩ := hp x (by simp)
    simp [writeOnce]

theorem put_healthy (cap : Nat) (sum : Str) (once : Bool) (w : OnDisk) (s : Str) (rs : List Answer) (hp : Progress rs)
    (t : Nat) (r : List Answer) : (put cap sum once w s rs).2 ≠ .err t r := by
  have next : ∀ (w1 : OnDisk) (rs1 : List Answer), Progress rs1 → ((if cap ≤ s.length then
        if once then
          let r := writeOnce sum rs1 w1.files s
          (({ w1 with files := r.1 } : OnDisk), r.2)
        else
          let r := writeAll sum rs1 w1.files s
          ({ w1 with files := r.1 }, r.2.2)
      else ({ w1 with buf := w1.buf ++ s }, .ok rs1)) : OnDisk × Ended).2 ≠ .err t r := by
    intro w1 rs1 hp1
    by_cases hc : cap ≤ s.length
    · simp only [if_pos hc]
      cases once with
      | true => simp only [if_true]; exact writeOnce_healthy _ _ _ _ hp1 t r
      | false => simp only [Bool.false_eq_true, if_false]; exact writeAll_healthy _ _ _ _ hp1 t r
    · simp only [if_neg hc]; simp
  unfold put
  simp only
  by_cases hc : cap < w.buf.length + s.length
  · simp only [if_pos hc]
    have h1 := writeAll_healthy sum rs w.files w.buf hp
    have h2 := writeAll_frame sum rs w.files w.buf
    rcases hw : writeAll sum rs w.files w.buf with ⟨fs, b, e⟩
    rw [hw] at h1 h2
    cases e with
    | ok rest =>
      obtain ⟨used, k1, -⟩ := h2 rest rfl
      exact next ⟨fs, w.dirs, b⟩ rest (fun x hx => hp x (by rw [k1]; simp [hx]))
    | err t' r' => exact absurd rfl (h1 t' r')
    | killed => simp
  · simp only [if_neg hc]
    exact next w rs hp

theorem step_healthy (cap : Nat) (sum : Str) (w : OnDisk) (c : Cmd) (rs : List Answer) (hp : Progress rs)
    (t : Nat) (r : List Answer) : (step cap sum w c rs).2 ≠ .err t r := by
  cases c with
  | mkdir p =>
    cases rs with
    | nil => simp [step]
    | cons x rs => obtain ⟨n, rfl⟩ := hp x (by simp); simp [step]
  | create p =>
    cases rs with
    | nil => simp [step]
    | cons x rs => obtain ⟨n, rfl⟩ := hp x (by simp); simp [step]
  | file p s =>
    have e : step cap sum w (.file p s) rs =
        ({ w with files := (writeAll p rs w.files s).1 }, (writeAll p rs w.files s).2.2) := by cases rs <;> rfl
    rw [e]; exact writeAll_healthy _ _ _ _ hp t r
  | table s =>
    have e : step cap sum w (.table s) rs = put cap sum false w s rs := by cases rs <;> rfl
    rw [e]; exact put_healthy cap sum false w s rs hp t r
  | tableOnce s =>
    have e : step cap sum w (.tableOnce s) rs = put cap sum true w s rs := by cases rs <;> rfl
    rw [e]; exact put_healthy cap sum true w s rs hp t r

theorem exec_healthy (cap : Nat) (sum : Str) (w : OnDisk) (cs : List Cmd) (rs : List Answer) (hp : Progress rs)
    (t : Nat) (r : List Answer) : (exec cap sum w cs rs).2 ≠ .err t r := by
  induction cs generalizing w rs with
  | nil => simp [exec]
  | cons c cs ih =>
    simp only [exec]
    have h1 := step_healthy cap sum w c rs hp
    have h2 := step_frame cap sum w c rs
    rcases hs : step cap sum w c rs with ⟨w1, e⟩
    rw [hs] at h1
    cases e with
    | ok rest =>
      obtain ⟨used, k1, -⟩ := h2 w1 rest hs
      exact ih w1 rest (fun x hx => hp x (by rw [k1]; simp [hx]))
    | err t' r' => exact absurd rfl (h1 t' r')
    | killed => simp

end Moledyn

namespace Moledyn
open OnDisk

/-! ### whole runs -/

/-- the calls before the first text. -/
def openCmds (a b c sum : Str) : List Cmd := [.mkdir a, .mkdir b, .mkdir c, .create sum]

theorem open_run (cap : Nat) (sum a b c : Str) (files : Files) (rs : List Answer) :
    ((exec cap sum ⟨files, [], []⟩ (openCmds a b c sum) rs).1.files = files ∧
      (exec cap sum ⟨files, [], []⟩ (openCmds a b c sum) rs).1.buf = [] ∧
      (exec cap sum ⟨files, [], []⟩ (openCmds a b c sum) rs).1.dirs <+: [a, b, c] ∧
      ((exec cap sum ⟨files, [], []⟩ (openCmds a b c sum) rs).2 = .killed ∨
        ∃ t r, (exec cap sum ⟨files, [], []⟩ (openCmds a b c sum) rs).2 = .err t r)) ∨
    ∃ r, exec cap sum ⟨files, [], []⟩ (openCmds a b c sum) rs = (⟨files.set sum [], [a, b, c], []⟩, .ok r) := by
  rcases rs with _ | ⟨n1 | t1, rs⟩
  · exact .inl ⟨rfl, rfl, by simp [exec, openCmds, step], .inl rfl⟩
  · rcases rs with _ | ⟨n2 | t2, rs⟩
    · exact .inl ⟨rfl, rfl, by simp [exec, openCmds, step], .inl rfl⟩
    · rcases rs with _ | ⟨n3 | t3, rs⟩
      · exact .inl ⟨rfl, rfl, by simp [exec, openCmds, step], .inl rfl⟩
      · rcases rs with _ | ⟨n4 | t4, rs⟩
        · exact .inl ⟨rfl, rfl, by simp [exec, openCmds, step], .inl rfl⟩
        · exact .inr ⟨rs, rfl⟩
        · exact .inl ⟨rfl, rfl, by simp [exec, openCmds, step], .inr ⟨t4, rs, rfl⟩⟩
      · exact .inl ⟨rfl, rfl, by simp [exec, openCmds, step], .inr ⟨t3, rs, rfl⟩⟩
    · exact .inl ⟨rfl, rfl, by simp [exec, openCmds, step], .inr ⟨t2, rs, rfl⟩⟩
  · exact .inl ⟨rfl, rfl, by simp [exec, openCmds, step], .inr ⟨t1, rs, rfl⟩⟩

theorem writeAll_nil (p : Str) (rs : List Answer) (fs : Files) : writeAll p rs fs [] = (fs, [], .ok rs) := by
  cases rs with
  | nil => rfl
  | cons r rs => rcases r with ⟨⟨⟩ | n⟩ | t <;> rfl

/-- the end of the scope. -/
def dropEnd (sum : Str) (w : OnDisk) (rs : List Answer) (r : Res Unit) : OnDisk × Option (Res Unit) :=
  match writeAll sum rs w.files w.buf with
  | (fs, b, .killed) => ({ w with files := fs, buf := b }, none)
  | (fs, b, _) => ({ w with files := fs, buf := b }, some r)

theorem Script.run_def (cap : Nat) (sum : Str) (p : Script) (w : OnDisk) (rs : List Answer) :
    p.run cap sum w rs = match exec cap sum w p.cmds rs with
      | (w, .killed) => (w, none)
      | (w, .err t rs) => dropEnd sum w rs (.err (.io t))
      | (w, .ok rs) => match p.last with
        | none => (w, none)
        | some r => dropEnd sum w rs r := rfl

theorem dropEnd_nil (sum : Str) (w : OnDisk) (rs : List Answer) (r : Res Unit) (h : w.buf = []) :
    dropEnd sum w rs r = (w, some r) := by
  unfold dropEnd
  rw [h, writeAll_nil]
  cases w; simp only at h; subst h; rfl

theorem dropEnd_spec (sum : Str) (w : OnDisk) (rs : List Answer) (r : Res Unit) (d : Str) (hd : w.files sum = some d) :
    ∃ u b, w.buf = u ++ b ∧ (dropEnd sum w rs r).1.files sum = some (d ++ u) ∧
      (∀ q, q ≠ sum → (dropEnd sum w rs r).1.files q = w.files q) ∧
      (dropEnd sum w rs r).1.dirs = w.dirs ∧
      ((dropEnd sum w rs r).2 = none ∨ (dropEnd sum w rs r).2 = some r) := by
  obtain ⟨k1, ⟨u, k2, k3⟩, -⟩ := writeAll_spec sum rs w.files w.buf
  refine ⟨u, _, k2, ?_⟩
  clear k2
  unfold dropEnd
  rcases hw : writeAll sum rs w.files w.buf with ⟨fs, b, e⟩
  rw [hw] at k1 k3
  cases e with
  | ok rest => exact ⟨k3 d hd, k1, rfl, .inr rfl⟩
  | err t rest => exact ⟨k3 d hd, k1, rfl, .inr rfl⟩
  | killed => exact ⟨k3 d hd, k1, rfl, .inl rfl⟩

/-- the disk in one piece. -/
theorem lay_table {files fs : Files} {sum s : Str} {vs : List Written} (hs : fs sum = some s)
    (hq : ∀ q, q ≠ sum → fs q = (files.set sum []).lay vs q) (hv : ∀ v ∈ vs, v.path ≠ sum) :
    fs = files.lay (⟨sum, s⟩ :: vs) := by
  funext q
  rw [Files.lay_cons]
  by_cases h : q = sum
  · subst h; rw [hs, Files.lay_absent vs hv]; exact (Files.set_same _ _ _).symm
  · rw [hq q h]
    refine Files.lay_congr ?_ _
    rw [Files.set_other _ _ _ h]; exact (Files.set_other _ _ _ h).symm

/-- after a call: an error is the first one, and otherwise no answer used was one. -/
def Ended.Faithful (rs : List Answer) : Ended → Prop
  | .ok rest => ∃ pre, rs = pre ++ rest ∧ ∀ b ∈ pre, ∃ n, b = .done n
  | .err tag _ => FirstError rs tag
  | .killed => True

theorem FirstError.append {pre rest : List Answer} {tag : Nat} (h : ∀ b ∈ pre, ∃ n, b = Answer.done n) (h' : FirstError rest tag) :
    FirstError (pre ++ rest) tag := by
  obtain ⟨p, a, r, rfl, h1, h2⟩ := h'
  refine ⟨pre ++ p, a, r, by simp, fun b hb => ?_, h2⟩
  rcases List.mem_append.1 hb with hb | hb
  · exact h b hb
  · exact h1 b hb

theorem Ended.Faithful.after {pre rest : List Answer} {e : Ended} (h : ∀ b ∈ pre, ∃ n, b = Answer.done n) (h' : e.Faithful rest) :
    e.Faithful (pre ++ rest) := by
  rcases e with r | ⟨t, r⟩ | _
  · obtain ⟨p, rfl, h1⟩ := h'
    refine ⟨pre ++ p, by simp, fun b hb => ?_⟩
    rcases List.mem_append.1 hb with hb | hb
    · exact h b hb
    · exact h1 b hb
  · exact FirstError.append h h'
  · trivial

theorem faithful_refl (rs : List Answer) : (Ended.ok rs).Faithful rs := ⟨[], rfl, by simp⟩

theorem writeAll_faithful (p : Str) (rs : List Answer) (fs : Files) (s : Str) : (writeAll p rs fs s).2.2.Faithful rs := by
  fun_induction writeAll p rs fs s with
  | case1 => exact faithful_refl _
  | case2 => trivial
  | case3 => exact ⟨[], _, _, rfl, by simp, .inl rfl⟩
  | case4 => exact ⟨[], _, _, rfl, by simp, .inr ⟨rfl, rfl⟩⟩
  | case5 n rs fs c s ih => exact Ended.Faithful.after (pre := [.done (n + 1)]) (by simp) ih

theorem writeOnce_faithful (p : Str) (rs : List Answer) (fs : Files) (s : Str) : (writeOnce p rs fs s).2.Faithful rs := by
  rcases rs with _ | ⟨n | t, rs⟩
  · trivial
  · exact ⟨[.done n], rfl, by simp⟩
  · exact ⟨[], _, _, rfl, by simp, .inl rfl⟩

theorem put_faithful (cap : Nat) (sum : Str) (once : Bool) (w : OnDisk) (s : Str) (rs : List Answer) :
    (put cap sum once w s rs).2.Faithful rs := by
  have next : ∀ (w : OnDisk) (rs : List Answer), ((if cap ≤ s.length then
      if once then ({ w with files := (writeOnce sum rs w.files s).1 }, (writeOnce sum rs w.files s).2)
      else ({ w with files := (writeAll sum rs w.files s).1 }, (writeAll sum rs w.files s).2.2)
    else ({ w with buf := w.buf ++ s }, .ok rs) : OnDisk × Ended)).2.Faithful rs := by
    intro w rs
    split
    · split
      · exact writeOnce_faithful _ _ _ _
      · exact writeAll_faithful _ _ _ _
    · exact faithful_refl _
  unfold put
  simp only
  split
  · have h := writeAll_faithful sum rs w.files w.buf
    rcases hw : writeAll sum rs w.files w.buf with ⟨fs, b, r | ⟨t, r⟩ | _⟩
    · rw [hw] at h
      obtain ⟨pre, rfl, h1⟩ := h
      exact Ended.Faithful.after h1 (next { w with files := fs, buf := b } r)
    · rw [hw] at h; exact h
    · trivial
  · exact next _ _

theorem step_faithful (cap : Nat) (sum : Str) (w : OnDisk) (c : Cmd) (rs : List Answer) : (step cap sum w c rs).2.Faithful rs := by
  rcases c with p | p | ⟨p, s⟩ | s | s
  · rcases rs with _ | ⟨n | t, rs⟩
    · trivial
    · exact ⟨[.done n], rfl, by simp⟩
    · exact ⟨[], _, _, rfl, by simp, .inl rfl⟩
  · rcases rs with _ | ⟨n | t, rs⟩
    · trivial
    · exact ⟨[.done n], rfl, by simp⟩
    · exact ⟨[], _, _, rfl, by simp, .inl rfl⟩
  · exact writeAll_faithful _ _ _ _
  · exact put_faithful _ _ _ _ _ _
  · exact put_faithful _ _ _ _ _ _

theorem exec_faithful (cap : Nat) (sum : Str) (w : OnDisk) (cs : List Cmd) (rs : List Answer) :
    (exec cap sum w cs rs).2.Faithful rs := by
  induction cs generalizing w rs with
  | nil => exact faithful_refl _
  | cons c cs ih =>
    unfold exec
    have h := step_faithful cap sum w c rs
    rcases hs : step cap sum w c rs with ⟨w', r | ⟨t, r⟩ | _⟩
    · rw [hs] at h
      obtain ⟨pre, rfl, h1⟩ := h
      exact Ended.Faithful.after h1 (ih _ _)
    · rw [hs] at h; exact h
    · trivial

theorem run_error {cap : Nat} {sum : Str} {p : Script} {w left : OnDisk} {rs : List Answer} {q : Res Unit}
    (h : p.run cap sum w rs = (left, some q)) :
    some q = p.last ∨ ∃ tag, q = .err (.io tag) ∧ FirstError rs tag := by
  unfold Script.run at h
  have hf := exec_faithful cap sum w p.cmds rs
  rcases he : exec cap sum w p.cmds rs with ⟨w', r | ⟨t, r⟩ | _⟩
  · simp only [he] at h
    rcases hl : p.last with _ | q'
    · simp [hl] at h
    · simp only [hl] at h
      left
      rcases hw : writeAll sum r w'.files w'.buf with ⟨fs, b, r | ⟨t, r⟩ | _⟩ <;> simp only [hw] at h
      · exact (Prod.mk.inj h).2.symm
      · exact (Prod.mk.inj h).2.symm
      · simp at h
  · simp only [he] at h
    rw [he] at hf
    right
    refine ⟨t, ?_, hf⟩
    rcases hw : writeAll sum r w'.files w'.buf with ⟨fs, b, r | ⟨t, r⟩ | _⟩ <;> simp only [hw] at h
    · exact (Option.some.inj (Prod.mk.inj h).2).symm
    · exact (Option.some.inj (Prod.mk.inj h).2).symm
    · simp at h
  · simp [he] at h

/-- what a run leaves, whatever happens. -/
theorem run_left {cap : Nat} {sum a b c text : Str} {rest : List Cmd} {ws : List Written} (last : Option (Res Unit))
    (h : Does cap sum rest text ws) (hw : ∀ v ∈ ws, v.path ≠ sum) (files : Files) (rs : List Answer)
    (r : OnDisk × Option (Res Unit))
    (hr : Script.run cap sum ⟨openCmds a b c sum ++ rest, last⟩ ⟨files, [], []⟩ rs = r) :
    r.1.dirs <+: [a, b, c] ∧
    ((r.1.files = files ∧ (r.2 = none ∨ ∃ t, r.2 = some (.err (.io t)))) ∨
     ∃ s vs, Begun vs ws ∧ s <+: text ∧ r.1.files = files.lay (⟨sum, s⟩ :: vs) ∧ r.1.dirs = [a, b, c] ∧
      (∀ q, r.2 = some q → (∃ t, q = .err (.io t)) ∨ (last = some q ∧ vs = ws ∧ text.length ≤ s.length + cap)) ∧
      (text.length < cap → r.2 = none → Progress rs → s = [] ∨ vs = ws)) := by
  subst hr
  rw [Script.run_def, exec_append]
  rcases open_run cap sum a b c files rs with ⟨h1, h2, h3, h4⟩ | ⟨r1, h1⟩
  · rcases ho : exec cap sum ⟨files, [], []⟩ (openCmds a b c sum) rs with ⟨w, e⟩
    rw [ho] at h1 h2 h3 h4
    simp only at h1 h2 h3 h4
    rcases h4 with rfl | ⟨t, r, rfl⟩
    · exact ⟨h3, .inl ⟨h1, .inl rfl⟩⟩
    · simp only [dropEnd_nil _ _ _ _ h2]
      exact ⟨h3, .inl ⟨h1, .inr ⟨t, rfl⟩⟩⟩
  · rw [h1]
    simp only
    obtain ⟨⟨d', vs, g1, g2, g3, g4, g5, g6⟩, gf, gd⟩ := h ⟨files.set sum [], [a, b, c], []⟩ r1 []
      (Files.set_same _ _ _) (by simp)
    rcases hx : exec cap sum ⟨files.set sum [], [a, b, c], []⟩ rest r1 with ⟨w, e⟩
    rw [hx] at g2 g3 g4 g5 gf gd
    simp only [List.nil_append] at g2 g3 g4 g5 g6 gf gd
    have hv : ∀ v ∈ vs, v.path ≠ sum := fun v hv => by
      obtain ⟨w', h1, h2, -⟩ := g1.path v hv
      rw [← h2]; exact hw w' h1
    have hpre : d' <+: text := (List.prefix_append _ _).trans g4
    cases e with
    | killed =>
      refine ⟨by simp [gd], .inr ⟨d', vs, g1, hpre, lay_table g2 g3 hv, gd, by simp, fun hl _ _ => .inl (g6 hl)⟩⟩
    | err t r2 =>
      obtain ⟨u, bb, j1, j2, j3, j4, j5⟩ := dropEnd_spec sum w r2 (.err (.io t)) d' g2
      refine ⟨by rw [j4, gd], .inr ⟨d' ++ u, vs, g1, ?_, lay_table j2 (fun q hq => (j3 q hq).trans (g3 q hq)) hv,
        j4.trans gd, ?_, ?_⟩⟩
      · refine List.IsPrefix.trans ?_ g4; rw [j1]; exact ⟨bb, by simp⟩
      · intro q hq
        rcases j5 with j5 | j5
        · exact absurd (j5.symm.trans hq) (by simp)
        · have := j5.symm.trans hq
          simp only [Option.some.injEq] at this
          exact .inl ⟨t, this.symm⟩
      · intro _ _ hp
        obtain ⟨used, k1, -⟩ := exec_frame cap sum ⟨files, [], []⟩ (openCmds a b c sum) rs _ _ h1
        exact absurd (by rw [hx] : (exec cap sum ⟨files.set sum [], [a, b, c], []⟩ rest r1).2 = .err t r2)
          (exec_healthy cap sum _ rest r1 (fun x hx => hp x (by rw [k1]; simp [hx])) t r2)
    | ok r2 =>
      obtain ⟨rfl, g7⟩ := g5 ⟨r2, rfl⟩
      simp only
      cases last with
      | none => exact ⟨by simp [gd], .inr ⟨d', vs, g1, hpre, lay_table g2 g3 hv, gd, by simp, fun hl _ _ => .inl (g6 hl)⟩⟩
      | some q =>
        simp only
        obtain ⟨u, bb, j1, j2, j3, j4, j5⟩ := dropEnd_spec sum w r2 q d' g2
        refine ⟨by rw [j4, gd], .inr ⟨d' ++ u, vs, g1, ?_, lay_table j2 (fun q hq => (j3 q hq).trans (g3 q hq)) hv,
          j4.trans gd, ?_, fun _ _ _ => .inr rfl⟩⟩
        · rw [← g7, j1]; exact ⟨bb, by simp⟩
        · intro q' hq
          rcases j5 with j5 | j5
          · exact absurd (j5.symm.trans hq) (by simp)
          · have := j5.symm.trans hq
            simp only [Option.some.injEq] at this
            refine .inr ⟨by rw [this], rfl, ?_⟩
            have h1 := congrArg List.length g7
            simp only [List.length_append] at h1 ⊢
            omega

/-- a run in which nothing goes wrong. -/
theorem run_done {cap : Nat} {sum a b c text : Str} {rest : List Cmd} {ws : List Written} (q : Res Unit)
    (h : Does cap sum rest text ws) (hw : ∀ v ∈ ws, v.path ≠ sum) (files : Files) (rs : List Answer) (hp : Progress rs)
    (hl : ((openCmds a b c sum ++ rest).map Cmd.cost).sum ≤ rs.length) :
    Script.run cap sum ⟨openCmds a b c sum ++ rest, some q⟩ ⟨files, [], []⟩ rs =
      (⟨files.lay (⟨sum, text⟩ :: ws), [a, b, c], []⟩, some q) := by
  obtain ⟨r0, h1, h2, h3⟩ := exec_progress cap sum ⟨files, [], []⟩ (openCmds a b c sum ++ rest) rs hp (by simpa using hl)
  rw [Script.run_def]
  have hA := exec_append cap sum ⟨files, [], []⟩ (openCmds a b c sum) rest rs
  rcases open_run cap sum a b c files rs with ⟨-, -, -, h4⟩ | ⟨r1, h4⟩
  · rcases ho : exec cap sum ⟨files, [], []⟩ (openCmds a b c sum) rs with ⟨w, e⟩
    rw [ho] at h4 hA
    rw [hA] at h1
    rcases h4 with h4 | ⟨t, r, h4⟩ <;> simp only at h4 <;> subst h4 <;> simp at h1
  · rw [h4] at hA
    simp only at hA
    rw [hA] at h1 h3
    obtain ⟨⟨d', vs, g1, g2, g3, g4, g5, g6⟩, gf, gd⟩ := h ⟨files.set sum [], [a, b, c], []⟩ r1 []
      (Files.set_same _ _ _) (by simp)
    simp only [hA]
    rcases hx : exec cap sum ⟨files.set sum [], [a, b, c], []⟩ rest r1 with ⟨w, e⟩
    rw [hx] at g2 g3 g5 gd h1 h3
    simp only at h1 g2 g3 g5 gd h3
    subst h1
    obtain ⟨rfl, g7⟩ := g5 ⟨r0, rfl⟩
    simp only [List.nil_append] at g7
    simp only
    unfold dropEnd
    obtain ⟨r2, k1, k2, k3⟩ := writeAll_progress sum r0 w.files w.buf h2 (by simp only [List.length_nil] at h3; omega)
    obtain ⟨j1, ⟨u, j2, j3⟩, j4⟩ := writeAll_spec sum r0 w.files w.buf
    have j5 := j4 r2 k1
    rcases hz : writeAll sum r0 w.files w.buf with ⟨fs, bb, e⟩
    rw [hz] at k1 j1 j2 j3 j5
    simp only at k1 j1 j2 j3 j5
    subst k1 j5
    simp only [List.append_nil] at j2
    rw [← j2] at j3
    have hfs : fs = files.lay (⟨sum, text⟩ :: vs) :=
      lay_table (by rw [j3 _ g2, g7]) (fun q hq => (j1 q hq).trans (g3 q hq)) hw
    simp only [hfs, gd]

/-- a table that fits into the buffer: everything but the table has been written when the end of the scope is reached. -/
theorem run_at_end {cap : Nat} {sum a b c text : Str} {rest : List Cmd} {ws : List Written} (q : Res Unit)
    (h : Does cap sum rest text ws) (hw : ∀ v ∈ ws, v.path ≠ sum) (ht : text.length < cap) (files : Files) :
    ∃ used, Progress used ∧ ∀ ext, Script.run cap sum ⟨openCmds a b c sum ++ rest, some q⟩ ⟨files, [], []⟩ (used ++ ext) =
      dropEnd sum ⟨files.lay (⟨sum, []⟩ :: ws), [a, b, c], text⟩ ext q := by
  obtain ⟨N, hN⟩ : ∃ N, N = ((openCmds a b c sum ++ rest).map Cmd.cost).sum := ⟨_, rfl⟩
  have hp : Progress (List.replicate N (.done 1)) := fun r hr => ⟨0, List.eq_of_mem_replicate hr⟩
  obtain ⟨r0, h1, h2, h3⟩ := exec_progress cap sum ⟨files, [], []⟩ (openCmds a b c sum ++ rest) (List.replicate N (.done 1)) hp
    (by simp [hN])
  have hA := exec_append cap sum ⟨files, [], []⟩ (openCmds a b c sum) rest (List.replicate N (.done 1))
  obtain ⟨used, u1, u2⟩ := exec_frame cap sum ⟨files, [], []⟩ (openCmds a b c sum ++ rest) (List.replicate N (.done 1)) _ r0
    (by rw [← h1])
  refine ⟨used, fun x hx => hp x (by rw [u1]; simp [hx]), fun ext => ?_⟩
  rw [Script.run_def]
  simp only
  rw [u2 ext]
  simp only
  congr 1
  rcases open_run cap sum a b c files (List.replicate N (.done 1)) with ⟨-, -, -, h4⟩ | ⟨r1, h4⟩
  · rcases ho : exec cap sum ⟨files, [], []⟩ (openCmds a b c sum) (List.replicate N (.done 1)) with ⟨w, e⟩
    rw [ho] at h4 hA
    rw [hA] at h1
    rcases h4 with h4 | ⟨t, r, h4⟩ <;> simp only at h4 <;> subst h4 <;> simp at h1
  · rw [h4] at hA
    simp only at hA
    rw [hA] at h1
    obtain ⟨⟨d', vs, g1, g2, g3, g4, g5, g6⟩, gf, gd⟩ := h ⟨files.set sum [], [a, b, c], []⟩ r1 []
      (Files.set_same _ _ _) (by simp)
    simp only [hA]
    rcases hx : exec cap sum ⟨files.set sum [], [a, b, c], []⟩ rest r1 with ⟨w, e⟩
    rw [hx] at g2 g3 g5 gd h1
    simp only at h1 g2 g3 g5 gd
    subst h1
    obtain ⟨rfl, g7⟩ := g5 ⟨r0, rfl⟩
    have g8 := g6 (by simpa using ht)
    subst g8
    simp only [List.nil_append] at g7
    have hfs : w.files = files.lay (⟨sum, []⟩ :: vs) := lay_table g2 g3 hw
    cases w
    simp only at hfs g7 gd
    subst hfs g7 gd
    rfl

/-- a run in which the `write` of a long text takes only a part of it. -/
theorem run_cut {cap : Nat} {sum a b c t0 line : Str} {pre post : List Cmd} {ws : List Written} (q : Res Unit)
    (h1 : Does cap sum pre t0 []) (h2 : Does cap sum post [] ws) (hw : ∀ v ∈ ws, v.path ≠ sum) (hc : 0 < cap)
    (hl : cap ≤ line.length) (n : Nat) (files : Files) :
    ∃ rs left, Progress rs ∧
      Script.run cap sum ⟨openCmds a b c sum ++ (pre ++ ([.tableOnce line] ++ post)), some q⟩ ⟨files, [], []⟩ rs =
        (left, some q) ∧ left.files = files.lay (⟨sum, t0 ++ line.take (n + 1)⟩ :: ws) := by
  have hp : ∀ N, Progress (List.replicate N (.done 1)) := fun N r hr => ⟨0, List.eq_of_mem_replicate hr⟩
  -- up to the long text
  obtain ⟨N, hN⟩ : ∃ N, N = ((openCmds a b c sum ++ pre).map Cmd.cost).sum := ⟨_, rfl⟩
  obtain ⟨r0, k1, -, -⟩ := exec_progress cap sum ⟨files, [], []⟩ (openCmds a b c sum ++ pre) (List.replicate N (.done 1)) (hp N)
    (by simp [hN])
  have hA := exec_append cap sum ⟨files, [], []⟩ (openCmds a b c sum) pre (List.replicate N (.done 1))
  obtain ⟨used, u1, u2⟩ := exec_frame cap sum ⟨files, [], []⟩ (openCmds a b c sum ++ pre) (List.replicate N (.done 1)) _ r0
    (by rw [← k1])
  obtain ⟨w1, hw1⟩ : ∃ w1, (exec cap sum ⟨files, [], []⟩ (openCmds a b c sum ++ pre) (List.replicate N (.done 1))).1 = w1 :=
    ⟨_, rfl⟩
  rw [hw1] at u2
  have hu : Progress used := fun x hx => hp N x (by rw [u1]; simp [hx])
  obtain ⟨d1, g1, g2, g3, g4⟩ : ∃ d1, w1.files sum = some d1 ∧ (∀ q, q ≠ sum → w1.files q = (files.set sum []) q) ∧
      d1 ++ w1.buf = t0 ∧ w1.buf.length ≤ cap := by
    rcases open_run cap sum a b c files (List.replicate N (.done 1)) with ⟨-, -, -, h4⟩ | ⟨r1, h4⟩
    · rcases ho : exec cap sum ⟨files, [], []⟩ (openCmds a b c sum) (List.replicate N (.done 1)) with ⟨w, e⟩
      rw [ho] at h4 hA
      rw [hA] at k1
      rcases h4 with h4 | ⟨t, r, h4⟩ <;> simp only at h4 <;> subst h4 <;> simp at k1
    · rw [h4] at hA
      simp only at hA
      rw [hA] at k1 hw1
      obtain ⟨⟨d', vs, g1, g2, g3, g4, g5, g6⟩, gf, gd⟩ := h1 ⟨files.set sum [], [a, b, c], []⟩ r1 []
        (Files.set_same _ _ _) (by simp)
      rw [hw1] at g2 g3 g5 gf
      obtain ⟨rfl, g7⟩ := g5 ⟨r0, k1⟩
      exact ⟨d', g2, g3, by simpa using g7, gf⟩
  -- the long text
  obtain ⟨used2, fs2, v1, v2, v3, v4⟩ : ∃ used2 fs2, Progress used2 ∧ fs2 sum = some (t0 ++ line.take (n + 1)) ∧
      (∀ q, q ≠ sum → fs2 q = (files.set sum []) q) ∧
      ∀ ext, put cap sum true w1 line (used2 ++ ext) = (⟨fs2, w1.dirs, []⟩, .ok ext) := by
    by_cases hf : cap < w1.buf.length + line.length
    · obtain ⟨r2, m1, -, -⟩ := writeAll_progress sum (List.replicate w1.buf.length (.done 1)) w1.files w1.buf (hp _) (by simp)
      obtain ⟨n1, ⟨u, n2, n3⟩, n4⟩ := writeAll_spec sum (List.replicate w1.buf.length (.done 1)) w1.files w1.buf
      obtain ⟨us, p1, p2⟩ := writeAll_frame sum (List.replicate w1.buf.length (.done 1)) w1.files w1.buf r2 m1
      have hb := n4 r2 m1
      rw [hb, List.append_nil] at n2
      subst n2
      refine ⟨us ++ [.done (n + 1)],
        ((writeAll sum (List.replicate w1.buf.length (.done 1)) w1.files w1.buf).1).append sum (line.take (n + 1)), ?_, ?_, ?_, ?_⟩
      · intro x hx
        rcases List.mem_append.1 hx with hx | hx
        · exact hp w1.buf.length x (by rw [p1]; simp [hx])
        · simp only [List.mem_singleton] at hx; exact ⟨n, hx⟩
      · rw [Files.append_same _ (n3 _ g1), g3]
      · intro q hq
        rw [Files.append_other _ _ _ hq, n1 q hq, g2 q hq]
      · intro ext
        unfold put
        simp only [if_pos hf]
        rw [List.append_assoc, p2]
        simp only [if_pos hl, if_true, List.cons_append, List.nil_append, writeOnce, hb]
    · have hb : w1.buf = [] := List.eq_nil_of_length_eq_zero (by omega)
      rw [hb, List.append_nil] at g3
      subst g3
      refine ⟨[.done (n + 1)], w1.files.append sum (line.take (n + 1)), ?_, Files.append_same _ g1, ?_, ?_⟩
      · intro x hx
        simp only [List.mem_singleton] at hx; exact ⟨n, hx⟩
      · intro q hq
        rw [Files.append_other _ _ _ hq, g2 q hq]
      · intro ext
        unfold put
        rw [if_neg hf]
        simp only [if_pos hl, if_true, List.cons_append, List.nil_append, writeOnce, hb]
  -- the rest
  obtain ⟨M, hM⟩ : ∃ M, M = (post.map Cmd.cost).sum := ⟨_, rfl⟩
  obtain ⟨r3, x1, -, -⟩ := exec_progress cap sum ⟨fs2, w1.dirs, []⟩ post (List.replicate M (.done 1)) (hp M) (by simp [hM])
  obtain ⟨⟨d', vs, y1, y2, y3, y4, y5, y6⟩, -, -⟩ := h2 ⟨fs2, w1.dirs, []⟩ (List.replicate M (.done 1)) _ v2 (by simp)
  have y7 := y6 (by simpa using hc)
  obtain ⟨rfl, y8⟩ := y5 ⟨r3, x1⟩
  subst y7
  simp only [List.append_nil] at y8
  have hbuf : (exec cap sum ⟨fs2, w1.dirs, []⟩ post (List.replicate M (.done 1))).1.buf = [] := by
    have := congrArg List.length y8
    simp only [List.length_append] at this
    exact List.eq_nil_of_length_eq_zero (by omega)
  refine ⟨used ++ (used2 ++ List.replicate M (.done 1)),
    (exec cap sum ⟨fs2, w1.dirs, []⟩ post (List.replicate M (.done 1))).1, ?_, ?_, ?_⟩
  · intro x hx
    rcases List.mem_append.1 hx with hx | hx
    · exact hu x hx
    · rcases List.mem_append.1 hx with hx | hx
      · exact v1 x hx
      · exact hp M x hx
  · rw [Script.run_def]
    simp only
    rw [← List.append_assoc (openCmds a b c sum), exec_append, u2]
    simp only
    rw [exec_append]
    have e : exec cap sum w1 [.tableOnce line] (used2 ++ List.replicate M (.done 1)) =
        (⟨fs2, w1.dirs, []⟩, .ok (List.replicate M (.done 1))) := by
      have e' : step cap sum w1 (.tableOnce line) (used2 ++ List.replicate M (.done 1)) =
          put cap sum true w1 line (used2 ++ List.replicate M (.done 1)) := by
        cases used2 ++ List.replicate M (.done 1) <;> rfl
      simp only [exec, e', v4]
    rw [e]
    simp only
    rcases hz : exec cap sum ⟨fs2, w1.dirs, []⟩ post (List.replicate M (.done 1)) with ⟨w, e⟩
    rw [hz] at x1 hbuf
    simp only at x1 hbuf
    subst x1
    simp only [dropEnd_nil _ _ _ _ hbuf]
  · exact lay_table y2 (fun q hq => (y3 q hq).trans (Files.lay_congr (v3 q hq) _)) hw

end Moledyn
