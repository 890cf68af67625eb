import Verif.Spec.Dataset
import Verif.Props.Setup
import Verif.Props.AnalysisStats
/-
C51: result files are grouped by physical parameters.
-/
set_option linter.unusedSimpArgs false
namespace Moledyn.Props
open Moledyn

/-! ### the loop over the directory -/

section Loop
variable {F D A K : Type} [DecidableEq K]

theorem lines_append (z : Analyzer A) (a : A) (r s : Reader) :
    z.lines a (r ++ s) = (z.lines a r).bind fun a => z.lines a s := by
  induction r generalizing a with
  | nil => rfl
  | cons x r ih =>
    cases x with
    | error t => rfl
    | ok l =>
      simp only [List.cons_append, Analyzer.lines]
      cases h : z.line a l with
      | err e => rfl
      | panic => rfl
      | ok b => exact ih b

/-- what is known after the entries `ps` have led to the map `m`. -/
structure LoopInv (z : Analyzer A) (cls : D → K) (fromFile : Reader → Res D × Reader) (m : List (D × A))
    (ps : List Entry) : Prop where
  distinct : m.Pairwise fun p q => cls p.1 ≠ cls q.1
  covers : ∀ e ∈ ps, ∀ d rd, e.contributes fromFile = some (d, rd) → ∃ p ∈ m, cls p.1 = cls d
  origin : ∀ p ∈ m, ∃ e ∈ ps, ∃ rd, e.contributes fromFile = some (p.1, rd)
  data : ∀ p ∈ m, ∃ a0, z.fresh = .ok a0 ∧ z.lines a0 (groupData cls fromFile p.1 ps) = .ok p.2

theorem groupData_snoc (cls : D → K) (fromFile : Reader → Res D × Reader) (d : D) (ps : List Entry)
    (e : Entry) : groupData cls fromFile d (ps ++ [e]) = groupData cls fromFile d ps ++
      match e.contributes fromFile with
      | some (d', rd) => if cls d' = cls d then rd else []
      | none => [] := by
  unfold groupData
  rw [List.filterMap_append, List.filter_append, List.map_append, List.flatten_append]
  congr 1
  cases h : e.contributes fromFile with
  | none => simp [h]
  | some p =>
    obtain ⟨d', rd⟩ := p
    by_cases hc : cls d' = cls d <;> simp [h, hc]

theorem update_ok (cls : D → K) (d : D) (g : A → Res A) (m m' : List (D × A))
    (hd : m.Pairwise fun p q => cls p.1 ≠ cls q.1)
    (h : Analyzer.update (fun a b => decide (cls a = cls b)) d g m = .ok m') :
    m'.map Prod.fst = m.map Prod.fst ∧
    (∀ p' ∈ m', (cls p'.1 = cls d ∧ ∃ a, (p'.1, a) ∈ m ∧ g a = .ok p'.2) ∨
      (cls p'.1 ≠ cls d ∧ p' ∈ m)) := by
  induction m generalizing m' with
  | nil => simp only [Analyzer.update, Res.ok.injEq] at h; subst h; simp
  | cons q m ih =>
    obtain ⟨d0, a0⟩ := q
    simp only [Analyzer.update] at h
    rw [List.pairwise_cons] at hd
    split at h
    · rename_i hc
      simp only [decide_eq_true_eq] at hc
      cases hg : g a0 with
      | err e => rw [hg] at h; simp at h
      | panic => rw [hg] at h; simp at h
      | ok a =>
        rw [hg] at h
        simp only [Res.map_ok, Res.ok.injEq] at h
        subst h
        refine ⟨rfl, fun p' hp' => ?_⟩
        rcases List.mem_cons.1 hp' with rfl | hp'
        · exact .inl ⟨hc, a0, by simp, hg⟩
        · right
          refine ⟨fun h => hd.1 p' hp' (hc.trans h.symm), by simp [hp']⟩
    · rename_i hc
      simp only [decide_eq_true_eq] at hc
      cases hu : Analyzer.update (fun a b => decide (cls a = cls b)) d g m with
      | err e => rw [hu] at h; simp at h
      | panic => rw [hu] at h; simp at h
      | ok m2 =>
        rw [hu] at h
        simp only [Res.map_ok, Res.ok.injEq] at h
        subst h
        obtain ⟨h1, h2⟩ := ih m2 hd.2 hu
        refine ⟨by simp [h1], fun p' hp' => ?_⟩
        rcases List.mem_cons.1 hp' with rfl | hp'
        · exact .inr ⟨hc, by simp⟩
        · rcases h2 p' hp' with ⟨h3, a, h4, h5⟩ | ⟨h3, h4⟩
          · exact .inl ⟨h3, a, by simp [h4], h5⟩
          · exact .inr ⟨h3, by simp [h4]⟩

omit [DecidableEq K] in
theorem pairwise_of_map {m m' : List (D × A)} (cls : D → K) (h : m'.map Prod.fst = m.map Prod.fst)
    (hd : m.Pairwise fun p q => cls p.1 ≠ cls q.1) : m'.Pairwise fun p q => cls p.1 ≠ cls q.1 := by
  have h1 : (m.map Prod.fst).Pairwise fun a b => cls a ≠ cls b := List.pairwise_map.2 hd
  rw [← h] at h1
  rw [List.pairwise_map] at h1
  exact h1

theorem entry_inv (z : Analyzer A) (cls : D → K) (fromFile : Reader → Res D × Reader)
    (m m' : List (D × A)) (ps : List Entry) (e : Entry) (hi : LoopInv z cls fromFile m ps)
    (h : z.entry (fun a b => decide (cls a = cls b)) fromFile m e = .ok m') :
    LoopInv z cls fromFile m' (ps ++ [e]) := by
  -- entries that contribute nothing
  have none_case : e.contributes fromFile = none → m' = m → LoopInv z cls fromFile m' (ps ++ [e]) := by
    rintro hn rfl
    refine ⟨hi.distinct, ?_, ?_, ?_⟩
    · intro e' he' d rd hd
      rcases List.mem_append.1 he' with he' | he'
      · exact hi.covers e' he' d rd hd
      · simp only [List.mem_singleton] at he'; subst he'; rw [hn] at hd; cases hd
    · intro p hp
      obtain ⟨e', he', rd, hr⟩ := hi.origin p hp
      exact ⟨e', by simp [he'], rd, hr⟩
    · intro p hp
      obtain ⟨a0, h1, h2⟩ := hi.data p hp
      exact ⟨a0, h1, by rw [groupData_snoc, hn]; simpa using h2⟩
  cases e with
  | bad t => simp [Analyzer.entry] at h
  | dir => simp only [Analyzer.entry, Res.ok.injEq] at h; exact none_case rfl h.symm
  | unopenable t => simp only [Analyzer.entry, Res.ok.injEq] at h; exact none_case rfl h.symm
  | file rd =>
    simp only [Analyzer.entry] at h
    cases hf : fromFile rd with
    | mk r rd' =>
      cases r with
      | err c =>
        rw [hf] at h
        simp only [Res.ok.injEq] at h
        exact none_case (by simp [Entry.contributes, hf]) h.symm
      | panic => rw [hf] at h; simp at h
      | ok d =>
        rw [hf] at h
        simp only at h
        have hcon : (Entry.file rd).contributes fromFile = some (d, rd'.drop 1) := by
          simp [Entry.contributes, hf]
        -- the map in which the group exists
        obtain ⟨m1, hm1, h⟩ := Res.bind_eq_ok.1 h
        have key : m1.Pairwise (fun p q => cls p.1 ≠ cls q.1) ∧ (∃ p ∈ m1, cls p.1 = cls d) ∧
            (∀ p ∈ m, p ∈ m1) ∧
            (∀ p ∈ m1, (∃ a0, z.fresh = .ok a0 ∧ z.lines a0 (groupData cls fromFile p.1 ps) = .ok p.2) ∧
              (p ∈ m ∨ p.1 = d)) := by
          split at hm1
          · rename_i hc
            simp only [Res.ok.injEq] at hm1
            subst hm1
            simp only [Analyzer.mem, List.any_eq_true, decide_eq_true_eq] at hc
            exact ⟨hi.distinct, hc, fun p hp => hp, fun p hp => ⟨hi.data p hp, .inl hp⟩⟩
          · rename_i hc
            simp only [Analyzer.mem, List.any_eq_true, decide_eq_true_eq, not_exists, not_and] at hc
            cases hfr : z.fresh with
            | err c => rw [hfr] at hm1; simp at hm1
            | panic => rw [hfr] at hm1; simp at hm1
            | ok a0 =>
              rw [hfr] at hm1
              simp only [Res.map_ok, Res.ok.injEq] at hm1
              subst hm1
              refine ⟨?_, ⟨(d, a0), by simp, rfl⟩, fun p hp => by simp [hp], ?_⟩
              · rw [List.pairwise_append]
                refine ⟨hi.distinct, by simp, fun p hp q hq => ?_⟩
                simp only [List.mem_singleton] at hq; subst hq
                exact hc p hp
              · intro p hp
                rcases List.mem_append.1 hp with hp | hp
                · obtain ⟨a1, h1, h2⟩ := hi.data p hp
                  exact ⟨⟨a1, by rw [← h1, hfr], h2⟩, .inl hp⟩
                · simp only [List.mem_singleton] at hp; subst hp
                  refine ⟨⟨a0, rfl, ?_⟩, .inr rfl⟩
                  have : groupData cls fromFile d ps = [] := by
                    unfold groupData
                    rw [List.flatten_eq_nil_iff]
                    intro l hl
                    obtain ⟨⟨d', rd2⟩, hp2, -⟩ := List.mem_map.1 hl
                    obtain ⟨h3, h4⟩ := List.mem_filter.1 hp2
                    obtain ⟨e', he', h5⟩ := List.mem_filterMap.1 h3
                    obtain ⟨p, hp, hpc⟩ := hi.covers e' he' d' rd2 h5
                    exact absurd (hpc.trans (by simpa using h4)) (hc p hp)
                  simp only [this]; rfl
        obtain ⟨k1, k2, k3, k4⟩ := key
        obtain ⟨u1, u2⟩ := update_ok cls d _ m1 m' k1 h
        refine ⟨pairwise_of_map cls u1 k1, ?_, ?_, ?_⟩
        · intro e' he' d' rd2 hd
          have hin : ∀ p ∈ m1, ∃ p' ∈ m', p'.1 = p.1 := by
            intro p hp
            have : p.1 ∈ m'.map Prod.fst := by rw [u1]; exact List.mem_map_of_mem hp
            obtain ⟨p', hp', hpe⟩ := List.mem_map.1 this
            exact ⟨p', hp', hpe⟩
          rcases List.mem_append.1 he' with he' | he'
          · obtain ⟨p, hp, hpc⟩ := hi.covers e' he' d' rd2 hd
            obtain ⟨p', hp', hpe⟩ := hin p (k3 p hp)
            exact ⟨p', hp', by rw [hpe]; exact hpc⟩
          · simp only [List.mem_singleton] at he'; subst he'
            rw [hcon] at hd
            simp only [Option.some.injEq, Prod.mk.injEq] at hd
            obtain ⟨p, hp, hpc⟩ := k2
            obtain ⟨p', hp', hpe⟩ := hin p hp
            exact ⟨p', hp', by rw [hpe, ← hd.1]; exact hpc⟩
        · intro p' hp'
          have : p'.1 ∈ m1.map Prod.fst := by rw [← u1]; exact List.mem_map_of_mem hp'
          obtain ⟨p, hp, hpe⟩ := List.mem_map.1 this
          rcases (k4 p hp).2 with hpm | hpd
          · obtain ⟨e', he', rd2, hr⟩ := hi.origin p hpm
            exact ⟨e', by simp [he'], rd2, by rw [← hpe]; exact hr⟩
          · exact ⟨.file rd, by simp, rd'.drop 1, by rw [← hpe, hpd]; exact hcon⟩
        · intro p' hp'
          rcases u2 p' hp' with ⟨hc, a, ha, hg⟩ | ⟨hc, hin⟩
          · obtain ⟨⟨a0, h1, h2⟩, -⟩ := k4 _ ha
            refine ⟨a0, h1, ?_⟩
            rw [groupData_snoc, hcon, lines_append]
            simp only at h2
            rw [h2]
            simp only [hc, if_true, Res.bind_ok]
            exact hg
          · obtain ⟨⟨a0, h1, h2⟩, -⟩ := k4 _ hin
            refine ⟨a0, h1, ?_⟩
            rw [groupData_snoc, hcon]
            simp only [fun h => hc (Eq.symm h), if_false, List.append_nil, Ne.symm hc]
            exact h2

theorem loop_inv (z : Analyzer A) (cls : D → K) (fromFile : Reader → Res D × Reader)
    (m m' : List (D × A)) (ps es : List Entry) (hi : LoopInv z cls fromFile m ps)
    (h : z.loop (fun a b => decide (cls a = cls b)) fromFile m es = .ok m') :
    LoopInv z cls fromFile m' (ps ++ es) := by
  induction es generalizing m ps with
  | nil => simp only [Analyzer.loop, Res.ok.injEq] at h; subst h; simpa using hi
  | cons e es ih =>
    simp only [Analyzer.loop] at h
    obtain ⟨m1, h1, h⟩ := Res.bind_eq_ok.1 h
    have := ih m1 (ps ++ [e]) (entry_inv z cls fromFile m m1 ps e hi h1) h
    simpa using this

/-- The groups: after reading a directory, every readable result file belongs to exactly one group, namely
the one whose dataset is in the same class as its own; each group carries the dataset of one of its files; and
the analysis of a group is a new analysis that was given the lines of data of all files of the class, in
directory order, and nothing else. -/
theorem C51_groups (z : Analyzer A) (cls : D → K) (fromFile : Reader → Res D × Reader) (es : List Entry)
    (m : List (D × A)) (h : z.loop (fun a b => decide (cls a = cls b)) fromFile [] es = .ok m) :
    (∀ e ∈ es, ∀ d rd, e.contributes fromFile = some (d, rd) → ∃! p, p ∈ m ∧ cls p.1 = cls d) ∧
    (∀ p ∈ m, (∃ e ∈ es, ∃ rd, e.contributes fromFile = some (p.1, rd)) ∧
      ∃ a0, z.fresh = .ok a0 ∧ z.lines a0 (groupData cls fromFile p.1 es) = .ok p.2) := by
  have hi := loop_inv z cls fromFile [] m [] es ⟨by simp, by simp, by simp, by simp⟩ h
  simp only [List.nil_append] at hi
  refine ⟨fun e he d rd hd => ?_, fun p hp => ⟨hi.origin p hp, hi.data p hp⟩⟩
  obtain ⟨p, hp, hc⟩ := hi.covers e he d rd hd
  refine ⟨p, ⟨hp, hc⟩, fun q ⟨hq, hqc⟩ => ?_⟩
  by_contra hne
  have : Std.Symm (fun p q : D × A => cls p.1 ≠ cls q.1) := ⟨fun _ _ h => Ne.symm h⟩
  exact hi.distinct.forall hp hq (Ne.symm hne) (hc.trans hqc.symm)

theorem update_succeeds (cls : D → K) (d : D) (g : A → Res A) (m : List (D × A))
    (hg : ∀ p ∈ m, cls p.1 = cls d → ∃ a, g p.2 = .ok a) :
    ∃ m', Analyzer.update (fun a b => decide (cls a = cls b)) d g m = .ok m' := by
  induction m with
  | nil => exact ⟨[], rfl⟩
  | cons p m ih =>
    obtain ⟨d0, a0⟩ := p
    simp only [Analyzer.update]
    split
    · rename_i hc
      obtain ⟨a, ha⟩ := hg (d0, a0) (by simp) (by simpa using hc)
      simp only at ha
      exact ⟨_, by rw [ha]; rfl⟩
    · obtain ⟨m', hm'⟩ := ih (fun p hp => hg p (by simp [hp]))
      exact ⟨_, by rw [hm']; rfl⟩

theorem groupData_prefix (cls : D → K) (fromFile : Reader → Res D × Reader) (d : D) (ps es : List Entry) :
    ∃ r, groupData cls fromFile d (ps ++ es) = groupData cls fromFile d ps ++ r := by
  unfold groupData
  rw [List.filterMap_append, List.filter_append, List.map_append, List.flatten_append]
  exact ⟨_, rfl⟩

theorem groupData_congr (cls : D → K) (fromFile : Reader → Res D × Reader) {d d' : D} (h : cls d = cls d')
    (es : List Entry) : groupData cls fromFile d es = groupData cls fromFile d' es := by
  unfold groupData; rw [h]

theorem lines_prefix_ok (z : Analyzer A) {a b : A} {r s : Reader} (h : z.lines a (r ++ s) = .ok b) :
    ∃ c, z.lines a r = .ok c := by
  rw [lines_append] at h
  obtain ⟨c, hc, -⟩ := Res.bind_eq_ok.1 h
  exact ⟨c, hc⟩

theorem loop_succeeds (z : Analyzer A) (cls : D → K) (fromFile : Reader → Res D × Reader)
    (m : List (D × A)) (ps es : List Entry) (hi : LoopInv z cls fromFile m ps)
    (hf : ∀ e ∈ es, ¬ e.fatal fromFile)
    (hd : ∀ e ∈ es, ∀ d rd, e.contributes fromFile = some (d, rd) →
      ∃ a0 a, z.fresh = .ok a0 ∧ z.lines a0 (groupData cls fromFile d (ps ++ es)) = .ok a) :
    ∃ m', z.loop (fun a b => decide (cls a = cls b)) fromFile m es = .ok m' := by
  induction es generalizing m ps with
  | nil => exact ⟨m, rfl⟩
  | cons e es ih =>
    have he : ∃ m1, z.entry (fun a b => decide (cls a = cls b)) fromFile m e = .ok m1 := by
      cases e with
      | bad t => exact (hf (.bad t) (by simp) trivial).elim
      | dir => exact ⟨m, rfl⟩
      | unopenable t => exact ⟨m, rfl⟩
      | file rd =>
        have hnf := hf (.file rd) (by simp)
        have hcon := hd (.file rd) (by simp)
        simp only [Analyzer.entry]
        simp only [Entry.fatal] at hnf
        simp only [Entry.contributes] at hcon
        cases hff : fromFile rd with
        | mk r rd' =>
          rw [hff] at hnf hcon
          cases r with
          | err c => exact ⟨m, rfl⟩
          | panic => exact absurd rfl hnf
          | ok d =>
            obtain ⟨a0, a, hfr, hl⟩ := hcon d (rd'.drop 1) rfl
            have hl2 : ∃ c, z.lines a0 (groupData cls fromFile d ps ++ rd'.drop 1) = .ok c := by
              have e1 : ps ++ Entry.file rd :: es = (ps ++ [Entry.file rd]) ++ es := by simp
              obtain ⟨r, hr⟩ := groupData_prefix cls fromFile d (ps ++ [Entry.file rd]) es
              rw [e1, hr, groupData_snoc] at hl
              obtain ⟨c, hc⟩ := lines_prefix_ok z hl
              refine ⟨c, ?_⟩
              simpa [Entry.contributes, hff] using hc
            obtain ⟨c, hc⟩ := hl2
            simp only
            have step : ∀ m1 : List (D × A),
                (∀ p ∈ m1, cls p.1 = cls d → z.lines a0 (groupData cls fromFile d ps) = .ok p.2) →
                ∃ m2, Analyzer.update (fun a b => decide (cls a = cls b)) d
                  (fun a => z.lines a (rd'.drop 1)) m1 = .ok m2 := by
              intro m1 hm1
              refine update_succeeds cls d _ m1 (fun p hp hpc => ⟨c, ?_⟩)
              have := hm1 p hp hpc
              rw [lines_append, this] at hc
              exact hc
            have old : ∀ p ∈ m, cls p.1 = cls d → z.lines a0 (groupData cls fromFile d ps) = .ok p.2 := by
              intro p hp hpc
              obtain ⟨a1, h1, h2⟩ := hi.data p hp
              rw [hfr] at h1; injection h1 with h1
              rw [← groupData_congr cls fromFile hpc, h1]; exact h2
            split
            · obtain ⟨m2, hm2⟩ := step m old
              exact ⟨m2, hm2⟩
            · rename_i hnm
              simp only [Analyzer.mem, List.any_eq_true, decide_eq_true_eq, not_exists, not_and] at hnm
              rw [hfr]
              have hnil : groupData cls fromFile d ps = [] := by
                unfold groupData
                rw [List.flatten_eq_nil_iff]
                intro l hl
                obtain ⟨⟨d', rd2⟩, hp2, -⟩ := List.mem_map.1 hl
                obtain ⟨h3, h4⟩ := List.mem_filter.1 hp2
                obtain ⟨e', he', h5⟩ := List.mem_filterMap.1 h3
                obtain ⟨p, hp, hpc⟩ := hi.covers e' he' d' rd2 h5
                exact absurd (hpc.trans (by simpa using h4)) (hnm p hp)
              obtain ⟨m2, hm2⟩ := step (m ++ [(d, a0)]) (fun p hp hpc => by
                rcases List.mem_append.1 hp with hp | hp
                · exact old p hp hpc
                · simp only [List.mem_singleton] at hp; subst hp; rw [hnil]; rfl)
              exact ⟨m2, hm2⟩
    obtain ⟨m1, hm1⟩ := he
    obtain ⟨m', hm'⟩ := ih m1 (ps ++ [e]) (entry_inv z cls fromFile m m1 ps e hi hm1)
      (fun e' he' => hf e' (by simp [he'])) (fun e' he' d rd hc => by
        have := hd e' (by simp [he']) d rd hc
        simpa using this)
    exact ⟨m', by simp only [Analyzer.loop, hm1, Res.bind_ok, hm']⟩

theorem loop_not_fatal (z : Analyzer A) (eq : D → D → Bool) (fromFile : Reader → Res D × Reader)
    (m m' : List (D × A)) (es : List Entry) (h : z.loop eq fromFile m es = .ok m') :
    ∀ e ∈ es, ¬ e.fatal fromFile := by
  induction es generalizing m with
  | nil => simp
  | cons e es ih =>
    simp only [Analyzer.loop] at h
    obtain ⟨m1, h1, h⟩ := Res.bind_eq_ok.1 h
    intro e' he'
    rcases List.mem_cons.1 he' with rfl | he'
    · intro hfat
      cases e' with
      | bad t => simp [Analyzer.entry] at h1
      | dir => exact hfat
      | unopenable t => exact hfat
      | file rd =>
        simp only [Entry.fatal] at hfat
        simp only [Analyzer.entry] at h1
        cases hff : fromFile rd with
        | mk r rd' => rw [hff] at hfat h1; simp only at hfat; subst hfat; simp at h1
    · exact ih m1 h e' he'

/-- When the reading succeeds: no entry is unreadable or has a header that panics, and the lines of data of
every class can be added to a new analysis. -/
theorem C51_succeeds_iff (z : Analyzer A) (cls : D → K) (fromFile : Reader → Res D × Reader)
    (es : List Entry) :
    (∃ m, z.loop (fun a b => decide (cls a = cls b)) fromFile [] es = .ok m) ↔
      (∀ e ∈ es, ¬ e.fatal fromFile) ∧
      (∀ e ∈ es, ∀ d rd, e.contributes fromFile = some (d, rd) →
        ∃ a0 a, z.fresh = .ok a0 ∧ z.lines a0 (groupData cls fromFile d es) = .ok a) := by
  constructor
  · rintro ⟨m, h⟩
    refine ⟨loop_not_fatal z _ fromFile [] m es h, fun e he d rd hd => ?_⟩
    obtain ⟨h1, h2⟩ := C51_groups z cls fromFile es m h
    obtain ⟨p, ⟨hp, hpc⟩, -⟩ := h1 e he d rd hd
    obtain ⟨-, a0, h3, h4⟩ := h2 p hp
    exact ⟨a0, p.2, h3, by rw [← groupData_congr cls fromFile hpc]; exact h4⟩
  · rintro ⟨h1, h2⟩
    exact loop_succeeds z cls fromFile [] [] es ⟨by simp, by simp, by simp, by simp⟩ h1 (by simpa using h2)

end Loop
end Moledyn.Props
