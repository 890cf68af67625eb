import Verif.Lemmas.AnalysisDisk
import Verif.Props.AnalyzeOutput
import Verif.Spec.WholeNumbers
/-
C103: what an analysis leaves on the disk when calls of the system fail, write less than asked, or the program is killed.
-/
set_option linter.unusedSimpArgs false
namespace Moledyn.Props
open Moledyn OnDisk
variable {F A : Type}

/-! ### the rows -/

theorem whileEmit_rows [Fl F] {R : Type} (text : R → Str) (mx : F) (next : F → F) (row : Nat → F → Res (Option R))
    (fuel i : Nat) (t : F) :
    (Hist.whileRows mx next row fuel i t).map (fun q => q.map fun r => (r.map text).flatten) =
      (Hist.whileEmit text mx next row fuel i t).last.map
        (fun r => r.map fun _ => (Hist.whileEmit text mx next row fuel i t).rows.flatten) := by
  induction fuel generalizing i t with
  | zero => rfl
  | succ fuel ih =>
    simp only [Hist.whileRows, Hist.whileEmit]
    by_cases h : Fl.le t mx = true
    · simp only [if_pos h]
      cases hr : row i t with
      | ok r =>
        have := ih (i + 1) (next t)
        simp only [Option.map_map]
        cases hw : Hist.whileRows mx next row fuel (i + 1) (next t) with
        | none =>
          rw [hw] at this
          cases he : (Hist.whileEmit text mx next row fuel (i + 1) (next t)).last with
          | none => rfl
          | some x => rw [he] at this; simp at this
        | some q =>
          rw [hw] at this
          cases he : (Hist.whileEmit text mx next row fuel (i + 1) (next t)).last with
          | none => rw [he] at this; simp at this
          | some x =>
            rw [he] at this
            simp only [Option.map_some, Option.some.injEq, Function.comp] at this ⊢
            cases q with
            | ok l =>
              cases x with
              | ok u =>
                simp only [Res.map_ok, Res.ok.injEq] at this ⊢
                cases r <;> simp [this]
              | err e => simp [Res.map] at this
              | panic => simp [Res.map] at this
            | err e => cases x <;> simp_all [Res.map]
            | panic => cases x <;> simp_all [Res.map]
      | err e => rfl
      | panic => rfl
    · simp only [if_neg h]; rfl

theorem emit_rows [Fl F] (text : F × Nat × F → Str) (a : TimeAnalysis F) (i : Nat) (t : F) (xs : List F) :
    (some ((TimeAnalysis.exportRows.go a i t xs).map fun r => (r.map text).flatten) : Option (Res Str)) =
      (TimeAnalysis.emit text (fun t => t + a.bins.binSize) a.count i t xs).last.map (fun r => r.map fun _ =>
        (TimeAnalysis.emit text (fun t => t + a.bins.binSize) a.count i t xs).rows.flatten) := by
  induction xs generalizing i t with
  | nil => rfl
  | cons x xs ih =>
    simp only [TimeAnalysis.exportRows.go, TimeAnalysis.emit]
    by_cases h : Fl.lt (Fl.abs x) (Fl.lit (1 / 10 ^ 15)) = true
    · simp only [if_pos h]; exact ih (i + 1) (t + a.bins.binSize)
    · simp only [if_neg h]
      cases hc : a.count[i]? with
      | none => rfl
      | some n =>
        have := ih (i + 1) (t + a.bins.binSize)
        simp only
        cases he : (TimeAnalysis.emit text (fun t => t + a.bins.binSize) a.count (i + 1) (t + a.bins.binSize) xs).last with
        | none => rw [he] at this; simp at this
        | some r =>
          rw [he] at this
          simp only [Option.map_some, Option.some.injEq] at this ⊢
          cases hq : TimeAnalysis.exportRows.go a (i + 1) (t + a.bins.binSize) xs <;> rw [hq] at this <;> cases r <;>
            simp_all [Res.map]

theorem emit_log_rows [Fl F] (text : F × Nat × F → Str) (a : TimeAnalysis F) (i : Nat) (t : F) (xs : List F) :
    (some ((TimeAnalysis.exportLogRows.go a i t xs).map fun r => (r.map text).flatten) : Option (Res Str)) =
      (TimeAnalysis.emit text (fun t => t * a.bins.lbinSize) a.lcount i t xs).last.map (fun r => r.map fun _ =>
        (TimeAnalysis.emit text (fun t => t * a.bins.lbinSize) a.lcount i t xs).rows.flatten) := by
  induction xs generalizing i t with
  | nil => rfl
  | cons x xs ih =>
    simp only [TimeAnalysis.exportLogRows.go, TimeAnalysis.emit]
    by_cases h : Fl.lt (Fl.abs x) (Fl.lit (1 / 10 ^ 15)) = true
    · simp only [if_pos h]; exact ih (i + 1) (t * a.bins.lbinSize)
    · simp only [if_neg h]
      cases hc : a.lcount[i]? with
      | none => rfl
      | some n =>
        have := ih (i + 1) (t * a.bins.lbinSize)
        simp only
        cases he : (TimeAnalysis.emit text (fun t => t * a.bins.lbinSize) a.lcount (i + 1) (t * a.bins.lbinSize) xs).last with
        | none => rw [he] at this; simp at this
        | some r =>
          rw [he] at this
          simp only [Option.map_some, Option.some.injEq] at this ⊢
          cases hq : TimeAnalysis.exportLogRows.go a (i + 1) (t * a.bins.lbinSize) xs <;> rw [hq] at this <;> cases r <;>
            simp_all [Res.map]

/-- The three analyses: the rows written one by one are the rows of the distributions of C62. -/
theorem C103_rows [Fl F] (pe : F → Str) (prec fuel : Nat) :
    (timeExporter pe prec).Agrees (timeWriter pe prec) ∧
    (vecExporter pe prec fuel).Agrees (vecWriter pe prec fuel) ∧
    (processExporter pe prec fuel).Agrees (processWriter pe prec fuel) := by
  refine ⟨fun a => ⟨emit_rows _ a _ _ _, emit_log_rows _ a _ _ _⟩, fun a => ⟨?_, ?_⟩, fun a => ⟨?_, ?_⟩⟩
  · exact whileEmit_rows _ _ _ _ _ _ _
  · exact whileEmit_rows _ _ _ _ _ _ _
  · exact whileEmit_rows _ _ _ _ _ _ _
  · exact whileEmit_rows _ _ _ _ _ _ _

/-! ### the script -/

section Scripts
variable {x : Exporter A} {e : RowWriter A} {f : NumFmt F} {pe : F → Str} {pieces : Str → List Str}

theorem rows_script {r : Rows} {t : Str} (hp : HandsOver pieces) (p : Str)
    (h : (r.last.map fun q => q.map fun _ => r.rows.flatten) = some (.ok t)) :
    ∃ ss : List Str, r.script pieces p = ⟨.create p :: ss.map (.file p), some (.ok ())⟩ ∧ ss.flatten = t := by
  obtain ⟨rows, last⟩ := r
  cases last with
  | none => simp at h
  | some q =>
    cases q with
    | err e => simp [Res.map] at h
    | panic => simp [Res.map] at h
    | ok u =>
      simp only [Option.map_some, Option.some.injEq, Res.map_ok, Res.ok.injEq] at h
      refine ⟨rows.flatMap pieces, ?_, ?_⟩
      · simp only [Rows.script, List.map_flatMap]
      · rw [← h]
        clear h
        induction rows with
        | nil => rfl
        | cons s rows ih => simp [hp s, ih]

theorem path_ne {dir name sub : Str} {sumName : Str} (hs : '/' ∉ sumName) (hsub : '/' ∈ sub) :
    dir ++ sub ++ name ≠ dir ++ chars! "/" ++ sumName ∨ ∃ sub', sub = '/' :: sub' ∧ '/' ∉ sub' := by
  cases sub with
  | nil => simp at hsub
  | cons c sub =>
    by_cases hc : c = '/'
    · by_cases h : '/' ∈ sub
      · left
        intro he
        rw [List.append_assoc, List.append_assoc] at he
        have := List.append_cancel_left he
        simp only [List.cons_append, List.nil_append, List.cons.injEq] at this
        exact hs (by rw [← this.2]; simp [h])
      · exact .inr ⟨sub, by rw [hc], h⟩
    · left
      intro he
      rw [List.append_assoc, List.append_assoc] at he
      have := List.append_cancel_left he
      simp only [List.cons_append, List.nil_append, List.cons.injEq] at this
      exact hc this.1

theorem linear_ne {dir name sumName : Str} (hs : '/' ∉ sumName) :
    dir ++ chars! "/linear_distribution/" ++ name ≠ dir ++ chars! "/" ++ sumName := by
  rcases path_ne (dir := dir) (name := name) (sub := chars! "/linear_distribution/") hs (by decide) with h | ⟨s, h, h'⟩
  · exact h
  · exact absurd (by rw [← (List.cons.inj h).2]; decide) h'

theorem log_ne {dir name sumName : Str} (hs : '/' ∉ sumName) :
    dir ++ chars! "/logarithmic_distribution/" ++ name ≠ dir ++ chars! "/" ++ sumName := by
  rcases path_ne (dir := dir) (name := name) (sub := chars! "/logarithmic_distribution/") hs (by decide) with h | ⟨s, h, h'⟩
  · exact h
  · exact absurd (by rw [← (List.cons.inj h).2]; decide) h'

/-- the parts of a group that is written. -/
theorem one_parts (hx : x.Agrees e) (hp : HandsOver pieces) (width : Nat) (pre dir : Str) (d : DataSet F) (a : A)
    (r : Str × List Written) (h : x.one f pe width pre dir d a = some (.ok r)) :
    ∃ s1 s2 : List Str,
      x.groupScript e f pe pieces width pre dir d a =
        ⟨(pieces (d.exportData pe width)).map .table ++ [.tableOnce (x.brief (x.draw a).1 ++ ['\n'])] ++
          (.create (dir ++ chars! "/linear_distribution/" ++ d.exportFileRemovedIdx f pre) ::
              s1.map (.file (dir ++ chars! "/linear_distribution/" ++ d.exportFileRemovedIdx f pre)) ++
            .create (dir ++ chars! "/logarithmic_distribution/" ++ d.exportFileRemovedIdx f pre) ::
              s2.map (.file (dir ++ chars! "/logarithmic_distribution/" ++ d.exportFileRemovedIdx f pre))), some (.ok ())⟩ ∧
      r = (d.exportData pe width ++ x.brief (x.draw a).1 ++ ['\n'],
        [⟨dir ++ chars! "/linear_distribution/" ++ d.exportFileRemovedIdx f pre, s1.flatten⟩,
         ⟨dir ++ chars! "/logarithmic_distribution/" ++ d.exportFileRemovedIdx f pre, s2.flatten⟩]) := by
  unfold Exporter.one at h
  unfold Exporter.groupScript
  rcases hd : x.draw a with ⟨a', q⟩
  rw [hd] at h
  cases q with
  | err er => simp at h
  | panic => simp at h
  | ok u =>
    simp only at h ⊢
    rw [(hx a').1, (hx a').2] at h
    generalize hL : (e.linear a').last.map (fun r => r.map fun _ => (e.linear a').rows.flatten) = L at h
    generalize hG : (e.log a').last.map (fun r => r.map fun _ => (e.log a').rows.flatten) = G at h
    rcases L with _ | L | L | L
    · simp at h
    · rcases G with _ | G | G | G
      · simp at h
      · simp only [Option.some.injEq, Res.ok.injEq] at h
        obtain ⟨s1, k1, k2⟩ := rows_script hp (dir ++ chars! "/linear_distribution/" ++ d.exportFileRemovedIdx f pre) hL
        obtain ⟨s2, k3, k4⟩ := rows_script hp (dir ++ chars! "/logarithmic_distribution/" ++ d.exportFileRemovedIdx f pre) hG
        refine ⟨s1, s2, ?_, ?_⟩
        · rw [k1, k3]; rfl
        · rw [← h, k2, k4]
      · simp at h
      · simp at h
    · simp at h
    · simp at h

theorem groups_script (hx : x.Agrees e) (hp : HandsOver pieces) (hs : '/' ∉ x.summaryName) (skip : A → Bool) (cap width : Nat)
    (pre dir : Str) (m : List (DataSet F × A)) (hsh : x.ShortResults skip cap m) (r : Str × List Written)
    (h : x.all skip f pe width pre dir m = some (.ok r)) :
    (∀ w ∈ r.2, w.path ≠ dir ++ chars! "/" ++ x.summaryName) ∧
    ∃ cs, x.groupsScript e f pe pieces skip width pre dir m = ⟨cs, some (.ok ())⟩ ∧
      Does cap (dir ++ chars! "/" ++ x.summaryName) cs r.1 r.2 := by
  induction m generalizing r with
  | nil =>
    simp only [Exporter.all, Option.some.injEq, Res.ok.injEq] at h
    subst h
    exact ⟨by simp, [], rfl, .nil _ _⟩
  | cons p m ih =>
    obtain ⟨d, a⟩ := p
    have hsh' : x.ShortResults skip cap m := fun p hp => hsh p (by simp [hp])
    simp only [Exporter.all] at h
    simp only [Exporter.groupsScript]
    by_cases hk : skip a = true
    · simp only [if_pos hk] at h ⊢; exact ih hsh' r h
    · simp only [if_neg hk] at h ⊢
      split at h
      · rename_i q hq
        cases ha : x.all skip f pe width pre dir m with
        | none => rw [ha] at h; simp at h
        | some t =>
          rw [ha] at h
          cases t with
          | err er => simp [Res.map] at h
          | panic => simp [Res.map] at h
          | ok t =>
            simp only [Option.map_some, Res.map_ok, Option.some.injEq, Res.ok.injEq] at h
            subst h
            obtain ⟨j1, cs, j2, j3⟩ := ih hsh' t ha
            obtain ⟨s1, s2, k1, k2⟩ := one_parts (e := e) hx hp width pre dir d a q hq
            subst k2
            rw [k1, j2]
            refine ⟨?_, _, rfl, ?_⟩
            · intro w hw
              rcases List.mem_append.1 hw with hw | hw
              · simp only [List.mem_cons, List.not_mem_nil, or_false] at hw
                rcases hw with rfl | rfl
                · exact linear_ne hs
                · exact log_ne hs
              · exact j1 w hw
            · have hshort := hsh (d, a) (by simp) (by simpa using hk)
              have D1 := Does.tables cap (dir ++ chars! "/" ++ x.summaryName) (pieces (d.exportData pe width))
              rw [hp] at D1
              have D2 := Does.tableOnce cap (dir ++ chars! "/" ++ x.summaryName) (x.brief (x.draw a).1 ++ ['\n'])
                (by simpa using hshort)
              have D3 := Does.file cap (dir ++ chars! "/" ++ x.summaryName)
                (dir ++ chars! "/linear_distribution/" ++ d.exportFileRemovedIdx f pre) s1 (linear_ne hs)
              have D4 := Does.file cap (dir ++ chars! "/" ++ x.summaryName)
                (dir ++ chars! "/logarithmic_distribution/" ++ d.exportFileRemovedIdx f pre) s2 (log_ne hs)
              have := ((D1.append D2).append (D3.append D4)).append j3
              simpa only [List.append_assoc, List.nil_append, List.append_nil, List.cons_append] using this
      · rename_i hq
        exact absurd h (hq r)

end Scripts

section Dir
variable [Fl F] {z : Analyzer A} {x : Exporter A} {e : RowWriter A} {f : NumFmt F} {pe : F → Str}
  {pieces : Str → List Str} {dh : List Nat → Nat}
  {fromFile : Reader → Res (DataSet F) × Reader} {names : List Str} {exist : Str → Bool}
  {listing : Str → Option (List Entry)} {date : Str} {width : Nat} {pre dataDir : Str} {fuel cap : Nat}

/-- an analysis that would succeed, as calls. -/
theorem script_ok (hx : x.Agrees e) (hp : HandsOver pieces) (hs : '/' ∉ x.summaryName) (o : AnalysisOutput)
    (h : analyzeDir z x f pe dh fromFile names exist listing date width pre dataDir fuel = some (.ok o))
    (hsh : ∀ m, z.loop (DataSet.eqv dh) fromFile [] (((listing dataDir).getD []) ++ [Entry.dir]) = .ok m →
      x.ShortResults z.skip cap m) :
    (∀ w ∈ o.files, w.path ≠ o.summary.path) ∧ ∃ cs, Does cap o.summary.path cs o.summary.text o.files ∧ ∀ files rs,
      analyzeOnDisk x e f pe pieces z dh fromFile names exist listing date width pre dataDir fuel cap files rs =
        Script.run cap o.summary.path ⟨openCmds o.dir (o.dir ++ chars! "/linear_distribution")
          (o.dir ++ chars! "/logarithmic_distribution") o.summary.path ++ cs, some (.ok ())⟩ ⟨files, [], []⟩ rs := by
  unfold analyzeDir at h
  unfold analyzeOnDisk analyzeScript
  cases hd : summaryDir exist dataDir date fuel with
  | none => rw [hd] at h; simp at h
  | some dir =>
    rw [hd] at h
    simp only [Option.bind_some] at h
    cases hm : z.loop (DataSet.eqv dh) fromFile [] (((listing dataDir).getD []) ++ [Entry.dir]) with
    | err er => rw [hm] at h; simp at h
    | panic => rw [hm] at h; simp at h
    | ok m =>
      rw [hm] at h
      simp only at h
      cases ha : x.all z.skip f pe width pre dir m with
      | none => rw [ha] at h; simp at h
      | some t =>
        rw [ha] at h
        cases t with
        | err er => simp [Res.map] at h
        | panic => simp [Res.map] at h
        | ok t =>
          simp only [Option.map_some, Res.map_ok, Option.some.injEq, Res.ok.injEq] at h
          subst h
          obtain ⟨j1, cs, j2, j3⟩ := groups_script (e := e) hx hp hs z.skip cap width pre dir m (hsh m hm) t ha
          have D := Does.tables cap (dir ++ chars! "/" ++ x.summaryName)
            (pieces (DataSet.exportForm width names ++ DataSet.exportForm width x.labels ++ ['\n']))
          rw [hp] at D
          refine ⟨j1, _, by rw [← List.nil_append t.2]; exact D.append j3, fun files rs => ?_⟩
          simp only [j2]
          rfl

/-- The analysis would have succeeded with the results `o` (C62).  Whatever the calls of the system answer and whenever the
program is killed: the files on the disk are as before, or there is a beginning of the table and the distribution files that
have been begun: all of these but the last are whole, the last is whole or a beginning; every other file is as before.
No directories are made but the three. -/
theorem C103_left (hx : x.Agrees e) (hp : HandsOver pieces) (hs : '/' ∉ x.summaryName) (o : AnalysisOutput)
    (h : analyzeDir z x f pe dh fromFile names exist listing date width pre dataDir fuel = some (.ok o))
    (hsh : ∀ m, z.loop (DataSet.eqv dh) fromFile [] (((listing dataDir).getD []) ++ [Entry.dir]) = .ok m →
      x.ShortResults z.skip cap m) (files : Files) (rs : List Answer) (left : OnDisk) (result : Option (Res Unit))
    (hr : analyzeOnDisk x e f pe pieces z dh fromFile names exist listing date width pre dataDir fuel cap files rs =
      (left, result)) :
    left.dirs <+: [o.dir, o.dir ++ chars! "/linear_distribution", o.dir ++ chars! "/logarithmic_distribution"] ∧
    (left.files = files ∨ ∃ s vs, s <+: o.summary.text ∧ Begun vs o.files ∧
      left.files = files.lay (⟨o.summary.path, s⟩ :: vs)) := by
  obtain ⟨j1, cs, j2, j3⟩ := script_ok (e := e) hx hp hs o h hsh
  rw [j3] at hr
  obtain ⟨k1, k2⟩ := run_left (some (.ok ())) j2 j1 files rs _ hr
  refine ⟨k1, ?_⟩
  rcases k2 with ⟨k2, -⟩ | ⟨s, vs, g1, g2, g3, -⟩
  · exact .inl k2
  · exact .inr ⟨s, vs, g2, g1, g3⟩

/-- What is returned: when the program reports success, every distribution file is whole and the table lacks at most what
fits into the buffer; otherwise it reports an error of the system, that of the first call that failed, never a panic. -/
theorem C103_reported (hx : x.Agrees e) (hp : HandsOver pieces) (hs : '/' ∉ x.summaryName) (o : AnalysisOutput)
    (h : analyzeDir z x f pe dh fromFile names exist listing date width pre dataDir fuel = some (.ok o))
    (hsh : ∀ m, z.loop (DataSet.eqv dh) fromFile [] (((listing dataDir).getD []) ++ [Entry.dir]) = .ok m →
      x.ShortResults z.skip cap m) (files : Files) (rs : List Answer) (left : OnDisk) (result : Res Unit)
    (hr : analyzeOnDisk x e f pe pieces z dh fromFile names exist listing date width pre dataDir fuel cap files rs =
      (left, some result)) :
    (∃ tag, result = .err (.io tag) ∧ FirstError rs tag) ∨
    result = .ok () ∧ ∃ s, s <+: o.summary.text ∧ o.summary.text.length ≤ s.length + cap ∧
      left.files = files.lay (⟨o.summary.path, s⟩ :: o.files) := by
  obtain ⟨j1, cs, j2, j3⟩ := script_ok (e := e) hx hp hs o h hsh
  rw [j3] at hr
  obtain ⟨-, k2⟩ := run_left (some (.ok ())) j2 j1 files rs _ hr
  rcases run_error hr with hq | hq
  swap
  · exact .inl hq
  have hq : result = .ok () := Option.some.inj hq
  subst hq
  rcases k2 with ⟨-, k2 | ⟨t, k2⟩⟩ | ⟨s, vs, g1, g2, g3, -, g4, -⟩
  · simp at k2
  · simp at k2
  · rcases g4 _ rfl with ⟨t, g6⟩ | ⟨g6, rfl, g5⟩
    · cases g6
    · exact .inr ⟨(Option.some.inj g6).symm, s, g2, g5, g3⟩

/-- When no call fails and every write takes at least one character, and the program lives long enough, it reports success and
everything is on the disk. -/
theorem C103_complete (hx : x.Agrees e) (hp : HandsOver pieces) (hs : '/' ∉ x.summaryName) (o : AnalysisOutput)
    (h : analyzeDir z x f pe dh fromFile names exist listing date width pre dataDir fuel = some (.ok o))
    (hsh : ∀ m, z.loop (DataSet.eqv dh) fromFile [] (((listing dataDir).getD []) ++ [Entry.dir]) = .ok m →
      x.ShortResults z.skip cap m) :
    ∃ N, ∀ (files : Files) (rs : List Answer), Progress rs → N ≤ rs.length →
      analyzeOnDisk x e f pe pieces z dh fromFile names exist listing date width pre dataDir fuel cap files rs =
        (⟨files.lay o.written,
          [o.dir, o.dir ++ chars! "/linear_distribution", o.dir ++ chars! "/logarithmic_distribution"], []⟩,
          some (.ok ())) := by
  obtain ⟨j1, cs, j2, j3⟩ := script_ok (e := e) hx hp hs o h hsh
  refine ⟨((openCmds o.dir (o.dir ++ chars! "/linear_distribution") (o.dir ++ chars! "/logarithmic_distribution")
    o.summary.path ++ cs).map Cmd.cost).sum, fun files rs hpr hl => ?_⟩
  rw [j3]
  exact run_done (.ok ()) j2 j1 files rs hpr hl

/-- Finding: a table shorter than the buffer is not written before the end.  A program that is killed on a healthy system
leaves an empty table, or no table, however many groups it has finished; or it has written all distribution files. -/
theorem C103_killed (hx : x.Agrees e) (hp : HandsOver pieces) (hs : '/' ∉ x.summaryName) (o : AnalysisOutput)
    (h : analyzeDir z x f pe dh fromFile names exist listing date width pre dataDir fuel = some (.ok o))
    (hsh : ∀ m, z.loop (DataSet.eqv dh) fromFile [] (((listing dataDir).getD []) ++ [Entry.dir]) = .ok m →
      x.ShortResults z.skip cap m) (hshort : o.summary.text.length < cap) (files : Files) (rs : List Answer)
    (hpr : Progress rs) (left : OnDisk)
    (hr : analyzeOnDisk x e f pe pieces z dh fromFile names exist listing date width pre dataDir fuel cap files rs =
      (left, none)) :
    left.files = files ∨ (∃ vs, Begun vs o.files ∧ left.files = files.lay (⟨o.summary.path, []⟩ :: vs)) ∨
      ∃ s, s <+: o.summary.text ∧ left.files = files.lay (⟨o.summary.path, s⟩ :: o.files) := by
  obtain ⟨j1, cs, j2, j3⟩ := script_ok (e := e) hx hp hs o h hsh
  rw [j3] at hr
  obtain ⟨-, k2⟩ := run_left (some (.ok ())) j2 j1 files rs _ hr
  rcases k2 with ⟨k2, -⟩ | ⟨s, vs, g1, g2, g3, -, -, g4⟩
  · exact .inl k2
  · rcases g4 hshort rfl hpr with rfl | rfl
    · exact .inr (.inl ⟨vs, g1, g3⟩)
    · exact .inr (.inr ⟨s, g2, g3⟩)

/-- Findings: with such a table, (1) a program killed when all its work is done leaves all distribution files whole and the
table empty; (2) when the one call that writes the table fails (a full disk), the table is empty and the program reports
success. -/
theorem C103_lost_table (hx : x.Agrees e) (hp : HandsOver pieces) (hs : '/' ∉ x.summaryName) (o : AnalysisOutput)
    (h : analyzeDir z x f pe dh fromFile names exist listing date width pre dataDir fuel = some (.ok o))
    (hsh : ∀ m, z.loop (DataSet.eqv dh) fromFile [] (((listing dataDir).getD []) ++ [Entry.dir]) = .ok m →
      x.ShortResults z.skip cap m) (hshort : o.summary.text.length < cap) (files : Files) :
    ∃ rs, Progress rs ∧
      (∃ left, left.files = files.lay (⟨o.summary.path, []⟩ :: o.files) ∧
        analyzeOnDisk x e f pe pieces z dh fromFile names exist listing date width pre dataDir fuel cap files rs =
          (left, none)) ∧
      ∀ tag, ∃ left, left.files = files.lay (⟨o.summary.path, []⟩ :: o.files) ∧
        analyzeOnDisk x e f pe pieces z dh fromFile names exist listing date width pre dataDir fuel cap files
          (rs ++ [.fail tag]) = (left, some (.ok ())) := by
  obtain ⟨j1, cs, j2, j3⟩ := script_ok (e := e) hx hp hs o h hsh
  obtain ⟨used, u1, u2⟩ := run_at_end (a := o.dir) (b := o.dir ++ chars! "/linear_distribution")
    (c := o.dir ++ chars! "/logarithmic_distribution") (.ok ()) j2 j1 hshort files
  obtain ⟨c, t, ht⟩ : ∃ c t, o.summary.text = c :: t := by
    obtain ⟨-, m, rs, -, -, hsm, -⟩ := analyzeDir_ok z x f pe dh fromFile names exist listing date width pre dataDir fuel o h
    rw [hsm]
    cases hz : DataSet.exportForm width names ++ DataSet.exportForm width x.labels ++ ['\n'] ++
      (rs.map Prod.fst).flatten with
    | nil => simp at hz
    | cons c t => exact ⟨c, t, rfl⟩
  have hL : ∀ ext, analyzeOnDisk x e f pe pieces z dh fromFile names exist listing date width pre dataDir fuel cap files
      (used ++ ext) = _ := fun ext => (j3 files (used ++ ext)).trans (u2 ext)
  refine ⟨used, u1, ⟨⟨files.lay (⟨o.summary.path, []⟩ :: o.files), [o.dir, o.dir ++ chars! "/linear_distribution",
      o.dir ++ chars! "/logarithmic_distribution"], o.summary.text⟩, rfl, ?_⟩,
    fun tag => ⟨⟨files.lay (⟨o.summary.path, []⟩ :: o.files), [o.dir, o.dir ++ chars! "/linear_distribution",
      o.dir ++ chars! "/logarithmic_distribution"], o.summary.text⟩, rfl, ?_⟩⟩
  · have := hL []
    rw [List.append_nil] at this
    rw [this]
    simp only [dropEnd, ht, writeAll]
  · rw [hL]
    simp only [dropEnd, ht, writeAll]

/-- an analysis that cannot read its data, as calls. -/
theorem script_bad (bad : Res Unit) (dir : Str)
    (hd : summaryDir exist dataDir date fuel = some dir)
    (hm : (z.loop (DataSet.eqv dh) fromFile [] (((listing dataDir).getD []) ++ [Entry.dir])).map (fun _ => ()) = bad)
    (hb : bad ≠ .ok ()) (files : Files) (rs : List Answer) :
    analyzeOnDisk x e f pe pieces z dh fromFile names exist listing date width pre dataDir fuel cap files rs =
      Script.run cap (dir ++ chars! "/" ++ x.summaryName) ⟨openCmds dir (dir ++ chars! "/linear_distribution")
        (dir ++ chars! "/logarithmic_distribution") (dir ++ chars! "/" ++ x.summaryName) ++
        (pieces (DataSet.exportForm width names ++ DataSet.exportForm width x.labels ++ ['\n'])).map .table, some bad⟩
        ⟨files, [], []⟩ rs := by
  unfold analyzeOnDisk analyzeScript
  rw [hd]
  cases hz : z.loop (DataSet.eqv dh) fromFile [] (((listing dataDir).getD []) ++ [Entry.dir]) with
  | ok m => rw [hz] at hm; exact absurd hm.symm hb
  | err er =>
    rw [hz] at hm
    subst hm
    simp only [Script.andThen, Exporter.titleScript, List.append_nil]
    rfl
  | panic =>
    rw [hz] at hm
    subst hm
    simp only [Script.andThen, Exporter.titleScript, List.append_nil]
    rfl

/-- When reading the data fails (a line that is not a number, an unreadable file), nothing is left but the title of the
table, or a beginning of it. -/
theorem C103_reading_fails (hp : HandsOver pieces) (bad : Res Unit) (dir : Str)
    (hd : summaryDir exist dataDir date fuel = some dir)
    (hm : (z.loop (DataSet.eqv dh) fromFile [] (((listing dataDir).getD []) ++ [Entry.dir])).map (fun _ => ()) = bad)
    (hb : bad ≠ .ok ()) (files : Files) (rs : List Answer) (left : OnDisk) (result : Option (Res Unit))
    (hr : analyzeOnDisk x e f pe pieces z dh fromFile names exist listing date width pre dataDir fuel cap files rs =
      (left, result)) :
    (left.files = files ∨ ∃ s, s <+: DataSet.exportForm width names ++ DataSet.exportForm width x.labels ++ ['\n'] ∧
      left.files = files.lay [⟨dir ++ chars! "/" ++ x.summaryName, s⟩]) ∧
    ∀ q, result = some q → q = bad ∨ ∃ tag, q = .err (.io tag) ∧ FirstError rs tag := by
  have D := Does.tables cap (dir ++ chars! "/" ++ x.summaryName)
    (pieces (DataSet.exportForm width names ++ DataSet.exportForm width x.labels ++ ['\n']))
  rw [hp] at D
  rw [script_bad bad dir hd hm hb] at hr
  obtain ⟨-, k2⟩ := run_left (some bad) D (by simp) files rs _ hr
  refine ⟨?_, ?_⟩
  · rcases k2 with ⟨k2, -⟩ | ⟨s, vs, g1, g2, g3, -⟩
    · exact .inl k2
    · cases g1
      exact .inr ⟨s, g2, g3⟩
  · intro q hq
    subst hq
    rcases run_error hr with h | h
    · exact .inl (Option.some.inj h)
    · exact .inr h

/-- And on a healthy system just that is left, and the failure is reported. -/
theorem C103_reading_reported (hp : HandsOver pieces) (bad : Res Unit) (dir : Str)
    (hd : summaryDir exist dataDir date fuel = some dir)
    (hm : (z.loop (DataSet.eqv dh) fromFile [] (((listing dataDir).getD []) ++ [Entry.dir])).map (fun _ => ()) = bad)
    (hb : bad ≠ .ok ()) :
    ∃ N, ∀ (files : Files) (rs : List Answer), Progress rs → N ≤ rs.length →
      analyzeOnDisk x e f pe pieces z dh fromFile names exist listing date width pre dataDir fuel cap files rs =
        (⟨files.lay [⟨dir ++ chars! "/" ++ x.summaryName,
            DataSet.exportForm width names ++ DataSet.exportForm width x.labels ++ ['\n']⟩],
          [dir, dir ++ chars! "/linear_distribution", dir ++ chars! "/logarithmic_distribution"], []⟩, some bad) := by
  have D := Does.tables cap (dir ++ chars! "/" ++ x.summaryName)
    (pieces (DataSet.exportForm width names ++ DataSet.exportForm width x.labels ++ ['\n']))
  rw [hp] at D
  refine ⟨((openCmds dir (dir ++ chars! "/linear_distribution") (dir ++ chars! "/logarithmic_distribution")
    (dir ++ chars! "/" ++ x.summaryName) ++
    (pieces (DataSet.exportForm width names ++ DataSet.exportForm width x.labels ++ ['\n'])).map Cmd.table).map Cmd.cost).sum,
    fun files rs hpr hl => ?_⟩
  rw [script_bad bad dir hd hm hb]
  exact run_done (a := dir) (b := dir ++ chars! "/linear_distribution") (c := dir ++ chars! "/logarithmic_distribution")
      bad D (by simp) files rs hpr hl

/-- Finding: the result of a group is written with `write`, which may take only a part, and what it took is not looked at.
With a result as long as the buffer (many variables, or a large width) a system that makes progress at every call can leave a
row that is cut in the middle, its end of line missing, while the program reports success. -/
theorem C103_cut_row (hx : x.Agrees e) (hp : HandsOver pieces) (hs : '/' ∉ x.summaryName) (o : AnalysisOutput)
    (h : analyzeDir z x f pe dh fromFile names exist listing date width pre dataDir fuel = some (.ok o))
    (d : DataSet F) (a : A)
    (hm : z.loop (DataSet.eqv dh) fromFile [] (((listing dataDir).getD []) ++ [Entry.dir]) = .ok [(d, a)])
    (hk : z.skip a = false) (hc : 0 < cap) (hlong : cap ≤ (x.brief (x.draw a).1).length + 1) (n : Nat) (files : Files) :
    o.summary.text = DataSet.exportForm width names ++ DataSet.exportForm width x.labels ++ ['\n'] ++
      d.exportData pe width ++ (x.brief (x.draw a).1 ++ ['\n']) ∧
    ∃ rs left, Progress rs ∧
      analyzeOnDisk x e f pe pieces z dh fromFile names exist listing date width pre dataDir fuel cap files rs =
        (left, some (.ok ())) ∧
      left.files = files.lay (⟨o.summary.path, DataSet.exportForm width names ++ DataSet.exportForm width x.labels ++ ['\n'] ++
        d.exportData pe width ++ (x.brief (x.draw a).1 ++ ['\n']).take (n + 1)⟩ :: o.files) := by
  unfold analyzeDir at h
  cases hd : summaryDir exist dataDir date fuel with
  | none => rw [hd] at h; simp at h
  | some dir =>
    rw [hd] at h
    simp only [Option.bind_some] at h
    rw [hm] at h
    simp only [Exporter.all, hk, Bool.false_eq_true, if_false] at h
    cases ho : x.one f pe width pre dir d a with
    | none => rw [ho] at h; simp at h
    | some t =>
      rw [ho] at h
      cases t with
      | err er => simp [Res.map] at h
      | panic => simp [Res.map] at h
      | ok t =>
        simp only [Option.map_some, Res.map_ok, Option.some.injEq, Res.ok.injEq, List.append_nil] at h
        subst h
        obtain ⟨s1, s2, k1, k2⟩ := one_parts (e := e) hx hp width pre dir d a t ho
        subst k2
        refine ⟨by simp, ?_⟩
        have D0 := Does.tables cap (dir ++ chars! "/" ++ x.summaryName)
          (pieces (DataSet.exportForm width names ++ DataSet.exportForm width x.labels ++ ['\n']))
        have D1 := Does.tables cap (dir ++ chars! "/" ++ x.summaryName) (pieces (d.exportData pe width))
        rw [hp] at D0 D1
        have D3 := Does.file cap (dir ++ chars! "/" ++ x.summaryName)
          (dir ++ chars! "/linear_distribution/" ++ d.exportFileRemovedIdx f pre) s1 (linear_ne hs)
        have D4 := Does.file cap (dir ++ chars! "/" ++ x.summaryName)
          (dir ++ chars! "/logarithmic_distribution/" ++ d.exportFileRemovedIdx f pre) s2 (log_ne hs)
        obtain ⟨rs, left, r1, r2, r3⟩ := run_cut (a := dir) (b := dir ++ chars! "/linear_distribution")
          (c := dir ++ chars! "/logarithmic_distribution") (.ok ()) (D0.append D1) (D3.append D4) (by
            intro v hv
            simp only [List.nil_append, List.mem_append, List.mem_cons, List.not_mem_nil, or_false] at hv
            rcases hv with rfl | rfl
            · exact linear_ne hs
            · exact log_ne hs) hc
          (line := x.brief (x.draw a).1 ++ ['\n']) (by simpa using hlong) n files
        refine ⟨rs, left, r1, ?_, r3⟩
        unfold analyzeOnDisk analyzeScript
        rw [hd, hm]
        simp only [Exporter.groupsScript, hk, Bool.false_eq_true, if_false, k1]
        rw [← r2]
        simp only [Script.andThen, Exporter.titleScript, openCmds, List.append_assoc, List.cons_append, List.nil_append,
          List.append_nil]

end Dir

/-! ### an example: two groups, in whole-number arithmetic -/

namespace DiskExample

def fmt : NumFmt Z := ⟨fun a => Str.printNat a.val.toNat, fun s => (Str.parseNat s).map fun n => ⟨n⟩, ⟨0⟩⟩

/-- a file is understood when its first line is a number: the value of the one variable `dt`. -/
def understand : Reader → Res (DataSet Z) × Reader
  | .ok l :: rd => match fmt.parse l with
    | some v => (.ok ⟨[(chars! "dt", .real v)], []⟩, rd)
    | none => (.err .invalidFile, rd)
  | rd => (.err .invalidFile, rd)

def data : List Entry :=
  [.file [.ok (chars! "3"), .ok [], .ok (chars! "1"), .ok (chars! "5")], .file [.ok (chars! "4"), .ok [], .ok (chars! "2")]]

def out (es : List Entry) : Option (Res AnalysisOutput) :=
  analyzeDir (timeAnalyzer fmt ⟨1⟩ ⟨8⟩ ⟨1⟩ ⟨2⟩) (timeExporter fmt.print 2) fmt fmt.print List.sum understand [chars! "dt"]
    (fun _ => false) (fun _ => some es) (chars! "d") 2 (chars! "p") (chars! "x") 1

def onDisk (es : List Entry) (cap : Nat) (rs : List Answer) : OnDisk × Option (Res Unit) :=
  analyzeOnDisk (timeExporter fmt.print 2) (timeWriter fmt.print 2) fmt fmt.print (fun s => [s])
    (timeAnalyzer fmt ⟨1⟩ ⟨8⟩ ⟨1⟩ ⟨2⟩) List.sum understand [chars! "dt"]
    (fun _ => false) (fun _ => some es) (chars! "d") 2 (chars! "p") (chars! "x") 1 cap (fun _ => none) rs

theorem out_ok : ∃ o, out data = some (.ok o) ∧ o.summary.text = chars! "dtensemblemeanstddev\n3 \t3 \t2 \t2 \n4 \t2 \t0 \t1 \n" ∧
    o.files.length = 4 := by
  have h : ((out data).map fun q => q.map fun o => (o.summary.text, o.files.length)) =
      some (.ok (chars! "dtensemblemeanstddev\n3 \t3 \t2 \t2 \n4 \t2 \t0 \t1 \n", 4)) := by decide +kernel
  cases ho : out data with
  | none => rw [ho] at h; simp at h
  | some q =>
    rw [ho] at h
    cases q with
    | err er => simp [Res.map] at h
    | panic => simp [Res.map] at h
    | ok o =>
      simp only [Option.map_some, Res.map_ok, Option.some.injEq, Res.ok.injEq, Prod.mk.injEq] at h
      exact ⟨o, rfl, h⟩

theorem short (es : List Entry) (ls : List Nat) (cap : Nat)
    (h : ((timeAnalyzer fmt ⟨1⟩ ⟨8⟩ ⟨1⟩ ⟨2⟩).loop (DataSet.eqv List.sum) understand [] (es ++ [Entry.dir])).map
      (fun m => m.map fun p => ((timeExporter fmt.print 2).brief ((timeExporter fmt.print 2).draw p.2).1).length + 1) = .ok ls)
    (hl : ∀ l ∈ ls, l < cap) :
    ∀ m, (timeAnalyzer fmt ⟨1⟩ ⟨8⟩ ⟨1⟩ ⟨2⟩).loop (DataSet.eqv List.sum) understand []
      (((some es : Option (List Entry)).getD []) ++ [Entry.dir]) = .ok m →
      (timeExporter fmt.print 2).ShortResults (timeAnalyzer fmt ⟨1⟩ ⟨8⟩ ⟨1⟩ ⟨2⟩).skip cap m := by
  intro m hm p hp _
  simp only [Option.getD_some] at hm
  rw [hm] at h
  simp only [Res.map_ok, Res.ok.injEq] at h
  exact hl _ (by rw [← h]; exact List.mem_map_of_mem hp)

/-- All hypotheses are met, with the buffer of std. -/
example : ∃ N, ∀ rs, Progress rs → N ≤ rs.length → (onDisk data 8192 rs).2 = some (.ok ()) := by
  obtain ⟨o, h, -, -⟩ := out_ok
  obtain ⟨N, hN⟩ := C103_complete (cap := 8192) (pieces := fun s => [s]) (C103_rows fmt.print 2 0).1 (fun s => List.append_nil s) (by decide) o h
    (short data [9, 9] 8192 (by decide +kernel) (by decide))
  exact ⟨N, fun rs h1 h2 => by rw [onDisk, hN _ rs h1 h2]⟩

/-- Killed after 17 calls: the distributions of the first group and a part of those of the second are there, the table is
empty. -/
example : (onDisk data 8192 (List.replicate 17 (.done 100))).2 = none ∧
    (onDisk data 8192 (List.replicate 17 (.done 100))).1.files (chars! "x/analysis_d/brief_result.dat") = some [] ∧
    (onDisk data 8192 (List.replicate 17 (.done 100))).1.files (chars! "x/analysis_d/logarithmic_distribution/p_dt_3.dat") =
      some (chars! " 2\t 1\t 0\n 4\t 0\t 0\n 8\t 1\t 0\n") ∧
    (onDisk data 8192 (List.replicate 17 (.done 100))).1.files (chars! "x/analysis_d/linear_distribution/p_dt_4.dat") =
      some [] := by decide +kernel

/-- The file that was being written when the disk was full: the error is reported, the table gets its first line and what
was in memory of the second. -/
example : (onDisk data 8192 ([.done 0, .done 0, .done 0, .done 0, .done 0, .done 5, .fail 28, .done 100])).2 =
      some (.err (.io 28)) ∧
    (onDisk data 8192 ([.done 0, .done 0, .done 0, .done 0, .done 0, .done 5, .fail 28, .done 100])).1.files
      (chars! "x/analysis_d/linear_distribution/p_dt_3.dat") = some (chars! " 2\t 1") ∧
    (onDisk data 8192 ([.done 0, .done 0, .done 0, .done 0, .done 0, .done 5, .fail 28, .done 100])).1.files
      (chars! "x/analysis_d/brief_result.dat") = some (chars! "dtensemblemeanstddev\n3 \t3 \t2 \t2 \n") := by
  decide +kernel

/-- The last call fails: success is reported, the table is empty. -/
example : (onDisk data 8192 (List.replicate 28 (.done 100) ++ [.fail 28])).2 = some (.ok ()) ∧
    (onDisk data 8192 (List.replicate 28 (.done 100) ++ [.fail 28])).1.files (chars! "x/analysis_d/brief_result.dat") =
      some [] := by decide +kernel

/-- A line of data that is not a number: a panic, and the title alone. -/
example : (onDisk [.file [.ok (chars! "3"), .ok [], .ok (chars! "1"), .ok (chars! "five")]] 8192
      (List.replicate 5 (.done 100))).2 = some .panic ∧
    (onDisk [.file [.ok (chars! "3"), .ok [], .ok (chars! "1"), .ok (chars! "five")]] 8192
      (List.replicate 5 (.done 100))).1.files (chars! "x/analysis_d/brief_result.dat") =
      some (chars! "dtensemblemeanstddev\n") := by decide +kernel

/-- A buffer of 8 characters and a result of 9: all calls succeed, success is reported, the row is cut. -/
example : (onDisk [.file [.ok (chars! "3"), .ok [], .ok (chars! "1"), .ok (chars! "5")]] 8
      (List.replicate 4 (.done 0) ++ [.done 100, .done 100, .done 4] ++ List.replicate 12 (.done 100))).2 = some (.ok ()) ∧
    (onDisk [.file [.ok (chars! "3"), .ok [], .ok (chars! "1"), .ok (chars! "5")]] 8
      (List.replicate 4 (.done 0) ++ [.done 100, .done 100, .done 4] ++ List.replicate 12 (.done 100))).1.files
        (chars! "x/analysis_d/brief_result.dat") = some (chars! "dtensemblemeanstddev\n3 \t3 \t2") := by decide +kernel

end DiskExample

end Moledyn.Props
