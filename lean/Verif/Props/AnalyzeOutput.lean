import Verif.Spec.Export
import Verif.Props.FileNames
import Verif.Props.AnalysisExport
/-
C62: an analysis never overwrites anything and never feeds on its own results.
-/
set_option linter.unusedSimpArgs false
namespace Moledyn.Props
open Moledyn
variable {F A : Type}

/-! ### the directory for the results -/

theorem printNat_injective {m n : Nat} (h : Str.printNat m = Str.printNat n) : m = n := by
  obtain ⟨ds, -, h1, h2, h3⟩ := Str.printNat_digits m
  obtain ⟨es, -, g1, g2, g3⟩ := Str.printNat_digits n
  have a := Str.parseDigits_digits ds h1
  have b := Str.parseDigits_digits es g1
  rw [← h2, h, g2, b, h3, g3] at a
  exact (Option.some.inj a).symm

theorem numbered_injective {base : Str} {i j : Nat} (h : numbered base i = numbered base j) : i = j :=
  printNat_injective (List.append_cancel_left h)

theorem freshName_some (exist : Str → Bool) (base : Str) (fuel i : Nat) (d : Str)
    (h : freshName exist base fuel i = some d) :
    ∃ j ≥ i, d = numbered base j ∧ exist d = false ∧ ∀ k, i ≤ k → k < j → exist (numbered base k) = true := by
  induction fuel generalizing i with
  | zero => simp [freshName] at h
  | succ fuel ih =>
    simp only [freshName] at h
    split at h
    · rename_i he
      obtain ⟨j, hj, h1, h2, h3⟩ := ih (i + 1) h
      refine ⟨j, by omega, h1, h2, fun k hk1 hk2 => ?_⟩
      rcases Nat.eq_or_lt_of_le hk1 with rfl | hk
      · exact he
      · exact h3 k hk hk2
    · rename_i he
      injection h with h
      subst h
      exact ⟨i, le_refl _, rfl, by simpa using he, fun k h1 h2 => by omega⟩

theorem freshName_found (exist : Str → Bool) (base : Str) (fuel i j : Nat) (hij : i ≤ j) (hj : j < i + fuel)
    (h : exist (numbered base j) = false) : ∃ d, freshName exist base fuel i = some d := by
  induction fuel generalizing i with
  | zero => omega
  | succ fuel ih =>
    simp only [freshName]
    split
    · rename_i he
      rcases Nat.eq_or_lt_of_le hij with rfl | hlt
      · have : exist (numbered base i) = true := he
        rw [h] at this; simp at this
      · exact ih (i + 1) hlt (by omega)
    · exact ⟨_, rfl⟩

/-- The directory for the results does not exist yet.  It is `analysis_<date>` in the data directory, or the
first `analysis_<date>_2`, `_3`, … that does not exist. -/
theorem C62_fresh_directory (exist : Str → Bool) (dataDir date : Str) (fuel : Nat) (dir : Str)
    (h : summaryDir exist dataDir date fuel = some dir) :
    exist dir = false ∧ (dir = dataDir ++ chars! "/analysis_" ++ date ∨
      exist (dataDir ++ chars! "/analysis_" ++ date) = true ∧
      ∃ i ≥ 2, dir = numbered (dataDir ++ chars! "/analysis_" ++ date) i ∧
        ∀ k, 2 ≤ k → k < i → exist (numbered (dataDir ++ chars! "/analysis_" ++ date) k) = true) := by
  simp only [summaryDir] at h
  split at h
  · rename_i he
    obtain ⟨j, h1, h2, h3, h4⟩ := freshName_some _ _ _ _ _ h
    exact ⟨h3, .inr ⟨he, j, h1, h2, h4⟩⟩
  · rename_i he
    injection h with h
    subst h
    exact ⟨by simpa using he, .inl rfl⟩

/-- Such a directory is found whatever the finitely many paths that exist: the loop ends. -/
theorem C62_directory_found (paths : List Str) (dataDir date : Str) :
    ∀ fuel > paths.length, ∃ dir, summaryDir (fun p => decide (p ∈ paths)) dataDir date fuel = some dir := by
  intro fuel hf
  simp only [summaryDir]
  split
  · have : ∃ j, 2 ≤ j ∧ j < 2 + fuel ∧ numbered (dataDir ++ chars! "/analysis_" ++ date) j ∉ paths := by
      by_contra hc
      push Not at hc
      have hsub : (List.range' 2 fuel).map (numbered (dataDir ++ chars! "/analysis_" ++ date)) ⊆ paths := by
        intro x hx
        obtain ⟨j, hj, rfl⟩ := List.mem_map.1 hx
        obtain ⟨h1, h2⟩ := List.mem_range'_1.1 hj
        exact hc j h1 h2
      have hnd : ((List.range' 2 fuel).map (numbered (dataDir ++ chars! "/analysis_" ++ date))).Nodup :=
        List.Nodup.map (fun _ _ h => numbered_injective h) List.nodup_range'
      have := (List.subperm_of_subset hnd hsub).length_le
      simp at this
      omega
    obtain ⟨j, h1, h2, h3⟩ := this
    exact freshName_found _ _ fuel 2 j h1 h2 (by simpa using h3)
  · exact ⟨_, rfl⟩

example : summaryDir (fun p => decide (p ∈ [chars! "d/analysis_1", chars! "d/analysis_1_2"])) (chars! "d")
    (chars! "1") 3 = some (chars! "d/analysis_1_3") := by decide +kernel

/-! ### what is written -/

/-- the groups that are written, one after the other. -/
theorem all_ok (x : Exporter A) (skip : A → Bool) (f : NumFmt F) (pe : F → Str) (width : Nat) (pre dir : Str)
    (m : List (DataSet F × A)) (r : Str × List Written)
    (h : x.all skip f pe width pre dir m = some (.ok r)) :
    ∃ rs : List (Str × List Written), r.1 = (rs.map Prod.fst).flatten ∧ r.2 = (rs.map Prod.snd).flatten ∧
      List.Forall₂ (fun (p : DataSet F × A) q => x.one f pe width pre dir p.1 p.2 = some (.ok q))
        (m.filter fun p => !skip p.2) rs := by
  induction m generalizing r with
  | nil =>
    simp only [Exporter.all, Option.some.injEq, Res.ok.injEq] at h
    subst h
    exact ⟨[], rfl, rfl, .nil⟩
  | cons p m ih =>
    obtain ⟨d, a⟩ := p
    simp only [Exporter.all] at h
    split at h
    · rename_i hs
      obtain ⟨rs, h1, h2, h3⟩ := ih r h
      exact ⟨rs, h1, h2, by simpa [hs] using h3⟩
    · rename_i hs
      split at h
      · rename_i q hq
        cases ha : x.all skip f pe width pre dir m with
        | none => rw [ha] at h; simp at h
        | some s =>
          rw [ha] at h
          simp only [Option.map_some, Option.some.injEq] at h
          cases s with
          | err e => simp at h
          | panic => simp at h
          | ok s =>
            simp only [Res.map_ok, Res.ok.injEq] at h
            subst h
            obtain ⟨rs, h1, h2, h3⟩ := ih s ha
            refine ⟨q :: rs, by simp [h1], by simp [h2], ?_⟩
            simpa [hs] using ⟨hq, h3⟩
      · rename_i hq
        exact absurd h (hq r)

theorem one_files (x : Exporter A) (f : NumFmt F) (pe : F → Str) (width : Nat) (pre dir : Str) (d : DataSet F)
    (a : A) (q : Str × List Written) (h : x.one f pe width pre dir d a = some (.ok q)) :
    q.2.map Written.path = [dir ++ chars! "/linear_distribution/" ++ d.exportFileRemovedIdx f pre,
      dir ++ chars! "/logarithmic_distribution/" ++ d.exportFileRemovedIdx f pre] := by
  unfold Exporter.one at h
  split at h
  · simp only at h
    split at h
    · simp at h
    · split at h
      · simp at h
      · simp only [Option.some.injEq, Res.ok.injEq] at h
        subst h
        rfl
      · simp at h
      · simp at h
    · simp at h
    · simp at h
  · simp at h
  · simp at h

theorem forall₂_mem {α β : Type} {R : α → β → Prop} {l : List α} {l' : List β} (h : List.Forall₂ R l l') :
    ∀ b ∈ l', ∃ a ∈ l, R a b := by
  induction h with
  | nil => simp
  | cons h _ ih =>
    intro b hb
    rcases List.mem_cons.1 hb with rfl | hb
    · exact ⟨_, by simp, h⟩
    · obtain ⟨a, ha, hr⟩ := ih b hb
      exact ⟨a, by simp [ha], hr⟩

section Dir
variable [Fl F] (z : Analyzer A) (x : Exporter A) (f : NumFmt F) (pe : F → Str) (dh : List Nat → Nat)
  (fromFile : Reader → Res (DataSet F) × Reader) (names : List Str) (exist : Str → Bool)
  (listing : Str → Option (List Entry)) (date : Str) (width : Nat) (pre dataDir : Str) (fuel : Nat)

/-- the parts of a successful analysis. -/
theorem analyzeDir_ok (o : AnalysisOutput)
    (h : analyzeDir z x f pe dh fromFile names exist listing date width pre dataDir fuel = some (.ok o)) :
    summaryDir exist dataDir date fuel = some o.dir ∧ ∃ m rs,
      z.loop (DataSet.eqv dh) fromFile [] (((listing dataDir).getD []) ++ [Entry.dir]) = .ok m ∧
      List.Forall₂ (fun (p : DataSet F × A) q => x.one f pe width pre o.dir p.1 p.2 = some (.ok q))
        (m.filter fun p => !z.skip p.2) rs ∧
      o.summary = ⟨o.dir ++ chars! "/" ++ x.summaryName,
          DataSet.exportForm width names ++ DataSet.exportForm width x.labels ++ ['\n'] ++
            (rs.map Prod.fst).flatten⟩ ∧
      o.files = (rs.map Prod.snd).flatten := by
  unfold analyzeDir at h
  cases hd : summaryDir exist dataDir date fuel with
  | none => rw [hd] at h; simp at h
  | some dir =>
    rw [hd] at h
    simp only [Option.bind_some] at h
    split at h
    · rename_i m hm
      cases ha : x.all z.skip f pe width pre dir m with
      | none => rw [ha] at h; simp at h
      | some s =>
        rw [ha] at h
        simp only [Option.map_some, Option.some.injEq] at h
        cases s with
        | err e => simp at h
        | panic => simp at h
        | ok r =>
          simp only [Res.map_ok, Res.ok.injEq] at h
          subst h
          obtain ⟨rs, h1, h2, h3⟩ := all_ok x z.skip f pe width pre dir m r ha
          exact ⟨rfl, m, rs, hm, h3, by rw [h1], h2⟩
    · simp at h
    · simp at h

/-- Everything an analysis writes lies in a directory that did not exist before. -/
theorem C62_writes_inside (o : AnalysisOutput)
    (h : analyzeDir z x f pe dh fromFile names exist listing date width pre dataDir fuel = some (.ok o)) :
    exist o.dir = false ∧ Inside dataDir o.dir ∧ ∀ w ∈ o.written, Inside o.dir w.path := by
  obtain ⟨hd, m, rs, -, hf, hs, hfi⟩ := analyzeDir_ok z x f pe dh fromFile names exist listing date width pre
    dataDir fuel o h
  obtain ⟨h1, h2⟩ := C62_fresh_directory exist dataDir date fuel o.dir hd
  refine ⟨h1, ?_, ?_⟩
  · rcases h2 with h2 | ⟨-, i, -, h2, -⟩
    · exact ⟨chars! "analysis_" ++ date, by rw [h2]; simp⟩
    · exact ⟨chars! "analysis_" ++ date ++ chars! "_" ++ Str.printNat i, by rw [h2]; simp [numbered]⟩
  · intro w hw
    rcases List.mem_cons.1 hw with rfl | hw
    · exact ⟨x.summaryName, by rw [hs]⟩
    · rw [hfi] at hw
      obtain ⟨l, hl, hwl⟩ := List.mem_flatten.1 hw
      obtain ⟨q, hq, rfl⟩ := List.mem_map.1 hl
      obtain ⟨p, -, hp⟩ := forall₂_mem hf q hq
      have := one_files x f pe width pre o.dir p.1 p.2 q hp
      have hm : w.path ∈ q.2.map Written.path := List.mem_map_of_mem hwl
      rw [this] at hm
      simp only [List.mem_cons, List.not_mem_nil, or_false] at hm
      rcases hm with hm | hm
      · exact ⟨chars! "linear_distribution/" ++ p.1.exportFileRemovedIdx f pre, by rw [hm]; simp⟩
      · exact ⟨chars! "logarithmic_distribution/" ++ p.1.exportFileRemovedIdx f pre, by rw [hm]; simp⟩

/-- So no file that exists is overwritten, in any file system in which the directory of an existing path exists. -/
theorem C62_overwrites_nothing (hfs : ∀ dir path, Inside dir path → exist path = true → exist dir = true)
    (o : AnalysisOutput)
    (h : analyzeDir z x f pe dh fromFile names exist listing date width pre dataDir fuel = some (.ok o)) :
    ∀ w ∈ o.written, exist w.path = false := by
  obtain ⟨h1, -, h2⟩ := C62_writes_inside z x f pe dh fromFile names exist listing date width pre dataDir fuel o h
  intro w hw
  cases he : exist w.path with
  | false => rfl
  | true => rw [hfs _ _ (h2 w hw) he] at h1; simp at h1

theorem loop_no_dirs {D : Type} (eq : D → D → Bool) (ff : Reader → Res D × Reader) (m : List (D × A))
    (es : List Entry) : z.loop eq ff m es = z.loop eq ff m (es.filter fun e => !e.isDir) := by
  induction es generalizing m with
  | nil => rfl
  | cons e es ih =>
    cases e with
    | dir => simp only [Analyzer.loop, Analyzer.entry, Res.bind_ok, Entry.isDir, Bool.not_true,
        List.filter_cons, Bool.false_eq_true, if_false]; exact ih m
    | unopenable t =>
      simp only [Analyzer.loop, Analyzer.entry, Res.bind_ok, Entry.isDir, Bool.not_false, List.filter_cons, if_true]
      exact ih m
    | bad t => rfl
    | file rd =>
      simp only [Analyzer.loop, Entry.isDir, Bool.not_false, List.filter_cons, if_true]
      congr 1
      funext m
      exact ih m

/-- Sub-directories of the data directory, in particular those with the results of earlier analyses, have no
influence: the same results are obtained with any other sub-directories. -/
theorem C62_directories_ignored (listing' : Str → Option (List Entry))
    (hl : ((listing dataDir).getD []).filter (fun e => !e.isDir) =
      ((listing' dataDir).getD []).filter (fun e => !e.isDir)) :
    analyzeDir z x f pe dh fromFile names exist listing date width pre dataDir fuel =
      analyzeDir z x f pe dh fromFile names exist listing' date width pre dataDir fuel := by
  unfold analyzeDir
  rw [loop_no_dirs z _ _ _ ((listing dataDir).getD [] ++ [Entry.dir]),
    loop_no_dirs z _ _ _ ((listing' dataDir).getD [] ++ [Entry.dir]), List.filter_append, List.filter_append, hl]

/-- Finding: a data directory that does not exist (a misspelt one) is not an error: it is made, and a table
without a line is written into it. -/
theorem C62_missing_directory (hl : listing dataDir = none) (dir : Str)
    (hd : summaryDir exist dataDir date fuel = some dir) :
    analyzeDir z x f pe dh fromFile names exist listing date width pre dataDir fuel =
      some (.ok ⟨dir, ⟨dir ++ chars! "/" ++ x.summaryName,
        DataSet.exportForm width names ++ DataSet.exportForm width x.labels ++ ['\n']⟩, []⟩) := by
  unfold analyzeDir
  rw [hd, hl]
  simp [Analyzer.loop, Analyzer.entry, Exporter.all]

omit [Fl F] in
/-- the files of all groups. -/
theorem forall₂_paths (dir : Str) (m : List (DataSet F × A)) (rs : List (Str × List Written))
    (hf : List.Forall₂ (fun (p : DataSet F × A) q => x.one f pe width pre dir p.1 p.2 = some (.ok q)) m rs) :
    ((rs.map Prod.snd).flatten).map Written.path = (m.map fun p =>
      [dir ++ chars! "/linear_distribution/" ++ p.1.exportFileRemovedIdx f pre,
       dir ++ chars! "/logarithmic_distribution/" ++ p.1.exportFileRemovedIdx f pre]).flatten := by
  induction hf with
  | nil => rfl
  | cons h _ ih =>
    simp only [List.map_cons, List.flatten_cons, List.map_append, ih, one_files x f pe width pre dir _ _ _ h]

/-- Every group has its own two files: no path is written twice.  `hty` holds for the datasets of one simulation
(`C56_same_type`), `hna` when the values in the readable result files are finite numbers and integers below 2^64. -/
theorem C62_one_file_each (ok : F → Prop) (hu : NumFmt.Underscoreless f ok) (o : AnalysisOutput)
    (h : analyzeDir z x f pe dh fromFile names exist listing date width pre dataDir fuel = some (.ok o))
    (hty : ∀ rd rd' d d' r r', fromFile rd = (.ok d, r) → fromFile rd' = (.ok d', r') → SameType d d')
    (hna : ∀ e ∈ (listing dataDir).getD [], ∀ d rd, e.contributes fromFile = some (d, rd) → Nameable ok d)
    (hlab : '/' ∉ x.summaryName) :
    (o.written.map Written.path).Nodup := by
  obtain ⟨hd, m, rs, hm, hf, hs, hfi⟩ := analyzeDir_ok z x f pe dh fromFile names exist listing date width pre
    dataDir fuel o h
  rw [eqv_decide] at hm
  have hg := C51_groups z (fun d : DataSet F => dh d.key) fromFile _ m hm
  have hinv := loop_inv z (fun d : DataSet F => dh d.key) fromFile [] m [] _ ⟨by simp, by simp, by simp, by simp⟩ hm
  have hnam : ∀ p ∈ m, Nameable ok p.1 := by
    intro p hp
    obtain ⟨⟨e, hem, rd, he⟩, -⟩ := hg.2 p hp
    rcases List.mem_append.1 hem with hem | hem
    · exact hna e hem _ _ he
    · simp only [List.mem_singleton] at hem
      subst hem
      simp [Entry.contributes] at he
  have horig : ∀ p ∈ m, ∃ rd r, fromFile rd = (.ok p.1, r) := by
    intro p hp
    obtain ⟨⟨e, -, rd, he⟩, -⟩ := hg.2 p hp
    cases e with
    | dir => simp [Entry.contributes] at he
    | unopenable t => simp [Entry.contributes] at he
    | bad t => simp [Entry.contributes] at he
    | file rd0 =>
      simp only [Entry.contributes] at he
      split at he
      · rename_i d r hr
        simp only [Option.some.injEq, Prod.mk.injEq] at he
        exact ⟨rd0, r, by rw [hr, he.1]⟩
      · simp at he
  have hpw : m.Pairwise fun p q => p.1.exportFileRemovedIdx f pre ≠ q.1.exportFileRemovedIdx f pre := by
    refine hinv.distinct.imp_of_mem ?_
    intro p q hp hq hne he
    obtain ⟨r1, s1, hr1⟩ := horig p hp
    obtain ⟨r2, s2, hr2⟩ := horig q hq
    have := (C56_group_file_injective f ok hu pre p.1 q.1 (hty _ _ _ _ _ _ hr1 hr2) (hnam p hp)
      (hnam q hq) he).2 dh
    rw [eqv_decide, decide_eq_true_iff] at this
    exact hne this
  have hpw2 := hpw.filter (fun p => !z.skip p.2)
  unfold AnalysisOutput.written
  rw [List.map_cons, hfi, forall₂_paths x f pe width pre o.dir _ rs hf, List.nodup_cons]
  refine ⟨?_, ?_⟩
  · rw [hs]
    intro hmem
    obtain ⟨l, hl, hml⟩ := List.mem_flatten.1 hmem
    obtain ⟨p, -, rfl⟩ := List.mem_map.1 hl
    simp only [List.mem_cons, List.not_mem_nil, or_false] at hml
    have key : ∀ t : Str, '/' ∈ t → o.dir ++ chars! "/" ++ x.summaryName ≠ o.dir ++ '/' :: t := by
      intro t ht he
      simp only [List.append_assoc, List.append_cancel_left_eq] at he
      have : x.summaryName = t := by simpa using he
      rw [← this] at ht
      exact hlab ht
    rcases hml with hml | hml
    · exact key (chars! "linear_distribution/" ++ p.1.exportFileRemovedIdx f pre)
        (List.mem_append_left _ (by decide)) (by rw [hml]; simp)
    · exact key (chars! "logarithmic_distribution/" ++ p.1.exportFileRemovedIdx f pre)
        (List.mem_append_left _ (by decide)) (by rw [hml]; simp)
  · generalize (m.filter fun p => !z.skip p.2) = g at hpw2
    induction g with
    | nil => simp
    | cons p g ih =>
      rw [List.pairwise_cons] at hpw2
      rw [List.map_cons, List.flatten_cons, List.nodup_append]
      refine ⟨?_, ih hpw2.2, ?_⟩
      · simp
      · intro a ha b hb hab
        subst hab
        obtain ⟨l, hl, hml⟩ := List.mem_flatten.1 hb
        obtain ⟨q, hq, rfl⟩ := List.mem_map.1 hl
        have hne := hpw2.1 q hq
        simp only [List.mem_cons, List.not_mem_nil, or_false] at ha hml
        rcases ha with rfl | rfl <;> rcases hml with hml | hml
        · simp only [List.append_cancel_left_eq] at hml
          exact hne hml
        · simp only [List.append_assoc, List.append_cancel_left_eq] at hml
          simp at hml
        · simp only [List.append_assoc, List.append_cancel_left_eq] at hml
          simp at hml
        · simp only [List.append_cancel_left_eq] at hml
          exact hne hml

end Dir
end Moledyn.Props
