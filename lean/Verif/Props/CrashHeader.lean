import Verif.Props.CrashData
/-
C98: what the analysis makes of a result file that was cut in its header.
-/
set_option linter.unusedSimpArgs false
namespace Moledyn.Props
open Moledyn OutFile
variable {F A X : Type}

private theorem stripCR_sub {s : Str} {c : Char} (h : c ∈ Str.stripCR s) : c ∈ s := by
  rcases Str.stripCR_cases s with e | ⟨t, e, e'⟩
  · rwa [e] at h
  · rw [e'] at h; rw [e]; simp [h]

/-- one line per field, each one a line for its value -/
private def IsHeader (fs : List Field) (ls : List Str) : Prop :=
  List.Forall₂ (fun g l => '\n' ∉ l ∧ ∃ x, LineFor g (some (.ok (Str.stripCR l))) (.ok x)) fs ls

private theorem block_lines (width : Nat) (fs : List Field) (v : Vals fs) (hn : ∀ f ∈ fs, f.NameOk) (hv : Vals.Printable fs v) :
    ∃ ls, printConfiguration width fs v = .ok (textOf ls) ∧ IsHeader fs ls := by
  induction fs with
  | nil => exact ⟨[], rfl, .nil⟩
  | cons f fs ih =>
    obtain ⟨⟨s, hs1, hs2, hs3, hs4⟩, hv2⟩ := hv
    obtain ⟨ls, h1, h2⟩ := ih v.2 (fun g hg => hn g (by simp [hg])) hv2
    obtain ⟨hc, hl⟩ := hn f (by simp)
    refine ⟨(Str.padRight width f.name ++ [':', ' '] ++ s) :: ls, by simp [printConfiguration, hs1, h1, textOf], .cons ⟨Str.noNL_line hl hs3, v.1, ?_⟩ h2⟩
    have e : Str.padRight width f.name ++ [':', ' '] ++ s = Str.padRight width f.name ++ ([':'] ++ (' ' :: s)) := by simp
    rw [e, Str.stripCR_append _ (by simp), Str.stripCR_append _ (by simp)]
    refine .value (Str.padRight width f.name) (Str.stripCR (' ' :: s)) v.1 ?_ ?_ ?_
    · intro h
      rcases Str.mem_padRight h with h | h
      · exact hc h
      · revert h; decide
    · intro h
      have := stripCR_sub h
      simp only [List.mem_cons] at this
      rcases this with h | h
      · revert h; decide
      · exact hs2 h
    · rw [Str.trim_stripCR, Str.trim_cons_ws (by decide), hs4]

private theorem blocks_lines (width : Nat) (Ss : List Schema) (v : AllVals Ss) (hn : ∀ S ∈ Ss, ∀ f ∈ S.fields, f.NameOk)
    (hv : AllVals.Printable Ss v) :
    ∃ ls, printAll width Ss v = .ok (textOf ls) ∧ IsHeader (Ss.flatMap Schema.fields) ls := by
  induction Ss with
  | nil => exact ⟨[], rfl, .nil⟩
  | cons S Ss ih =>
    obtain ⟨x, v⟩ := v
    obtain ⟨l1, h1, h2⟩ := block_lines width S.fields x (hn S (by simp)) hv.1
    obtain ⟨l2, h3, h4⟩ := ih v (fun T hT => hn T (by simp [hT])) hv.2
    exact ⟨l1 ++ l2, by simp [printAll, h1, h3, textOf], List.rel_append h2 h4⟩

variable {cs : List (Component F)} {sim : Component F}

private theorem header_lines (width : Nat) (v : AllVals (schemasOf cs)) (x : Vals sim.schema.fields)
    (hn : ∀ S ∈ schemasOf cs, ∀ f ∈ S.fields, f.NameOk) (hns : ∀ f ∈ sim.schema.fields, f.NameOk)
    (hv : AllVals.Printable (schemasOf cs) v) (hx : Vals.Printable sim.schema.fields x) (h : Str)
    (hh : fileHeader width (schemasOf cs ++ [sim.schema]) (AllVals.snoc v x) = .ok h) :
    ∃ l1 l2, printAll width (schemasOf cs) v = .ok (textOf l1) ∧ printConfiguration width sim.schema.fields x = .ok (textOf l2) ∧
      h = textOf (descriptionsLine :: (l1 ++ l2) ++ [dataStartsLine]) ∧
      l1.length = ((schemasOf cs).flatMap Schema.fields).length ∧ IsHeader (headerFields cs sim) (l1 ++ l2) := by
  obtain ⟨l1, h1, i1⟩ := blocks_lines width (schemasOf cs) v hn hv
  obtain ⟨l2, h2, i2⟩ := block_lines width sim.schema.fields x hns hx
  refine ⟨l1, l2, h1, h2, ?_, i1.length_eq.symm, List.rel_append i1 i2⟩
  rw [fileHeader, printAll_snoc, h1, h2] at hh
  rw [← Res.ok.inj hh]
  simp [textOf]

private theorem lines_len (ls : List Str) (hls : ∀ l ∈ ls, '\n' ∉ l) (P : Str) (hP : P <+: textOf ls) :
    (Str.lines P).length ≤ ls.length := by
  obtain ⟨k, w, hk, rfl, hw⟩ := prefix_text ls P hP
  have hwn : '\n' ∉ w := by
    rcases hw with rfl | ⟨l, h1, h2⟩
    · simp
    · exact fun hc => hls l (List.mem_of_getElem? h1) (h2.subset hc)
  rw [lines_text _ (fun l hl => hls l (List.mem_of_mem_take hl)), lines_open hwn]
  by_cases hw0 : w = []
  · simp [hw0]
  · obtain ⟨l, h1, -⟩ := hw.resolve_left hw0
    have := (List.getElem?_eq_some_iff.1 h1).1
    simp [hw0]; omega

private theorem header_noNL {fs : List Field} {ls : List Str} (h : IsHeader fs ls) :
    ∀ l ∈ descriptionsLine :: ls ++ [dataStartsLine], '\n' ∉ l := by
  have : ∀ l ∈ ls, '\n' ∉ l := by
    intro l hl
    obtain ⟨j, hj, rfl⟩ := List.mem_iff_getElem.1 hl
    have := List.forall₂_iff_get.1 h
    exact (this.2 j (by rw [this.1]; exact hj) hj).1
  intro l hl
  simp only [List.cons_append, List.mem_cons, List.mem_append, List.not_mem_nil, or_false] at hl
  rcases hl with rfl | hl | rfl
  · decide
  · exact this l hl
  · decide

private theorem fits_length (fs : List Field) (rd : Reader) (v : Vals fs) (h : Moledyn.Fits fs rd v) : fs.length ≤ rd.length := by
  induction fs generalizing rd with
  | nil => simp
  | cons g fs ih =>
    obtain ⟨h1, h2⟩ := h
    cases rd with
    | nil => cases h1
    | cons l rd => simpa using ih rd v.2 h2

/-- A result file that was cut in its header (or that consists of its header) never brings data. If it is taken for a file of a run
at all, then with the recorded parameters of the run that wrote it. -/
theorem C98_header_cut (width : Nat) (r : RunOf cs sim X)
    (hn : ∀ S ∈ schemasOf cs, ∀ f ∈ S.fields, f.NameOk) (hns : ∀ f ∈ sim.schema.fields, f.NameOk) (hp : r.Printable)
    (hsim : sim.schema.fields ≠ []) (h : Str)
    (hh : fileHeader width (schemasOf cs ++ [sim.schema]) (AllVals.snoc r.vals r.simVals) = .ok h)
    (P : Str) (hP : P <+: h) :
    (Entry.file (Reader.ofLines (Str.lines P))).contributes (DataSet.fromFile cs sim) = none ∨
    ∃ d, (Entry.file (Reader.ofLines (Str.lines P))).contributes (DataSet.fromFile cs sim) = some (d, []) ∧
      d.vars = r.dataset.vars := by
  obtain ⟨l1, l2, p1, p2, e, hlen, hH⟩ := header_lines width r.vals r.simVals hn hns hp.1 hp.2 h hh
  have hnl := header_noNL hH
  have hN : (l1 ++ l2).length = (headerFields cs sim).length := hH.length_eq.symm
  rw [e] at hP
  have hlenP := lines_len _ hnl P hP
  cases hf : DataSet.fromFile cs sim (Reader.ofLines (Str.lines P)) with
  | mk q rd' =>
    cases q with
    | err c => left; simp [Entry.contributes, hf]
    | panic => left; simp [Entry.contributes, hf]
    | ok d =>
      right
      obtain ⟨v, s, f1, f2, rfl, rfl⟩ := (C89_file_ok cs sim _ _ _).1 hf
      refine ⟨DataSet.new cs sim v s, by
        simp only [Entry.contributes, hf, Option.some.injEq, Prod.mk.injEq, true_and]
        rw [List.drop_drop]
        refine List.drop_of_length_le ?_
        simp only [List.length_append, List.length_cons, List.length_nil] at hlenP hN
        simp only [Reader.ofLines, List.length_map]
        omega, ?_⟩
      have hfl := fits_length _ _ _ f2
      have hs0 : 0 < sim.schema.fields.length := List.length_pos_iff.2 hsim
      simp only [Reader.ofLines, List.length_drop, List.length_map] at hfl
      have e1 : textOf (descriptionsLine :: (l1 ++ l2) ++ [dataStartsLine]) =
          textOf (descriptionsLine :: l1) ++ textOf (l2 ++ [dataStartsLine]) := by simp [textOf]
      rw [e1] at hP
      rcases prefix_append_cases hP with hP | ⟨rest, rfl, -⟩
      · exfalso
        have := lines_len _ (fun l hl => hnl l (by
          simp only [List.mem_cons] at hl
          simp only [List.cons_append, List.mem_cons, List.mem_append]
          tauto)) P hP
        simp only [List.length_cons] at this
        omega
      · obtain ⟨t, ht, hr⟩ := readAll_print width (schemasOf cs) r.vals hn hp.1 rest
        rw [p1] at ht; obtain rfl := Res.ok.inj ht
        have e2 : textOf (descriptionsLine :: l1) ++ rest = descriptionsLine ++ '\n' :: (textOf l1 ++ rest) := by
          simp [textOf]
        have e3 : (Reader.ofLines (Str.lines (textOf (descriptionsLine :: l1) ++ rest))).drop 1 =
            Reader.ofLines (Str.lines (textOf l1 ++ rest)) := by
          rw [e2, Str.lines_cons (by decide)]
          rfl
        rw [e3] at f1
        have := (readAll_ok _ _ _ _).2 ⟨f1, rfl⟩
        rw [hr] at this
        obtain ⟨e4, -⟩ := Prod.mk.inj this
        rw [← Res.ok.inj e4]
        rfl

private theorem last_line {A B w w' : Str} (hw : '\n' ∉ w) (hw' : '\n' ∉ w') (h : A ++ '\n' :: w = B ++ '\n' :: w') : w = w' := by
  have key : ∀ A w : Str, '\n' ∉ w → (A ++ '\n' :: w).reverse.takeWhile (· != '\n') = w.reverse := by
    intro A w hw
    have e : (A ++ '\n' :: w).reverse = w.reverse ++ ('\n' :: A.reverse) := by simp
    rw [e, List.takeWhile_append_of_pos (by
      intro c hc
      have : c ≠ '\n' := fun h => hw (by rw [← h]; simpa using hc)
      simpa using this)]
    simp
  have := key A w hw
  rw [h, key B w' hw'] at this
  simpa using this.symm

private theorem count_text (ls : List Str) (h : ∀ l ∈ ls, '\n' ∉ l) : (textOf ls).count '\n' = ls.length := by
  induction ls with
  | nil => rfl
  | cons l ls ih =>
    have e : textOf (l :: ls) = l ++ '\n' :: textOf ls := by simp [textOf]
    rw [e, List.count_append, List.count_cons_self, ih (fun l hl => h l (by simp [hl])), List.count_eq_zero.2 (h l (by simp))]
    simp

private theorem take_closed (L : List Str) (k : Nat) (h : k < L.length) : ∃ q, textOf (L.take (k + 1)) = q ++ ['\n'] := by
  rw [List.take_add_one, List.getElem?_eq_getElem h]
  refine ⟨textOf (L.take k) ++ L[k], ?_⟩
  generalize L.take k = A
  generalize L[k] = b
  simp [textOf]

/-- The only cut that ends the whole analysis (a panic): behind the colon of the line of a value, so that what is left of the value
is not the text of a value. -/
theorem C98_header_cut_stops (width : Nat) (r : RunOf cs sim X)
    (hn : ∀ S ∈ schemasOf cs, ∀ f ∈ S.fields, f.NameOk) (hns : ∀ f ∈ sim.schema.fields, f.NameOk) (hp : r.Printable) (h : Str)
    (hh : fileHeader width (schemasOf cs ++ [sim.schema]) (AllVals.snoc r.vals r.simVals) = .ok h)
    (P : Str) (hP : P <+: h) :
    (Entry.file (Reader.ofLines (Str.lines P))).fatal (DataSet.fromFile cs sim) ↔
    ∃ j g q a u, (headerFields cs sim)[j]? = some g ∧ P.count '\n' = j + 1 ∧ P = q ++ '\n' :: (a ++ ':' :: u) ∧
      '\n' ∉ a ∧ '\n' ∉ u ∧ ∀ x, g.parse (Str.trim u) ≠ .ok x := by
  obtain ⟨l1, l2, p1, p2, e, hlen, hH⟩ := header_lines width r.vals r.simVals hn hns hp.1 hp.2 h hh
  have hnl := header_noNL hH
  generalize l1 ++ l2 = ls at *
  have hN : ls.length = (headerFields cs sim).length := hH.length_eq.symm
  rw [e] at hP
  obtain ⟨m, w, hm, rfl, hw⟩ := prefix_text _ P hP
  have hwn : '\n' ∉ w := by
    rcases hw with rfl | ⟨l, h1, h2⟩
    · simp
    · exact fun hc => hnl l (List.mem_of_getElem? h1) (h2.subset hc)
  have hcount : (textOf ((descriptionsLine :: ls ++ [dataStartsLine]).take m) ++ w).count '\n' = m := by
    rw [List.count_append, count_text _ (fun l hl => hnl l (List.mem_of_mem_take hl)), List.count_eq_zero.2 hwn,
      List.length_take]
    omega
  set L := descriptionsLine :: ls ++ [dataStartsLine] with hL
  have hlines : Str.lines (textOf (L.take m) ++ w) = (L.take m).map Str.stripCR ++ if w = [] then [] else [w] := by
    rw [lines_text _ (fun l hl => hnl l (List.mem_of_mem_take hl)), lines_open hwn]
  have hget : ∀ k < (headerFields cs sim).length, k + 1 < m →
      ((Reader.ofLines (Str.lines (textOf (L.take m) ++ w))).drop 1)[k]? = ls[k]?.map fun l => Except.ok (Str.stripCR l) := by
    intro k hk hkm
    rw [hlines, List.getElem?_drop, Reader.ofLines, List.getElem?_map, List.getElem?_append_left (by simp; omega),
      List.getElem?_map, List.getElem?_take, if_pos (by omega), hL, show 1 + k = k + 1 by omega, List.cons_append,
      List.getElem?_cons_succ, List.getElem?_append_left (by omega)]
    cases ls[k]? <;> rfl
  have hgood : ∀ (k : Nat) (g : Field), (headerFields cs sim)[k]? = some g → k + 1 < m →
      ∃ x, LineFor g ((Reader.ofLines (Str.lines (textOf (L.take m) ++ w))).drop 1)[k]? (.ok x) := by
    intro k g hg hkm
    obtain ⟨hk, rfl⟩ := List.getElem?_eq_some_iff.1 hg
    rw [hget k hk hkm, List.getElem?_eq_getElem (by omega)]
    exact ((List.forall₂_iff_get.1 hH).2 k hk (by omega)).2
  have hlast : ∀ k, k + 1 = m → ((Reader.ofLines (Str.lines (textOf (L.take m) ++ w))).drop 1)[k]? =
      if w = [] then none else some (.ok w) := by
    intro k hkm
    rw [hlines, List.getElem?_drop, Reader.ofLines, List.getElem?_map, List.getElem?_append_right (by simp; omega)]
    have : (1 + k - ((L.take m).map Str.stripCR).length) = 0 := by
      simp only [List.length_map, List.length_take]; omega
    rw [this]
    split <;> rfl
  have hfatal : (Entry.file (Reader.ofLines (Str.lines (textOf (L.take m) ++ w)))).fatal (DataSet.fromFile cs sim) ↔
      ∃ k, FirstBad (headerFields cs sim) ((Reader.ofLines (Str.lines (textOf (L.take m) ++ w))).drop 1) k none := by
    constructor
    · intro hf
      obtain ⟨k, hk, -⟩ := (C89_file_fails cs sim _ _ none).1 (Prod.ext hf rfl)
      exact ⟨k, hk⟩
    · rintro ⟨k, hk⟩
      have := (C89_file_fails cs sim _ _ none).2 ⟨k, hk, rfl⟩
      exact congrArg Prod.fst this
  rw [hfatal]
  constructor
  · rintro ⟨k, -, g, hg, hbad⟩
    obtain ⟨hk, -⟩ := List.getElem?_eq_some_iff.1 hg
    have hkm : ¬ k + 1 < m := by
      intro hkm
      obtain ⟨x, hx⟩ := hgood k g hg hkm
      have := lineFor_unique hx hbad
      cases this
    have hkm' : k + 1 = m := by
      by_contra hne
      have : ((Reader.ofLines (Str.lines (textOf (L.take m) ++ w))).drop 1)[k]? = none := by
        rw [hlines]
        refine List.getElem?_eq_none ?_
        simp only [Reader.ofLines, List.length_drop, List.length_map, List.length_append, List.length_take]
        split <;> simp <;> omega
      rw [this] at hbad
      cases hbad
    rw [hlast k hkm'] at hbad
    by_cases hw0 : w = []
    · rw [if_pos hw0] at hbad
      cases hbad
    · rw [if_neg hw0] at hbad
      obtain ⟨a, u, ha, hu, rfl, hx⟩ : ∃ a u, ':' ∉ a ∧ ':' ∉ u ∧ w = a ++ ':' :: u ∧ ∀ x, g.parse (Str.trim u) ≠ .ok x := by
        generalize hq : (some (Except.ok w) : Option (Except Nat Str)) = o at hbad
        generalize hr : (failure none : Res g.V) = rr at hbad
        cases hbad with
        | missing => cases hq
        | broken t => cases hq
        | colons s hs => cases hr
        | value a w x ha hw h => cases hr
        | garbage a u ha hu hx => cases hq; exact ⟨a, u, ha, hu, rfl, hx⟩
      obtain ⟨q, hq⟩ : ∃ q, textOf (L.take m) = q ++ ['\n'] := by
        rw [← hkm']
        exact take_closed L k (by rw [hL]; simp; omega)
      refine ⟨k, g, q, a, u, hg, by rw [hcount]; exact hkm'.symm, by rw [hq]; simp, ?_, ?_, hx⟩
      · exact fun hc => hwn (by simp [hc])
      · exact fun hc => hwn (by simp [hc])
  · rintro ⟨j, g, q, a, u, hg, hc, hPe, ha, hu, hx⟩
    rw [hcount] at hc
    obtain ⟨hk, -⟩ := List.getElem?_eq_some_iff.1 hg
    obtain ⟨q', hq'⟩ : ∃ q, textOf (L.take m) = q ++ ['\n'] := by
      rw [hc]
      exact take_closed L j (by rw [hL]; simp; omega)
    have hwe : w = a ++ ':' :: u := by
      rw [hq', List.append_assoc] at hPe
      refine last_line hwn ?_ hPe
      simp [ha, hu]
    have hone : w.count ':' ≤ 1 := by
      rcases hw with rfl | ⟨l, h1, h2⟩
      · simp
      · refine (h2.sublist.count_le _).trans ?_
        have hl : ls[j]? = some l := by
          rw [hc, hL, List.cons_append, List.getElem?_cons_succ, List.getElem?_append_left (by omega)] at h1
          exact h1
        obtain ⟨hj', rfl⟩ := List.getElem?_eq_some_iff.1 hl
        obtain ⟨-, x, hx⟩ := (List.forall₂_iff_get.1 hH).2 j hk hj'
        have hcs : (Str.stripCR (ls[j]'hj')).count ':' ≤ 1 := by
          generalize hq : (some (Except.ok (Str.stripCR (ls.get ⟨j, hj'⟩))) : Option (Except Nat Str)) = o at hx
          generalize hr : (Res.ok x : Res _) = rr at hx
          cases hx with
          | missing => cases hq
          | broken t => cases hq
          | colons s hs => cases hr
          | value a w x ha hw h =>
            have : Str.stripCR (ls[j]'hj') = a ++ ':' :: w := by
              have := Except.ok.inj (Option.some.inj hq)
              simpa using this
            rw [this, List.count_append, List.count_cons_self, List.count_eq_zero.2 ha, List.count_eq_zero.2 hw]
          | garbage a u ha hu hx => cases hr
        rcases Str.stripCR_cases (ls[j]'hj') with e | ⟨t, e, e'⟩
        · rwa [e] at hcs
        · rw [e'] at hcs
          rw [e, List.count_append]
          simpa using hcs
    rw [hwe, List.count_append, List.count_cons_self] at hone
    refine ⟨j, fun i g' hi hg' => hgood i g' hg' (by omega), g, hg, ?_⟩
    rw [hlast j hc.symm, if_neg (by rw [hwe]; simp), hwe]
    refine .garbage a u ?_ ?_ hx
    · intro hcm; have := List.count_pos_iff.2 hcm; omega
    · intro hcm; have := List.count_pos_iff.2 hcm; omega

/-- Once all lines of values are complete, the file is that of a run of these parameters without data. -/
theorem C98_header_complete (width : Nat) (r : RunOf cs sim X)
    (hn : ∀ S ∈ schemasOf cs, ∀ f ∈ S.fields, f.NameOk) (hns : ∀ f ∈ sim.schema.fields, f.NameOk) (hp : r.Printable) (h : Str)
    (hh : fileHeader width (schemasOf cs ++ [sim.schema]) (AllVals.snoc r.vals r.simVals) = .ok h)
    (P : Str) (hP : P <+: h) (hc : (headerFields cs sim).length + 1 ≤ P.count '\n') :
    (Entry.file (Reader.ofLines (Str.lines P))).contributes (DataSet.fromFile cs sim) = some (r.dataset, []) := by
  obtain ⟨l1, l2, p1, p2, e, hlen, hH⟩ := header_lines width r.vals r.simVals hn hns hp.1 hp.2 h hh
  have hnl := header_noNL hH
  have hN : (l1 ++ l2).length = (headerFields cs sim).length := hH.length_eq.symm
  rw [e] at hP
  have hlenP := lines_len _ hnl P hP
  have e1 : textOf (descriptionsLine :: (l1 ++ l2) ++ [dataStartsLine]) =
      textOf (descriptionsLine :: (l1 ++ l2)) ++ (dataStartsLine ++ ['\n']) := by simp [textOf]
  have e0 : ∀ rest, textOf (descriptionsLine :: (l1 ++ l2)) ++ rest = descriptionsLine ++ '\n' :: (textOf l1 ++ (textOf l2 ++ rest)) := by
    intro rest; simp [textOf]
  rw [e1] at hP
  obtain ⟨rest, rfl, hrest⟩ : ∃ rest, P = textOf (descriptionsLine :: (l1 ++ l2)) ++ rest ∧ rest <+: dataStartsLine ++ ['\n'] := by
    rcases prefix_append_cases hP with hP' | hP'
    · have hnl' : ∀ l ∈ descriptionsLine :: (l1 ++ l2), '\n' ∉ l := fun l hl => hnl l (by
        simp only [List.cons_append, List.mem_cons, List.mem_append] at hl ⊢; tauto)
      obtain ⟨t, ht⟩ := hP'
      refine ⟨[], ?_, List.nil_prefix⟩
      have hcT := count_text _ hnl'
      rw [← ht, List.count_append] at hcT
      rw [List.append_nil, ← ht]
      have ht0 : t.count '\n' = 0 := by simp only [List.length_cons] at hcT; omega
      rcases List.eq_nil_or_concat t with rfl | ⟨t', c, rfl⟩
      · simp
      · exfalso
        obtain ⟨q, hq⟩ : ∃ q, textOf (descriptionsLine :: (l1 ++ l2)) = q ++ ['\n'] := by
          rcases List.eq_nil_or_concat (l1 ++ l2) with e | ⟨A, b, e⟩
          · rw [e]; exact ⟨descriptionsLine, by simp [textOf]⟩
          · rw [e]; exact ⟨textOf (descriptionsLine :: A) ++ b, by simp [textOf]⟩
        rw [hq, List.concat_eq_append, ← List.append_assoc] at ht
        have := (List.append_inj' ht rfl).2
        simp only [List.cons.injEq, and_true] at this
        subst this
        simp at ht0
    · exact hP'
  obtain ⟨t, ht, hr⟩ := readAll_print width (schemasOf cs) r.vals hn hp.1 (textOf l2 ++ rest)
  rw [p1] at ht; obtain rfl := Res.ok.inj ht
  obtain ⟨t, ht, hr2⟩ := C42_reads_back sim.schema.fields r.simVals hns hp.2 width rest
  rw [p2] at ht; obtain rfl := Res.ok.inj ht
  have hff : DataSet.fromFile cs sim (Reader.ofLines (Str.lines (textOf (descriptionsLine :: (l1 ++ l2)) ++ rest))) =
      (.ok r.dataset, Reader.ofLines (Str.lines rest)) := by
    have e3 : (Reader.ofLines (Str.lines (textOf (descriptionsLine :: (l1 ++ l2)) ++ rest))).drop 1 =
        Reader.ofLines (Str.lines (textOf l1 ++ (textOf l2 ++ rest))) := by
      rw [e0, Str.lines_cons (by decide)]
      rfl
    rw [DataSet.fromFile, e3, hr]
    simp only
    rw [hr2]
    rfl
  simp only [Entry.contributes, hff, Option.some.injEq, Prod.mk.injEq, true_and]
  refine List.drop_of_length_le ?_
  have := lines_len [dataStartsLine] (by intro l hl; simp only [List.mem_singleton] at hl; subst hl; decide) rest
    (by simpa [textOf] using hrest)
  simpa [Reader.ofLines] using this

end Moledyn.Props
