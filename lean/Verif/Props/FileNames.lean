import Verif.Props.DatasetHash
/-
C56: names of result files.  C51: a result file is read back as the dataset that wrote it.
-/
set_option linter.unusedSimpArgs false
namespace Moledyn.Props
open Moledyn
variable {F : Type}

/-- two lists of variables of the same structure: same names and same kinds. -/
def SameShape : List (Str × DataVar F) → List (Str × DataVar F) → Prop
  | [], [] => True
  | (n, .real _) :: l, (n', .real _) :: l' => n = n' ∧ SameShape l l'
  | (n, .nat _) :: l, (n', .nat _) :: l' => n = n' ∧ SameShape l l'
  | _, _ => False

/-- printing real values is injective and never uses an underscore (true of `{}` for `f64`). -/
structure NumFmt.Underscoreless (f : NumFmt F) (ok : F → Prop) : Prop where
  inj : ∀ x y, ok x → ok y → f.print x = f.print y → x = y
  clean : ∀ x, ok x → '_' ∉ f.print x

/-- all real values of the list are good for printing. -/
def AllOk (ok : F → Prop) (l : List (Str × DataVar F)) : Prop := ∀ n x, (n, DataVar.real x) ∈ l → ok x

/-- all integer values fit into a `usize`. -/
def NatsFit (l : List (Str × DataVar F)) : Prop := ∀ n x, (n, DataVar.nat x) ∈ l → x < 2 ^ 64

theorem printNat_no_underscore (n : Nat) : '_' ∉ Str.printNat n := by
  intro h
  obtain ⟨d, hd, e⟩ := Str.printNat_mem h
  interval_cases d <;> exact absurd e (by decide)

theorem printNat_inj {m n : Nat} (hm : m < 2 ^ 64) (hn : n < 2 ^ 64) (h : Str.printNat m = Str.printNat n) :
    m = n := by
  have h1 := Str.parse_printNat hm
  rw [h, Str.parse_printNat hn] at h1
  exact (Option.some.inj h1).symm

/-- splitting at the first underscore. -/
theorem split_at_mark {c : Char} : ∀ {a b s t : Str}, c ∉ a → c ∉ b → a ++ c :: s = b ++ c :: t → a = b
  | [], [], _, _, _, _, _ => rfl
  | [], y :: b, s, t, _, hb, h => by
    simp only [List.nil_append, List.cons_append, List.cons.injEq] at h
    exact absurd h.1 (by intro e; exact hb (by simp [e]))
  | x :: a, [], s, t, ha, _, h => by
    simp only [List.nil_append, List.cons_append, List.cons.injEq] at h
    exact absurd h.1.symm (by intro e; exact ha (by simp [e]))
  | x :: a, y :: b, s, t, ha, hb, h => by
    simp only [List.cons_append, List.cons.injEq] at h
    rw [h.1, split_at_mark (fun e => ha (by simp [e])) (fun e => hb (by simp [e])) h.2]

theorem nameParts_cons (f : NumFmt F) (v : Str × DataVar F) (l : List (Str × DataVar F)) :
    DataSet.nameParts f (v :: l) = ['_'] ++ v.1 ++ ['_'] ++ v.2.display f ++ DataSet.nameParts f l := by
  simp [DataSet.nameParts]

theorem nameParts_append (f : NumFmt F) (l l' : List (Str × DataVar F)) :
    DataSet.nameParts f (l ++ l') = DataSet.nameParts f l ++ DataSet.nameParts f l' := by
  simp [DataSet.nameParts]

/-- the value texts of two values of the same kind followed by the rest of the name. -/
theorem tail_cancel (f : NumFmt F) (T a b : Str) (l l' : List (Str × DataVar F)) (hs : SameShape l l')
    (ha : '_' ∉ a) (hb : '_' ∉ b)
    (h : a ++ (DataSet.nameParts f l ++ T) = b ++ (DataSet.nameParts f l' ++ T)) : a = b := by
  match l, l', hs with
  | [], [], _ => simpa [DataSet.nameParts] using h
  | v :: l, [], hs => obtain ⟨n, _ | _⟩ := v <;> exact hs.elim
  | v :: l, v' :: l', _ =>
    rw [nameParts_cons, nameParts_cons] at h
    simp only [List.cons_append, List.nil_append, List.append_assoc] at h
    exact split_at_mark ha hb h

theorem nameParts_inj (f : NumFmt F) (ok : F → Prop) (hf : NumFmt.Underscoreless f ok) (T : Str) :
    ∀ (l l' : List (Str × DataVar F)), SameShape l l' → AllOk ok l → AllOk ok l' → NatsFit l → NatsFit l' →
      DataSet.nameParts f l ++ T = DataSet.nameParts f l' ++ T → l = l'
  | [], [], _, _, _, _, _, _ => rfl
  | (n, .real x) :: l, (n', .real x') :: l', hs, h1, h2, h3, h4, h => by
    obtain ⟨rfl, hs⟩ := hs
    rw [nameParts_cons, nameParts_cons] at h
    simp only [List.cons_append, List.nil_append, List.append_assoc, List.cons.injEq, true_and,
      List.append_cancel_left_eq, DataVar.display] at h
    have hx := h1 n x (by simp)
    have hx' := h2 n x' (by simp)
    have e := tail_cancel f T _ _ l l' hs (hf.clean _ hx) (hf.clean _ hx') h
    rw [e] at h
    rw [hf.inj _ _ hx hx' e, nameParts_inj f ok hf T l l' hs (fun m y hy => h1 m y (by simp [hy]))
      (fun m y hy => h2 m y (by simp [hy])) (fun m y hy => h3 m y (by simp [hy]))
      (fun m y hy => h4 m y (by simp [hy])) (List.append_cancel_left h)]
  | (n, .nat x) :: l, (n', .nat x') :: l', hs, h1, h2, h3, h4, h => by
    obtain ⟨rfl, hs⟩ := hs
    rw [nameParts_cons, nameParts_cons] at h
    simp only [List.cons_append, List.nil_append, List.append_assoc, List.cons.injEq, true_and,
      List.append_cancel_left_eq, DataVar.display] at h
    have e := tail_cancel f T _ _ l l' hs (printNat_no_underscore x) (printNat_no_underscore x') h
    rw [e] at h
    rw [printNat_inj (h3 n x (by simp)) (h4 n x' (by simp)) e,
      nameParts_inj f ok hf T l l' hs (fun m y hy => h1 m y (by simp [hy]))
      (fun m y hy => h2 m y (by simp [hy])) (fun m y hy => h3 m y (by simp [hy]))
      (fun m y hy => h4 m y (by simp [hy])) (List.append_cancel_left h)]

theorem sameShape_append {a a' b b' : List (Str × DataVar F)} :
    SameShape a a' → SameShape b b' → SameShape (a ++ b) (a' ++ b') := by
  intro h hb
  match a, a', h with
  | [], [], _ => exact hb
  | (n, .real _) :: l, (n', .real _) :: l', h => exact ⟨h.1, sameShape_append h.2 hb⟩
  | (n, .nat _) :: l, (n', .nat _) :: l', h => exact ⟨h.1, sameShape_append h.2 hb⟩

theorem sameShape_length {a a' : List (Str × DataVar F)} (h : SameShape a a') : a.length = a'.length := by
  match a, a', h with
  | [], [], _ => rfl
  | (n, .real _) :: l, (n', .real _) :: l', h => simp [sameShape_length h.2]
  | (n, .nat _) :: l, (n', .nat _) :: l', h => simp [sameShape_length h.2]

/-- a dataset whose values can be written into a file name. -/
def Nameable (ok : F → Prop) (d : DataSet F) : Prop :=
  (AllOk ok d.vars ∧ NatsFit d.vars) ∧ AllOk ok d.simVars ∧ NatsFit d.simVars

/-- two datasets of the same type. -/
def SameType (d e : DataSet F) : Prop := SameShape d.vars e.vars ∧ SameShape d.simVars e.simVars

/-- C56: two configurations of one simulation get the same result file only if all recorded variables,
including those of the simulation part, are the same. -/
theorem C56_result_file_injective (f : NumFmt F) (ok : F → Prop) (hf : NumFmt.Underscoreless f ok) (pre : Str)
    (d e : DataSet F) (ht : SameType d e) (hd : Nameable ok d) (he : Nameable ok e)
    (h : d.exportFile f pre = e.exportFile f pre) : d = e := by
  have h' : DataSet.nameParts f (d.vars ++ d.simVars) ++ chars! ".dat" =
      DataSet.nameParts f (e.vars ++ e.simVars) ++ chars! ".dat" := by
    rw [nameParts_append, nameParts_append]
    simp only [DataSet.exportFile, List.append_assoc, List.append_cancel_left_eq] at h
    simpa only [List.append_assoc] using h
  have := nameParts_inj f ok hf _ _ _ (sameShape_append ht.1 ht.2)
    (fun n x hx => by
      rcases List.mem_append.1 hx with hx | hx
      · exact hd.1.1 n x hx
      · exact hd.2.1 n x hx)
    (fun n x hx => by
      rcases List.mem_append.1 hx with hx | hx
      · exact he.1.1 n x hx
      · exact he.2.1 n x hx)
    (fun n x hx => by
      rcases List.mem_append.1 hx with hx | hx
      · exact hd.1.2 n x hx
      · exact hd.2.2 n x hx)
    (fun n x hx => by
      rcases List.mem_append.1 hx with hx | hx
      · exact he.1.2 n x hx
      · exact he.2.2 n x hx) h'
  obtain ⟨h1, h2⟩ := List.append_inj this (sameShape_length ht.1)
  cases d; cases e; simp_all

/-- C56: the name of the file with the distribution of a group depends only on the variables outside the
simulation part. -/
theorem C56_group_file_ignores_simulation (f : NumFmt F) (pre : Str) (vars s s' : List (Str × DataVar F)) :
    (DataSet.mk vars s).exportFileRemovedIdx f pre = (DataSet.mk vars s').exportFileRemovedIdx f pre := rfl

/-- C56: different groups get different distribution files: when the names agree, so do the variables, and
the datasets are equal for every digest function. -/
theorem C56_group_file_injective [Fl F] (f : NumFmt F) (ok : F → Prop) (hf : NumFmt.Underscoreless f ok) (pre : Str)
    (d e : DataSet F) (ht : SameType d e) (hd : Nameable ok d) (he : Nameable ok e)
    (h : d.exportFileRemovedIdx f pre = e.exportFileRemovedIdx f pre) :
    d.vars = e.vars ∧ ∀ dh, DataSet.eqv dh d e = true := by
  have h' : DataSet.nameParts f d.vars ++ chars! ".dat" =
      DataSet.nameParts f e.vars ++ chars! ".dat" := by
    simpa only [DataSet.exportFileRemovedIdx, List.append_assoc, List.append_cancel_left_eq] using h
  have hv := nameParts_inj f ok hf _ _ _ ht.1 hd.1.1 he.1.1 hd.1.2 he.1.2 h'
  refine ⟨hv, fun dh => ?_⟩
  simp [DataSet.eqv, DataSet.key, hv]

/-- C56: but members of one group may have been given different names: values that hash alike are one
group although the names of their distribution files differ (only the first dataset of the group names the
file). -/
theorem C56_group_members_may_differ (f : NumFmt ℝ) (ok : ℝ → Prop) (hf : NumFmt.Underscoreless f ok) (pre n : Str)
    (x y : ℝ) (hx : ok x) (hy : ok y) (hxl : wordLimit ≤ x) (hyl : wordLimit ≤ y) (hne : x ≠ y) :
    (∀ dh, DataSet.eqv dh (DataSet.mk [(n, .real x)] []) (DataSet.mk [(n, .real y)] []) = true) ∧
    (DataSet.mk [(n, .real x)] []).exportFileRemovedIdx f pre ≠
      (DataSet.mk [(n, .real y)] []).exportFileRemovedIdx f pre := by
  constructor
  · intro dh
    simp [DataSet.eqv, DataSet.key, DataVar.asF64, C51_saturates hxl hyl]
  · intro h
    have := (C56_group_file_injective f ok hf pre _ _ (by simp [SameType, SameShape])
      ⟨⟨fun m z hz => by simp at hz; rw [hz.2]; exact hx, fun m z hz => by simp at hz⟩,
        fun m z hz => by simp at hz, fun m z hz => by simp at hz⟩
      ⟨⟨fun m z hz => by simp at hz; rw [hz.2]; exact hy, fun m z hz => by simp at hz⟩,
        fun m z hz => by simp at hz, fun m z hz => by simp at hz⟩ h).1
    simp at this
    exact hne this

/-- all datasets of one `simulation!` are of the same type, whatever the values. -/
def Component.Uniform (c : Component F) : Prop := ∀ v w, SameShape (c.pick v) (c.pick w)

theorem uniform_components (f : NumFmt F) :
    ∀ c ∈ [circComponent f, cubicComponent f, bulkTargetComponent f, indepComponent f, expComponent f,
      ljComponent f, constStepComponent f, expStepComponent f, variableSimComponent,
      parVariableSimComponent, processSimComponent f], Component.Uniform c := by
  intro c hc v w
  simp only [List.mem_cons, List.not_mem_nil, or_false] at hc
  rcases hc with rfl | rfl | rfl | rfl | rfl | rfl | rfl | rfl | rfl | rfl | rfl
  · exact ⟨rfl, rfl, trivial⟩
  · exact ⟨rfl, rfl, trivial⟩
  · exact ⟨rfl, trivial⟩
  · exact ⟨rfl, trivial⟩
  · exact ⟨rfl, rfl, rfl, trivial⟩
  · exact ⟨rfl, rfl, rfl, trivial⟩
  · exact ⟨rfl, rfl, trivial⟩
  · exact ⟨rfl, rfl, rfl, rfl, trivial⟩
  · exact ⟨rfl, trivial⟩
  · exact ⟨rfl, trivial⟩
  · exact ⟨rfl, rfl, trivial⟩

theorem C56_same_type (cs : List (Component F)) (sim : Component F) (hc : ∀ c ∈ cs, Component.Uniform c)
    (hs : Component.Uniform sim) (v v' : AllVals (schemasOf cs)) (s s' : Vals sim.schema.fields) :
    SameType (DataSet.new cs sim v s) (DataSet.new cs sim v' s') := by
  refine ⟨?_, hs s s'⟩
  show SameShape (pickAll cs v) (pickAll cs v')
  induction cs with
  | nil => trivial
  | cons c cs ih =>
    exact sameShape_append (hc c (by simp) _ _) (ih (fun d hd => hc d (by simp [hd])) _ _)

theorem C56_natFmt_underscoreless : NumFmt.Underscoreless natFmt (· < 2 ^ 64) where
  inj _ _ hx hy h := printNat_inj hx hy h
  clean x _ := printNat_no_underscore x

example : (DataSet.mk [(chars! "sys_size", .real 10), (chars! "dim", .nat 2)] [(chars! "idx_set", .nat 1)]).exportFile
    natFmt (chars! "rst") = chars! "rst_sys_size_10_dim_2_idx_set_1.dat" := by rfl
example : SameType (DataSet.mk [(chars! "sys_size", .real (10 : Nat)), (chars! "dim", .nat 2)] [(chars! "idx_set", .nat 1)])
    (DataSet.mk [(chars! "sys_size", .real 11), (chars! "dim", .nat 3)] [(chars! "idx_set", .nat 2)]) := by
  simp [SameType, SameShape]

/-! ### a result file names its own dataset -/

theorem printAll_snoc (width : Nat) : (Ss : List Schema) → (S : Schema) → (v : AllVals Ss) → (x : Vals S.fields) →
    printAll width (Ss ++ [S]) (AllVals.snoc v x) =
      (printAll width Ss v).bind fun a => (printConfiguration width S.fields x).map fun b => a ++ b
  | [], S, v, x => by
    simp only [List.nil_append, AllVals.snoc, printAll]
    cases printConfiguration width S.fields x <;> simp
  | T :: Ss, S, v, x => by
    simp only [List.cons_append, AllVals.snoc, printAll]
    rw [printAll_snoc width Ss S v.2 x]
    cases printConfiguration width T.fields v.1 <;> simp
    cases printAll width Ss v.2 <;> simp
    cases printConfiguration width S.fields x <;> simp

/-- C51: a result file with any data, written for printable values, is read as the dataset made of these
values, and what is left to be read is the separator line and the data. -/
theorem C51_from_file (width : Nat) (cs : List (Component F)) (sim : Component F) (v : AllVals (schemasOf cs))
    (s : Vals sim.schema.fields) (hn : ∀ S ∈ schemasOf cs, ∀ f ∈ S.fields, f.NameOk)
    (hns : ∀ f ∈ sim.schema.fields, f.NameOk) (hv : AllVals.Printable (schemasOf cs) v)
    (hs : Vals.Printable sim.schema.fields s) (data : Str) :
    ∃ h, fileHeader width (schemasOf cs ++ [sim.schema]) (AllVals.snoc v s) = .ok h ∧
      DataSet.fromFile cs sim (Reader.ofLines (Str.lines (h ++ data))) =
        (.ok (DataSet.new cs sim v s), Reader.ofLines (dataStartsLine :: Str.lines data)) := by
  obtain ⟨b, hb1, hb2⟩ := C42_reads_back sim.schema.fields s hns hs width (dataStartsLine ++ ['\n'] ++ data)
  obtain ⟨a, ha1, ha2⟩ := readAll_print width (schemasOf cs) v hn hv (b ++ (dataStartsLine ++ ['\n'] ++ data))
  refine ⟨descriptionsLine ++ ['\n'] ++ (a ++ b) ++ dataStartsLine ++ ['\n'], ?_, ?_⟩
  · rw [fileHeader, printAll_snoc, ha1, hb1]; rfl
  have e : descriptionsLine ++ ['\n'] ++ (a ++ b) ++ dataStartsLine ++ ['\n'] ++ data =
      descriptionsLine ++ '\n' :: (a ++ (b ++ (dataStartsLine ++ ['\n'] ++ data))) := by simp
  have e2 : dataStartsLine ++ ['\n'] ++ data = dataStartsLine ++ '\n' :: data := by simp
  rw [e, Str.lines_cons (by decide), DataSet.fromFile]
  have : (Reader.ofLines (Str.stripCR descriptionsLine ::
      Str.lines (a ++ (b ++ (dataStartsLine ++ ['\n'] ++ data))))).drop 1 =
      Reader.ofLines (Str.lines (a ++ (b ++ (dataStartsLine ++ ['\n'] ++ data)))) := rfl
  rw [this, ha2]
  simp only
  rw [hb2]
  simp only
  rw [e2, Str.lines_cons (by decide)]
  rfl

end Moledyn.Props
