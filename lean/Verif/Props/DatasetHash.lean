import Verif.Props.Dataset
/-
C51 continued: which parameters make a class, which do not, and independence of the order of the files.
C56: names of result files.
-/
set_option linter.unusedSimpArgs false
namespace Moledyn.Props
open Moledyn

/-! ### the number fed to the hasher -/

/-- non-negative values: multiples of 1e-10, saturating. -/
theorem C51_word_nonneg {x : ℝ} (hx : 0 ≤ x) :
    hashWord x = min ⌊x * 10 ^ 10⌋₊ (2 ^ 64 - 1) := by
  have h : ¬ (x * 10 ^ 10 < 0) := not_lt.2 (by positivity)
  simp only [hashWord, toUsize, fl_mul, fl_lit, fl_lt, fl_add, fl_toNat]
  push_cast
  simp only [h, decide_false, Bool.false_eq_true, if_false, add_zero]

/-- negative values: the absolute value, shifted by one. -/
theorem C51_word_neg {x : ℝ} (hx : x < 0) :
    hashWord x = min (⌊-x * 10 ^ 10⌋₊ + 1) (2 ^ 64 - 1) := by
  have h : x * 10 ^ 10 < 0 := mul_neg_of_neg_of_pos hx (by positivity)
  have h2 : 0 ≤ -x * 10 ^ 10 := by nlinarith
  simp only [hashWord, toUsize, fl_mul, fl_lit, fl_lt, fl_add, fl_neg, fl_toNat]
  push_cast
  simp only [h, decide_true, if_true]
  rw [← neg_mul, Nat.floor_add_one h2]

/-- the largest value below which the words do not saturate: about 1.8e9. -/
noncomputable def wordLimit : ℝ := (2 ^ 64 - 1) / 10 ^ 10

theorem floor_lt_limit {x : ℝ} (h : x < wordLimit) : ⌊x * 10 ^ 10⌋₊ < 2 ^ 64 - 1 := by
  rcases le_or_gt 0 x with hx | hx
  · rw [Nat.floor_lt (by positivity)]
    have := (lt_div_iff₀ (by positivity)).1 h
    push_cast
    linarith
  · rw [Nat.floor_of_nonpos (by nlinarith)]; norm_num

/-- Below the limit two non-negative values have the same word exactly when they are in the same cell of width
1e-10. -/
theorem C51_same_word_iff {x y : ℝ} (hx : 0 ≤ x) (hy : 0 ≤ y) (hxl : x < wordLimit) (hyl : y < wordLimit) :
    hashWord x = hashWord y ↔ ⌊x * 10 ^ 10⌋₊ = ⌊y * 10 ^ 10⌋₊ := by
  rw [C51_word_nonneg hx, C51_word_nonneg hy]
  have := floor_lt_limit hxl
  have := floor_lt_limit hyl
  omega

/-- So values at least 1e-10 apart are told apart, -/
theorem C51_separates {x y : ℝ} (hx : 0 ≤ x) (hy : 0 ≤ y) (hxl : x < wordLimit) (hyl : y < wordLimit)
    (h : (1 : ℝ) / 10 ^ 10 ≤ |x - y|) : hashWord x ≠ hashWord y := by
  rw [Ne, C51_same_word_iff hx hy hxl hyl]
  intro he
  have h1 := Nat.floor_le (show 0 ≤ x * 10 ^ 10 by positivity)
  have h2 := Nat.lt_floor_add_one (x * 10 ^ 10)
  have h3 := Nat.floor_le (show 0 ≤ y * 10 ^ 10 by positivity)
  have h4 := Nat.lt_floor_add_one (y * 10 ^ 10)
  rw [he] at h1 h2
  have h5 : |x - y| < 1 / 10 ^ 10 := by
    rw [abs_lt]
    constructor
    · have : (y - x) * 10 ^ 10 < 1 := by linarith
      have := (lt_div_iff₀ (by positivity)).2 this
      linarith
    · have : (x - y) * 10 ^ 10 < 1 := by linarith
      exact (lt_div_iff₀ (by positivity)).2 this
  linarith

/-- and so are different integers. -/
theorem C51_separates_nat {m n : Nat} (hm : (m : ℝ) < wordLimit) (hn : (n : ℝ) < wordLimit) (h : m ≠ n) :
    hashWord (m : ℝ) ≠ hashWord (n : ℝ) := by
  refine C51_separates (by positivity) (by positivity) hm hn ?_
  have h1 : (1 : ℝ) ≤ |(m : ℝ) - n| := by
    have : (1 : ℤ) ≤ |(m : ℤ) - n| := Int.one_le_abs (by omega)
    exact_mod_cast this
  have : (1 : ℝ) / 10 ^ 10 ≤ 1 := by norm_num
  linarith

/-- Finding: all values above the limit (about 1.8e9) have the same word: they are never told apart. -/
theorem C51_saturates {x y : ℝ} (hx : wordLimit ≤ x) (hy : wordLimit ≤ y) : hashWord x = hashWord y := by
  have key : ∀ {z : ℝ}, wordLimit ≤ z → hashWord z = 2 ^ 64 - 1 := by
    intro z hz
    have hz0 : 0 ≤ z := le_trans (by unfold wordLimit; norm_num) hz
    rw [C51_word_nonneg hz0]
    have h1 := (div_le_iff₀ (by positivity)).1 hz
    have : 2 ^ 64 - 1 ≤ ⌊z * 10 ^ 10⌋₊ := by
      rw [Nat.le_floor_iff (by positivity)]
      push_cast
      linarith
    omega
  rw [key hx, key hy]

/-- Finding: a negative value has the word of the positive value 1e-10 larger in size. -/
theorem C51_sign_collision {x : ℝ} (hx : x < 0) : hashWord x = hashWord (-x + 1 / 10 ^ 10) := by
  rw [C51_word_neg hx, C51_word_nonneg (by have : (0 : ℝ) ≤ 1 / 10 ^ 10 := by positivity
                                           linarith)]
  have : (-x + 1 / 10 ^ 10) * 10 ^ 10 = -x * 10 ^ 10 + 1 := by ring
  rw [this, Nat.floor_add_one (by nlinarith)]

/-- Otherwise, with values below the limit: equal words of a negative and a non-negative value happen only that
way, and negative values are told apart like positive ones. -/
theorem C51_sign {x y : ℝ} (hx : x < 0) (hxl : -x < wordLimit - 1 / 10 ^ 10) (hy : 0 ≤ y) (hyl : y < wordLimit) :
    hashWord x = hashWord y ↔ ⌊-x * 10 ^ 10⌋₊ + 1 = ⌊y * 10 ^ 10⌋₊ := by
  rw [C51_word_neg hx, C51_word_nonneg hy]
  have h1 := floor_lt_limit hyl
  have h2 := floor_lt_limit (show -x + 1 / 10 ^ 10 < wordLimit by linarith)
  have : (-x + 1 / 10 ^ 10) * 10 ^ 10 = -x * 10 ^ 10 + 1 := by ring
  rw [this, Nat.floor_add_one (by nlinarith)] at h2
  omega

/-! ### datasets -/

variable {F : Type}

theorem eqv_decide [Fl F] (dh : List Nat → Nat) :
    DataSet.eqv (F := F) dh = fun a b => decide (dh a.key = dh b.key) := by
  funext a b
  unfold DataSet.eqv
  rw [Bool.eq_iff_iff, beq_iff_eq, decide_eq_true_iff]

/-- Two datasets are equal exactly when every variable has the same word, provided the hasher does not map two
different lists of words to the same digest. -/
theorem C51_equal_iff [Fl F] (dh : List Nat → Nat) (a b : DataSet F)
    (hdh : dh a.key = dh b.key → a.key = b.key) :
    DataSet.eqv dh a b = true ↔
      a.vars.map (fun v => hashWord v.2.asF64) = b.vars.map (fun v => hashWord v.2.asF64) := by
  rw [eqv_decide, decide_eq_true_iff]
  exact ⟨hdh, fun h => by unfold DataSet.key; rw [h]⟩

/-- Equality of datasets never depends on the variables of the simulation part (index of the set, number of
threads, recording period). -/
theorem C51_sim_ignored [Fl F] (dh : List Nat → Nat) (vars s s' : List (Str × DataVar F)) :
    DataSet.eqv dh ⟨vars, s⟩ ⟨vars, s'⟩ = true := by
  rw [eqv_decide]; simp [DataSet.key]

/-- A variable whose value the hasher can tell from others of its kind: non-negative, below the limit, and a
real one on the grid of multiples of 1e-10. -/
def Grid : DataVar ℝ → Prop
  | .real x => 0 ≤ x ∧ x < wordLimit ∧ ∃ k : Nat, x * 10 ^ 10 = k
  | .nat n => (n : ℝ) < wordLimit

theorem grid_word {u v : DataVar ℝ} (hu : Grid u) (hv : Grid v) (h : hashWord u.asF64 = hashWord v.asF64) :
    u.asF64 = v.asF64 := by
  have key : ∀ {u : DataVar ℝ}, Grid u → 0 ≤ u.asF64 ∧ u.asF64 < wordLimit ∧
      ∃ k : Nat, u.asF64 * 10 ^ 10 = k := by
    intro u hu
    cases u with
    | real x => exact hu
    | nat n =>
      refine ⟨by simp [DataVar.asF64], hu, n * 10 ^ 10, ?_⟩
      simp only [DataVar.asF64, fl_ofNat]; push_cast; ring
  obtain ⟨a1, a2, k, a3⟩ := key hu
  obtain ⟨b1, b2, j, b3⟩ := key hv
  rw [C51_same_word_iff a1 b1 a2 b2, a3, b3, Nat.floor_natCast, Nat.floor_natCast] at h
  rw [h, ← b3] at a3
  exact mul_right_cancel₀ (by positivity) a3

/-- Datasets of the same structure with values on the grid: equal exactly when all variables (other than those
of the simulation part) have the same value. -/
theorem C51_equal_iff_values (dh : List Nat → Nat) (a b : DataSet ℝ)
    (hdh : dh a.key = dh b.key → a.key = b.key)
    (ha : ∀ v ∈ a.vars, Grid v.2) (hb : ∀ v ∈ b.vars, Grid v.2) :
    DataSet.eqv dh a b = true ↔ a.vars.map (fun v => v.2.asF64) = b.vars.map (fun v => v.2.asF64) := by
  rw [C51_equal_iff dh a b hdh]
  generalize a.vars = l at ha
  generalize b.vars = l' at hb
  constructor
  · intro h
    induction l generalizing l' with
    | nil => cases l' with
      | nil => rfl
      | cons y l' => simp at h
    | cons x l ih => cases l' with
      | nil => simp at h
      | cons y l' =>
        simp only [List.map_cons, List.cons.injEq] at h ⊢
        exact ⟨grid_word (ha x (by simp)) (hb y (by simp)) h.1,
          ih (fun v hv => ha v (by simp [hv])) l' (fun v hv => hb v (by simp [hv])) h.2⟩
  · intro h
    have := congrArg (List.map hashWord) h
    rw [List.map_map, List.map_map] at this
    exact this

/-- Finding: the kind of motion (with the diffusion coefficient), the initial condition, the boundary condition,
the position of the target, the number of ensembles and the seed are not part of the dataset: runs that differ
in them are put in one group, and even use the same file name. -/
theorem C51_not_recorded [Fl F] (f : NumFmt F) (pre : Str) (t t' : SystemType) (b b' : BoundaryCond) (size : F) (dim : Nat)
    (tt tt' : TargetType) (p p' : Pos F) (tsize : F) (at_ at' : AgentType) (mt mt' : MoveType F)
    (it it' : InitType F) (n : Nat) (dt tmax : F) (ens ens' idx seed seed' : Nat) (dir dir' : Str) :
    let one := DataSet.new [cubicComponent f, bulkTargetComponent f, indepComponent f, constStepComponent f]
      variableSimComponent
      ((t, b, size, dim, ()), (tt, p, tsize, ()), (at_, mt, it, n, ()), (dt, tmax, ()), ())
      (ens, idx, seed, dir, ())
    let two := DataSet.new [cubicComponent f, bulkTargetComponent f, indepComponent f, constStepComponent f]
      variableSimComponent
      ((t', b', size, dim, ()), (tt', p', tsize, ()), (at', mt', it', n, ()), (dt, tmax, ()), ())
      (ens', idx, seed', dir', ())
    (∀ dh, DataSet.eqv dh one two = true) ∧ one.exportFile f pre = two.exportFile f pre := by
  refine ⟨fun dh => ?_, rfl⟩
  rw [eqv_decide, decide_eq_true_iff]
  rfl

/-- The same for the interacting agents; there the dimension of the interaction is not recorded either. -/
theorem C51_not_recorded_interacting [Fl F] (f : NumFmt F) (at_ at' : AgentType) (mt mt' : MoveType F)
    (it it' : InitType F) (x y : F) (dim dim' n : Nat) :
    (expComponent f).pick (at_, mt, it, x, dim, y, n, ()) = (expComponent f).pick (at', mt', it', x, dim', y, n, ()) ∧
    (ljComponent f).pick (at_, mt, it, x, y, n, ()) = (ljComponent f).pick (at', mt', it', x, y, n, ()) :=
  ⟨rfl, rfl⟩

/-- The names the procedural macro uses exist in the argument structure for eleven of the thirteen structures. -/
theorem C51_names_exist (f : NumFmt F) :
    ∀ c ∈ chosenNames f, (∀ n ∈ c.2, n ∈ c.1.fields.map Field.name) ∨
      c.1.vars.map (fun v => v.1.name) = (cylSchema f).vars.map (fun v => v.1.name) ∨
      c.1.vars.map (fun v => v.1.name) = (mergeSchema f).vars.map (fun v => v.1.name) := by
  intro c hc
  simp only [chosenNames, List.mem_cons, List.not_mem_nil, or_false] at hc
  rcases hc with rfl | rfl | rfl | rfl | rfl | rfl | rfl | rfl | rfl | rfl | rfl | rfl | rfl <;>
    first
    | exact .inr (.inl rfl)
    | exact .inr (.inr rfl)
    | (left
       simp only [Schema.fields, Schema.varFields, circSchema, cubicSchema, bulkTargetSchema,
        indepSchema, expSchema, ljSchema, constStepSchema, expStepSchema,
        variableSimSchema, parVariableSimSchema, processSimSchema, List.map_cons, List.map_nil,
        List.cons_append, List.nil_append, Field.real, Field.usize, Field.u128, Field.string,
        Field.position, Field.systemType, Field.boundaryCond, Field.targetType, Field.agentType,
        Field.moveType, Field.initType]
       decide)

/-- Finding: for the cylinder and the merging agents the macro uses the name `radius`, which is not a field of
their argument structures (`sys_radius`, `ptl_radius`), so `simulation!` cannot be used with them. -/
theorem C51_names_missing (f : NumFmt F) :
    chars! "radius" ∉ (cylSchema f).fields.map Field.name ∧
    chars! "radius" ∉ (mergeSchema f).fields.map Field.name := by
  simp only [Schema.fields, Schema.varFields, cylSchema, mergeSchema, List.map_cons, List.map_nil,
    List.cons_append, List.nil_append, Field.real, Field.usize, Field.systemType, Field.boundaryCond,
    Field.agentType, Field.moveType, Field.initType]
  decide

/-- the picked variables carry the names of the macro. -/
theorem C51_pick_names (f : NumFmt F) :
    ∀ c ∈ [circComponent f, cubicComponent f, bulkTargetComponent f, indepComponent f, expComponent f,
      ljComponent f, constStepComponent f, expStepComponent f, variableSimComponent,
      parVariableSimComponent, processSimComponent f],
      ∀ v : Vals c.schema.fields, (c.schema, (c.pick v).map Prod.fst) ∈ chosenNames f := by
  intro c hc v
  simp only [List.mem_cons, List.not_mem_nil, or_false] at hc
  rcases hc with rfl | rfl | rfl | rfl | rfl | rfl | rfl | rfl | rfl | rfl | rfl
  · exact List.mem_of_getElem? (i := 0) rfl
  · exact List.mem_of_getElem? (i := 1) rfl
  · exact List.mem_of_getElem? (i := 3) rfl
  · exact List.mem_of_getElem? (i := 4) rfl
  · exact List.mem_of_getElem? (i := 6) rfl
  · exact List.mem_of_getElem? (i := 7) rfl
  · exact List.mem_of_getElem? (i := 8) rfl
  · exact List.mem_of_getElem? (i := 9) rfl
  · exact List.mem_of_getElem? (i := 10) rfl
  · exact List.mem_of_getElem? (i := 11) rfl
  · exact List.mem_of_getElem? (i := 12) rfl

/-- and the values of the fields of these names. -/
theorem C51_pick_values (f : NumFmt F) :
    ∀ c ∈ [circComponent f, cubicComponent f, bulkTargetComponent f, indepComponent f, expComponent f,
      ljComponent f, constStepComponent f, expStepComponent f, variableSimComponent,
      parVariableSimComponent, processSimComponent f],
      ∀ v : Vals c.schema.fields, ∀ p ∈ c.pick v,
        fieldText c.schema.fields v p.1 = some (.ok (p.2.display f)) := by
  intro c hc v p hp
  have m1 : ∀ {a : Str × DataVar F}, p ∈ [a] → p = a := by simp
  have m2 : ∀ {a b : Str × DataVar F}, p ∈ [a, b] → p = a ∨ p = b := by simp
  have m3 : ∀ {a b c : Str × DataVar F}, p ∈ [a, b, c] → p = a ∨ p = b ∨ p = c := by simp
  have m4 : ∀ {a b c d : Str × DataVar F}, p ∈ [a, b, c, d] → p = a ∨ p = b ∨ p = c ∨ p = d := by simp
  simp only [List.mem_cons, List.not_mem_nil, or_false] at hc
  rcases hc with rfl | rfl | rfl | rfl | rfl | rfl | rfl | rfl | rfl | rfl | rfl
  · rcases m2 hp with h | h <;> subst h <;> rfl
  · rcases m2 hp with h | h <;> subst h <;> rfl
  · have h := m1 hp; subst h; rfl
  · have h := m1 hp; subst h; rfl
  · rcases m3 hp with h | h | h <;> subst h <;> rfl
  · rcases m3 hp with h | h | h <;> subst h <;> rfl
  · rcases m2 hp with h | h <;> subst h <;> rfl
  · rcases m4 hp with h | h | h | h <;> subst h <;> rfl
  · have h := m1 hp; subst h; rfl
  · have h := m1 hp; subst h; rfl
  · rcases m2 hp with h | h <;> subst h <;> rfl

/-! ### the order of the files does not matter -/

theorem groupData_perm {D K : Type} [DecidableEq K] (cls : D → K) (fromFile : Reader → Res D × Reader) (d : D)
    {es es' : List Entry} (h : es.Perm es') :
    (groupData cls fromFile d es).Perm (groupData cls fromFile d es') :=
  (((h.filterMap _).filter _).map _).flatten

theorem samplesOf_perm (f : NumFmt F) {r r' : Reader} (h : r.Perm r') :
    ∀ s, samplesOf f r = some s → ∃ s', samplesOf f r' = some s' ∧ s.Perm s' := by
  induction h with
  | nil => intro s hs; exact ⟨s, hs, .refl _⟩
  | cons x h ih =>
    intro s hs
    cases x with
    | error t => simp [samplesOf] at hs
    | ok l =>
      simp only [samplesOf, Option.bind_eq_some_iff, Option.map_eq_some_iff] at hs
      obtain ⟨y, hy, s1, hs1, rfl⟩ := hs
      obtain ⟨s2, hs2, hp⟩ := ih s1 hs1
      exact ⟨y :: s2, by simp [samplesOf, hy, hs2], hp.cons y⟩
  | swap x y l =>
    intro s hs
    cases y with
    | error t => simp [samplesOf] at hs
    | ok u =>
      simp only [samplesOf, Option.bind_eq_some_iff, Option.map_eq_some_iff] at hs
      obtain ⟨a, ha, s1, hs1, rfl⟩ := hs
      cases x with
      | error t => simp [samplesOf] at hs1
      | ok w =>
        simp only [samplesOf, Option.bind_eq_some_iff, Option.map_eq_some_iff] at hs1
        obtain ⟨b, hb, s2, hs2, rfl⟩ := hs1
        exact ⟨b :: a :: s2, by simp [samplesOf, ha, hb, hs2], .swap ..⟩
  | trans _ _ ih1 ih2 =>
    intro s hs
    obtain ⟨s1, h1, p1⟩ := ih1 s hs
    obtain ⟨s2, h2, p2⟩ := ih2 s1 h1
    exact ⟨s2, h2, p1.trans p2⟩

/-- reading lines into a first-passage-time analysis is reading the numbers on them. -/
theorem time_lines_iff [Fl F] (f : NumFmt F) (mn mx b l : F) (a c : TimeAnalysis F) (r : Reader) :
    (timeAnalyzer f mn mx b l).lines a r = .ok c ↔ ∃ s, samplesOf f r = some s ∧ a.feed s = (c, .ok ()) := by
  induction r generalizing a with
  | nil =>
    simp [Analyzer.lines, samplesOf, TimeAnalysis.feed]
  | cons x r ih =>
    cases x with
    | error t => simp [Analyzer.lines, samplesOf]
    | ok w =>
      simp only [Analyzer.lines, samplesOf]
      have hl : (timeAnalyzer f mn mx b l).line a w =
        (Res.expect (f.parse (Str.trim w))).bind fun t => settled (a.addEnsemble t) := rfl
      rw [hl]
      cases hp : f.parse (Str.trim w) with
      | none => simp [Res.expect]
      | some t =>
        simp only [Res.expect, Res.bind_ok, Option.bind_some, Option.map_eq_some_iff]
        cases he : a.addEnsemble t with
        | mk a' o =>
          cases o with
          | ok u =>
            cases u
            simp only [settled, Res.map_ok, Res.bind_ok, ih]
            constructor
            · rintro ⟨s, h1, h2⟩
              exact ⟨t :: s, ⟨s, h1, rfl⟩, by simp only [TimeAnalysis.feed, he]; exact h2⟩
            · rintro ⟨s, ⟨s1, h1, rfl⟩, h2⟩
              simp only [TimeAnalysis.feed, he] at h2
              exact ⟨s1, h1, h2⟩
          | err e =>
            simp only [settled, Res.map_err, Res.bind_err, reduceCtorEq, false_iff, not_exists, not_and]
            rintro s ⟨s1, h1, rfl⟩ h2
            simp only [TimeAnalysis.feed, he, Prod.mk.injEq, reduceCtorEq, and_false] at h2
          | panic =>
            simp only [settled, Res.map_panic, Res.bind_panic, reduceCtorEq, false_iff, not_exists, not_and]
            rintro s ⟨s1, h1, rfl⟩ h2
            simp only [TimeAnalysis.feed, he, Prod.mk.injEq, reduceCtorEq, and_false] at h2

/-- What a group of a first-passage-time analysis holds: all numbers of all files of the class, and nothing
else. -/
theorem C51_time_group {D K : Type} [DecidableEq K] [Fl F] (f : NumFmt F) (mn mx b l : F) (B : Bins F)
    (hset : Bins.updateFromBinSize Bins.new mn mx b l = (B, .ok ())) (cls : D → K)
    (fromFile : Reader → Res D × Reader) (es : List Entry) (m : List (D × TimeAnalysis F))
    (h : (timeAnalyzer f mn mx b l).loop (fun a b => decide (cls a = cls b)) fromFile [] es = .ok m) :
    ∀ p ∈ m, ∃ s, samplesOf f (groupData cls fromFile p.1 es) = some s ∧
      (TimeAnalysis.prepared B).feed s = (p.2, .ok ()) := by
  intro p hp
  obtain ⟨-, a0, h1, h2⟩ := (C51_groups _ cls fromFile es m h).2 p hp
  have : a0 = TimeAnalysis.prepared B := by
    simp only [timeAnalyzer, hset, Res.ok.injEq] at h1
    rw [← h1]; rfl
  subst this
  exact (time_lines_iff f mn mx b l _ _ _).1 h2

/-- Reading the files of a directory in another order gives the same groups with the same statistics. -/
theorem C51_file_order {D K : Type} [DecidableEq K] (f : NumFmt ℝ) (mn mx b l : ℝ) (B : Bins ℝ)
    (hset : Bins.updateFromBinSize Bins.new mn mx b l = (B, .ok ())) (hb : 0 < b) (hl : 1 < l) (cls : D → K)
    (fromFile : Reader → Res D × Reader) (es es' : List Entry) (hp : es.Perm es')
    (m : List (D × TimeAnalysis ℝ))
    (h : (timeAnalyzer f mn mx b l).loop (fun a b => decide (cls a = cls b)) fromFile [] es = .ok m) :
    ∃ m', (timeAnalyzer f mn mx b l).loop (fun a b => decide (cls a = cls b)) fromFile [] es' = .ok m' ∧
      (∀ p ∈ m, ∃ p' ∈ m', cls p'.1 = cls p.1 ∧ p'.2 = p.2) ∧
      (∀ p' ∈ m', ∃ p ∈ m, cls p.1 = cls p'.1 ∧ p.2 = p'.2) := by
  have hfr : (timeAnalyzer f mn mx b l).fresh = .ok (TimeAnalysis.prepared B) := by
    simp only [timeAnalyzer, hset]; rfl
  have hok : ∃ m', (timeAnalyzer f mn mx b l).loop (fun a b => decide (cls a = cls b)) fromFile [] es' =
      .ok m' := by
    obtain ⟨h1, h2⟩ := (C51_succeeds_iff _ cls fromFile es).1 ⟨m, h⟩
    refine (C51_succeeds_iff _ cls fromFile es').2 ⟨fun e he => h1 e (hp.mem_iff.2 he), ?_⟩
    intro e he d rd hd
    obtain ⟨a0, a, h3, h4⟩ := h2 e (hp.mem_iff.2 he) d rd hd
    rw [hfr] at h3; injection h3 with h3
    subst h3
    obtain ⟨s, hs, hf⟩ := (time_lines_iff f mn mx b l _ _ _).1 h4
    obtain ⟨s', hs', hps⟩ := samplesOf_perm f (groupData_perm cls fromFile d hp) s hs
    refine ⟨_, a, hfr, (time_lines_iff f mn mx b l _ _ _).2 ⟨s', hs', ?_⟩⟩
    rw [← (C46_order _ B mn mx b l hset hb hl s s' hps).1, hf]
  obtain ⟨m', h'⟩ := hok
  refine ⟨m', h', ?_, ?_⟩
  · intro p hpm
    obtain ⟨s, hs, hf⟩ := C51_time_group f mn mx b l B hset cls fromFile es m h p hpm
    obtain ⟨⟨e, he, rd, hrd⟩, -⟩ := (C51_groups _ cls fromFile es m h).2 p hpm
    obtain ⟨p', ⟨hp'm, hc⟩, -⟩ := (C51_groups _ cls fromFile es' m' h').1 e (hp.mem_iff.1 he) p.1 rd hrd
    refine ⟨p', hp'm, hc, ?_⟩
    obtain ⟨s', hs', hf'⟩ := C51_time_group f mn mx b l B hset cls fromFile es' m' h' p' hp'm
    rw [groupData_congr cls fromFile hc] at hs'
    obtain ⟨s2, hs2, hps⟩ := samplesOf_perm f (groupData_perm cls fromFile p.1 hp) s hs
    rw [hs'] at hs2; injection hs2 with hs2
    subst hs2
    have := (C46_order _ B mn mx b l hset hb hl s s' hps).1
    rw [hf, hf'] at this
    exact (congrArg Prod.fst this).symm
  · intro p' hp'm
    obtain ⟨s', hs', hf'⟩ := C51_time_group f mn mx b l B hset cls fromFile es' m' h' p' hp'm
    obtain ⟨⟨e, he, rd, hrd⟩, -⟩ := (C51_groups _ cls fromFile es' m' h').2 p' hp'm
    obtain ⟨p, ⟨hpm, hc⟩, -⟩ := (C51_groups _ cls fromFile es m h).1 e (hp.mem_iff.2 he) p'.1 rd hrd
    refine ⟨p, hpm, hc, ?_⟩
    obtain ⟨s, hs, hf⟩ := C51_time_group f mn mx b l B hset cls fromFile es m h p hpm
    rw [groupData_congr cls fromFile hc] at hs
    obtain ⟨s2, hs2, hps⟩ := samplesOf_perm f (groupData_perm cls fromFile p'.1 hp) s hs
    rw [hs'] at hs2; injection hs2 with hs2
    subst hs2
    have := (C46_order _ B mn mx b l hset hb hl s s' hps).1
    rw [hf, hf'] at this
    exact congrArg Prod.fst this

end Moledyn.Props
