import Verif.Model.Derived
import Verif.Props.Arguments
import Verif.Props.Time
import Verif.Model.Agent
import Verif.Model.Target
import Verif.Props.FileNames
import Verif.Props.DoubleClock
import Verif.Props.EndToEnd
/-
C95: `new` and `clear` of argument structures.  C96: the derived order.
-/
set_option linter.unusedSimpArgs false
namespace Moledyn.Props
open Moledyn

/-! ### C95 -/

theorem setFront_append : ∀ {fs gs : List Field} (d : Vals fs) (self : Vals (fs ++ gs)) (w : Vals gs),
    Vals.setBack w (Vals.setFront d self) = Vals.append d w
  | [], _, _, _, _ => rfl
  | _ :: fs, gs, d, self, w => by
    show (d.1, _) = (d.1, _)
    exact congrArg (Prod.mk d.1) (setFront_append (fs := fs) (gs := gs) d.2 self.2 w)

/-- `clear` forgets everything: whatever the structure contained, afterwards it is the one `new` makes of the default
values. -/
theorem C95_clear_is_new (S : Schema) (zeros : Vals S.varFields) (self : Vals S.fields) :
    S.clear zeros self = S.new zeros := setFront_append _ _ _

section Structures
variable {F : Type} [Fl F] (f : NumFmt F)

/-- What every structure of the crate contains after `clear`, field by field: the type tags keep their fixed values
(also the size 1 of a merging agent), all numbers are zero, moves are Brownian with coefficient 1, placement uniform,
texts and positions empty.  The tag of a cylindrical system is lost: it becomes that of a sphere. -/
theorem C95_cleared (v1 : Vals (circSchema f).fields) (v2 : Vals (cubicSchema f).fields) (v3 : Vals (cylSchema f).fields)
    (v4 : Vals (bulkTargetSchema f).fields) (v5 : Vals (indepSchema f).fields) (v6 : Vals (mergeSchema f).fields)
    (v7 : Vals (expSchema f).fields) (v8 : Vals (ljSchema f).fields) (v9 : Vals (constStepSchema f).fields)
    (v10 : Vals (expStepSchema f).fields) (v11 : Vals variableSimSchema.fields) (v12 : Vals parVariableSimSchema.fields)
    (v13 : Vals (processSimSchema f).fields) :
    (circSchema f).clear (circZeros f) v1 =
      (SystemType.continuousCircular, (BoundaryCond.reflection, ((Fl.zero : F), ((0 : Nat), ())))) ∧
    (cubicSchema f).clear (cubicZeros f) v2 =
      (SystemType.continuousRectangular, (BoundaryCond.reflection, ((Fl.zero : F), ((0 : Nat), ())))) ∧
    (cylSchema f).clear (cylZeros f) v3 =
      (SystemType.continuousCircular, (BoundaryCond.reflection, ((Fl.zero : F), ((Fl.zero : F), ((0 : Nat), ()))))) ∧
    (bulkTargetSchema f).clear (bulkTargetZeros f) v4 =
      (TargetType.continuousInBulk, (([] : Pos F), ((Fl.zero : F), ()))) ∧
    (indepSchema f).clear (indepZeros f) v5 =
      (AgentType.continuousPassiveIndependent, (MoveType.brownian (Fl.one : F), ((InitType.uniform : InitType F),
        ((0 : Nat), ())))) ∧
    (mergeSchema f).clear (mergeZeros f) v6 =
      (AgentType.continuousPassiveInteracting, ((1 : Nat), (MoveType.brownian (Fl.one : F),
        ((InitType.uniform : InitType F), ((Fl.zero : F), ((Fl.zero : F), ((0 : Nat), ()))))))) ∧
    (expSchema f).clear (expZeros f) v7 =
      (AgentType.continuousPassiveInteracting, (MoveType.brownian (Fl.one : F), ((InitType.uniform : InitType F),
        ((Fl.zero : F), ((0 : Nat), ((Fl.zero : F), ((0 : Nat), ()))))))) ∧
    (ljSchema f).clear (ljZeros f) v8 =
      (AgentType.continuousPassiveInteracting, (MoveType.brownian (Fl.one : F), ((InitType.uniform : InitType F),
        ((Fl.zero : F), ((Fl.zero : F), ((0 : Nat), ())))))) ∧
    (constStepSchema f).clear (constStepZeros f) v9 = ((Fl.zero : F), ((Fl.zero : F), ())) ∧
    (expStepSchema f).clear (expStepZeros f) v10 = ((Fl.zero : F), ((Fl.zero : F), ((0 : Nat), ((Fl.zero : F), ())))) ∧
    variableSimSchema.clear variableSimZeros v11 = ((0 : Nat), ((0 : Nat), ((0 : Nat), (([] : Str), ())))) ∧
    parVariableSimSchema.clear parVariableSimZeros v12 = ((0 : Nat), ((0 : Nat), ((0 : Nat), (([] : Str), ())))) ∧
    (processSimSchema f).clear (processSimZeros f) v13 =
      ((0 : Nat), ((Fl.zero : F), ((0 : Nat), ((0 : Nat), (([] : Str), ()))))) := by
  simp only [C95_clear_is_new]
  exact ⟨rfl, rfl, rfl, rfl, rfl, rfl, rfl, rfl, rfl, rfl, rfl, rfl, rfl⟩

/-- The default values are those of the shortest command lines: the words a user writes for them (spelled as in the source). -/
theorem C95_default_words (ok : F → Prop) (hf : f.WordLike ok) (h1 : ok Fl.one) (h2 : ok (Fl.lit (1 / 10))) :
    SystemType.fromStr (chars! "Circular") = .ok SystemType.dflt ∧
    BoundaryCond.fromStr (chars! "Reflective") = .ok BoundaryCond.dflt ∧
    InitType.fromStr f (chars! "Uniform") = .ok InitType.dflt ∧
    MoveType.fromStr f (f.print Fl.one) = .ok MoveType.dflt ∧
    InteractType.fromStr f ((chars! "Exponential(2,") ++ f.print (Fl.lit (1 / 10)) ++ [')']) = .ok InteractType.dflt ∧
    TargetType.fromStr (chars! "Target in Bulk of Continous System.") = .ok TargetType.dflt ∧
    AgentType.fromStr (chars! "Passive Independent Agent in Continous system.") = .ok AgentType.dflt :=
  ⟨rfl, rfl, (C41_init_type f ok hf).2.2, (C41_move_type f ok hf).2 _ h1,
    (C41_interact_type f ok hf).2.1 2 _ (by norm_num) h2, (C41_target_type _ _).1.2 rfl, (C41_agent_type _ _).1.2 rfl⟩

/-- A cleared structure is printed and read back as it is - except the target, whose empty position cannot even be
printed: `print_configuration` panics. -/
theorem C95_cleared_reads_back (ok : F → Prop) (hf : f.WordLike ok) (h0 : ok Fl.zero) (h1 : ok Fl.one) :
    ReadsBack (circSchema f).fields ((circSchema f).new (circZeros f)) ∧
    ReadsBack (cubicSchema f).fields ((cubicSchema f).new (cubicZeros f)) ∧
    ReadsBack (cylSchema f).fields ((cylSchema f).new (cylZeros f)) ∧
    ReadsBack (indepSchema f).fields ((indepSchema f).new (indepZeros f)) ∧
    ReadsBack (mergeSchema f).fields ((mergeSchema f).new (mergeZeros f)) ∧
    ReadsBack (expSchema f).fields ((expSchema f).new (expZeros f)) ∧
    ReadsBack (ljSchema f).fields ((ljSchema f).new (ljZeros f)) ∧
    ReadsBack (constStepSchema f).fields ((constStepSchema f).new (constStepZeros f)) ∧
    ReadsBack (expStepSchema f).fields ((expStepSchema f).new (expStepZeros f)) ∧
    ReadsBack variableSimSchema.fields (variableSimSchema.new variableSimZeros) ∧
    ReadsBack parVariableSimSchema.fields (parVariableSimSchema.new parVariableSimZeros) ∧
    ReadsBack (processSimSchema f).fields ((processSimSchema f).new (processSimZeros f)) ∧
    ∀ width, printConfiguration width (bulkTargetSchema f).fields ((bulkTargetSchema f).new (bulkTargetZeros f)) = .panic := by
  have s := C42_systems f ok hf
  obtain ⟨a1, a2, a3, a4⟩ := C42_agents f ok hf .continuousPassiveIndependent (.brownian Fl.one) .uniform h1 trivial 0 1 0
    (by norm_num) (by norm_num) (by norm_num) Fl.zero Fl.zero h0 h0
  obtain ⟨-, b2, b3, b4⟩ := C42_agents f ok hf .continuousPassiveInteracting (.brownian Fl.one) .uniform h1 trivial 0 1 0
    (by norm_num) (by norm_num) (by norm_num) Fl.zero Fl.zero h0 h0
  obtain ⟨c1, c2⟩ := C42_clocks f ok hf Fl.zero Fl.zero Fl.zero 0 h0 h0 h0 (by norm_num)
  obtain ⟨e1, e2, e3⟩ := C42_simulations f ok hf 0 0 0 0 Fl.zero [] (by norm_num) (by norm_num) (by norm_num) (by norm_num) h0
    ⟨by simp, by simp, rfl⟩
  refine ⟨(s .continuousCircular .reflection Fl.zero 0 (by simp) (by simp) h0 (by norm_num)).1,
    (s .continuousRectangular .reflection Fl.zero 0 (by simp) (by simp) h0 (by norm_num)).2, ?_, a1, b2, b3, b4, c1, c2,
    e1, e2, e3, fun width => rfl⟩
  exact C42_reads_back _ _ (names_ok f _ (by simp))
    ⟨printable_systemType _ _ (fun d h => by cases h), printable_boundaryCond _ _ (fun d h => by cases h),
      printable_real hf _ h0, printable_real hf _ h0, printable_usize _ (show 0 < 2 ^ 64 by norm_num), trivial⟩

/-- What `convert_from` makes of cleared arguments (in any arithmetic with `0 ≤ 0` and not `0 < 0`): no system and no
exponential clock (it panics), no agents, and a target at no position and of no size, which never reports a find. -/
theorem C95_cleared_converted (h0 : Fl.le (Fl.zero : F) Fl.zero = true) :
    (∀ st bc (size : F) dim, (circSchema f).new (circZeros f) = (st, (bc, (size, (dim, ())))) →
      Circ.convertFrom st bc size dim = .panic) ∧
    (∀ st bc (size : F) dim, (cubicSchema f).new (cubicZeros f) = (st, (bc, (size, (dim, ())))) →
      Cubic.convertFrom st bc size dim = .panic) ∧
    (∀ st bc (r l : F) dim, (cylSchema f).new (cylZeros f) = (st, (bc, (r, (l, (dim, ()))))) →
      Cyl.convertFrom st bc r l dim = .panic) ∧
    (∀ (a b : F) n t, (expStepSchema f).new (expStepZeros f) = (a, (b, (n, (t, ())))) →
      ExpStep.convertFrom a b n t = .panic) ∧
    (∀ t (m : MoveType F) i n, (indepSchema f).new (indepZeros f) = (t, (m, (i, (n, ())))) →
      IndepAgent.convertFrom t m i n = []) ∧
    (∀ t sz (m : MoveType F) i r al n, (mergeSchema f).new (mergeZeros f) = (t, (sz, (m, (i, (r, (al, (n, ()))))))) →
      MergeAgent.convertFrom t m i r al n = []) ∧
    (∀ t (m : MoveType F) i g d st n, (expSchema f).new (expZeros f) = (t, (m, (i, (g, (d, (st, (n, ()))))))) →
      ExpAgent.convertFrom m i g d st n = .ok []) ∧
    (∀ t (m : MoveType F) i sz st n, (ljSchema f).new (ljZeros f) = (t, (m, (i, (sz, (st, (n, ())))))) →
      LJAgent.convertFrom m i sz st n = []) ∧
    (∀ t (p : Pos F) (size : F), (bulkTargetSchema f).new (bulkTargetZeros f) = (t, (p, (size, ()))) →
      ∀ q, q ≠ [] → (BulkTarget.convertFrom t p size).checkFind q = .err .invalidDimension) := by
  refine ⟨?_, ?_, ?_, ?_, ?_, ?_, ?_, ?_, ?_⟩
  · rintro st bc size dim h; cases h; simp [Circ.convertFrom, h0]
  · rintro st bc size dim h; cases h; simp [Cubic.convertFrom, h0]
  · rintro st bc r l dim h; cases h; rfl
  · rintro a b n t h; cases h; simp [ExpStep.convertFrom]
  · rintro t m i n h; cases h; rfl
  · rintro t sz m i r al n h; cases h; rfl
  · rintro t m i g d st n h; cases h; rfl
  · rintro t m i sz st n h; cases h; rfl
  · rintro t p size h q hq
    cases h
    cases q with
    | nil => exact absurd rfl hq
    | cons x q => rfl

/-- Finding: cleared arguments of a constant clock are accepted, and the clock made of them returns time 0 for ever. -/
theorem C95_cleared_clock_frozen (f : NumFmt ℝ) (dt tmax : ℝ)
    (h : (constStepSchema f).new (constStepZeros f) = (dt, (tmax, ()))) :
    ∃ c : ConstStep ℝ, ConstStep.convertFrom dt tmax = .ok c ∧ ∀ k, output ConstStep.next k c = .ok (some 0) := by
  cases h
  have hm : (1 : ℝ) ≤ 2 ^ (1024 : ℕ) - 2 ^ (971 : ℕ) := by
    have h1 : (2 : ℝ) ^ (1024 : ℕ) = 2 ^ (971 : ℕ) * 2 ^ (53 : ℕ) := by rw [← pow_add]
    have h2 : (1 : ℝ) ≤ 2 ^ (971 : ℕ) := one_le_pow₀ (by norm_num)
    rw [h1]
    generalize (2 : ℝ) ^ (971 : ℕ) = y at h2
    norm_num
    linarith
  refine ⟨⟨.constant 0, 0, 0, 2 ^ (1024 : ℕ) - 2 ^ (971 : ℕ)⟩, ?_, ?_⟩
  · unfold ConstStep.convertFrom
    have e : (Fl.zero : ℝ) = 0 := by simp [Fl.zero]
    have h2 : (0 : ℝ) < ((1 / 10 ^ 10 : ℚ) : ℝ) := by push_cast; positivity
    simp only [e, fl_lt, lt_irrefl, decide_false, Bool.or_self, Bool.false_eq_true, if_false, fl_lit, h2, decide_true,
      if_true]
    rfl
  · intro k
    rw [ConstStep.output_real k _ le_rfl]
    simp only [mul_zero, add_zero]
    rw [if_pos]
    generalize (2 : ℝ) ^ (1024 : ℕ) = a at hm ⊢
    generalize (2 : ℝ) ^ (971 : ℕ) = b at hm ⊢
    linarith

end Structures

/-! ### C96 -/

section Order
variable {F : Type} [Fl F]

/-- An arithmetic without NaN: `<=` is that of real numbers (exact numbers, doubles). -/
def Orderly (key : F → ℝ) : Prop := Function.Injective key ∧ ∀ a b, Fl.le a b = decide (key a ≤ key b)

theorem orderly_real : Orderly (fun x : ℝ => x) := ⟨fun _ _ h => h, fun a b => by simp⟩
theorem orderly_rounded {R : Rounding} : Orderly (RF.val : RF R → ℝ) :=
  ⟨fun a b h => by cases a; cases b; simpa using h, fun a b => RF.le_val a b⟩

theorem cmpF_orderly {key : F → ℝ} (h : Orderly key) (a b : F) :
    cmpF a b = some (if key a < key b then .lt else if key b < key a then .gt else .eq) ∧ (cmpF a b = some .eq ↔ a = b) := by
  have e : cmpF a b = some (if key a < key b then .lt else if key b < key a then .gt else .eq) := by
    unfold cmpF
    rw [h.2, h.2]
    rcases lt_trichotomy (key a) (key b) with hab | hab | hab
    · simp [hab, hab.le, not_le.2 hab]
    · simp [hab]
    · simp [hab, hab.le, not_le.2 hab, not_lt.2 hab.le]
  refine ⟨e, ?_⟩
  rw [e]
  constructor
  · intro he
    apply h.1
    by_contra hne
    rcases lt_or_gt_of_ne hne with hl | hl
    · simp [hl] at he
    · simp [hl, not_lt.2 hl.le] at he
  · rintro rfl; simp

/-- the two lists agree up to some place where the first is smaller, or the first is the beginning of the second. -/
def Before {α : Type} (less : α → α → Prop) (a b : List α) : Prop :=
  ∃ c, (∃ x y as bs, a = c ++ x :: as ∧ b = c ++ y :: bs ∧ less x y) ∨ (∃ y bs, a = c ∧ b = c ++ y :: bs)

theorem before_cons {α : Type} {less : α → α → Prop} {x : α} {a b : List α} :
    Before less a b → Before less (x :: a) (x :: b) := by
  rintro ⟨c, ⟨u, v, as, bs, rfl, rfl, h⟩ | ⟨y, bs, rfl, rfl⟩⟩
  · exact ⟨x :: c, .inl ⟨u, v, as, bs, rfl, rfl, h⟩⟩
  · exact ⟨x :: a, .inr ⟨y, bs, rfl, rfl⟩⟩

theorem lexCmp_spec {α : Type} {c : α → α → Option Ordering} {less : α → α → Prop} (a b : List α)
    (hc : ∀ (i : Nat) x y, a[i]? = some x → b[i]? = some y →
      (c x y = some .lt ∧ less x y ∧ x ≠ y) ∨ (c x y = some .gt ∧ less y x ∧ x ≠ y) ∨ (c x y = some .eq ∧ x = y)) :
    (lexCmp c a b = some .lt ∧ Before less a b ∧ a ≠ b) ∨ (lexCmp c a b = some .gt ∧ Before less b a ∧ a ≠ b) ∨
      (lexCmp c a b = some .eq ∧ a = b) := by
  induction a generalizing b with
  | nil =>
    cases b with
    | nil => exact .inr (.inr ⟨rfl, rfl⟩)
    | cons y bs => exact .inl ⟨rfl, ⟨[], .inr ⟨y, bs, rfl, rfl⟩⟩, by simp⟩
  | cons x as ih =>
    cases b with
    | nil => exact .inr (.inl ⟨rfl, ⟨[], .inr ⟨x, as, rfl, rfl⟩⟩, by simp⟩)
    | cons y bs =>
      unfold lexCmp
      rcases hc 0 x y rfl rfl with ⟨h, hl, hn⟩ | ⟨h, hl, hn⟩ | ⟨h, rfl⟩
      · rw [h]
        exact .inl ⟨rfl, ⟨[], .inl ⟨x, y, as, bs, rfl, rfl, hl⟩⟩, by simp [hn]⟩
      · rw [h]
        exact .inr (.inl ⟨rfl, ⟨[], .inl ⟨y, x, bs, as, rfl, rfl, hl⟩⟩, by simp [hn]⟩)
      · rw [h]
        simp only
        rcases ih bs (fun i u v hu hv => hc (i + 1) u v hu hv) with ⟨k, l, n⟩ | ⟨k, l, n⟩ | ⟨k, e⟩
        · exact .inl ⟨k, before_cons l, by simp [n]⟩
        · exact .inr (.inl ⟨k, before_cons l, by simp [n]⟩)
        · exact .inr (.inr ⟨k, by rw [e]⟩)

theorem before_lt {α : Type} {c : α → α → Option Ordering} {less : α → α → Prop} {a b : List α}
    (h0 : ∀ x ∈ a, c x x = some .eq) (h1 : ∀ x ∈ a, ∀ y ∈ b, less x y → c x y = some .lt) (h : Before less a b) :
    lexCmp c a b = some .lt := by
  obtain ⟨p, ⟨x, y, as, bs, rfl, rfl, hl⟩ | ⟨y, bs, rfl, rfl⟩⟩ := h
  · induction p with
    | nil => simp [lexCmp, h1 x (by simp) y (by simp) hl]
    | cons z p ih =>
      simp only [List.cons_append, lexCmp]
      rw [h0 z (by simp)]
      exact ih (fun x hx => h0 x (by simp at hx ⊢; tauto)) (fun x hx y hy => h1 x (by simp at hx ⊢; tauto) y (by simp at hy ⊢; tauto))
  · induction a with
    | nil => simp [lexCmp]
    | cons z p ih =>
      simp only [List.cons_append, lexCmp]
      rw [h0 z (by simp)]
      exact ih (fun x hx => h0 x (by simp at hx ⊢; tauto)) (fun x hx y hy => h1 x (by simp at hx ⊢; tauto) y (by simp at hy ⊢; tauto))

theorem before_gt {α : Type} {c : α → α → Option Ordering} {less : α → α → Prop} {a b : List α}
    (h0 : ∀ x ∈ b, c x x = some .eq) (h1 : ∀ x ∈ a, ∀ y ∈ b, less y x → c x y = some .gt) (h : Before less b a) :
    lexCmp c a b = some .gt := by
  obtain ⟨p, ⟨x, y, as, bs, rfl, rfl, hl⟩ | ⟨y, bs, rfl, rfl⟩⟩ := h
  · induction p with
    | nil => simp [lexCmp, h1 y (by simp) x (by simp) hl]
    | cons z p ih =>
      simp only [List.cons_append, lexCmp]
      rw [h0 z (by simp)]
      exact ih (fun x hx => h0 x (by simp at hx ⊢; tauto)) (fun x hx y hy => h1 x (by simp at hx ⊢; tauto) y (by simp at hy ⊢; tauto))
  · induction b with
    | nil => simp [lexCmp]
    | cons z p ih =>
      simp only [List.cons_append, lexCmp]
      rw [h0 z (by simp)]
      exact ih (fun x hx => h0 x (by simp at hx ⊢; tauto)) (fun x hx y hy => h1 x (by simp at hx ⊢; tauto) y (by simp at hy ⊢; tauto))

theorem lexCmp_self {α : Type} {c : α → α → Option Ordering} {a : List α} (h0 : ∀ x ∈ a, c x x = some .eq) :
    lexCmp c a a = some .eq := by
  induction a with
  | nil => rfl
  | cons z p ih =>
    simp only [lexCmp]
    rw [h0 z (by simp)]
    exact ih fun x hx => h0 x (by simp [hx])

/-- Positions are compared like words in a dictionary: in an arithmetic without NaN two positions are always comparable;
`a < b` exactly if, at the first coordinate where they differ, that of `a` is smaller, or `a` is the beginning of `b`; and
they compare as equal exactly if they are equal. -/
theorem C96_positions (key : F → ℝ) (h : Orderly key) (a b : Pos F) :
    (Pos.partialCmp a b = some .lt ↔ Before (fun x y => key x < key y) a b) ∧
    (Pos.partialCmp a b = some .gt ↔ Before (fun x y => key x < key y) b a) ∧
    (Pos.partialCmp a b = some .eq ↔ a = b) ∧ Pos.partialCmp a b ≠ none := by
  have self : ∀ x : F, cmpF x x = some .eq := fun x => (cmpF_orderly h x x).2.2 rfl
  have lt : ∀ x y : F, key x < key y → cmpF x y = some .lt := fun x y hl => by rw [(cmpF_orderly h x y).1, if_pos hl]
  have gt : ∀ x y : F, key y < key x → cmpF x y = some .gt := fun x y hl => by
    rw [(cmpF_orderly h x y).1, if_neg (not_lt.2 hl.le), if_pos hl]
  have spec := lexCmp_spec (c := cmpF) (less := fun x y => key x < key y) a b (by
    intro i x y _ _
    rcases lt_trichotomy (key x) (key y) with hl | hl | hl
    · exact .inl ⟨lt x y hl, hl, fun e => by rw [e] at hl; exact lt_irrefl _ hl⟩
    · exact .inr (.inr ⟨(cmpF_orderly h x y).2.2 (h.1 hl), h.1 hl⟩)
    · exact .inr (.inl ⟨gt x y hl, hl, fun e => by rw [e] at hl; exact lt_irrefl _ hl⟩))
  unfold Pos.partialCmp
  refine ⟨⟨fun e => ?_, fun l => before_lt (fun x _ => self x) (fun x _ y _ => lt x y) l⟩,
    ⟨fun e => ?_, fun l => before_gt (fun x _ => self x) (fun x _ y _ => gt x y) l⟩, ⟨fun e => ?_, fun e => ?_⟩, ?_⟩
  · rcases spec with ⟨_, l, _⟩ | ⟨k, _⟩ | ⟨k, _⟩
    · exact l
    · rw [k] at e; cases e
    · rw [k] at e; cases e
  · rcases spec with ⟨k, _⟩ | ⟨_, l, _⟩ | ⟨k, _⟩
    · rw [k] at e; cases e
    · exact l
    · rw [k] at e; cases e
  · rcases spec with ⟨k, _⟩ | ⟨k, _⟩ | ⟨_, k⟩
    · rw [k] at e; cases e
    · rw [k] at e; cases e
    · exact k
  · rw [e]; exact lexCmp_self fun x _ => self x
  · rcases spec with ⟨k, _⟩ | ⟨k, _⟩ | ⟨k, _⟩ <;> rw [k] <;> simp

/-- the values of a data set, all variables first, those of the simulation part after them. -/
def DataSet.values (d : DataSet F) : List (DataVar F) := (d.vars ++ d.simVars).map Prod.snd

/-- two data sets of one and the same structure: the variables are of the same types. -/
def OfOneKind (a b : DataSet F) : Prop :=
  List.Forall₂ (fun x y => (∃ u v : F, x = .real u ∧ y = .real v) ∨ ∃ m n, x = .nat m ∧ y = .nat n)
    (DataSet.values a) (DataSet.values b)

/-- the order of two values of one variable. -/
def DataVar.Less (key : F → ℝ) : DataVar F → DataVar F → Prop
  | .real x, .real y => key x < key y
  | .nat m, .nat n => m < n
  | _, _ => False

/-- Data sets are compared by their variables in order, those of the simulation part (the index of the set) last: always
comparable in an arithmetic without NaN, `a < b` exactly if the first value that differs is smaller in `a`, and equal in this
order exactly if all values are equal. -/
theorem C96_datasets (key : F → ℝ) (h : Orderly key) (a b : DataSet F) (hs : OfOneKind a b) :
    (a.partialCmp b = some .lt ↔ Before (DataVar.Less key) (DataSet.values a) (DataSet.values b)) ∧
    (a.partialCmp b = some .gt ↔ Before (DataVar.Less key) (DataSet.values b) (DataSet.values a)) ∧
    (a.partialCmp b = some .eq ↔ DataSet.values a = DataSet.values b) ∧ a.partialCmp b ≠ none := by
  have self : ∀ x : DataVar F, DataVar.partialCmp x x = some .eq := by
    rintro (x | n)
    · exact (cmpF_orderly h x x).2.2 rfl
    · simp [DataVar.partialCmp]
  have lt : ∀ x y : DataVar F, DataVar.Less key x y → DataVar.partialCmp x y = some .lt := by
    rintro (x | m) (y | n) hl
    · show cmpF x y = _
      rw [(cmpF_orderly h x y).1, if_pos (show key x < key y from hl)]
    · exact absurd hl id
    · exact absurd hl id
    · show some (compare m n) = some .lt
      rw [Nat.compare_eq_lt.2 hl]
  have gt : ∀ x y : DataVar F, DataVar.Less key y x → DataVar.partialCmp x y = some .gt := by
    rintro (x | m) (y | n) hl
    · show cmpF x y = _
      have hl' : key y < key x := hl
      rw [(cmpF_orderly h x y).1, if_neg (not_lt.2 hl'.le), if_pos hl']
    · exact absurd hl id
    · exact absurd hl id
    · show some (compare m n) = some .gt
      rw [Nat.compare_eq_gt.2 hl]
  have irr : ∀ x : DataVar F, ¬ DataVar.Less key x x := by
    rintro (x | n) hl
    · exact lt_irrefl (key x) hl
    · exact lt_irrefl n hl
  have tri : ∀ x y : DataVar F, ((∃ u v : F, x = .real u ∧ y = .real v) ∨ ∃ m n, x = .nat m ∧ y = .nat n) →
      DataVar.Less key x y ∨ DataVar.Less key y x ∨ x = y := by
    rintro x y (⟨u, v, rfl, rfl⟩ | ⟨m, n, rfl, rfl⟩)
    · rcases lt_trichotomy (key u) (key v) with hl | hl | hl
      · exact .inl hl
      · exact .inr (.inr (by rw [h.1 hl]))
      · exact .inr (.inl hl)
    · rcases lt_trichotomy m n with hl | hl | hl
      · exact .inl hl
      · exact .inr (.inr (by rw [hl]))
      · exact .inr (.inl hl)
  have spec := lexCmp_spec (c := DataVar.partialCmp) (less := DataVar.Less key) (DataSet.values a) (DataSet.values b) (by
    intro i x y hx hy
    have hxy := (List.forall₂_iff_get.1 hs).2
    obtain ⟨i1, rfl⟩ := List.getElem?_eq_some_iff.1 hx
    obtain ⟨i2, rfl⟩ := List.getElem?_eq_some_iff.1 hy
    rcases tri _ _ (hxy i i1 i2) with hl | hl | hl
    · exact .inl ⟨lt _ _ hl, hl, fun e => by simp only [List.get_eq_getElem, e] at hl; exact irr _ hl⟩
    · exact .inr (.inl ⟨gt _ _ hl, hl, fun e => by simp only [List.get_eq_getElem, e] at hl; exact irr _ hl⟩)
    · simp only [List.get_eq_getElem] at hl
      exact .inr (.inr ⟨by rw [hl]; exact self _, hl⟩))
  unfold DataSet.partialCmp
  show (lexCmp DataVar.partialCmp (DataSet.values a) (DataSet.values b) = _ ↔ _) ∧
    (lexCmp DataVar.partialCmp (DataSet.values a) (DataSet.values b) = _ ↔ _) ∧
    (lexCmp DataVar.partialCmp (DataSet.values a) (DataSet.values b) = _ ↔ _) ∧
    lexCmp DataVar.partialCmp (DataSet.values a) (DataSet.values b) ≠ _
  refine ⟨⟨fun e => ?_, fun l => before_lt (fun x _ => self x) (fun x _ y _ => lt x y) l⟩,
    ⟨fun e => ?_, fun l => before_gt (fun x _ => self x) (fun x _ y _ => gt x y) l⟩, ⟨fun e => ?_, fun e => ?_⟩, ?_⟩
  · rcases spec with ⟨_, l, _⟩ | ⟨k, _⟩ | ⟨k, _⟩
    · exact l
    · rw [k] at e; cases e
    · rw [k] at e; cases e
  · rcases spec with ⟨k, _⟩ | ⟨_, l, _⟩ | ⟨k, _⟩
    · rw [k] at e; cases e
    · exact l
    · rw [k] at e; cases e
  · rcases spec with ⟨k, _⟩ | ⟨k, _⟩ | ⟨_, k⟩
    · rw [k] at e; cases e
    · rw [k] at e; cases e
    · exact k
  · rw [e]; exact lexCmp_self fun x _ => self x
  · rcases spec with ⟨k, _⟩ | ⟨k, _⟩ | ⟨k, _⟩ <;> rw [k] <;> simp

/-- Finding: the order of data sets contradicts their equality.  Two runs of one configuration (same variables) that differ in
the simulation part - two set indices `i < j` - are `==` (whatever the hash function), yet the first is smaller than the
second; Rust requires of `PartialOrd` that `a < b` excludes `a == b`. -/
theorem C96_contract_claim_false (key : F → ℝ) (h : Orderly key) (dh : List Nat → Nat) (vars : List (Str × DataVar F))
    (name : Str) (i j : Nat) (hij : i < j) :
    let a : DataSet F := ⟨vars, [(name, .nat i)]⟩
    let b : DataSet F := ⟨vars, [(name, .nat j)]⟩
    a.eqv dh b = true ∧ a.partialCmp b = some .lt := by
  refine ⟨by simp [DataSet.eqv, DataSet.key], ?_⟩
  unfold DataSet.partialCmp
  simp only [List.map_append, List.map_cons, List.map_nil]
  apply before_lt (less := DataVar.Less key)
  · rintro (x | n) _
    · exact (cmpF_orderly h x x).2.2 rfl
    · simp [DataVar.partialCmp]
  · rintro (x | m) _ (y | n) _ hl
    · show cmpF x y = _
      rw [(cmpF_orderly h x y).1, if_pos (show key x < key y from hl)]
    · exact absurd hl id
    · exact absurd hl id
    · show some (compare m n) = some .lt
      rw [Nat.compare_eq_lt.2 hl]
  · exact ⟨vars.map Prod.snd, .inl ⟨.nat i, .nat j, [], [], by simp, by simp, hij⟩⟩

/-- In the other direction the contract holds: what compares as equal is `==`. -/
theorem C96_equal_is_eq (key : F → ℝ) (h : Orderly key) (dh : List Nat → Nat) (a b : DataSet F) (hs : OfOneKind a b)
    (hl : a.vars.length = b.vars.length) (he : a.partialCmp b = some .eq) : a.eqv dh b = true := by
  have e := ((C96_datasets key h a b hs).2.2.1).1 he
  unfold DataSet.values at e
  rw [List.map_append, List.map_append] at e
  have e1 := (List.append_inj e (by simp [hl])).1
  have : a.key = b.key := by
    have := congrArg (List.map fun v : DataVar F => hashWord v.asF64) e1
    simpa [DataSet.key, List.map_map, Function.comp_def] using this
  simp [DataSet.eqv, this]

end Order

/-- A circle of radius 2.5 in 2 dimensions, sets 3 and 4 of one simulation: the same data set for `==`, but in order. -/
example (dh : List Nat → Nat) :
    let a : DataSet ℝ := ⟨[(chars! "sys_size", .real (5 / 2)), (chars! "dim", .nat 2)], [(chars! "idx_set", .nat 3)]⟩
    let b : DataSet ℝ := ⟨[(chars! "sys_size", .real (5 / 2)), (chars! "dim", .nat 2)], [(chars! "idx_set", .nat 4)]⟩
    OfOneKind a b ∧ a.eqv dh b = true ∧ a.partialCmp b = some .lt ∧ b.partialCmp a = some .gt := by
  have hs : OfOneKind (F := ℝ) ⟨[(chars! "sys_size", .real (5 / 2)), (chars! "dim", .nat 2)], [(chars! "idx_set", .nat 3)]⟩
      ⟨[(chars! "sys_size", .real (5 / 2)), (chars! "dim", .nat 2)], [(chars! "idx_set", .nat 4)]⟩ :=
    .cons (.inl ⟨_, _, rfl, rfl⟩) (.cons (.inr ⟨_, _, rfl, rfl⟩) (.cons (.inr ⟨_, _, rfl, rfl⟩) .nil))
  have c := C96_contract_claim_false (fun x : ℝ => x) orderly_real dh
    [(chars! "sys_size", .real (5 / 2)), (chars! "dim", .nat 2)] (chars! "idx_set") 3 4 (by norm_num)
  refine ⟨hs, c.1, c.2, ?_⟩
  have hs' : OfOneKind (F := ℝ) ⟨[(chars! "sys_size", .real (5 / 2)), (chars! "dim", .nat 2)], [(chars! "idx_set", .nat 4)]⟩
      ⟨[(chars! "sys_size", .real (5 / 2)), (chars! "dim", .nat 2)], [(chars! "idx_set", .nat 3)]⟩ :=
    .cons (.inl ⟨_, _, rfl, rfl⟩) (.cons (.inr ⟨_, _, rfl, rfl⟩) (.cons (.inr ⟨_, _, rfl, rfl⟩) .nil))
  exact (C96_datasets (fun x : ℝ => x) orderly_real _ _ hs').2.1.2
    ((C96_datasets (fun x : ℝ => x) orderly_real _ _ hs).1.1 c.2)

/-- `(1, 2) < (1, 2, -5) < (1, 3)` for positions of doubles. -/
example : Pos.partialCmp [(⟨1⟩ : Double), ⟨2⟩] [⟨1⟩, ⟨2⟩, ⟨-5⟩] = some .lt ∧
    Pos.partialCmp [(⟨1⟩ : Double), ⟨2⟩, ⟨-5⟩] [⟨1⟩, ⟨3⟩] = some .lt := by
  refine ⟨(C96_positions RF.val orderly_rounded _ _).1.2 ⟨[⟨1⟩, ⟨2⟩], .inr ⟨⟨-5⟩, [], rfl, rfl⟩⟩,
    (C96_positions RF.val orderly_rounded _ _).1.2 ⟨[⟨1⟩], .inl ⟨⟨2⟩, ⟨3⟩, [⟨-5⟩], [], rfl, rfl, by norm_num⟩⟩⟩

/-- Non-vacuity of the C95 theorems: the arguments of a box with a mixed boundary are cleared. -/
example : ((cubicSchema (⟨fun _ => chars! "0", fun _ => none, 0⟩ : NumFmt ℝ)).clear (cubicZeros _)
      (SystemType.continuousRectangular, (BoundaryCond.mixed 1, ((5 / 2 : ℝ), ((3 : Nat), ()))))) =
    (SystemType.continuousRectangular, (BoundaryCond.reflection, ((0 : ℝ), ((0 : Nat), ())))) := by
  refine (C95_clear_is_new _ _ _).trans ?_
  have e : (Fl.zero : ℝ) = 0 := by simp [Fl.zero]
  show (SystemType.continuousRectangular, (BoundaryCond.reflection, ((Fl.zero : ℝ), ((0 : Nat), ())))) = _
  rw [e]

/-- Non-vacuity of `C95_cleared_reads_back` and `C95_cleared_converted`: whole numbers, in exact arithmetic. -/
example : ReadsBack (cylSchema wholeFmt).fields ((cylSchema wholeFmt).new (cylZeros wholeFmt)) ∧
    ExpAgent.convertFrom (F := ℝ) (.brownian Fl.one) .uniform Fl.zero 0 Fl.zero 0 = .ok [] := by
  have h0 : Whole (Fl.zero : ℝ) := ⟨0, by norm_num, by simp [Fl.zero]⟩
  have h1 : Whole (Fl.one : ℝ) := ⟨1, by norm_num, by simp [Fl.one]⟩
  exact ⟨(C95_cleared_reads_back wholeFmt Whole wholeFmt_wordLike h0 h1).2.2.1,
    (C95_cleared_converted wholeFmt (by simp)).2.2.2.2.2.2.1 _ _ _ _ _ _ _ rfl⟩

end Moledyn.Props
