import Verif.Spec.Agent
import Verif.Spec.Random
import Verif.Lemmas.System
import Verif.Lemmas.Random
import Verif.Props.Random
import Verif.Props.LinkedListSweeps
/-
Property theorems C36-C40 and the agent instance of C08 (src/agent_mod).
-/
namespace Moledyn.Props
open Moledyn Moledyn.Pos LList
set_option linter.unusedSimpArgs false

/-! ## C36: mutual displacement -/

/-- what a user expects of `mutual_displacement` between points `p` and `q`: distance `r`, unit vector `u`
from `p` to `q`. -/
def PointsFrom (p q : List ℝ) (u : List ℝ) (r : ℝ) : Prop :=
  r = radius (List.zipWith (· - ·) q p) ∧ 0 < r ∧ radius u = 1 ∧ u.length = p.length ∧
  List.zipWith (· + ·) p (u.map (· * r)) = q

private theorem add_diff (p q : List ℝ) (h : p.length = q.length) (c : ℝ) (hc : c ≠ 0) :
    List.zipWith (· + ·) p ((List.map (· * (1 / c)) (diff q p)).map (· * c)) = q := by
  induction p generalizing q with
  | nil => cases q with
    | nil => rfl
    | cons y q => simp at h
  | cons x p ih =>
    cases q with
    | nil => simp at h
    | cons y q =>
      simp only [List.length_cons, add_left_inj] at h
      simp only [diff, List.zipWith_cons_cons, List.map_cons]
      rw [show List.zipWith (· - ·) q p = diff q p from rfl, ih q h]
      congr 1
      field_simp
      ring

private theorem dispLoop_ok (p q v : List ℝ) (hq : p.length = q.length) (hv : p.length = v.length) (s : ℝ) :
    AgentCore.dispLoop p.length p q v s = (diff q p, .ok (s + sumSq (diff q p))) := by
  induction p generalizing q v s with
  | nil =>
    obtain rfl : q = [] := List.length_eq_zero_iff.1 hq.symm
    obtain rfl : v = [] := List.length_eq_zero_iff.1 hv.symm
    simp [AgentCore.dispLoop, diff]
  | cons x p ih =>
    cases q with
    | nil => simp at hq
    | cons y q =>
      cases v with
      | nil => simp at hv
      | cons z v =>
        simp only [List.length_cons, add_left_inj] at hq hv
        simp only [List.length_cons, AgentCore.dispLoop, ih q v hq hv]
        simp only [diff, List.zipWith_cons_cons, sumSq_cons, fl_powi, fl_sub, fl_add]
        congr 2
        ring

/-- the answers of two agents at `p` and `q` about each other are right: `md` and `mdSwapped` are what
`mutual_displacement` answers in the two orders, `toVec` the buffer and result of the in-place variant and
`dist` that of `mutual_distance`. -/
def MutualAnswers (p q : List ℝ) (md mdSwapped : Res (List ℝ × ℝ)) (toVec : List ℝ × Res ℝ) (dist : Res ℝ) : Prop :=
  ∃ u r, PointsFrom p q u r ∧ PointsFrom q p (u.map (-·)) r ∧ md = .ok (u, r) ∧
    mdSwapped = .ok (u.map (-·), r) ∧ toVec = (u, .ok r) ∧ dist = .ok r

private theorem mutual_core (p q : List ℝ) (hl : p.length = q.length) (hne : p ≠ q) (vec : List ℝ)
    (hv : vec.length = p.length) :
    MutualAnswers p q (AgentCore.mutualDisplacement p.length p q.length q)
      (AgentCore.mutualDisplacement q.length q p.length p)
      (AgentCore.mutualDisplacementToVec p.length p q.length q vec) (AgentCore.mutualDistance p q) := by
  have hr0 : 0 < radius (diff q p) := by
    have h1 : radius (diff q p) = Real.sqrt (sumSq (diff q p)) := rfl
    rw [h1]
    apply Real.sqrt_pos.2
    refine lt_of_le_of_ne (sumSq_nonneg _) (fun h => hne ?_)
    exact ((sumSq_diff_eq_zero q p hl.symm).1 h.symm).symm
  have hcomm : radius (diff p q) = radius (diff q p) := by
    have h1 : ∀ l, radius l = Real.sqrt (sumSq l) := fun _ => rfl
    rw [h1, h1, sumSq_diff_comm]
  have hneg : ∀ p q : List ℝ, diff p q = (diff q p).map (-·) := by
    intro p
    induction p with
    | nil => intro q; simp [diff]
    | cons x p ih =>
      intro q
      cases q with
      | nil => simp [diff]
      | cons y q => simp only [diff, List.zipWith_cons_cons, List.map_cons, neg_sub]; rw [← diff, ← diff, ih]
  have hflip : (List.map (· * (1 / radius (diff q p))) (diff q p)).map (-·) =
      (diff p q).map (· * (1 / radius (diff p q))) := by
    rw [hcomm, hneg p q, List.map_map, List.map_map]
    congr 1
    funext x
    simp
  have hpf : ∀ p q : List ℝ, p.length = q.length → 0 < radius (diff q p) →
      PointsFrom p q ((diff q p).map (· * (1 / radius (diff q p)))) (radius (diff q p)) := by
    intro p q hl h0
    refine ⟨rfl, h0, ?_, by simp [diff, hl], add_diff p q hl _ h0.ne'⟩
    rw [radius_scale, abs_of_pos (by positivity), one_div_mul_cancel h0.ne']
  have hmd : ∀ p q : List ℝ, p.length = q.length →
      AgentCore.mutualDisplacement p.length p q.length q =
        .ok ((diff q p).map (· * (1 / radius (diff q p))), radius (diff q p)) := by
    intro p q hl
    unfold AgentCore.mutualDisplacement Pos.sub Pos.dim
    rw [if_neg (by simp [hl]), if_neg (by simp [hl])]
    simp only [Res.bind_ok, norm_eq_radius, mutScalarMul]
    simp only [fl_div, fl_mul, fl_sub, fl_lit, Rat.cast_one]
    rfl
  refine ⟨_, _, hpf p q hl hr0, ?_, hmd p q hl, ?_, ?_, ?_⟩
  · rw [hflip, ← hcomm]; exact hpf q p hl.symm (hcomm ▸ hr0)
  · rw [hflip, ← hcomm]; exact hmd q p hl.symm
  · unfold AgentCore.mutualDisplacementToVec Pos.dim
    rw [if_neg (by simp [hl, hv]),
      show (Fl.zero : ℝ) = 0 from fl_zero, dispLoop_ok p q vec hl hv.symm 0]
    simp only [mutScalarMul, fl_sqrt, fl_div, fl_mul, fl_lit, Rat.cast_one, zero_add]
    rfl
  · unfold AgentCore.mutualDistance
    rw [distance_eq p q hl, ← hcomm]
    rfl

/-- Exact arithmetic: for two independent agents at different points of the same dimension, the displacement
is the unit vector from the first to the second with their distance; exchanging them negates the vector and
keeps the distance; the in-place variant writes the same vector whatever the buffer held; `mutual_distance`
agrees. -/
theorem C36_independent (a b : IndepAgent ℝ) (ha : a.dim = a.pos.length) (hb : b.dim = b.pos.length)
    (hl : a.pos.length = b.pos.length) (hne : a.pos ≠ b.pos) (vec : List ℝ) (hv : vec.length = a.pos.length) :
    MutualAnswers a.pos b.pos (a.mutualDisplacement b) (b.mutualDisplacement a)
      (a.mutualDisplacementToVec b vec) (a.mutualDistance b) := by
  have := mutual_core a.pos b.pos hl hne vec hv
  rw [← ha, ← hb] at this; exact this

/-- the same for merging agents. -/
theorem C36_merging (a b : MergeAgent ℝ) (ha : a.dim = a.pos.length) (hb : b.dim = b.pos.length)
    (hl : a.pos.length = b.pos.length) (hne : a.pos ≠ b.pos) (vec : List ℝ) (hv : vec.length = a.pos.length) :
    MutualAnswers a.pos b.pos (a.mutualDisplacement b) (b.mutualDisplacement a)
      (a.mutualDisplacementToVec b vec) (a.mutualDistance b) := by
  have := mutual_core a.pos b.pos hl hne vec hv
  rw [← ha, ← hb] at this; exact this

/-- the same for agents with exponential interaction. -/
theorem C36_exponential (a b : ExpAgent ℝ) (ha : a.expDim = a.pos.length) (hb : b.expDim = b.pos.length)
    (hl : a.pos.length = b.pos.length) (hne : a.pos ≠ b.pos) (vec : List ℝ) (hv : vec.length = a.pos.length) :
    MutualAnswers a.pos b.pos (a.mutualDisplacement b) (b.mutualDisplacement a)
      (a.mutualDisplacementToVec b vec) (a.mutualDistance b) := by
  have := mutual_core a.pos b.pos hl hne vec hv
  rw [← ha, ← hb] at this; exact this

/-- the same for Lennard-Jones agents. -/
theorem C36_lennard_jones (a b : LJAgent ℝ) (ha : a.dim = a.pos.length) (hb : b.dim = b.pos.length)
    (hl : a.pos.length = b.pos.length) (hne : a.pos ≠ b.pos) (vec : List ℝ) (hv : vec.length = a.pos.length) :
    MutualAnswers a.pos b.pos (a.mutualDisplacement b) (b.mutualDisplacement a)
      (a.mutualDisplacementToVec b vec) (a.mutualDistance b) := by
  have := mutual_core a.pos b.pos hl hne vec hv
  rw [← ha, ← hb] at this; exact this

private theorem dimension_core {F : Type} [Fl F] (d1 d2 : Nat) (p q vec : Pos F) :
    (d1 ≠ d2 → AgentCore.mutualDisplacement d1 p d2 q = .err .invalidDimension) ∧
    (d1 ≠ d2 ∨ d1 ≠ vec.length →
      AgentCore.mutualDisplacementToVec d1 p d2 q vec = (vec, .err .invalidDimension)) ∧
    (p.length ≠ q.length → AgentCore.mutualDistance p q = .err .invalidDimension) := by
  refine ⟨fun h => ?_, fun h => ?_, fun h => ?_⟩
  · unfold AgentCore.mutualDisplacement; rw [if_pos h]
  · unfold AgentCore.mutualDisplacementToVec; exact if_pos h
  · unfold AgentCore.mutualDistance Pos.distance; exact if_pos h

/-- Any arithmetic: agents of different recorded dimensions, or a buffer of the wrong length, are refused and
the buffer is left as it was; positions of different lengths are refused by `mutual_distance`. -/
theorem C36_dimension_errors {F : Type} [Fl F] (vec : Pos F) :
    (∀ a b : IndepAgent F, (a.dim ≠ b.dim → a.mutualDisplacement b = .err .invalidDimension) ∧
      (a.dim ≠ b.dim ∨ a.dim ≠ vec.length → a.mutualDisplacementToVec b vec = (vec, .err .invalidDimension)) ∧
      (a.pos.length ≠ b.pos.length → a.mutualDistance b = .err .invalidDimension)) ∧
    (∀ a b : MergeAgent F, (a.dim ≠ b.dim → a.mutualDisplacement b = .err .invalidDimension) ∧
      (a.dim ≠ b.dim ∨ a.dim ≠ vec.length → a.mutualDisplacementToVec b vec = (vec, .err .invalidDimension)) ∧
      (a.pos.length ≠ b.pos.length → a.mutualDistance b = .err .invalidDimension)) ∧
    (∀ a b : ExpAgent F, (a.expDim ≠ b.expDim → a.mutualDisplacement b = .err .invalidDimension) ∧
      (a.expDim ≠ b.expDim ∨ a.expDim ≠ vec.length →
        a.mutualDisplacementToVec b vec = (vec, .err .invalidDimension)) ∧
      (a.pos.length ≠ b.pos.length → a.mutualDistance b = .err .invalidDimension)) ∧
    (∀ a b : LJAgent F, (a.dim ≠ b.dim → a.mutualDisplacement b = .err .invalidDimension) ∧
      (a.dim ≠ b.dim ∨ a.dim ≠ vec.length → a.mutualDisplacementToVec b vec = (vec, .err .invalidDimension)) ∧
      (a.pos.length ≠ b.pos.length → a.mutualDistance b = .err .invalidDimension)) :=
  ⟨fun _ _ => dimension_core _ _ _ _ _, fun _ _ => dimension_core _ _ _ _ _,
   fun _ _ => dimension_core _ _ _ _ _, fun _ _ => dimension_core _ _ _ _ _⟩

private theorem sub_self_fin (p : List ℚ) :
    List.zipWith (· - ·) (p.map XF.fin) (p.map XF.fin) = p.map fun _ => XF.fin 0 := by
  induction p with
  | nil => rfl
  | cons x p ih =>
    simp only [List.map_cons, List.zipWith_cons_cons, ih]
    congr 1
    show XF.fin (x + -x) = XF.fin 0
    rw [add_neg_cancel]

/-- Finding (numbers with infinities and NaN): two agents at the same point get distance 0 and a "unit
vector" all of whose coordinates are NaN, reported as success. -/
theorem C36_coincident (mt : MoveType XF) (p : List ℚ) :
    (IndepAgent.new mt (p.map XF.fin)).mutualDisplacement (IndepAgent.new mt (p.map XF.fin)) =
      .ok (List.replicate p.length XF.nan, XF.fin 0) := by
  unfold IndepAgent.mutualDisplacement IndepAgent.new
  unfold AgentCore.mutualDisplacement Pos.sub Pos.dim
  rw [if_neg (by simp), if_neg (by simp)]
  rw [sub_self_fin]
  have hn : Pos.norm (p.map fun _ => XF.fin 0) = XF.fin 0 := by
    unfold Pos.norm
    have : ∀ p : List ℚ, (p.map fun _ => XF.fin 0).foldl (fun res x => res + x * x) (Fl.zero : XF) = XF.fin 0 := by
      intro p
      induction p with
      | nil => rfl
      | cons x p ih =>
        rw [List.map_cons, List.foldl_cons]
        have h0 : ((Fl.zero : XF) + XF.fin 0 * XF.fin 0) = Fl.zero := by
          show XF.fin (0 + 0 * 0) = XF.fin 0
          norm_num
        rw [h0, ih]
    rw [this]
    show XF.sqrt' (XF.fin 0) = XF.fin 0
    simp [XF.sqrt']
  simp only [Res.bind_ok, hn, mutScalarMul]
  congr 2
  rw [List.map_map, List.eq_replicate_iff]
  refine ⟨by simp, fun b hb => ?_⟩
  obtain ⟨x, -, rfl⟩ := List.mem_map.1 hb
  show XF.mul' (XF.fin 0) (XF.div' (XF.fin 1) (XF.fin 0)) = XF.nan
  simp [XF.div', XF.mul']

example : ∃ (a b : LJAgent ℝ), a.dim = a.pos.length ∧ b.dim = b.pos.length ∧ a.pos.length = b.pos.length ∧
    a.pos ≠ b.pos ∧ ([7, 7] : List ℝ).length = a.pos.length :=
  ⟨⟨.continuousPassiveInteracting, .lennardJones 1, .brownian 1, .uniform, 2, [0, 0], 1, 1, 4, 24⟩,
   ⟨.continuousPassiveInteracting, .lennardJones 1, .brownian 1, .uniform, 2, [3, 4], 1, 1, 4, 24⟩,
   rfl, rfl, rfl, by simp, rfl⟩


/-! ## C37: uniform initialisation -/

/-- the position `p` is a legitimate start for an agent of dimension `n`. -/
def GoodStart {G F : Type} [Fl F] (sys : SysOps G F) (t : TargetOps F) (n : Nat) (dim : Nat) (p : Pos F) : Prop :=
  dim = n ∧ p.length = n ∧ sys.checkInclusion p = .ok true ∧ t.checkFind p = .ok false

theorem drawOffTarget_ok {G F : Type} [Fl F] {sys : SysOps G F} {t : TargetOps F} {n : Nat}
    (hd : sys.DrawsInside n) {inner fuel : Nat} {g : G} {pos p : Pos F} {g' : G}
    (h : AgentCore.drawOffTarget sys t inner fuel g pos = some ((p, .ok ()), g')) :
    p.length = n ∧ sys.checkInclusion p = .ok true ∧ t.checkFind p = .ok false := by
  induction fuel generalizing g pos with
  | zero => simp [AgentCore.drawOffTarget] at h
  | succ fuel ih =>
    unfold AgentCore.drawOffTarget at h
    rcases hr : sys.randomPosToVec inner g pos with _ | ⟨⟨p1, r⟩, g1⟩
    · rw [hr] at h; simp at h
    · rw [hr] at h
      cases r with
      | err e => simp at h
      | panic => simp at h
      | ok u =>
        simp only at h
        rcases hf : t.checkFind p1 with b | e | _
        · rw [hf] at h
          cases b with
          | true => exact ih h
          | false =>
            simp only [Option.some.injEq, Prod.mk.injEq, and_true] at h
            obtain ⟨rfl, rfl⟩ := h
            obtain ⟨h1, h2⟩ := hd _ _ _ _ _ hr
            exact ⟨h1, h2, hf⟩
        · rw [hf] at h; simp at h
        · rw [hf] at h; simp at h

private theorem map_ok_inv {G F α : Type} [Fl F] {x : Option ((Pos F × Res Unit) × G)} {f : Pos F → α} {a : α}
    {g' : G} (h : (x.map fun r => (r.1.2.map fun _ => f r.1.1, r.2)) = some (.ok a, g')) :
    ∃ p, x = some ((p, .ok ()), g') ∧ a = f p := by
  rcases x with _ | ⟨⟨p, r⟩, g1⟩
  · simp at h
  · cases r with
    | ok u =>
      simp only [Option.map_some, Res.map_ok, Option.some.injEq, Prod.mk.injEq, Res.ok.injEq] at h
      obtain ⟨rfl, rfl⟩ := h
      exact ⟨p, rfl, rfl⟩
    | err e => simp at h
    | panic => simp at h

/-- Any arithmetic, any generator: in a system whose random positions are inside it, an agent returned by
`new_uniform` (any of the four types) has the system's dimension, is inside the system and not on the target. -/
theorem C37_new_uniform {G F : Type} [Fl F] (sys : SysOps G F) (t : TargetOps F) (n : Nat)
    (hd : sys.DrawsInside n) (ho : sys.OutsideDim n) (inner fuel : Nat) (g g' : G) :
    (∀ mt a, IndepAgent.newUniform sys t inner fuel g mt = some (.ok a, g') → GoodStart sys t n a.dim a.pos) ∧
    (∀ mt ra al a, MergeAgent.newUniform sys t inner fuel g mt ra al = some (.ok a, g') →
      GoodStart sys t n a.dim a.pos ∧ a.size = 1) ∧
    (∀ it mt st a, ExpAgent.newUniform sys t inner fuel g it mt st = some (.ok a, g') →
      GoodStart sys t n a.expDim a.pos ∧ it = .exponential n a.gamma) ∧
    (∀ it mt st a, LJAgent.newUniform sys t inner fuel g it mt st = some (.ok a, g') →
      GoodStart sys t n a.dim a.pos ∧ it = .lennardJones a.ptlSize) := by
  refine ⟨fun mt a h => ?_, fun mt ra al a h => ?_, fun it mt st a h => ?_, fun it mt st a h => ?_⟩
  · unfold IndepAgent.newUniform at h
    obtain ⟨p, hp, rfl⟩ := map_ok_inv (f := fun p => (⟨_, _, _, Pos.dim p, p⟩ : IndepAgent F)) h
    obtain ⟨h1, h2, h3⟩ := drawOffTarget_ok hd hp
    exact ⟨h1, h1, h2, h3⟩
  · unfold MergeAgent.newUniform at h
    obtain ⟨p, hp, rfl⟩ := map_ok_inv (f := fun p => (⟨_, _, _, Pos.dim p, p, _, _, _⟩ : MergeAgent F)) h
    obtain ⟨h1, h2, h3⟩ := drawOffTarget_ok hd hp
    exact ⟨⟨h1, h1, h2, h3⟩, rfl⟩
  · unfold ExpAgent.newUniform at h
    cases it with
    | exponential d ga =>
      simp only at h
      split at h
      · simp at h
      · rename_i hdim
        obtain ⟨p, hp, rfl⟩ :=
          map_ok_inv (f := fun p => (⟨_, _, _, _, Pos.dim p, p, _, _, _, _⟩ : ExpAgent F)) h
        obtain ⟨h1, h2, h3⟩ := drawOffTarget_ok hd hp
        have : d = n := by rw [not_not.1 hdim]; exact ho.1
        exact ⟨⟨h1, h1, h2, h3⟩, by rw [this]⟩
    | coulomb2D => simp at h
    | coulomb3D => simp at h
    | lennardJones _ => simp at h
  · unfold LJAgent.newUniform at h
    cases it with
    | lennardJones ps =>
      simp only at h
      obtain ⟨p, hp, rfl⟩ :=
        map_ok_inv (f := fun p => (⟨_, _, _, _, _, p, _, _, _, _⟩ : LJAgent F)) h
      obtain ⟨h1, h2, h3⟩ := drawOffTarget_ok hd hp
      exact ⟨⟨ho.1, h1, h2, h3⟩, rfl⟩
    | coulomb2D => simp at h
    | coulomb3D => simp at h
    | exponential _ _ => simp at h

private theorem startPos_cases {G F : Type} [Fl F] {sys : SysOps G F} {n : Nat} (ho : sys.OutsideDim n)
    (p : Pos F) : AgentCore.startPos sys p = (sys.positionOut, decide (p.length ≠ n)) := by
  unfold AgentCore.startPos
  by_cases h : p.length = n
  · rw [(ho.2 p).1 h]; simp [h]
  · obtain ⟨e, he⟩ := (ho.2 p).2 h
    rw [he]; simp [h]

/-- Any arithmetic, any generator: `renew_uniform` of an agent (any of the four types, also one that lived in
a system of another dimension) leaves it with the system's dimension, inside the system and not on the
target. -/
theorem C37_renew_uniform {G F : Type} [Fl F] (sys : SysOps G F) (t : TargetOps F) (n : Nat)
    (hd : sys.DrawsInside n) (ho : sys.OutsideDim n) (inner fuel : Nat) (g g' : G) :
    (∀ a b : IndepAgent F, a.dim = a.pos.length →
      a.renewUniform sys t inner fuel g = some ((b, .ok ()), g') → GoodStart sys t n b.dim b.pos) ∧
    (∀ a b : MergeAgent F, a.dim = a.pos.length →
      a.renewUniform sys t inner fuel g = some ((b, .ok ()), g') → GoodStart sys t n b.dim b.pos) ∧
    (∀ a b : ExpAgent F, a.expDim = a.pos.length →
      a.renewUniform sys t inner fuel g = some ((b, .ok ()), g') → GoodStart sys t n b.expDim b.pos) ∧
    (∀ a b : LJAgent F, a.dim = a.pos.length →
      a.renewUniform sys t inner fuel g = some ((b, .ok ()), g') → GoodStart sys t n b.dim b.pos) := by
  have hpo : ∀ d : Nat, ∀ p : Pos F, d = p.length → (if decide (p.length ≠ n) = true then sys.positionOut.dim else d) = n := by
    intro d p hp
    by_cases h : p.length = n
    · rw [if_neg (by simpa using h), hp, h]
    · rw [if_pos (by simpa using h)]; exact ho.1
  refine ⟨fun a b ha h => ?_, fun a b ha h => ?_, fun a b ha h => ?_, fun a b ha h => ?_⟩
  · unfold IndepAgent.renewUniform at h
    rw [startPos_cases ho] at h
    simp only [Option.map_eq_some_iff] at h
    obtain ⟨⟨⟨p, r⟩, g1⟩, hdr, h⟩ := h
    simp only [Prod.mk.injEq] at h
    obtain ⟨⟨rfl, rfl⟩, rfl⟩ := h
    obtain ⟨h1, h2, h3⟩ := drawOffTarget_ok hd hdr
    exact ⟨hpo _ _ ha, h1, h2, h3⟩
  · unfold MergeAgent.renewUniform at h
    rw [startPos_cases ho] at h
    simp only [Option.map_eq_some_iff] at h
    obtain ⟨⟨⟨p, r⟩, g1⟩, hdr, h⟩ := h
    cases r with
    | ok u =>
      obtain ⟨h1, h2, h3⟩ := drawOffTarget_ok hd hdr
      simp only [MergeAgent.rescale] at h
      split at h <;> simp only [Prod.mk.injEq] at h <;> obtain ⟨⟨rfl, hh⟩, rfl⟩ := h
      · exact ⟨hpo _ _ ha, h1, h2, h3⟩
      · simp at hh
    | err e => simp at h
    | panic => simp at h
  · unfold ExpAgent.renewUniform at h
    rw [startPos_cases ho] at h
    simp only [Option.map_eq_some_iff] at h
    obtain ⟨⟨⟨p, r⟩, g1⟩, hdr, h⟩ := h
    simp only [Prod.mk.injEq] at h
    obtain ⟨⟨rfl, rfl⟩, rfl⟩ := h
    obtain ⟨h1, h2, h3⟩ := drawOffTarget_ok hd hdr
    refine ⟨?_, h1, h2, h3⟩
    have := hpo _ _ ha
    split at this <;> rename_i hc
    · rw [if_pos hc]; exact this
    · rw [if_neg hc]; exact this
  · unfold LJAgent.renewUniform at h
    rw [startPos_cases ho] at h
    simp only [Option.map_eq_some_iff] at h
    obtain ⟨⟨⟨p, r⟩, g1⟩, hdr, h⟩ := h
    simp only [Prod.mk.injEq] at h
    obtain ⟨⟨rfl, rfl⟩, rfl⟩ := h
    obtain ⟨h1, h2, h3⟩ := drawOffTarget_ok hd hdr
    refine ⟨?_, h1, h2, h3⟩
    have := hpo _ _ ha
    split at this <;> rename_i hc
    · rw [if_pos hc]; exact this
    · rw [if_neg hc]; exact this

/-- Balls draw inside whatever the arithmetic; boxes in exact arithmetic with draws in (0,1). -/
theorem C37_systems_draw_inside :
    (∀ {G F : Type} [Fl F] (rng : RngOps G F) (s : Circ F), (s.ops rng).DrawsInside s.dim) ∧
    (∀ {G : Type} (rng : RngOps G ℝ), (∀ g, 0 < (rng.uniform g).1 ∧ (rng.uniform g).1 < 1) →
      ∀ (bc : BoundaryCond) (L : ℝ) (n : Nat) (s : Cubic ℝ), Cubic.new bc L n = .ok s →
        (s.ops rng).DrawsInside n) := by
  constructor
  · intro G F _ rng s fuel g vec p g' h
    have h' : wroteVec vec (s.randomPosToVec rng fuel g vec) = some ((p, .ok ()), g') := h
    by_cases hv : vec.length = s.dim
    · rcases hr : s.randomPosToVec rng fuel g vec with _ | ⟨r, g1⟩
      · rw [hr] at h'; simp [wroteVec] at h'
      · obtain ⟨q, rfl, hq⟩ := C26_sphere_to_vec rng s fuel g vec hv r g1 hr
        rw [hr] at h'
        simp only [wroteVec, Option.some.injEq, Prod.mk.injEq, and_true] at h'
        obtain ⟨rfl, rfl⟩ := h'
        refine ⟨?_, hq⟩
        rcases Circ.checkInclusion_cases s q with ⟨hd, he⟩ | ⟨hd, -⟩
        · rw [he] at hq; simp at hq
        · exact hd.symm
    · unfold Circ.randomPosToVec at h'
      rw [if_pos (by simpa [Pos.dim] using hv)] at h'
      simp [wroteVec] at h'
  · intro G rng hu bc L n s hs fuel g vec p g' h
    have h' : some (s.randomPosToVec rng g vec) = some ((p, .ok ()), g') := h
    simp only [Option.some.injEq] at h'
    by_cases hv : vec.length = n
    · obtain ⟨q, hq, hl, -, hin⟩ := (C26_cube rng hu bc L n s hs g vec hv).2
      rw [hq] at h'
      simp only [Prod.mk.injEq, and_true] at h'
      obtain ⟨rfl, rfl⟩ := h'
      exact ⟨hl, hin⟩
    · have hdim : s.dim = n := by obtain ⟨-, -, rfl, -⟩ := new_cubic hs; rfl
      unfold Cubic.randomPosToVec at h'
      rw [if_pos (by simpa [Pos.dim, hdim] using hv)] at h'
      simp at h'

/-- With rounded arithmetic too, if 1/2, 2, the half side and the side are floating-point numbers. -/
theorem C37_box_draws_inside_rounded {G : Type} (R : Rounding) (rng : RngOps G (RF R))
    (hu : ∀ g, 0 < (rng.uniform g).1.val ∧ (rng.uniform g).1.val < 1) (bc : BoundaryCond) (L : ℝ) (hL : 0 < L) (n : Nat)
    (hhalf : R.rnd (1 / 2) = 1 / 2) (htwo : R.rnd 2 = 2) (hrL : R.rnd L = L) (hr2L : R.rnd (2 * L) = 2 * L) :
    ((⟨.continuousRectangular, bc, ⟨L⟩, n⟩ : Cubic (RF R)).ops rng).DrawsInside n := by
  intro fuel g vec p g' h
  have h' : some ((⟨.continuousRectangular, bc, ⟨L⟩, n⟩ : Cubic (RF R)).randomPosToVec rng g vec) =
    some ((p, .ok ()), g') := h
  simp only [Option.some.injEq] at h'
  by_cases hv : vec.length = n
  · obtain ⟨q, hq, hin⟩ := (C26_cube_rounded R rng hu bc L hL n hhalf htwo hrL hr2L g vec hv).2
    rw [h'] at hq
    simp only [Prod.mk.injEq, and_true] at hq
    subst hq
    exact ⟨(C19_inside_has_dimension _ ⟨.continuousCircular, bc, ⟨L⟩, n⟩
      ⟨.continuousCylindrical 0, bc, ⟨L⟩, ⟨L⟩, n⟩ _).1 hin, hin⟩
  · unfold Cubic.randomPosToVec at h'
    rw [if_pos (by simpa [Pos.dim] using hv)] at h'
    simp at h'

example : ∃ R : Rounding, R.rnd (1 / 2) = 1 / 2 ∧ R.rnd 2 = 2 ∧ R.rnd 3 = 3 ∧ R.rnd (2 * 3) = 2 * 3 :=
  ⟨⟨id, fun _ _ h => h, fun _ => rfl, rfl, fun _ => rfl⟩, rfl, rfl, rfl, rfl⟩

/-- The three systems recognise vectors of their own dimension (any arithmetic). -/
theorem C37_systems_outside_dim {G F : Type} [Fl F] (rng : RngOps G F) :
    (∀ s : Cubic F, (s.ops rng).OutsideDim s.dim) ∧ (∀ s : Circ F, (s.ops rng).OutsideDim s.dim) ∧
    (∀ s : Cyl F, (s.ops rng).OutsideDim s.dim) := by
  refine ⟨fun s => ⟨?_, fun v => ⟨fun h => ?_, fun h => ⟨.invalidDimension, ?_⟩⟩⟩,
    fun s => ⟨?_, fun v => ⟨fun h => ?_, fun h => ⟨.invalidDimension, ?_⟩⟩⟩,
    fun s => ⟨?_, fun v => ⟨fun h => ?_, fun h => ⟨.invalidDimension, ?_⟩⟩⟩⟩
  · simp [Cubic.ops, Cubic.positionOutOfSystem]
  · simp [Cubic.ops, Cubic.positionOutOfSystemToVec, Cubic.positionOutOfSystem, Pos.dim, h]
  · simp only [Cubic.ops, Cubic.positionOutOfSystemToVec, Pos.dim]; exact if_pos (Ne.symm h)
  · simp [Circ.ops, Circ.positionOutOfSystem]
  · simp [Circ.ops, Circ.positionOutOfSystemToVec, Circ.positionOutOfSystem, Pos.dim, h]
  · simp only [Circ.ops, Circ.positionOutOfSystemToVec, Pos.dim]; exact if_pos (Ne.symm h)
  · simp [Cyl.ops, Cyl.positionOutOfSystem]
  · simp [Cyl.ops, Cyl.positionOutOfSystemToVec, Cyl.positionOutOfSystem, Pos.dim, h]
  · simp only [Cyl.ops, Cyl.positionOutOfSystemToVec, Pos.dim]; exact if_pos (Ne.symm h)

/-- Finding: in a cylinder the claim is false.  Whatever the cylinder with a free axis, and a target that is
nowhere near, some sequence of draws makes `new_uniform` return an agent outside the cylinder. -/
theorem C37_cylinder_claim_false (d : Nat) (R L : ℝ) (n : Nat) (hd : d < n) (s : Cyl ℝ)
    (hnew : Cyl.new d R L n = .ok s) (t : TargetOps ℝ) (ht : ∀ p : Pos ℝ, t.checkFind p = .ok false)
    (mt : MoveType ℝ) :
    ∃ rng : RngOps Nat ℝ, (∀ g, 0 < (rng.uniform g).1 ∧ (rng.uniform g).1 < 1) ∧
      ∃ a g', IndepAgent.newUniform (s.ops rng) t 1 1 0 mt = some (.ok a, g') ∧
        s.checkInclusion a.pos = .ok false := by
  have hdim : s.dim = n := by obtain ⟨-, -, -, -, rfl⟩ := new_cyl hnew; rfl
  obtain ⟨rng, hu, p, g', hp, -, hf⟩ :=
    C26_cylinder_to_vec_claim_false d R L n hd s hnew s.positionOutOfSystem
      (by simp [Cyl.positionOutOfSystem, hdim])
  refine ⟨rng, hu, ⟨.continuousPassiveIndependent, mt, .uniform, Pos.dim p, p⟩, g', ?_, hf⟩
  unfold IndepAgent.newUniform AgentCore.drawOffTarget
  simp only [Cyl.ops, hp, wroteVec, ht, Option.map_some, Res.map_ok]

-- a ball whose draws are used: the agent is returned, at the centre
example : IndepAgent.newUniform
    ((⟨.continuousCircular, .reflection, 1, 1⟩ : Circ ℝ).ops (⟨fun g => (1 / 2, g + 1), fun g => (0, g)⟩ : RngOps Nat ℝ))
    (BulkTarget.ops ⟨.continuousInBulk, [3], 1⟩) 1 1 0 .levy =
      some (.ok ⟨.continuousPassiveIndependent, .levy, .uniform, 1, [0]⟩, 1) := by
  have h1 : (1 / 2 : ℝ) * 2 - 1 = 0 := by norm_num
  unfold IndepAgent.newUniform AgentCore.drawOffTarget
  simp [Circ.ops, Circ.randomPosToVec, Circ.positionOutOfSystem, rejectLoop, Circ.proposeToVec, Pos.dim,
    Random.getUniformToVecNonstandard, Random.sweep, Pos.clear, Circ.checkInclusion, Pos.norm, wroteVec,
    BulkTarget.ops, BulkTarget.checkFind, BulkTarget.distance, Pos.distance]
  have h9 : ¬ Real.sqrt 9 < 1 := by
    rw [not_lt, Real.one_le_sqrt]; norm_num
  norm_num
  rw [if_neg h9]
  exact ⟨_, _, rfl, rfl⟩

/-! ## C38 and C08: merging agents -/

/-- Any arithmetic: after any history of successful size additions, merges and renewals, the size is what
the additions since the last renewal say, the exponent is unchanged, and after at least one call the
diffusion coefficient is `size^(-alpha)`. -/
theorem C38_history {G F : Type} [Fl F] (a b : MergeAgent F) (log : List (Option Nat))
    (h : MergeAgent.History G a log b) :
    b.size = sizeAfter a.size log ∧ b.alpha = a.alpha ∧ b.ptlRadius = a.ptlRadius ∧
    (log ≠ [] → b.mtype = .brownian (Fl.powf (Fl.ofNat b.size) (-a.alpha))) := by
  have hresc : ∀ x y : MergeAgent F, x.rescale = (y, .ok ()) →
      y.size = x.size ∧ y.alpha = x.alpha ∧ y.ptlRadius = x.ptlRadius ∧
      y.mtype = .brownian (Fl.powf (Fl.ofNat x.size) (-x.alpha)) := by
    intro x y hx
    unfold MergeAgent.rescale at hx
    split at hx <;> simp only [Prod.mk.injEq] at hx
    · rw [← hx.1]; exact ⟨rfl, rfl, rfl, rfl⟩
    · exact absurd hx.2 (by simp)
  induction h with
  | nil => exact ⟨rfl, rfl, rfl, fun h => absurd rfl h⟩
  | addSize k _ hs ih =>
    obtain ⟨h1, h2, h5, h3⟩ := hresc _ _ hs
    refine ⟨?_, h2.trans ih.2.1, h5.trans ih.2.2.1, fun _ => ?_⟩
    · rw [h1]; simp only [sizeAfter, List.foldl_append, List.foldl_cons, List.foldl_nil]
      rw [ih.1]; rfl
    · rw [h1, h3]; simp only [ih.2.1]
  | merge o _ hs ih =>
    obtain ⟨h1, h2, h5, h3⟩ := hresc _ _ hs
    refine ⟨?_, h2.trans ih.2.1, h5.trans ih.2.2.1, fun _ => ?_⟩
    · rw [h1]; simp only [sizeAfter, List.foldl_append, List.foldl_cons, List.foldl_nil]
      rw [ih.1]; rfl
    · rw [h1, h3]; simp only [ih.2.1]
  | @renew log b c sys t i f g g' _ hs ih =>
    unfold MergeAgent.renewUniform at hs
    simp only [Option.map_eq_some_iff] at hs
    obtain ⟨⟨⟨p, r⟩, g1⟩, -, hs⟩ := hs
    cases r with
    | ok u =>
      simp only [Prod.mk.injEq] at hs
      obtain ⟨h1, h2, h5, h3⟩ := hresc _ _ hs.1
      refine ⟨?_, h2.trans ih.2.1, h5.trans ih.2.2.1, fun _ => ?_⟩
      · rw [h1]; simp [sizeAfter]
      · rw [h1, h3]; simp only [ih.2.1]
    | err e => simp at hs
    | panic => simp at hs

private theorem foldl_sizes (ks : List Nat) (s : Nat) :
    (ks.map some).foldl (fun s e => match e with | some k => s + k | none => 1) s = s + ks.sum := by
  induction ks generalizing s with
  | nil => simp
  | cons k ks ih => simp only [List.map_cons, List.foldl_cons, ih, List.sum_cons]; omega

/-- In particular: a newly built agent that then absorbs sizes `ks` (and is not renewed) has size
`1 + sum ks`, and one that was renewed and then absorbs `ks` too. -/
theorem C38_size_is_one_plus_sum {G F : Type} [Fl F] (mt : MoveType F) (pos : Pos F) (ra al : F)
    (b : MergeAgent F) (ks : List Nat) (earlier : List (Option Nat)) :
    (MergeAgent.History G (MergeAgent.new mt pos ra al) (ks.map some) b → b.size = 1 + ks.sum) ∧
    (MergeAgent.History G (MergeAgent.new mt pos ra al) (earlier ++ none :: ks.map some) b →
      b.size = 1 + ks.sum) := by
  constructor
  · intro h
    rw [(C38_history _ _ _ h).1]
    exact foldl_sizes ks 1
  · intro h
    rw [(C38_history _ _ _ h).1]
    simp only [sizeAfter, List.foldl_append, List.foldl_cons]
    exact foldl_sizes ks 1

/-- Exact arithmetic: a renewed agent has diffusion coefficient 1, and after absorbing `k` the coefficient is
`(size + k)^(-alpha)` — whatever coefficient `D0` the user had given (finding: `D0` is forgotten, so unless
`D0 = 1` the first merge changes the unit of time). -/
theorem C38_coefficient_forgets_D0 (a : MergeAgent ℝ) (D0 : ℝ) (k : Nat) (hm : a.mtype = .brownian D0) :
    (a.addSize k).2 = .ok () ∧
    (a.addSize k).1.mtype = .brownian (((a.size + k : ℕ) : ℝ) ^ (-a.alpha)) ∧
    (∀ G (sys : SysOps G ℝ) t i f g b g', a.renewUniform sys t i f g = some ((b, .ok ()), g') →
      b.mtype = .brownian 1 ∧ b.size = 1) := by
  refine ⟨?_, ?_, fun G sys t i f g b g' h => ?_⟩
  · unfold MergeAgent.addSize MergeAgent.rescale; simp only [hm]
  · unfold MergeAgent.addSize MergeAgent.rescale; simp only [hm, fl_powf, fl_ofNat, fl_neg]
  · have hh := C38_history a b _ (MergeAgent.History.renew (MergeAgent.History.nil a) h)
    have hs : b.size = 1 := by rw [hh.1]; rfl
    refine ⟨?_, hs⟩
    rw [hh.2.2.2 (by simp), hs]
    simp

/-- Finding: with Levy motion `add_size` and `merge` report an error although the size has already changed. -/
theorem C38_levy_error_after_change {F : Type} [Fl F] (a o : MergeAgent F) (k : Nat) (hm : a.mtype = .levy) :
    (a.addSize k).2 = .err .featureNotProvided ∧ (a.addSize k).1.size = a.size + k ∧
    (a.merge o).2 = .err .featureNotProvided ∧ (a.merge o).1.size = a.size + o.size := by
  unfold MergeAgent.addSize MergeAgent.merge MergeAgent.rescale
  simp only [hm, and_self]

/-- C08 for the crate's agents: among Brownian merging agents any sequence of merges between distinct live
slots succeeds, conserves the total size and removes one live slot per merge; a fresh sweep visits exactly
the remaining ones. -/
theorem C08_agents {F : Type} [Fl F] (v : List (MergeAgent F)) (ops : List (Op (MergeAgent F)))
    (ps : List (Nat × Nat)) :
    let l := ((LList.from' v).run ops).1
    let live := (liveAfter v.length ops).2
    let live' := liveAfterMerges live ps
    let r := mergeMany MergeAgent.mergeOps l ps
    (∀ i ∈ live, ∀ a, l.contents[i]? = some a → ∃ D, a.mtype = .brownian D) → ValidMerges live ps →
    (∀ x ∈ r.2, x = .ok ()) ∧
    totalSize MergeAgent.mergeOps r.1 live' = totalSize MergeAgent.mergeOps l live ∧
    live'.length + ps.length = live.length ∧
    (∀ fuel, live'.length < fuel → LList.collect fuel r.1.intoIter = (live', true)) :=
  C08_merges_conserve_total MergeAgent.mergeOps (fun a => ∃ D, a.mtype = .brownian D)
    (fun a k ⟨D, hD⟩ => by
      simp only [MergeAgent.mergeOps, MergeAgent.addSize, MergeAgent.rescale, hD, true_and]
      exact ⟨_, rfl⟩) v ops ps

-- two additions to a newly built agent
example (pos : Pos ℝ) : ∃ b, MergeAgent.History Unit (MergeAgent.new (.brownian 2) pos 1 (1 / 2))
    ([some 3, some 1] : List (Option Nat)) b ∧ b.size = 5 :=
  ⟨_, .addSize (log := [some 3]) 1 (.addSize (log := []) 3 (.nil _) rfl) rfl, rfl⟩

/-! ## C39: random displacements -/

private theorem move_core {G F : Type} [Fl F] (rng : RngOps G F) (dim : Nat) (D : F) (g : G) (dt : F)
    (vec : Pos F) :
    AgentCore.randomMove rng dim (.brownian D) g dt =
      (.ok ((delivered rng.gaussian dim g).map (· * Fl.sqrt (Fl.two * D * dt))), advanced rng.gaussian dim g) ∧
    (vec.length = dim → AgentCore.randomMoveToVec rng dim (.brownian D) g dt vec =
      ((List.zipWith (fun old r => old + r * Fl.sqrt (Fl.two * D * dt) + Fl.zero) vec
          (delivered rng.gaussian dim g), .ok ()), advanced rng.gaussian dim g)) ∧
    (vec.length ≠ dim → ∀ mt, AgentCore.randomMoveToVec rng dim mt g dt vec =
      ((vec, .err .invalidDimension), g)) ∧
    AgentCore.randomMove rng dim .levy g dt = (.err .featureNotProvided, g) ∧
    (vec.length = dim →
      AgentCore.randomMoveToVec rng dim .levy g dt vec = ((vec, .err .featureNotProvided), g)) := by
  refine ⟨?_, fun h => ?_, fun h mt => ?_, rfl, fun h => ?_⟩
  · unfold AgentCore.randomMove
    simp only [(C34_standard rng g dim []).2.1, mutScalarMul]
  · unfold AgentCore.randomMoveToVec Pos.dim
    rw [if_neg (by simp [h])]
    simp only [(C34_nonstandard_adds rng g vec _ _).2, h]
  · unfold AgentCore.randomMoveToVec
    exact if_pos (fun hh => h (by rw [hh]; rfl))
  · unfold AgentCore.randomMoveToVec
    exact if_neg (by simp [h, Pos.dim])

/-- what the user relies on for an agent of dimension `dim` moving as `mt`: `move` is `random_move` and
`toVec` is `random_move_to_vec`. -/
def MovesRight {G F : Type} [Fl F] (rng : RngOps G F) (dim : Nat) (mt : MoveType F)
    (move : G → F → Res (Pos F) × G) (toVec : G → F → Pos F → (Pos F × Res Unit) × G) : Prop :=
  ∀ g dt vec,
    (∀ D, mt = .brownian D →
      move g dt = (.ok ((delivered rng.gaussian dim g).map (· * Fl.sqrt (Fl.two * D * dt))),
        advanced rng.gaussian dim g) ∧
      (vec.length = dim → toVec g dt vec =
        ((List.zipWith (fun old r => old + r * Fl.sqrt (Fl.two * D * dt) + Fl.zero) vec
          (delivered rng.gaussian dim g), .ok ()), advanced rng.gaussian dim g))) ∧
    (vec.length ≠ dim → toVec g dt vec = ((vec, .err .invalidDimension), g)) ∧
    (mt = .levy → move g dt = (.err .featureNotProvided, g) ∧
      (vec.length = dim → toVec g dt vec = ((vec, .err .featureNotProvided), g)))

/-- Any arithmetic: for each of the four agents and Brownian motion `random_move` returns `dim` gaussians times
`sqrt(2 D dt)` and advances the generator by `dim`; the in-place variant adds them to the buffer; Levy motion
and buffers of the wrong dimension give an error and leave buffer and generator untouched. -/
theorem C39_random_move {G F : Type} [Fl F] (rng : RngOps G F) :
    (∀ a : IndepAgent F, MovesRight rng a.dim a.mtype (a.randomMove rng) (a.randomMoveToVec rng)) ∧
    (∀ a : MergeAgent F, MovesRight rng a.dim a.mtype (a.randomMove rng) (a.randomMoveToVec rng)) ∧
    (∀ a : ExpAgent F, MovesRight rng a.expDim a.mtype (a.randomMove rng) (a.randomMoveToVec rng)) ∧
    (∀ a : LJAgent F, MovesRight rng a.dim a.mtype (a.randomMove rng) (a.randomMoveToVec rng)) := by
  have key : ∀ dim mt, MovesRight rng dim mt (AgentCore.randomMove rng dim mt)
      (AgentCore.randomMoveToVec rng dim mt) := by
    intro dim mt g dt vec
    refine ⟨fun D hD => ?_, fun h => ?_, fun hD => ?_⟩
    · subst hD; exact ⟨(move_core rng dim D g dt vec).1, (move_core rng dim D g dt vec).2.1⟩
    · exact (move_core rng dim Fl.zero g dt vec).2.2.1 h mt
    · subst hD
      exact ⟨(move_core rng dim Fl.zero g dt vec).2.2.2.1, (move_core rng dim Fl.zero g dt vec).2.2.2.2⟩
  exact ⟨fun _ => key _ _, fun _ => key _ _, fun _ => key _ _, fun _ => key _ _⟩

/-- Exact arithmetic: on a buffer of zeros the in-place variant writes exactly what `random_move` returns. -/
theorem C39_variants_agree {G : Type} (rng : RngOps G ℝ) (a : IndepAgent ℝ) (D : ℝ)
    (hm : a.mtype = .brownian D) (g : G) (dt : ℝ) :
    ∃ p g', a.randomMove rng g dt = (.ok p, g') ∧ p.length = a.dim ∧
      a.randomMoveToVec rng g dt (List.replicate a.dim 0) = ((p, .ok ()), g') := by
  have h := ((C39_random_move rng).1 a g dt (List.replicate a.dim 0)).1 D hm
  have hlen : ∀ n g, (delivered rng.gaussian n g).length = n := by
    intro n
    induction n with
    | zero => intro g; rfl
    | succ n ih => intro g; simp [delivered, ih]
  refine ⟨_, _, h.1, by simp [hlen], ?_⟩
  rw [h.2 (by simp)]
  congr 2
  have : ∀ (l : List ℝ) (c : ℝ), List.zipWith (fun old r => old + r * c + (0 : ℝ)) (List.replicate l.length 0) l =
      l.map (· * c) := by
    intro l c
    induction l with
    | nil => rfl
    | cons x l ih =>
      rw [List.length_cons, List.replicate_succ, List.zipWith_cons_cons, List.map_cons, ih]
      congr 1
      show (0 : ℝ) + x * c + 0 = x * c
      ring
  have h2 := this (delivered rng.gaussian a.dim g) (Real.sqrt (2 * D * dt))
  rw [hlen] at h2
  simpa only [fl_add, fl_mul, fl_sqrt, fl_lit, Rat.cast_zero, Rat.cast_ofNat] using h2

example : ∃ a : LJAgent ℝ, a.mtype = .brownian 2 ∧ a.dim = 3 :=
  ⟨⟨.continuousPassiveInteracting, .lennardJones 1, .brownian 2, .uniform, 3, [0, 0, 0], 1, 1, 4, 24⟩, rfl, rfl⟩

/-! ## C40: constructors -/

/-- Any arithmetic: agents built by `new` record the dimension of their position, start there, and carry the
matching type tag and parameters; `new` of an exponential agent panics on any other interaction or on a
dimension that is not the position's, `new` of a Lennard-Jones agent on any other interaction. -/
theorem C40_new {F : Type} [Fl F] (mt : MoveType F) (pos : Pos F) (ra al st : F) (it : InteractType F) :
    (let a := IndepAgent.new mt pos
     a.dim = pos.length ∧ a.pos = pos ∧ a.mtype = mt ∧ a.agentType = .continuousPassiveIndependent) ∧
    (let a := MergeAgent.new mt pos ra al
     a.dim = pos.length ∧ a.pos = pos ∧ a.mtype = mt ∧ a.agentType = .continuousPassiveInteracting ∧ a.size = 1 ∧
     a.ptlRadius = ra ∧ a.alpha = al) ∧
    ((∃ ga, it = .exponential pos.length ga ∧ ∃ a, ExpAgent.new it mt pos st = .ok a ∧ a.expDim = pos.length ∧
        a.pos = pos ∧ a.mtype = mt ∧ a.gamma = ga ∧ a.strength = st ∧
        a.agentType = .continuousPassiveInteracting ∧ a.intType = it) ∨
     ((∀ ga, it ≠ .exponential pos.length ga) ∧ ExpAgent.new it mt pos st = .panic)) ∧
    ((∃ ps, it = .lennardJones ps ∧ ∃ a, LJAgent.new it mt pos st = .ok a ∧ a.dim = pos.length ∧
        a.pos = pos ∧ a.mtype = mt ∧ a.ptlSize = ps ∧ a.strength = st ∧
        a.agentType = .continuousPassiveInteracting ∧ a.intType = it) ∨
     ((∀ ps, it ≠ .lennardJones ps) ∧ LJAgent.new it mt pos st = .panic)) := by
  refine ⟨⟨rfl, rfl, rfl, rfl⟩, ⟨rfl, rfl, rfl, rfl, rfl, rfl, rfl⟩, ?_, ?_⟩
  · cases it with
    | exponential d ga =>
      by_cases hd : d = pos.length
      · left
        refine ⟨ga, by rw [hd], ?_⟩
        unfold ExpAgent.new
        simp only
        rw [if_neg (not_not.2 (show d = Pos.dim pos from hd))]
        exact ⟨_, rfl, hd, rfl, rfl, rfl, rfl, rfl, rfl⟩
      · right
        refine ⟨fun ga' h => hd (by injection h), ?_⟩
        unfold ExpAgent.new
        exact if_pos hd
    | coulomb2D => right; exact ⟨fun _ => by simp, rfl⟩
    | coulomb3D => right; exact ⟨fun _ => by simp, rfl⟩
    | lennardJones _ => right; exact ⟨fun _ => by simp, rfl⟩
  · cases it with
    | lennardJones ps => left; exact ⟨ps, rfl, _, rfl, rfl, rfl, rfl, rfl, rfl, rfl, rfl⟩
    | coulomb2D => right; exact ⟨fun _ => by simp, rfl⟩
    | coulomb3D => right; exact ⟨fun _ => by simp, rfl⟩
    | exponential _ _ => right; exact ⟨fun _ => by simp, rfl⟩

/-- Any arithmetic: `convert_from` makes `num_agent` identical agents at the given point with that point's
dimension (exponential agents: it panics exactly when the point's dimension is not 0 and not the
interaction's). -/
theorem C40_convert_from {F : Type} [Fl F] (at_ : AgentType) (mt : MoveType F) (pos : Pos F)
    (ra al st ga ps : F) (d n : Nat) :
    ((IndepAgent.convertFrom at_ mt (.specificPosition pos) n).length = n ∧
      ∀ a ∈ IndepAgent.convertFrom at_ mt (.specificPosition pos) n,
        a.dim = pos.length ∧ a.pos = pos ∧ a.mtype = mt ∧ a.agentType = at_) ∧
    ((MergeAgent.convertFrom at_ mt (.specificPosition pos) ra al n).length = n ∧
      ∀ a ∈ MergeAgent.convertFrom at_ mt (.specificPosition pos) ra al n,
        a.dim = pos.length ∧ a.pos = pos ∧ a.mtype = mt ∧ a.agentType = at_ ∧ a.size = 1 ∧ a.alpha = al) ∧
    ((LJAgent.convertFrom mt (.specificPosition pos) ps st n).length = n ∧
      ∀ a ∈ LJAgent.convertFrom mt (.specificPosition pos) ps st n,
        a.dim = pos.length ∧ a.pos = pos ∧ a.mtype = mt ∧ a.ptlSize = ps ∧ a.strength = st) ∧
    (pos.length = d → ∃ l, ExpAgent.convertFrom mt (.specificPosition pos) ga d st n = .ok l ∧ l.length = n ∧
      ∀ a ∈ l, a.expDim = pos.length ∧ a.pos = pos ∧ a.mtype = mt ∧ a.gamma = ga ∧ a.strength = st) ∧
    (pos.length ≠ d ∧ pos.length ≠ 0 ↔ ExpAgent.convertFrom mt (.specificPosition pos) ga d st n = .panic) := by
  refine ⟨⟨by simp [IndepAgent.convertFrom], fun a ha => ?_⟩, ⟨by simp [MergeAgent.convertFrom], fun a ha => ?_⟩,
    ⟨by simp [LJAgent.convertFrom], fun a ha => ?_⟩, fun h => ?_, ?_⟩
  · rw [List.eq_of_mem_replicate ha]; exact ⟨rfl, rfl, rfl, rfl⟩
  · rw [List.eq_of_mem_replicate ha]; exact ⟨rfl, rfl, rfl, rfl, rfl, rfl⟩
  · rw [List.eq_of_mem_replicate ha]; exact ⟨rfl, rfl, rfl, rfl, rfl⟩
  · unfold ExpAgent.convertFrom AgentCore.initPos Pos.dim
    simp only
    rw [if_neg (by simp [h])]
    refine ⟨_, rfl, by simp, fun a ha => ?_⟩
    rw [List.eq_of_mem_replicate ha]; exact ⟨h.symm, rfl, rfl, rfl, rfl⟩
  · unfold ExpAgent.convertFrom AgentCore.initPos Pos.dim
    simp only
    split
    · rename_i h; simp only [iff_true]; exact ⟨h.2, h.1⟩
    · rename_i h; simp only [iff_false, reduceCtorEq]; exact fun hh => h ⟨hh.2, hh.1⟩

/-- Finding: agents converted from a `Uniform` initial condition have no coordinates yet; the exponential
ones nevertheless record dimension `d`, so for `d ≥ 1` asking for their mutual displacement before
`renew_uniform` panics instead of returning an error. -/
theorem C40_uniform_converted_not_ready {F : Type} [Fl F] (mt : MoveType F) (ga st : F) (d : Nat) (hd : d ≠ 0)
    (vec : Pos F) (hv : vec.length = d) :
    ∃ a, ExpAgent.convertFrom mt .uniform ga d st 1 = .ok [a] ∧ a.expDim = d ∧ a.pos = [] ∧
      (a.mutualDisplacementToVec a vec).2 = .panic := by
  refine ⟨_, by unfold ExpAgent.convertFrom; rw [if_neg (by simp [AgentCore.initPos])]; rfl, rfl, rfl, ?_⟩
  have key : (AgentCore.mutualDisplacementToVec d ([] : Pos F) d [] vec).2 = .panic := by
    unfold AgentCore.mutualDisplacementToVec
    rw [if_neg (by simp [hv, Pos.dim])]
    cases d with
    | zero => exact absurd rfl hd
    | succ d => rfl
  exact key

/-- Finding: renewing an exponential agent in a system of another dimension updates the dimension but not the
recorded interaction type, which still names the old one. -/
theorem C40_renew_leaves_interaction_stale {G F : Type} [Fl F] (sys : SysOps G F) (t : TargetOps F) (n : Nat)
    (hd : sys.DrawsInside n) (ho : sys.OutsideDim n) (i f : Nat) (g g' : G) (a b : ExpAgent F)
    (ha : a.expDim = a.pos.length) (ga : F) (hi : a.intType = .exponential a.expDim ga) (hn : a.expDim ≠ n)
    (h : a.renewUniform sys t i f g = some ((b, .ok ()), g')) :
    b.expDim = n ∧ ∀ ga', b.intType ≠ .exponential b.expDim ga' := by
  have h1 := ((C37_renew_uniform sys t n hd ho i f g g').2.2.1 a b ha h).1
  refine ⟨h1, fun ga' hb => ?_⟩
  have hit : b.intType = a.intType := by
    unfold ExpAgent.renewUniform at h
    simp only [Option.map_eq_some_iff] at h
    obtain ⟨⟨⟨p, r⟩, g1⟩, -, h⟩ := h
    simp only [Prod.mk.injEq] at h
    rw [← h.1.1]
    split <;> rfl
  rw [hit, hi, h1] at hb
  injection hb with h2
  exact hn h2

/-- Every agent type lives in exactly one kind of space, is either passive or active, either independent or
interacting, and these three answers identify it. -/
theorem C40_classification :
    (∀ t : AgentType, (t.inContinous.toNat + t.inLattice.toNat + t.inNetwork.toNat = 1) ∧
      t.isActive = !t.isPassive ∧ t.isInteracting = !t.isIndependent) ∧
    (∀ t u : AgentType, t.inContinous = u.inContinous → t.inLattice = u.inLattice → t.isPassive = u.isPassive →
      t.isIndependent = u.isIndependent → t = u) := by
  constructor
  · intro t; cases t <;> decide
  · intro t u; cases t <;> cases u <;> decide

end Moledyn.Props
