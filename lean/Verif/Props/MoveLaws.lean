import Verif.Props.AgentLaws
import Verif.Props.SingleSearch
import Verif.Spec.SearchLaw
/-
C74: Brownian steps and free diffusion.
-/
namespace Moledyn.Props
open Moledyn MeasureTheory ProbabilityTheory
open scoped ENNReal NNReal
set_option linter.unusedSimpArgs false
set_option linter.unusedSectionVars false
variable {G : Type} [MeasurableSpace G]

private theorem scaled_mp (d : Nat) {v : ℝ} (hv : 0 ≤ v) :
    MeasurePreserving (fun (z : Fin d → ℝ) i => z i * Real.sqrt v) (Measure.pi fun _ => gaussianReal 0 1) (normalLaw d v) := by
  refine measurePreserving_pi (fun _ : Fin d => gaussianReal 0 1) (fun _ : Fin d => gaussianReal 0 v.toNNReal)
    (f := fun _ x => x * Real.sqrt v) fun _ => ⟨by fun_prop, ?_⟩
  rw [gaussianReal_map_mul_const]
  congr 1
  · simp
  · rw [mul_one]
    refine NNReal.eq ?_
    simp [Real.sq_sqrt hv, hv]

theorem normal_mp {rng : RngOps G ℝ} {P : Measure G} (h : IdealRng rng P) (d : Nat) {v : ℝ} (hv : 0 ≤ v) :
    MeasurePreserving (fun g => ((fun i => (drawsN rng.gaussian d g).1 i * Real.sqrt v), (drawsN rng.gaussian d g).2)) P
      ((normalLaw d v).prod P) := by
  have := h.prob
  exact ((scaled_mp d hv).prod (MeasurePreserving.id P)).comp (drawsN_mp h.gaussian d)

theorem move_eq (rng : RngOps G ℝ) (d : Nat) (D dt : ℝ) (g : G) :
    AgentCore.randomMove rng d (.brownian D) g dt =
      (.ok (List.ofFn fun i => (drawsN rng.gaussian d g).1 i * Real.sqrt (2 * D * dt)), (drawsN rng.gaussian d g).2) := by
  simp only [AgentCore.randomMove, Random.getGaussianVec]
  rw [sweep_draws' (d := d) rng.gaussian _ (List.replicate d Fl.zero) (by simp) g, zipWith_const]
  simp only [Pos.mutScalarMul, List.map_ofFn, Function.comp_def, Fl.two, fl_sqrt, fl_mul, fl_lit]
  push_cast
  rfl

theorem moveTo_eq (rng : RngOps G ℝ) (d : Nat) (D dt : ℝ) (v : Fin d → ℝ) (g : G) :
    AgentCore.randomMoveToVec rng d (.brownian D) g dt (List.ofFn v) =
      ((List.ofFn fun i => v i + (drawsN rng.gaussian d g).1 i * Real.sqrt (2 * D * dt), .ok ()),
        (drawsN rng.gaussian d g).2) := by
  simp only [AgentCore.randomMoveToVec, Random.getGaussianToVecNonstandard, Pos.dim, List.length_ofFn, ne_eq,
    not_true_eq_false, if_false]
  rw [sweep_draws' (d := d) rng.gaussian _ (List.ofFn v) (by simp) g]
  refine Prod.ext (Prod.ext ?_ rfl) rfl
  refine List.ext_getElem (by simp) fun i h1 h2 => ?_
  simp [Fl.two, Fl.zero]

/-- One Brownian step of any agent: the coordinates are independent and normal with mean 0 and variance `2 D dt`, whatever
was drawn before.  `random_move_to_vec` adds such a step to the vector it is given. -/
theorem C74_move (rng : RngOps G ℝ) (P : Measure G) (h : IdealRng rng P) (D dt : ℝ) (hD : 0 ≤ D) (hdt : 0 ≤ dt)
    (a : IndepAgent ℝ) (ha : a.mtype = .brownian D) (m : MergeAgent ℝ) (hm : m.mtype = .brownian D)
    (e : ExpAgent ℝ) (he : e.mtype = .brownian D) (l : LJAgent ℝ) (hl : l.mtype = .brownian D)
    (v : (d : Nat) → Fin d → ℝ) :
    (Samples P (fun _ g => some (a.randomMove rng g dt)) List.ofFn (normalLaw a.dim (2 * D * dt)) ∧
     Samples P (fun _ g => some (m.randomMove rng g dt)) List.ofFn (normalLaw m.dim (2 * D * dt)) ∧
     Samples P (fun _ g => some (e.randomMove rng g dt)) List.ofFn (normalLaw e.expDim (2 * D * dt)) ∧
     Samples P (fun _ g => some (l.randomMove rng g dt)) List.ofFn (normalLaw l.dim (2 * D * dt))) ∧
    (Samples P (fun _ g => let r := a.randomMoveToVec rng g dt (List.ofFn (v a.dim)); some (r.1.2.map fun _ => r.1.1, r.2))
       (fun x => List.ofFn fun i => v _ i + x i) (normalLaw a.dim (2 * D * dt)) ∧
     Samples P (fun _ g => let r := m.randomMoveToVec rng g dt (List.ofFn (v m.dim)); some (r.1.2.map fun _ => r.1.1, r.2))
       (fun x => List.ofFn fun i => v _ i + x i) (normalLaw m.dim (2 * D * dt)) ∧
     Samples P (fun _ g => let r := e.randomMoveToVec rng g dt (List.ofFn (v e.expDim)); some (r.1.2.map fun _ => r.1.1, r.2))
       (fun x => List.ofFn fun i => v _ i + x i) (normalLaw e.expDim (2 * D * dt)) ∧
     Samples P (fun _ g => let r := l.randomMoveToVec rng g dt (List.ofFn (v l.dim)); some (r.1.2.map fun _ => r.1.1, r.2))
       (fun x => List.ofFn fun i => v _ i + x i) (normalLaw l.dim (2 * D * dt))) := by
  have h0 : 0 ≤ 2 * D * dt := by positivity
  refine ⟨⟨⟨_, normal_mp h _ h0, .of_forall fun g => ⟨0, fun _ _ => ?_⟩⟩, ⟨_, normal_mp h _ h0, .of_forall fun g => ⟨0, fun _ _ => ?_⟩⟩,
    ⟨_, normal_mp h _ h0, .of_forall fun g => ⟨0, fun _ _ => ?_⟩⟩, ⟨_, normal_mp h _ h0, .of_forall fun g => ⟨0, fun _ _ => ?_⟩⟩⟩,
    ⟨_, normal_mp h _ h0, .of_forall fun g => ⟨0, fun _ _ => ?_⟩⟩, ⟨_, normal_mp h _ h0, .of_forall fun g => ⟨0, fun _ _ => ?_⟩⟩,
    ⟨_, normal_mp h _ h0, .of_forall fun g => ⟨0, fun _ _ => ?_⟩⟩, ⟨_, normal_mp h _ h0, .of_forall fun g => ⟨0, fun _ _ => ?_⟩⟩⟩
  · simp only [IndepAgent.randomMove, ha, move_eq]
  · simp only [MergeAgent.randomMove, hm, move_eq]
  · simp only [ExpAgent.randomMove, he, move_eq]
  · simp only [LJAgent.randomMove, hl, move_eq]
  · simp only [IndepAgent.randomMoveToVec, ha, moveTo_eq, Res.map]
  · simp only [MergeAgent.randomMoveToVec, hm, moveTo_eq, Res.map]
  · simp only [ExpAgent.randomMoveToVec, he, moveTo_eq, Res.map]
  · simp only [LJAgent.randomMoveToVec, hl, moveTo_eq, Res.map]

private theorem eval_mp (d : Nat) (v : ℝ) (i : Fin d) :
    MeasurePreserving (fun x : Fin d → ℝ => x i) (normalLaw d v) (gaussianReal 0 v.toNNReal) :=
  measurePreserving_eval (fun _ : Fin d => gaussianReal 0 v.toNNReal) i

private theorem eval_memLp (d : Nat) (v : ℝ) (i : Fin d) : MemLp (fun x : Fin d → ℝ => x i) 2 (normalLaw d v) :=
  (memLp_id_gaussianReal (μ := 0) (v := v.toNNReal) 2).comp_measurePreserving (eval_mp d v i)

private theorem sq_gaussian (v : ℝ≥0) : ∫ x, x ^ 2 ∂gaussianReal 0 v = v := by
  have := variance_fun_id_gaussianReal (μ := 0) (v := v)
  rw [variance_eq_integral measurable_id'.aemeasurable] at this
  simpa using this

/-- The moments of a step: mean 0, mean square `2 D dt` in every direction, no correlation between directions, and a mean
squared length of `2 d D dt`. -/
theorem C74_moments (d : Nat) (D dt : ℝ) (hD : 0 ≤ D) (hdt : 0 ≤ dt) :
    (∀ i, ∫ x, x i ∂normalLaw d (2 * D * dt) = 0) ∧
    (∀ i, ∫ x, x i ^ 2 ∂normalLaw d (2 * D * dt) = 2 * D * dt) ∧
    (∀ i j, i ≠ j → ∫ x, x i * x j ∂normalLaw d (2 * D * dt) = 0) ∧
    ∫ x, ∑ i, x i ^ 2 ∂normalLaw d (2 * D * dt) = 2 * d * D * dt := by
  have h0 : 0 ≤ 2 * D * dt := by positivity
  have h1 : ∀ i, ∫ x, x i ∂normalLaw d (2 * D * dt) = 0 := fun i => by
    have := (eval_mp d (2 * D * dt) i).map_eq
    rw [← integral_id_gaussianReal (μ := 0) (v := (2 * D * dt).toNNReal), ← this,
      integral_map (measurable_pi_apply i).aemeasurable (by fun_prop)]
  have h2 : ∀ i, ∫ x, x i ^ 2 ∂normalLaw d (2 * D * dt) = 2 * D * dt := fun i => by
    have := (eval_mp d (2 * D * dt) i).map_eq
    have e := sq_gaussian (2 * D * dt).toNNReal
    rw [← this, integral_map (measurable_pi_apply i).aemeasurable (by fun_prop), Real.coe_toNNReal _ h0] at e
    exact e
  refine ⟨h1, h2, fun i j hij => ?_, ?_⟩
  · have hind : iIndepFun (fun (i : Fin d) (x : Fin d → ℝ) => x i) (normalLaw d (2 * D * dt)) :=
      iIndepFun_pi (μ := fun _ : Fin d => gaussianReal 0 (2 * D * dt).toNNReal) (X := fun _ x => x) fun i => by fun_prop
    have := (hind.indepFun hij).integral_fun_mul_eq_mul_integral (eval_memLp d _ i).aestronglyMeasurable
      (eval_memLp d _ j).aestronglyMeasurable
    rw [this, h1 i, zero_mul]
  · rw [integral_finsetSum _ fun i _ => (eval_memLp d _ i).integrable_sq]
    simp only [h2, Finset.sum_const, Finset.card_univ, Fintype.card_fin, nsmul_eq_mul]
    ring

/-- `random_move_to_vec` called once for each step size, always on the same vector (spec: a user's loop). -/
noncomputable def movesInto (rng : RngOps G ℝ) (a : IndepAgent ℝ) : List ℝ → G → Pos ℝ → (Pos ℝ × Res Unit) × G
  | [], g, v => ((v, .ok ()), g)
  | dt :: dts, g, v =>
    match a.randomMoveToVec rng g dt v with
    | ((v1, .ok ()), g1) => movesInto rng a dts g1 v1
    | r => r

private theorem add_mp (d : Nat) {v w : ℝ} (hv : 0 ≤ v) (hw : 0 ≤ w) :
    MeasurePreserving (fun p : (Fin d → ℝ) × (Fin d → ℝ) => fun i => p.1 i + p.2 i) ((normalLaw d v).prod (normalLaw d w))
      (normalLaw d (v + w)) := by
  have h1 := (measurePreserving_arrowProdEquivProdArrow ℝ ℝ (Fin d) (fun _ => gaussianReal 0 v.toNNReal)
    (fun _ => gaussianReal 0 w.toNNReal)).symm
  have h2 : MeasurePreserving (fun (p : Fin d → ℝ × ℝ) i => (p i).1 + (p i).2)
      (Measure.pi fun _ => (gaussianReal 0 v.toNNReal).prod (gaussianReal 0 w.toNNReal)) (normalLaw d (v + w)) := by
    refine measurePreserving_pi (fun _ : Fin d => (gaussianReal 0 v.toNNReal).prod (gaussianReal 0 w.toNNReal))
      (fun _ : Fin d => gaussianReal 0 (v + w).toNNReal) (f := fun _ p => p.1 + p.2) fun _ => ⟨by fun_prop, ?_⟩
    have := gaussianReal_conv_gaussianReal (m₁ := 0) (m₂ := 0) (v₁ := v.toNNReal) (v₂ := w.toNNReal)
    rw [Measure.conv, add_zero, ← Real.toNNReal_add hv hw] at this
    exact this
  exact h2.comp h1

/-- Free diffusion: the displacement after any number of steps with any step sizes is normal with variance `2 D t` in every
direction, `t` being the sum of the step sizes; how the time is divided into steps does not matter. -/
theorem C74_walk (rng : RngOps G ℝ) (P : Measure G) (h : IdealRng rng P) (D : ℝ) (hD : 0 ≤ D)
    (a : IndepAgent ℝ) (ha : a.mtype = .brownian D) (dts : List ℝ) (hdts : ∀ dt ∈ dts, 0 ≤ dt) (v : Fin a.dim → ℝ) :
    Samples P (fun _ g => let r := movesInto rng a dts g (List.ofFn v); some (r.1.2.map fun _ => r.1.1, r.2))
      (fun x => List.ofFn fun i => v i + x i) (normalLaw a.dim (2 * D * dts.sum)) := by
  have := h.prob
  have key : ∃ f : G → (Fin a.dim → ℝ) × G, MeasurePreserving f P ((normalLaw a.dim (2 * D * dts.sum)).prod P) ∧
      ∀ g v, movesInto rng a dts g (List.ofFn v) = ((List.ofFn fun i => v i + (f g).1 i, .ok ()), (f g).2) := by
    induction dts with
    | nil =>
      refine ⟨fun g => (0, g), ?_, fun g v => by simp [movesInto]⟩
      have e : normalLaw a.dim (2 * D * ([] : List ℝ).sum) = Measure.dirac 0 := by
        simp only [List.sum_nil, mul_zero, normalLaw, Real.toNNReal_zero, gaussianReal_zero_var]
        refine Measure.pi_eq fun s hs => ?_
        classical
        rw [Measure.dirac_apply' _ (.univ_pi hs)]
        simp only [Measure.dirac_apply' _ (hs _), Set.indicator_apply, Set.mem_univ_pi, Pi.zero_apply, Pi.one_apply]
        by_cases hall : ∀ i, (0 : ℝ) ∈ s i
        · simp [hall]
        · rw [if_neg hall]
          push Not at hall
          obtain ⟨i, hi⟩ := hall
          exact (Finset.prod_eq_zero (Finset.mem_univ i) (by simp [hi])).symm
      rw [e]
      refine ⟨measurable_const.prodMk measurable_id, ?_⟩
      rw [Measure.dirac_prod]
    | cons dt dts ih =>
      obtain ⟨f, hf, hfe⟩ := ih fun x hx => hdts x (List.mem_cons_of_mem _ hx)
      have hdt := hdts dt (by simp)
      have hs : 0 ≤ dts.sum := List.sum_nonneg fun x hx => hdts x (List.mem_cons_of_mem _ hx)
      have hm := normal_mp h a.dim (v := 2 * D * dt) (by positivity)
      set q := fun g => ((fun i => (drawsN rng.gaussian a.dim g).1 i * Real.sqrt (2 * D * dt)), (drawsN rng.gaussian a.dim g).2) with hq
      refine ⟨fun g => ((fun i => (q g).1 i + (f (q g).2).1 i), (f (q g).2).2), ?_, fun g v => ?_⟩
      · have e : 2 * D * (dt :: dts).sum = 2 * D * dt + 2 * D * dts.sum := by rw [List.sum_cons]; ring
        rw [e]
        have h1 := ((MeasurePreserving.id (normalLaw a.dim (2 * D * dt))).prod hf).comp hm
        have h2 := (measurePreserving_prodAssoc (normalLaw a.dim (2 * D * dt)) (normalLaw a.dim (2 * D * dts.sum)) P).symm
        have h3 := (add_mp a.dim (v := 2 * D * dt) (w := 2 * D * dts.sum) (by positivity) (by positivity)).prod (MeasurePreserving.id P)
        exact h3.comp (h2.comp h1)
      · rw [movesInto, IndepAgent.randomMoveToVec, ha, moveTo_eq]
        simp only [hfe]
        refine Prod.ext (Prod.ext ?_ rfl) rfl
        simp only [hq]
        congr 1
        funext i
        ring
  obtain ⟨f, hf, hfe⟩ := key
  exact ⟨f, hf, .of_forall fun g => ⟨0, fun _ _ => by simp [hfe, Res.map]⟩⟩

section
open Filter
open scoped Topology

private theorem adv_add (draw : G → ℝ × G) (a b : Nat) (g : G) : advanced draw (a + b) g = advanced draw b (advanced draw a g) := by
  induction a generalizing g with
  | zero => rw [Nat.zero_add]; rfl
  | succ a ih => rw [Nat.succ_add]; exact ih _

private theorem drawsN_adv (draw : G → ℝ × G) (n : Nat) (g : G) :
    (drawsN draw n g).2 = advanced draw n g ∧ ∀ i : Fin n, (drawsN draw n g).1 i = nthDraw draw g i := by
  induction n generalizing g with
  | zero => exact ⟨rfl, fun i => i.elim0⟩
  | succ n ih =>
    refine ⟨(ih (draw g).2).1, fun i => ?_⟩
    refine Fin.cases ?_ (fun j => ?_) i
    · rfl
    · have : nthDraw draw g (j + 1) = nthDraw draw (draw g).2 j := rfl
      simp [drawsN, this, (ih (draw g).2).2 j]

private theorem after_adv (draw : G → ℝ × G) (n j : Nat) (g : G) : after (drawsN draw n) j g = advanced draw (j * n) g := by
  induction j generalizing g with
  | zero => simp [after, advanced]
  | succ j ih =>
    have : after (drawsN draw n) (j + 1) g = after (drawsN draw n) j (drawsN draw n g).2 := rfl
    rw [this, ih, (drawsN_adv draw n g).1, ← adv_add]
    congr 1; ring

/-- squared distance after `k` steps of a walk. -/
private noncomputable def sqDist (a : ℝ) (dim steps : Nat) (k : Nat) (z : Fin (steps * dim) → ℝ) : ℝ :=
  ∑ c : Fin dim, (∑ i : Fin k, a * (if h : i.1 * dim + c.1 < steps * dim then z ⟨_, h⟩ else 0)) ^ 2

private theorem index_lt {dim steps k : Nat} (hk : k ≤ steps) (i : Fin k) (c : Fin dim) : i.1 * dim + c.1 < steps * dim := by
  have h1 := i.2
  have h2 := c.2
  calc i.1 * dim + c.1 < i.1 * dim + dim := by omega
    _ = (i.1 + 1) * dim := by ring
    _ ≤ steps * dim := Nat.mul_le_mul_right _ (by omega)

private theorem meanSquare_eq (a : ℝ) (draw : G → ℝ × G) (g : G) (dim steps n k : Nat) (hk : k ≤ steps) :
    meanSquare a draw g dim steps n k =
      (∑ j ∈ Finset.range n, sqDist a dim steps k (drawsN draw (steps * dim) (after (drawsN draw (steps * dim)) j g)).1) / n := by
  unfold meanSquare sqDist
  congr 1
  refine Finset.sum_congr rfl fun j _ => ?_
  rw [Finset.sum_range]
  refine Finset.sum_congr rfl fun c _ => ?_
  rw [Finset.sum_range]
  congr 1
  refine Finset.sum_congr rfl fun i _ => ?_
  rw [dif_pos (index_lt hk i c), (drawsN_adv draw _ _).2, after_adv]
  congr 1
  simp only [nthDraw, ← adv_add]

private theorem sqDist_integral (a : ℝ) (dim steps k : Nat) (hk : k ≤ steps) :
    Measurable (sqDist a dim steps k) ∧
    Integrable (sqDist a dim steps k) (Measure.pi fun _ : Fin (steps * dim) => gaussianReal 0 1) ∧
    ∫ z, sqDist a dim steps k z ∂(Measure.pi fun _ : Fin (steps * dim) => gaussianReal 0 1) = a ^ 2 * dim * k := by
  have en : (Measure.pi fun _ : Fin (steps * dim) => gaussianReal 0 1) = normalLaw (steps * dim) (2 * (1 / 2) * 1) := by
    unfold normalLaw; norm_num
  rw [en]
  have e : ∀ z, sqDist a dim steps k z = ∑ c : Fin dim, ∑ i : Fin k, ∑ j : Fin k,
      a ^ 2 * (z ⟨_, index_lt hk i c⟩ * z ⟨_, index_lt hk j c⟩) := by
    intro z
    unfold sqDist
    refine Finset.sum_congr rfl fun c _ => ?_
    rw [sq, Finset.sum_mul_sum]
    refine Finset.sum_congr rfl fun i _ => Finset.sum_congr rfl fun j _ => ?_
    rw [dif_pos (index_lt hk i c), dif_pos (index_lt hk j c)]; ring
  have e' : sqDist a dim steps k = fun z => ∑ c : Fin dim, ∑ i : Fin k, ∑ j : Fin k,
      a ^ 2 * (z ⟨_, index_lt hk i c⟩ * z ⟨_, index_lt hk j c⟩) := funext e
  have hint : ∀ c : Fin dim, ∀ i j : Fin k, Integrable (fun z : Fin (steps * dim) → ℝ =>
      a ^ 2 * (z ⟨_, index_lt hk i c⟩ * z ⟨_, index_lt hk j c⟩)) (normalLaw (steps * dim) (2 * (1 / 2) * 1)) :=
    fun c i j => ((eval_memLp _ _ ⟨_, index_lt hk i c⟩).integrable_mul (eval_memLp _ _ ⟨_, index_lt hk j c⟩)).const_mul _
  obtain ⟨-, m2, m3, -⟩ := C74_moments (steps * dim) (1 / 2) 1 (by norm_num) (by norm_num)
  refine ⟨?_, ?_, ?_⟩
  · rw [e']; fun_prop
  · rw [e']
    exact integrable_finsetSum _ fun c _ => integrable_finsetSum _ fun i _ => integrable_finsetSum _ fun j _ => hint c i j
  · rw [e', integral_finsetSum _ fun c _ => integrable_finsetSum _ fun i _ => integrable_finsetSum _ fun j _ => hint c i j]
    have hc : ∀ c : Fin dim, ∫ z, ∑ i : Fin k, ∑ j : Fin k, a ^ 2 * (z ⟨_, index_lt hk i c⟩ * z ⟨_, index_lt hk j c⟩)
        ∂normalLaw (steps * dim) (2 * (1 / 2) * 1) = a ^ 2 * k := by
      intro c
      rw [integral_finsetSum _ fun i _ => integrable_finsetSum _ fun j _ => hint c i j]
      have hi : ∀ i : Fin k, ∫ z, ∑ j : Fin k, a ^ 2 * (z ⟨_, index_lt hk i c⟩ * z ⟨_, index_lt hk j c⟩)
          ∂normalLaw (steps * dim) (2 * (1 / 2) * 1) = a ^ 2 := by
        intro i
        rw [integral_finsetSum _ fun j _ => hint c i j, Finset.sum_eq_single i]
        · rw [integral_const_mul]
          have := m2 ⟨_, index_lt hk i c⟩
          simp only [sq] at this
          rw [this]; ring
        · intro j _ hj
          rw [integral_const_mul, m3, mul_zero]
          intro he
          have he : i.1 * dim + c.1 = j.1 * dim + c.1 := by simpa using he
          have h0 : 0 < dim := lt_of_le_of_lt (Nat.zero_le _) c.2
          exact hj (Fin.ext (Nat.eq_of_mul_eq_mul_right h0 (by omega)).symm)
        · intro h; exact absurd (Finset.mem_univ i) h
      simp only [hi, Finset.sum_const, Finset.card_univ, Fintype.card_fin, nsmul_eq_mul]
      ring
    simp only [hc, Finset.sum_const, Finset.card_univ, Fintype.card_fin, nsmul_eq_mul]
    ring

/-- The free-diffusion program (with a buffer of the right dimension): the expected value of the entry for step `k` is
exactly `2 d D (k dt)`, for any number of walks. -/
theorem C74_diffusion_mean (rng : RngOps G ℝ) (P : Measure G) (h : IdealRng rng P) (D dt : ℝ) (hD : 0 ≤ D) (hdt : 0 ≤ dt)
    (dim steps n : Nat) (hn : 0 < n) (buf : Pos ℝ) (hb : buf.length = dim) :
    ∃ table : G → List ℝ, (∀ g, freeDiffusion rng (.brownian D) dim dt steps n buf g = .ok (table g)) ∧
      ∀ k ≤ steps, ∫ g, (table g).getD k 0 ∂P = 2 * dim * D * (k * dt) := by
  have := h.prob
  refine ⟨_, fun g => C66_free_diffusion rng D dt dim steps n buf hb g, fun k hk => ?_⟩
  obtain ⟨hm, hi, hv⟩ := sqDist_integral (Real.sqrt (2 * D * dt)) dim steps k hk
  have hf := drawsN_mp h.gaussian (steps * dim)
  set f := drawsN rng.gaussian (steps * dim) with hfd
  have e : ∀ g, ((List.range (steps + 1)).map (meanSquare (Real.sqrt (2 * D * dt)) rng.gaussian g dim steps n)).getD k 0 =
      (∑ j ∈ Finset.range n, sqDist (Real.sqrt (2 * D * dt)) dim steps k (f (after f j g)).1) / n := by
    intro g
    rw [← meanSquare_eq _ _ _ _ _ _ _ hk, List.getD_eq_getElem?_getD, List.getElem?_eq_getElem (by simp; omega)]
    simp
  simp only [e]
  have hj : ∀ j, Integrable (fun g => sqDist (Real.sqrt (2 * D * dt)) dim steps k (f (after f j g)).1) P ∧
      ∫ g, sqDist (Real.sqrt (2 * D * dt)) dim steps k (f (after f j g)).1 ∂P = 2 * dim * D * (k * dt) := by
    intro j
    have hp : MeasurePreserving (fun g => (f (after f j g)).1) P (Measure.pi fun _ => gaussianReal 0 1) :=
      measurePreserving_fst.comp (hf.comp (after_mp hf j))
    refine ⟨hp.integrable_comp_of_integrable hi, ?_⟩
    have : 2 * (dim : ℝ) * D * (k * dt) = Real.sqrt (2 * D * dt) ^ 2 * dim * k := by
      rw [Real.sq_sqrt (by positivity)]; ring
    rw [this, ← hv, ← hp.map_eq, integral_map hp.measurable.aemeasurable hm.aestronglyMeasurable]
  rw [integral_div, integral_finsetSum _ fun j _ => (hj j).1]
  simp only [(hj _).2, Finset.sum_const, Finset.card_range, nsmul_eq_mul]
  have : (n : ℝ) ≠ 0 := by positivity
  field_simp

/-- With probability one the table approaches `2 d D t` as the number of walks grows: it measures the diffusion constant. -/
theorem C74_diffusion_limit (rng : RngOps G ℝ) (P : Measure G) (h : IdealRng rng P) (D dt : ℝ) (hD : 0 ≤ D) (hdt : 0 ≤ dt)
    (dim steps : Nat) (buf : Pos ℝ) (hb : buf.length = dim) :
    ∀ᵐ g ∂P, ∃ table : Nat → List ℝ, (∀ n, freeDiffusion rng (.brownian D) dim dt steps n buf g = .ok (table n)) ∧
      ∀ k ≤ steps, Tendsto (fun n => (table n).getD k 0) atTop (𝓝 (2 * dim * D * (k * dt))) := by
  have := h.prob
  have hf := drawsN_mp h.gaussian (steps * dim)
  set f := drawsN rng.gaussian (steps * dim) with hfd
  have hall : ∀ᵐ g ∂P, ∀ k, k ≤ steps → Tendsto (fun n : ℕ => (∑ j ∈ Finset.range n,
      sqDist (Real.sqrt (2 * D * dt)) dim steps k (f (after f j g)).1) / n) atTop (𝓝 (2 * dim * D * (k * dt))) := by
    rw [ae_all_iff]
    intro k
    by_cases hk : k ≤ steps
    · obtain ⟨hm, hi, hv⟩ := sqDist_integral (Real.sqrt (2 * D * dt)) dim steps k hk
      have e : 2 * (dim : ℝ) * D * (k * dt) = Real.sqrt (2 * D * dt) ^ 2 * dim * k := by
        rw [Real.sq_sqrt (by positivity)]; ring
      rw [e, ← hv]
      filter_upwards [runs_law hf hm hi] with g hg _ using hg
    · exact .of_forall fun g h => absurd h hk
  filter_upwards [hall] with g hg
  refine ⟨_, fun n => C66_free_diffusion rng D dt dim steps n buf hb g, fun k hk => ?_⟩
  refine (hg k hk).congr fun n => ?_
  rw [← meanSquare_eq _ _ _ _ _ _ _ hk, List.getD_eq_getElem?_getD, List.getElem?_eq_getElem (by simp; omega)]
  simp

/-- The hypotheses are met: one dimension, `D = 1`, steps of 1/2. -/
example : ∀ᵐ g ∂tapeLaw, ∃ table : Nat → List ℝ,
    (∀ n, freeDiffusion tapeRng (.brownian 1) 1 (1 / 2) 10 n [0] g = .ok (table n)) ∧
    ∀ k ≤ 10, Tendsto (fun n => (table n).getD k 0) atTop (𝓝 (2 * (1 : Nat) * 1 * (k * (1 / 2)))) :=
  C74_diffusion_limit tapeRng tapeLaw tape_ideal 1 (1 / 2) (by norm_num) (by norm_num) 1 10 [0] rfl

example : Samples tapeLaw (fun _ g => some ((IndepAgent.new (.brownian 1) [0, 0, 0]).randomMove tapeRng g (1 / 2))) List.ofFn
    (normalLaw 3 (2 * 1 * (1 / 2))) :=
  (C74_move tapeRng tapeLaw tape_ideal 1 (1 / 2) (by norm_num) (by norm_num) (IndepAgent.new (.brownian 1) [0, 0, 0]) rfl
    (MergeAgent.new (.brownian 1) [] 0 0) rfl (ExpAgent.mk .continuousPassiveInteracting (.exponential 1 1) (.brownian 1) .uniform 1 [] 1 1 1 1) rfl
    (LJAgent.mk .continuousPassiveInteracting (.lennardJones 1) (.brownian 1) .uniform 1 [] 1 1 1 1) rfl (fun _ _ => 0)).1.1
end

end Moledyn.Props
