import Verif.Model.RandomTests
import Verif.Spec.RandomTests
import Verif.Props.AgentLaws
import Verif.Props.Random
import Verif.Spec.Position
import Verif.Lemmas.Str
import Mathlib.Analysis.Real.Pi.Bounds
/-
C109: the files of tests/random_vec.rs and the data, bins and curve of tests/random_histogram.rs.
-/
namespace Moledyn.Props
open Moledyn MeasureTheory ProbabilityTheory
set_option linter.unusedSimpArgs false
set_option linter.unusedSectionVars false

/-! ### tests/random_vec.rs -/

private theorem sweep_const {G F : Type} (draw : G → F × G) : ∀ (v : List F) (g : G),
    Random.sweep draw (fun _ r => r) v g = (delivered draw v.length g, advanced draw v.length g)
  | [], _ => rfl
  | _ :: v, g => by simp [Random.sweep, sweep_const draw v, delivered, advanced]

private theorem line_eq {F : Type} [Fl F] (f : NumFmt F) (x y : F) :
    pointLine f [x, y] = .ok (f.print x ++ ['\t'] ++ f.print y ++ ['\n']) := by simp [pointLine]

private theorem twoDraws {G F : Type} [Fl F] (f : NumFmt F) (draw : G → F × G) (sample : Pos F → G → Option (Res (Pos F) × G))
    (hs : ∀ v g, v.length = 2 → sample v g = some (.ok (delivered draw 2 g), advanced draw 2 g)) (n : Nat) (v : Pos F) (g : G)
    (hv : v.length = 2) :
    pointLoop f sample n v g = some ((pointText f (pairs (delivered draw (2 * n) g)), .ok ()), advanced draw (2 * n) g) := by
  induction n generalizing v g with
  | zero => rfl
  | succ n ih =>
    rw [pointLoop, hs v g hv]
    simp only [delivered, advanced, line_eq]
    rw [ih _ _ rfl]
    simp [Nat.mul_succ, delivered, advanced, pairs, pointText]

private theorem twoDraws' {G F : Type} [Fl F] (f : NumFmt F) (draw : G → F × G) (sample : Pos F → G → Option (Res (Pos F) × G))
    (hs : ∀ v g, sample v g = some (.ok (delivered draw 2 g), advanced draw 2 g)) (n : Nat) (v : Pos F) (g : G) :
    pointLoop f sample n v g = some ((pointText f (pairs (delivered draw (2 * n) g)), .ok ()), advanced draw (2 * n) g) := by
  cases n with
  | zero => rfl
  | succ n =>
    rw [pointLoop, hs v g]
    simp only [delivered, advanced, line_eq]
    rw [twoDraws f draw sample (fun v g _ => hs v g) n _ _ rfl]
    simp [Nat.mul_succ, delivered, advanced, pairs, pointText]

/-- Any arithmetic, any generator: the four programs that print random vectors take two random numbers per line, print them in
the order in which they are drawn, and never stop early; drawing into one vector again and again gives the same file. -/
theorem C109_vectors {G F : Type} [Fl F] (f : NumFmt F) (rng : RngOps G F) (n : Nat) (g : G) :
    let uniform := some ((pointText f (pairs (delivered rng.uniform (2 * n) g)), Res.ok ()), advanced rng.uniform (2 * n) g)
    let gaussian := some ((pointText f (pairs (delivered rng.gaussian (2 * n) g)), Res.ok ()), advanced rng.gaussian (2 * n) g)
    uniformPoints f rng n g = uniform ∧ uniformPointsToVec f rng n g = uniform ∧
    gaussianPoints f rng n g = gaussian ∧ gaussianPointsToVec f rng n g = gaussian := by
  intro uniform gaussian
  refine ⟨twoDraws' f rng.uniform _ (fun v g => ?_) n [] g, twoDraws f rng.uniform _ (fun v g hv => ?_) n _ g rfl,
    twoDraws' f rng.gaussian _ (fun v g => ?_) n [] g, twoDraws f rng.gaussian _ (fun v g hv => ?_) n _ g rfl⟩
  · simp [Random.getUniformVec, sweep_const]
  · simp [Random.getUniformToVec, sweep_const, Pos.clear, hv]
  · simp [Random.getGaussianVec, sweep_const]
  · simp [Random.getGaussianToVec, sweep_const, Pos.clear, hv]

/-- the file can be read back: cut at line ends and tabulators it gives the printed numbers, two per line, and they are read as
the numbers they were. -/
theorem C109_readable {T : Type} (f : NumFmt T) (ok : T → Prop) (hf : f.Faithful ok) (ps : List (T × T))
    (hok : ∀ p ∈ ps, ok p.1 ∧ ok p.2) :
    (Str.splitBy (· == '\n') (pointText f ps)).map (fun l => (Str.splitBy (· == '\t') l).map f.parse) =
      ps.map (fun p => [some p.1, some p.2]) ++ [[f.parse []]] := by
  have clean : ∀ c : Char, Str.isWs c = true → ∀ x, ok x → ∀ d ∈ f.print x, (d == c) = false := by
    intro c hc x hx d hd
    rw [beq_eq_false_iff_ne]
    rintro rfl
    rw [hf.noBlank x hx d hd] at hc
    exact Bool.false_ne_true hc
  induction ps with
  | nil => simp [pointText, Str.splitBy]
  | cons p ps ih =>
    have h1 := hok p List.mem_cons_self
    have e : pointText f (p :: ps) = (f.print p.1 ++ ['\t'] ++ f.print p.2) ++ '\n' :: pointText f ps := by
      simp [pointText]
    have hl : ∀ c ∈ f.print p.1 ++ ['\t'] ++ f.print p.2, (c == '\n') = false := by
      intro c hc
      simp only [List.mem_append, List.mem_singleton] at hc
      rcases hc with (h | h) | h
      · exact clean '\n' (by decide) _ h1.1 _ h
      · subst h; decide
      · exact clean '\n' (by decide) _ h1.2 _ h
    rw [e, Str.splitBy_cons hl (by decide)]
    simp only [List.map_cons, ih fun q hq => hok q (List.mem_cons_of_mem _ hq)]
    have e2 : f.print p.1 ++ ['\t'] ++ f.print p.2 = f.print p.1 ++ '\t' :: f.print p.2 := by simp
    rw [e2, Str.splitBy_cons (clean '\t' (by decide) _ h1.1) (by decide), Str.splitBy_clean (clean '\t' (by decide) _ h1.2)]
    simp [hf.roundtrip _ h1.1, hf.roundtrip _ h1.2]

variable {G : Type}

private theorem propose_same (rng : RngOps G ℝ) (s : Circ ℝ) (vec : Pos ℝ) (hv : vec.length = s.dim) :
    s.proposeToVec rng vec = s.propose rng := by
  funext g
  have h : ∀ (n : Nat) (g : G), Random.sweep rng.uniform (fun x r => x + r * (s.sysSize - -s.sysSize) + -s.sysSize) (List.replicate n (Fl.zero : ℝ)) g =
      ((Random.sweep rng.uniform (fun _ r => r) (List.replicate n (Fl.zero : ℝ)) g).1.map fun r => (r + -(Fl.lit (1 / 2))) * (Fl.two * s.sysSize),
        (Random.sweep rng.uniform (fun _ r => r) (List.replicate n (Fl.zero : ℝ)) g).2) := by
    intro n
    induction n with
    | zero => intro g; rfl
    | succ n ih =>
      intro g
      simp only [List.replicate_succ, Random.sweep, ih, List.map_cons]
      refine Prod.ext ?_ rfl
      simp only [List.cons.injEq, and_true]
      simp only [Fl.zero, Fl.two, fl_lit]
      push_cast
      ring
  have hl : ∀ (n : Nat) (g : G), (Random.sweep rng.uniform (fun _ r => r) (List.replicate n (Fl.zero : ℝ)) g).1.length = n := by
    intro n g
    rw [sweep_const]
    have : ∀ (n : Nat) (g : G), (delivered rng.uniform n g).length = n := by
      intro n
      induction n with
      | zero => intro g; rfl
      | succ n ih => intro g; simp [delivered, ih]
    simp [this]
  have hc : vec.clear (Fl.zero : ℝ) = List.replicate s.dim (Fl.zero : ℝ) := by
    unfold Pos.clear; rw [List.map_const', hv]
  unfold Circ.proposeToVec Circ.propose Random.getUniformToVecNonstandard Random.getUniformVec
  rw [hc, h]
  unfold Pos.add Pos.dim
  dsimp only
  rw [if_neg (by rw [ne_eq, not_not, hl, List.length_replicate])]
  have hz : List.zipWith (fun a b : ℝ => a + b) (Random.sweep rng.uniform (fun _ r => r) (List.replicate s.dim (Fl.zero : ℝ)) g).1
      (List.replicate s.dim (-(Fl.lit (1 / 2) : ℝ))) = (Random.sweep rng.uniform (fun _ r => r) (List.replicate s.dim (Fl.zero : ℝ)) g).1.map
        (fun r => r + -(Fl.lit (1 / 2))) := by
    refine List.ext_getElem (by rw [List.length_zipWith, List.length_map, hl, List.length_replicate, min_self]) fun i h1 h2 => ?_
    simp
  rw [hz]
  simp [Res.bind, Pos.mutScalarMul, Function.comp_def]

/-- Exact arithmetic: drawing positions in a disk and drawing them into one vector write the same file, loop for loop. -/
theorem C109_disk_twins (f : NumFmt ℝ) (rng : RngOps G ℝ) (R : ℝ) (s : Circ ℝ) (hnew : Circ.new R 2 = .ok s) (fuel n : Nat) (g : G) :
    circPointsToVec f rng s fuel n g = circPoints f rng s fuel n g := by
  have hd : s.dim = 2 := by
    unfold Circ.new at hnew
    split at hnew
    · simp at hnew
    · simp only [Res.ok.injEq] at hnew; rw [← hnew]
  have hsame : ∀ (v : Pos ℝ) (g : G), v.length = 2 → s.randomPosToVec rng fuel g v = s.randomPos rng fuel g := by
    intro v g hv
    unfold Circ.randomPosToVec Circ.randomPos
    rw [if_neg (by simp [Pos.dim, hv, hd]), propose_same rng s v (by rw [hv, hd])]
  have key : ∀ (n : Nat) (v w : Pos ℝ) (g : G), v.length = 2 →
      pointLoop f (fun v g => s.randomPosToVec rng fuel g v) n v g = pointLoop f (fun _ g => s.randomPos rng fuel g) n w g := by
    intro n
    induction n with
    | zero => intro v w g _; rfl
    | succ n ih =>
      intro v w g hv
      simp only [pointLoop, hsame v g hv]
      cases hr : s.randomPos rng fuel g with
      | none => rfl
      | some r =>
        obtain ⟨r, g1⟩ := r
        cases r with
        | err e => rfl
        | panic => rfl
        | ok p =>
          simp only
          have hp : p.length = 2 := by
            obtain ⟨q, hq, hin⟩ := C26_sphere_to_vec rng s fuel g [0, 0] (by rw [hd]; rfl) (.ok p) g1 (by rw [hsame _ g rfl]; exact hr)
            rw [← Res.ok.inj hq] at hin
            rcases Circ.checkInclusion_cases s p with ⟨_, h⟩ | ⟨h, _⟩
            · rw [h] at hin; simp at hin
            · rw [← hd]; exact h.symm
          cases pointLine f p with
          | err e => rfl
          | panic => rfl
          | ok l => simp only [ih p p g1 hp]
  exact key n _ _ g rfl

variable [MeasurableSpace G]

private theorem point_samples (f : NumFmt ℝ) {P : Measure G} [IsProbabilityMeasure P] {μ : Measure (Fin 2 → ℝ)} [IsProbabilityMeasure μ]
    {draw : Nat → G → Option (Res (Pos ℝ) × G)} (h : Samples P draw List.ofFn μ) (n : Nat) (v : Pos ℝ) :
    Samples P (fun loops g => (pointLoop f (fun _ g => draw loops g) n v g).map fun r => (r.1.2.map fun _ => r.1.1, r.2))
      (fun xs : Fin n → Fin 2 → ℝ => pointText f (List.ofFn fun i => (xs i 0, xs i 1))) (Measure.pi fun _ => μ) := by
  obtain ⟨F, hF, hae⟩ := h
  refine ⟨drawsN F n, drawsN_mp hF n, ?_⟩
  have key : ∀ n : Nat, ∀ᵐ g ∂P, ∃ N, ∀ loops ≥ N, ∀ v : Pos ℝ, pointLoop f (fun _ g => draw loops g) n v g =
      some ((pointText f (List.ofFn fun i => ((drawsN F n g).1 i 0, (drawsN F n g).1 i 1)), .ok ()), (drawsN F n g).2) := by
    intro n
    induction n with
    | zero => exact .of_forall fun g => ⟨0, fun _ _ _ => rfl⟩
    | succ n ih =>
      have h2 := (measurePreserving_snd.comp hF).quasiMeasurePreserving.ae ih
      filter_upwards [hae, h2] with g ⟨N, hN⟩ ⟨M, hM⟩
      refine ⟨max N M, fun loops hl v => ?_⟩
      rw [pointLoop, hN loops (le_trans (le_max_left _ _) hl)]
      have e : (List.ofFn (F g).1 : Pos ℝ) = [(F g).1 0, (F g).1 1] := by simp [List.ofFn_succ]
      simp only [e, line_eq]
      have hM' := hM loops (le_trans (le_max_right _ _) hl) [(F g).1 0, (F g).1 1]
      simp only [Function.comp_apply] at hM'
      rw [hM']
      simp only [Option.map_some, drawsN, List.ofFn_succ (n := n), Fin.cons_zero, Fin.cons_succ, pointText, List.flatMap_cons]
  filter_upwards [key n] with g ⟨N, hN⟩
  exact ⟨N, fun loops hl => by rw [hN loops hl v]; rfl⟩

/-- With ideal random numbers the file of the disk is finished with probability one and its points are independent and uniform
in the disk. -/
theorem C109_disk (f : NumFmt ℝ) (rng : RngOps G ℝ) (P : Measure G) {ν : Measure ℝ} (h : IndepRng rng P ν) (R : ℝ) (s : Circ ℝ)
    (hnew : Circ.new R 2 = .ok s) (n : Nat) :
    Samples P (fun loops g => (circPoints f rng s loops n g).map fun r => (r.1.2.map fun _ => r.1.1, r.2))
      (fun xs : Fin n → Fin 2 → ℝ => pointText f (List.ofFn fun i => (xs i 0, xs i 1)))
      (Measure.pi fun _ => uniformLaw (ballSet 2 R)) := by
  have := h.prob
  obtain ⟨hR, rfl⟩ : 0 < R ∧ s = ⟨.continuousCircular, .reflection, R, 2⟩ := by
    unfold Circ.new at hnew
    split at hnew
    · simp at hnew
    · rename_i hc
      simp only [fl_le, fl_zero, Bool.or_eq_true, decide_eq_true_eq, not_or, not_le] at hc
      simp only [Res.ok.injEq] at hnew
      exact ⟨hc.1, hnew.symm⟩
  have h1 := (C72_ball rng P h ⟨.continuousCircular, .reflection, R, 2⟩ hR [0, 0] rfl).1
  have hb := cyl_vol 2 2 hR hR
  rw [← ball_cyl] at hb
  have : IsProbabilityMeasure (uniformLaw (ballSet 2 R)) := uniformLaw_prob hb.1 hb.2
  exact point_samples f h1 n []

private theorem vec_samples (draw : G → ℝ × G) {P : Measure G} {μ : Measure ℝ} [IsProbabilityMeasure P] [IsProbabilityMeasure μ]
    (hm : MeasurePreserving draw P (μ.prod P)) :
    Samples P (fun _ g => some (Res.ok (Random.sweep draw (fun _ r => r) (List.replicate 2 (Fl.zero : ℝ)) g).1,
      (Random.sweep draw (fun _ r => r) (List.replicate 2 (Fl.zero : ℝ)) g).2)) List.ofFn (Measure.pi fun _ : Fin 2 => μ) := by
  refine ⟨drawsN draw 2, drawsN_mp hm 2, .of_forall fun g => ⟨0, fun _ _ => ?_⟩⟩
  simp only [sweep_draws]
  simp [drawsN, List.ofFn_succ]

/-- With ideal random numbers the points of the other files are independent, with independent uniform, resp. standard normal,
coordinates. -/
theorem C109_vector_laws (f : NumFmt ℝ) (rng : RngOps G ℝ) (P : Measure G) (h : IdealRng rng P) (n : Nat) :
    Samples P (fun _ g => (uniformPoints f rng n g).map fun r => (r.1.2.map fun _ => r.1.1, r.2))
      (fun xs : Fin n → Fin 2 → ℝ => pointText f (List.ofFn fun i => (xs i 0, xs i 1)))
      (Measure.pi fun _ => Measure.pi fun _ => unitLaw) ∧
    Samples P (fun _ g => (gaussianPoints f rng n g).map fun r => (r.1.2.map fun _ => r.1.1, r.2))
      (fun xs : Fin n → Fin 2 → ℝ => pointText f (List.ofFn fun i => (xs i 0, xs i 1)))
      (Measure.pi fun _ => Measure.pi fun _ => gaussianReal 0 1) := by
  have := h.prob
  exact ⟨point_samples f (vec_samples rng.uniform h.uniform) n [], point_samples f (vec_samples rng.gaussian h.gaussian) n []⟩

/-! ### tests/random_histogram.rs -/

/-- Exact arithmetic: `bin_bounds` returns `count + 1` bounds, from `min` to `max` in equal steps. -/
theorem C109_bins (min max : ℝ) (count : Nat) (hc : 0 < count) :
    (binBounds min max count).length = count + 1 ∧
    ∀ i, i ≤ count → (binBounds min max count).getD i 0 = min + i * ((max - min) / count) := by
  have hc' : (count : ℝ) ≠ 0 := by positivity
  refine ⟨by simp [binBounds], fun i hi => ?_⟩
  rcases hi.lt_or_eq with h | h
  · simp only [binBounds]
    rw [List.getD_eq_getElem?_getD, List.getElem?_append_left (by simpa using h), List.getElem?_eq_getElem (by simpa using h)]
    simp
    ring
  · subst h
    simp only [binBounds]
    rw [List.getD_eq_getElem?_getD, List.getElem?_append_right (by simp)]
    simp
    field_simp
    ring

/-- In any arithmetic that rounds monotonically the bounds are still in order, start with `min` and end with `max`, provided
`max - min` is a number of that arithmetic. -/
theorem C109_bins_rounded {R : Rounding} (min max : RF R) (count : Nat) (hmin : R.rnd min.val = min.val) (hmax : R.rnd max.val = max.val)
    (hrange : R.rnd (max.val - min.val) = max.val - min.val) (h1 : R.rnd 1 = 1) (hle : min.val ≤ max.val) (hc : 0 < count) :
    ((binBounds min max count).map (·.val)).Pairwise (· ≤ ·) ∧
    ((binBounds min max count).map (·.val)).head? = some min.val ∧
    ((binBounds min max count).map (·.val)).getLast? = some max.val := by
  have hr0 : 0 ≤ max.val - min.val := by linarith
  have nonneg : ∀ x, 0 ≤ x → 0 ≤ R.rnd x := fun x hx => by have := R.mono 0 x hx; rwa [R.zero] at this
  set b : Nat → ℝ := fun i => R.rnd (R.rnd (R.rnd (R.rnd (i : ℝ) / R.rnd (count : ℝ)) * (max.val - min.val)) + min.val) with hb
  have hval : (binBounds min max count).map (·.val) = (List.range count).map b ++ [max.val] := by
    simp only [binBounds, List.map_append, List.map_map, List.map_cons, List.map_nil]
    congr 1
    refine List.map_congr_left fun i _ => ?_
    simp only [hb, Function.comp_apply]
    conv_rhs => rw [← hrange]
    rfl
  have hmono : ∀ i j : Nat, i ≤ j → b i ≤ b j := by
    intro i j hij
    simp only [hb]
    have hij' : (i : ℝ) ≤ j := by exact_mod_cast hij
    refine R.mono _ _ (add_le_add_left (R.mono _ _ (mul_le_mul_of_nonneg_right (R.mono _ _ ?_) hr0)) _)
    exact div_le_div_of_nonneg_right (R.mono _ _ hij') (nonneg _ (by positivity))
  have hlast : ∀ i : Nat, i ≤ count → b i ≤ max.val := by
    intro i hi
    have hi' : (i : ℝ) ≤ count := by exact_mod_cast hi
    have h2 : R.rnd (i : ℝ) / R.rnd (count : ℝ) ≤ 1 := div_le_one_of_le₀ (R.mono _ _ hi') (nonneg _ (by positivity))
    have h3 : R.rnd (R.rnd (i : ℝ) / R.rnd (count : ℝ)) ≤ 1 := by rw [← h1]; exact R.mono _ _ h2
    have h4 : R.rnd (R.rnd (R.rnd (i : ℝ) / R.rnd (count : ℝ)) * (max.val - min.val)) ≤ max.val - min.val := by
      conv_rhs => rw [← hrange]
      refine R.mono _ _ ?_
      calc _ ≤ 1 * (max.val - min.val) := mul_le_mul_of_nonneg_right h3 hr0
        _ = _ := one_mul _
    calc b i ≤ R.rnd max.val := R.mono _ _ (by linarith)
      _ = max.val := hmax
  rw [hval]
  refine ⟨?_, ?_, by simp⟩
  · rw [List.pairwise_append]
    refine ⟨?_, by simp, ?_⟩
    · rw [List.pairwise_map]
      exact (List.pairwise_lt_range).imp fun h => hmono _ _ h.le
    · intro x hx y hy
      simp only [List.mem_map, List.mem_range] at hx
      obtain ⟨i, hi, rfl⟩ := hx
      rw [List.mem_singleton.1 hy]
      exact hlast i hi.le
  · have : List.range count = 0 :: (List.range (count - 1)).map (· + 1) := by
      obtain ⟨k, rfl⟩ : ∃ k, count = k + 1 := ⟨count - 1, by omega⟩
      rw [List.range_succ_eq_map]; simp
    rw [this]
    simp [hb, R.zero, hmin]

private theorem mem_bin {min max : ℝ} {n : Nat} (hn : 0 < n) {i : Nat} (hi : i < n) (x : ℝ) :
    x ∈ histBin (binBounds min max n) i ↔ min + i * ((max - min) / n) ≤ x ∧
      (x < min + (i + 1 : ℕ) * ((max - min) / n) ∨ i + 1 = n ∧ x = max) := by
  obtain ⟨hlen, hget⟩ := C109_bins min max n hn
  unfold histBin
  rw [Set.mem_ofPred_eq, hget i hi.le, hget (i + 1) hi, hlen]
  have hn' : (n : ℝ) ≠ 0 := by positivity
  constructor
  · rintro ⟨a, b | ⟨b, c⟩⟩
    · exact ⟨a, .inl b⟩
    · have hin : i + 1 = n := by omega
      refine ⟨a, .inr ⟨hin, ?_⟩⟩
      rw [c, hin]
      field_simp
      ring
  · rintro ⟨a, b | ⟨b, c⟩⟩
    · exact ⟨a, .inl b⟩
    · refine ⟨a, .inr ⟨by omega, ?_⟩⟩
      rw [c, b]
      field_simp
      ring

/-- Exact arithmetic: every number between `min` and `max` is in exactly one bin. -/
theorem C109_one_bin (min max : ℝ) (n : Nat) (hn : 0 < n) (hlt : min < max) (x : ℝ) (h0 : min ≤ x) (h1 : x ≤ max) :
    ∃! i, i < n ∧ x ∈ histBin (binBounds min max n) i := by
  have hn' : (0 : ℝ) < n := by positivity
  set w := (max - min) / n with hw
  have w0 : 0 < w := div_pos (by linarith) hn'
  have hnw : n * w = max - min := by rw [hw]; field_simp
  have uniq : ∀ i j : Nat, i < n → j < n → x ∈ histBin (binBounds min max n) i → x ∈ histBin (binBounds min max n) j → i ≤ j := by
    intro i j hi hj hxi hxj
    rw [mem_bin hn hi] at hxi
    rw [mem_bin hn hj] at hxj
    rcases hxj.2 with h | ⟨h, -⟩
    · by_contra hij
      have h2 : ((j + 1 : ℕ) : ℝ) ≤ i := by exact_mod_cast (by omega : j + 1 ≤ i)
      have := mul_le_mul_of_nonneg_right h2 w0.le
      linarith [hxi.1]
    · omega
  rcases h1.lt_or_eq with h1 | h1
  · have hq0 : 0 ≤ (x - min) / w := div_nonneg (by linarith) w0.le
    have hqn : (x - min) / w < n := by rw [div_lt_iff₀ w0, hnw]; linarith
    have hk : ⌊(x - min) / w⌋₊ < n := (Nat.floor_lt hq0).2 hqn
    have ha : ((⌊(x - min) / w⌋₊ : ℕ) : ℝ) * w ≤ x - min := by
      rw [← le_div_iff₀ w0]; exact Nat.floor_le hq0
    have hb : x - min < ((⌊(x - min) / w⌋₊ + 1 : ℕ) : ℝ) * w := by
      rw [← div_lt_iff₀ w0]; push_cast; exact Nat.lt_floor_add_one _
    have hx : x ∈ histBin (binBounds min max n) ⌊(x - min) / w⌋₊ := by
      rw [mem_bin hn hk]
      exact ⟨by linarith, .inl (by linarith)⟩
    exact ⟨_, ⟨hk, hx⟩, fun j hj => le_antisymm (uniq _ _ hj.1 hk hj.2 hx) (uniq _ _ hk hj.1 hx hj.2)⟩
  · have hk : n - 1 < n := by omega
    have hx : x ∈ histBin (binBounds min max n) (n - 1) := by
      rw [mem_bin hn hk]
      refine ⟨?_, .inr ⟨by omega, h1⟩⟩
      have h2 : ((n - 1 : ℕ) : ℝ) = n - 1 := by push_cast [Nat.cast_sub (show 1 ≤ n by omega)]; ring
      rw [h2, sub_mul, one_mul, ← hw, hnw]
      linarith
    exact ⟨_, ⟨hk, hx⟩, fun j hj => le_antisymm (uniq _ _ hj.1 hk hj.2 hx) (uniq _ _ hk hj.1 hx hj.2)⟩

/-- Exact arithmetic, a range longer than 1/2: what is pushed for a number lies between `min` and `max`; numbers below `min`
are counted in the first bin, numbers above `max` in the last one, all others in their own. -/
theorem C109_clamped (min max : ℝ) (n : Nat) (hn : 0 < n) (hlong : min + 1 / 2 < max) (x : ℝ) :
    min ≤ clampSample min max n x ∧ clampSample min max n x ≤ max ∧
    ∀ i, i < n → (clampSample min max n x ∈ histBin (binBounds min max n) i ↔
      x ∈ histBin (binBounds min max n) i ∨ (i = 0 ∧ x < min) ∨ (i + 1 = n ∧ max < x)) := by
  have hn' : (0 : ℝ) < n := by positivity
  have hn1 : (1 : ℝ) ≤ n := by exact_mod_cast hn
  set w := (max - min) / n with hw
  set e := (1 / 2 : ℝ) / n with he
  have e0 : 0 < e := by positivity
  have ew : e < w := div_lt_div_of_pos_right (by linarith) hn'
  have w0 : 0 < w := e0.trans ew
  have hnw : n * w = max - min := by rw [hw]; field_simp
  have hwle : w ≤ max - min := by rw [← hnw]; nlinarith
  have hcl : clampSample min max n x = if x < min then min + e else if max < x then max - e else x := by
    unfold clampSample
    simp only [fl_lt, fl_lit, fl_ofNat, decide_eq_true_eq]
    push_cast
    rfl
  have hbelow : ∀ i : Nat, i < n → x < min → x ∉ histBin (binBounds min max n) i := by
    intro i hi hx hmem
    rw [mem_bin hn hi] at hmem
    have : 0 ≤ (i : ℝ) * w := by positivity
    linarith [hmem.1]
  have habove : ∀ i : Nat, i < n → max < x → x ∉ histBin (binBounds min max n) i := by
    intro i hi hx hmem
    rw [mem_bin hn hi] at hmem
    have h2 : ((i + 1 : ℕ) : ℝ) ≤ n := by exact_mod_cast hi
    have h3 := mul_le_mul_of_nonneg_right h2 w0.le
    rcases hmem.2 with h | ⟨-, h⟩
    · linarith
    · linarith
  rw [hcl]
  by_cases h1 : x < min
  · simp only [if_pos h1]
    refine ⟨by linarith, by linarith, fun i hi => ?_⟩
    rw [mem_bin hn hi]
    constructor
    · intro h
      refine .inr (.inl ⟨?_, h1⟩)
      by_contra hi0
      have h2 : (1 : ℝ) ≤ i := by exact_mod_cast Nat.one_le_iff_ne_zero.2 hi0
      have := mul_le_mul_of_nonneg_right h2 w0.le
      linarith [h.1]
    · rintro (h | ⟨h, -⟩ | ⟨-, h⟩)
      · exact absurd h (hbelow i hi h1)
      · subst h
        exact ⟨by push_cast; linarith, .inl (by push_cast; linarith)⟩
      · linarith
  · simp only [if_neg h1]
    by_cases h2 : max < x
    · simp only [if_pos h2]
      refine ⟨by linarith, by linarith, fun i hi => ?_⟩
      rw [mem_bin hn hi]
      constructor
      · intro h
        refine .inr (.inr ⟨?_, h2⟩)
        rcases h.2 with h3 | ⟨h3, -⟩
        · by_contra hin
          have h4 : ((i + 1 : ℕ) : ℝ) ≤ n - 1 := by
            have : ((i + 2 : ℕ) : ℝ) ≤ n := by exact_mod_cast (by omega : i + 2 ≤ n)
            push_cast at this ⊢; linarith
          have := mul_le_mul_of_nonneg_right h4 w0.le
          rw [sub_mul, one_mul, hnw] at this
          linarith
        · exact h3
      · rintro (h | ⟨-, h⟩ | ⟨h, -⟩)
        · exact absurd h (habove i hi h2)
        · linarith
        · have h3 : ((i + 1 : ℕ) : ℝ) = n := by exact_mod_cast h
          have h4 : (i : ℝ) = n - 1 := by rw [← h3]; push_cast; ring
          rw [h3, h4, sub_mul, one_mul, ← hw, hnw]
          exact ⟨by linarith, .inl (by linarith)⟩
    · simp only [if_neg h2]
      refine ⟨not_lt.1 h1, not_lt.1 h2, fun i hi => ?_⟩
      constructor
      · exact .inl
      · rintro (h | ⟨-, h⟩ | ⟨-, h⟩)
        · exact h
        · exact absurd h h1
        · exact absurd h h2

/-- Any arithmetic, any generator: the data are the numbers delivered, in order. -/
theorem C109_data {G F : Type} [Fl F] (draw : G → F × G) (keep : F → F) (k : Nat) (g : G) :
    drawData draw keep k g = ((delivered draw k g).map keep, advanced draw k g) := by
  induction k generalizing g with
  | zero => rfl
  | succ k ih => simp [drawData, ih, delivered, advanced]

/-- the programs that take the numbers from a file get the numbers of its lines, in order; a line that is not a number makes
them panic, a line that cannot be read ends them with that error, whatever follows. -/
theorem C109_file {F : Type} [Fl F] (f : NumFmt F) (keep : F → F) (xs : List F) (hx : ∀ x ∈ xs, f.parse (f.print x) = some x)
    (rest : Reader) :
    readData f keep (Reader.ofLines (xs.map f.print)) = .ok (xs.map keep) ∧
    (∀ l, f.parse l = none → readData f keep (Reader.ofLines (xs.map f.print) ++ .ok l :: rest) = .panic) ∧
    (∀ t, readData f keep (Reader.ofLines (xs.map f.print) ++ .error t :: rest) = .err (.io t)) := by
  induction xs with
  | nil =>
    refine ⟨rfl, fun l hl => ?_, fun t => rfl⟩
    simp [Reader.ofLines, readData, hl]
  | cons x xs ih =>
    obtain ⟨a, b, c⟩ := ih fun y hy => hx y (List.mem_cons_of_mem _ hy)
    have h := hx x List.mem_cons_self
    unfold Reader.ofLines at a b c ⊢
    refine ⟨?_, fun l hl => ?_, fun t => ?_⟩
    · simp only [List.map_cons, readData, h, a, Res.map]
    · simp only [List.map_cons, List.cons_append, readData, h, b l hl, Res.map]
    · simp only [List.map_cons, List.cons_append, readData, h, c t, Res.map]

open scoped ENNReal Classical in
/-- With ideal random numbers the mean number of data in a set `A` (such as a bin) is the number of data times the probability
that a number is put there. -/
theorem C109_mean_count (draw : G → ℝ × G) (P : Measure G) [IsProbabilityMeasure P] (ν : Measure ℝ) [IsProbabilityMeasure ν]
    (h : MeasurePreserving draw P (ν.prod P)) (keep : ℝ → ℝ) (A : Set ℝ) (hA : MeasurableSet (keep ⁻¹' A)) (k : Nat) :
    ∫⁻ g, ((drawData draw keep k g).1.countP (fun x => decide (x ∈ A)) : ℝ≥0∞) ∂P = k * ν {x | keep x ∈ A} := by
  have hmeas : ∀ k : Nat, Measurable fun g => ((drawData draw keep k g).1.countP (fun x => decide (x ∈ A)) : ℝ≥0∞) := by
    intro k
    induction k with
    | zero => simp [drawData]
    | succ k ih =>
      have e : (fun g => ((drawData draw keep (k + 1) g).1.countP (fun x => decide (x ∈ A)) : ℝ≥0∞)) =
          fun g => ((drawData draw keep k (draw g).2).1.countP (fun x => decide (x ∈ A)) : ℝ≥0∞) +
            (keep ⁻¹' A).indicator 1 (draw g).1 := by
        funext g
        simp only [drawData, List.countP_cons, Set.indicator_apply, Set.mem_preimage, Pi.one_apply, decide_eq_true_eq]
        split <;> simp
      rw [e]
      exact (ih.comp (measurable_snd.comp h.measurable)).add ((measurable_one.indicator hA).comp (measurable_fst.comp h.measurable))
  induction k with
  | zero => simp [drawData]
  | succ k ih =>
    have e : ∀ g, ((drawData draw keep (k + 1) g).1.countP (fun x => decide (x ∈ A)) : ℝ≥0∞) =
        ((drawData draw keep k (draw g).2).1.countP (fun x => decide (x ∈ A)) : ℝ≥0∞) + (keep ⁻¹' A).indicator 1 (draw g).1 := by
      intro g
      simp only [drawData, List.countP_cons, Set.indicator_apply, Set.mem_preimage, Pi.one_apply, decide_eq_true_eq]
      split <;> simp
    simp only [e]
    refine (lintegral_add_left ((hmeas k).comp (measurable_snd.comp h.measurable)) _).trans ?_
    have h1 := (measurePreserving_snd.comp h).lintegral_comp (hmeas k)
    have h2 := (measurePreserving_fst.comp h).lintegral_comp (measurable_one.indicator hA : Measurable ((keep ⁻¹' A).indicator (1 : ℝ → ℝ≥0∞)))
    refine (congrArg₂ (· + ·) h1 h2).trans ?_
    rw [ih, lintegral_indicator_one hA]
    push_cast
    rw [add_mul, one_mul]
    rfl

private noncomputable def bell (x : ℝ) : ℝ := Real.exp (-x ^ 2 / 2)

private theorem bell_deriv (x : ℝ) : HasDerivAt bell (-x * bell x) x := by
  have h : HasDerivAt (fun x : ℝ => -x ^ 2 / 2) (-x) x := by
    have := ((hasDerivAt_pow 2 x).neg).div_const 2
    exact this.congr_deriv (by push_cast; ring)
  exact h.exp.congr_deriv (by unfold bell; ring)

private theorem bell_deriv2 (x : ℝ) : HasDerivAt (fun x => -x * bell x) ((x ^ 2 - 1) * bell x) x := by
  exact ((hasDerivAt_id x).neg.mul (bell_deriv x)).congr_deriv (by simp; ring)

private theorem bell_bound (x : ℝ) : |(x ^ 2 - 1) * bell x| ≤ 1 := by
  unfold bell
  have h1 : 1 + x ^ 2 / 2 + (x ^ 2 / 2) ^ 2 / 2 ≤ Real.exp (x ^ 2 / 2) := Real.quadratic_le_exp_of_nonneg (by positivity)
  have hinv : Real.exp (-x ^ 2 / 2) * Real.exp (x ^ 2 / 2) = 1 := by
    rw [← Real.exp_add, show -x ^ 2 / 2 + x ^ 2 / 2 = 0 by ring, Real.exp_zero]
  have he := Real.exp_pos (-x ^ 2 / 2)
  have h2 : |x ^ 2 - 1| ≤ Real.exp (x ^ 2 / 2) := by
    rw [abs_le]
    constructor
    · nlinarith [sq_nonneg x, sq_nonneg (x ^ 2)]
    · nlinarith [sq_nonneg (x ^ 2 / 2 - 1)]
  rw [abs_mul, abs_of_pos he]
  calc _ ≤ Real.exp (x ^ 2 / 2) * Real.exp (-x ^ 2 / 2) := mul_le_mul_of_nonneg_right h2 he.le
    _ = 1 := by rw [mul_comm]; exact hinv

private theorem bell_second (m s : ℝ) (hs : 0 ≤ s) : |bell (m + s) + bell (m - s) - 2 * bell m| ≤ s ^ 2 := by
  have lip : ∀ a b : ℝ, |(-a * bell a) - (-b * bell b)| ≤ |a - b| := by
    intro a b
    have := Convex.norm_image_sub_le_of_norm_hasDerivWithin_le (f := fun x => -x * bell x) (f' := fun x => (x ^ 2 - 1) * bell x)
      (C := 1) (s := Set.univ) (x := b) (y := a) (fun x _ => (bell_deriv2 x).hasDerivWithinAt) (fun x _ => bell_bound x) convex_univ trivial trivial
    simpa using this
  have hd : ∀ (σ : ℝ) (u : ℝ), HasDerivAt (fun u => u ^ 2 + σ * (bell (m + u) + bell (m - u) - 2 * bell m))
      (2 * u + σ * ((-(m + u) * bell (m + u)) - (-(m - u) * bell (m - u)))) u := by
    intro σ u
    have h1 : HasDerivAt (fun u => bell (m + u)) (-(m + u) * bell (m + u)) u := by
      exact ((bell_deriv (m + u)).comp u ((hasDerivAt_id u).const_add m)).congr_deriv (by ring)
    have h2 : HasDerivAt (fun u => bell (m - u)) (-(-(m - u) * bell (m - u))) u := by
      exact ((bell_deriv (m - u)).comp u ((hasDerivAt_id u).const_sub m)).congr_deriv (by ring)
    have h3 := (hasDerivAt_pow 2 u).add (((h1.add h2).sub_const (2 * bell m)).const_mul σ)
    exact h3.congr_deriv (by push_cast; ring)
  have mono : ∀ σ : ℝ, |σ| = 1 → 0 ≤ s ^ 2 + σ * (bell (m + s) + bell (m - s) - 2 * bell m) := by
    intro σ hσ
    have hm : MonotoneOn (fun u => u ^ 2 + σ * (bell (m + u) + bell (m - u) - 2 * bell m)) (Set.Ici 0) := by
      refine monotoneOn_of_hasDerivWithinAt_nonneg (convex_Ici 0) (fun u _ => (hd σ u).continuousAt.continuousWithinAt)
        (fun u _ => (hd σ u).hasDerivWithinAt) fun u hu => ?_
      rw [interior_Ici] at hu
      have hu0 : 0 < u := hu
      have h1 := lip (m + u) (m - u)
      rw [show m + u - (m - u) = 2 * u by ring, abs_of_pos (by linarith : 0 < 2 * u)] at h1
      have h2 : |σ * ((-(m + u) * bell (m + u)) - (-(m - u) * bell (m - u)))| ≤ 2 * u := by rw [abs_mul, hσ, one_mul]; exact h1
      linarith [(abs_le.1 h2).1]
    have := hm (Set.self_mem_Ici) (Set.mem_Ici.2 hs) hs
    simp only at this
    calc (0 : ℝ) = 0 ^ 2 + σ * (bell (m + 0) + bell (m - 0) - 2 * bell m) := by simp; ring_nf; simp
      _ ≤ _ := this
  have p1 := mono 1 (by simp)
  have p2 := mono (-1) (by simp)
  rw [abs_le]
  constructor <;> linarith

private theorem bell_cont : Continuous bell := by unfold bell; fun_prop

private theorem bell_mid (m h : ℝ) (hh : 0 ≤ h) : |(∫ x in (m - h)..(m + h), bell x) - 2 * h * bell m| ≤ h ^ 3 / 3 := by
  have i1 : ∫ x in (m - h)..(m + h), bell x = ∫ s in (0 : ℝ)..h, (bell (m + s) + bell (m - s)) := by
    have c1 : Continuous fun s => bell (m + s) := bell_cont.comp (by fun_prop)
    have c2 : Continuous fun s => bell (m - s) := bell_cont.comp (by fun_prop)
    rw [intervalIntegral.integral_add (c1.intervalIntegrable (μ := volume) _ _) (c2.intervalIntegrable (μ := volume) _ _)]
    have a1 : ∫ s in (0 : ℝ)..h, bell (m + s) = ∫ x in m..(m + h), bell x := by
      rw [intervalIntegral.integral_comp_add_left]; simp
    have a2 : ∫ s in (0 : ℝ)..h, bell (m - s) = ∫ x in (m - h)..m, bell x := by
      rw [intervalIntegral.integral_comp_sub_left]; simp
    rw [a1, a2, add_comm (∫ x in m..(m + h), bell x)]
    exact (intervalIntegral.integral_add_adjacent_intervals (bell_cont.intervalIntegrable (μ := volume) _ _) (bell_cont.intervalIntegrable (μ := volume) _ _)).symm
  have i2 : (∫ x in (m - h)..(m + h), bell x) - 2 * h * bell m = ∫ s in (0 : ℝ)..h, (bell (m + s) + bell (m - s) - 2 * bell m) := by
    rw [i1, intervalIntegral.integral_sub]
    · simp; ring
    · exact ((bell_cont.comp (by fun_prop)).add (bell_cont.comp (by fun_prop))).intervalIntegrable _ _
    · exact continuous_const.intervalIntegrable _ _
  rw [i2]
  have := intervalIntegral.norm_integral_le_of_norm_le (f := fun s => bell (m + s) + bell (m - s) - 2 * bell m) (g := fun s => s ^ 2)
    (a := 0) (b := h) (μ := volume) hh (.of_forall fun s hs => bell_second m s hs.1.le)
    ((by fun_prop : Continuous fun s : ℝ => s ^ 2).intervalIntegrable _ _)
  rw [integral_pow] at this
  refine this.trans_eq ?_
  norm_num

/-- Exact arithmetic: the curve has one point per bin, at its middle, and its height differs from the mean number of standard
normal numbers in the bin, out of `total`, by at most `total * width^3 / (24 sqrt (2 pi))`. -/
theorem C109_curve (min max : ℝ) (n total : Nat) (hn : 0 < n) (hlt : min < max) (i : Nat) (hi : i < n) :
    (gaussCurve Real.pi min max n total).length = n ∧
    ∃ y, (gaussCurve Real.pi min max n total)[i]? =
        some (((binBounds min max n).getD i 0 + (binBounds min max n).getD (i + 1) 0) / 2, y) ∧
      |y - total * (gaussianReal 0 1).real (histBin (binBounds min max n) i)| ≤
        total * ((max - min) / n) ^ 3 / (24 * Real.sqrt (2 * Real.pi)) := by
  obtain ⟨-, hget⟩ := C109_bins min max n hn
  have hn' : (0 : ℝ) < n := by positivity
  rw [hget i hi.le, hget (i + 1) hi]
  set w := (max - min) / n with hw
  have w0 : 0 < w := div_pos (by linarith) hn'
  set m := (min + (i : ℝ) * w + (min + ((i + 1 : ℕ) : ℝ) * w)) / 2 with hm
  have hs : (0 : ℝ) < Real.sqrt (2 * Real.pi) := Real.sqrt_pos.2 (by positivity)
  set c := (Real.sqrt (2 * Real.pi))⁻¹ with hc
  have hc0 : 0 < c := inv_pos.2 hs
  refine ⟨by simp [gaussCurve], c * bell m * w * total, ?_, ?_⟩
  · have hx : ((i : ℝ) + 1 / 2) * w + min = m := by rw [hm]; push_cast; ring
    simp only [gaussCurve, List.getElem?_map, List.getElem?_range hi, Option.map_some, Fl.one, Fl.two, fl_lit, fl_ofNat, fl_sqrt, fl_exp]
    push_cast
    rw [← hw, hx, one_div, Real.sqrt_inv]
    rw [show -m * m / 2 = -m ^ 2 / 2 by ring]
    rfl
  · have hbin : histBin (binBounds min max n) i =ᵐ[gaussianReal 0 1] Set.Ioc (m - w / 2) (m + w / 2) := by
      have e1 : min + (i : ℝ) * w = m - w / 2 := by rw [hm]; push_cast; ring
      have e2 : min + ((i + 1 : ℕ) : ℝ) * w = m + w / 2 := by rw [hm]; push_cast; ring
      have h0 : ∀ᵐ x ∂(gaussianReal 0 1), x ≠ m - w / 2 ∧ x ≠ m + w / 2 := by
        have hz : ∀ a : ℝ, ∀ᵐ x ∂(gaussianReal 0 1), x ≠ a := fun a =>
          (gaussianReal_absolutelyContinuous 0 one_ne_zero).ae_le (Measure.ae_ne volume a)
        filter_upwards [hz (m - w / 2), hz (m + w / 2)] with x h1 h2 using ⟨h1, h2⟩
      filter_upwards [h0] with x hx
      refine propext ?_
      change x ∈ histBin _ _ ↔ x ∈ Set.Ioc _ _
      rw [mem_bin hn hi, ← hw, e1, e2]
      constructor
      · rintro ⟨a, b | ⟨b, c'⟩⟩
        · exact ⟨lt_of_le_of_ne a hx.1.symm, b.le⟩
        · exfalso
          refine hx.2 ?_
          rw [c', ← e2, b, hw]
          field_simp
          ring
      · rintro ⟨a, b⟩
        exact ⟨a.le, .inl (lt_of_le_of_ne b hx.2)⟩
    have hval : (gaussianReal 0 1).real (histBin (binBounds min max n) i) = c * ∫ x in (m - w / 2)..(m + w / 2), bell x := by
      rw [measureReal_congr hbin, Measure.real, gaussianReal_apply_eq_integral 0 one_ne_zero,
        ENNReal.toReal_ofReal (integral_nonneg fun x => gaussianPDFReal_nonneg 0 1 x),
        intervalIntegral.integral_of_le (by linarith), ← integral_const_mul]
      refine integral_congr_ae (.of_forall fun x => ?_)
      simp only [gaussianPDFReal, hc, bell]
      simp
    rw [hval]
    have hb := bell_mid m (w / 2) (by linarith)
    rw [show 2 * (w / 2) * bell m = bell m * w by ring] at hb
    have e : c * bell m * w * total - total * (c * ∫ x in (m - w / 2)..(m + w / 2), bell x) =
        -(total * c) * ((∫ x in (m - w / 2)..(m + w / 2), bell x) - bell m * w) := by ring
    rw [e, abs_mul, abs_neg, abs_of_nonneg (by positivity : 0 ≤ (total : ℝ) * c)]
    calc _ ≤ total * c * ((w / 2) ^ 3 / 3) := mul_le_mul_of_nonneg_left hb (by positivity)
      _ = _ := by rw [hc]; field_simp; ring

/-- the histogram of tests/random_histogram.rs: 100 bins from -4 to 4, a million numbers; the curve is off the mean of every
inner bin by less than 9 numbers. -/
theorem C109_histogram (i : Nat) (h0 : 0 < i) (h1 : i < 99) :
    ∃ x y, (gaussCurve Real.pi (-4) 4 100 1000000)[i]? = some (x, y) ∧
      |y - 1000000 * (gaussianReal 0 1).real {u | clampSample (-4) 4 100 u ∈ histBin (binBounds (-4) 4 100) i}| < 9 := by
  obtain ⟨-, y, hy, hb⟩ := C109_curve (-4) 4 100 1000000 (by norm_num) (by norm_num) i (by omega)
  refine ⟨_, y, hy, ?_⟩
  have hset : {u | clampSample (-4 : ℝ) 4 100 u ∈ histBin (binBounds (-4) 4 100) i} = histBin (binBounds (-4) 4 100) i := by
    ext u
    rw [Set.mem_ofPred_eq, (C109_clamped (-4) 4 100 (by norm_num) (by norm_num) u).2.2 i (by omega)]
    constructor
    · rintro (h | ⟨h, -⟩ | ⟨h, -⟩)
      · exact h
      · omega
      · omega
    · exact .inl
  rw [hset]
  push_cast at hb
  refine hb.trans_lt ?_
  have : (2.5 : ℝ) ≤ Real.sqrt (2 * Real.pi) := Real.le_sqrt_of_sq_le (by nlinarith [Real.pi_gt_three.le, show (3.125 : ℝ) ≤ Real.pi from by linarith [Real.pi_gt_d2]])
  rw [div_lt_iff₀ (by positivity)]
  nlinarith

/-- a disk, and an ideal generator, exist; the number format of whole numbers is faithful. -/
example : ∃ s : Circ ℝ, Circ.new 3 2 = .ok s ∧ ∀ n, Samples (tapeLaw) (fun loops g => (circPoints ⟨fun _ => [], fun _ => none, 0⟩ tapeRng s loops n g).map
    fun r => (r.1.2.map fun _ => r.1.1, r.2))
      (fun xs : Fin n → Fin 2 → ℝ => pointText ⟨fun _ => [], fun _ => none, 0⟩ (List.ofFn fun i => (xs i 0, xs i 1)))
      (Measure.pi fun _ => uniformLaw (ballSet 2 3)) := by
  have hnew : Circ.new (3 : ℝ) 2 = .ok ⟨.continuousCircular, .reflection, 3, 2⟩ := by simp [Circ.new]
  exact ⟨_, hnew, fun n => C109_disk _ tapeRng tapeLaw tape_ideal 3 _ hnew n⟩

example : (Str.splitBy (· == '\n') (pointText natFmt [(1, 20), (300, 4)])).map (fun l => (Str.splitBy (· == '\t') l).map natFmt.parse) =
    [[some 1, some 20], [some 300, some 4], [none]] := by decide +kernel


end Moledyn.Props
