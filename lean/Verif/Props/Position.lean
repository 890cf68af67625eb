import Verif.Lemmas.Position
import Verif.Lemmas.Str
import Verif.Spec.Position
/-
Property theorems C29-C32 (src/position.rs).
-/
namespace Moledyn.Props
open Pos hiding norm

/-! ## C29: distance -/

/-- For any arithmetic: `distance` answers exactly when the dimensions agree, and otherwise reports
InvalidDimension; so does `inner_product`. -/
theorem C29_defined_iff_same_dim {F : Type} [Fl F] (a b : Pos F) :
    ((∃ d, distance a b = .ok d) ↔ a.length = b.length) ∧
    (a.length ≠ b.length → distance a b = .err .invalidDimension) ∧
    ((∃ d, innerProduct a b = .ok d) ↔ a.length = b.length) ∧
    (a.length ≠ b.length → innerProduct a b = .err .invalidDimension) := by
  unfold distance innerProduct dim
  by_cases h : a.length = b.length <;> simp [h]

/-- For any arithmetic: the distance is the norm of the difference vector. -/
theorem C29_distance_is_norm_of_difference {F : Type} [Fl F] (a b : Pos F)
    (h : a.length = b.length) :
    ∃ c, sub a b = .ok c ∧ distance a b = .ok (Pos.norm c) := by
  refine ⟨List.zipWith (· - ·) a b, by simp [sub, dim, h], ?_⟩
  unfold distance Pos.norm dim
  rw [if_neg (by simp [h])]
  have key : ∀ (a b : List F) (acc : F),
      (a.zip b).foldl (fun r q => r + (q.1 - q.2) * (q.1 - q.2)) acc =
      (List.zipWith (· - ·) a b).foldl (fun res x => res + x * x) acc := by
    intro a
    induction a with
    | nil => intro b acc; simp
    | cons x a ih =>
      intro b acc
      cases b with
      | nil => simp
      | cons y b => simp [ih]
  rw [key]

/-- Exact arithmetic: the distance is the Euclidean one. -/
theorem C29_euclidean (a b : Pos ℝ) (h : a.length = b.length) :
    distance a b = .ok (Real.sqrt (List.zipWith (fun x y => (x - y) ^ 2) a b).sum) := by
  rw [distance_eq a b h]
  congr 2
  simp [sumSq, diff, List.map_zipWith]

/-- Exact arithmetic: metric axioms. -/
theorem C29_metric (a b c : Pos ℝ) (dab dba dbc dac : ℝ)
    (hab : distance a b = .ok dab) (hba : distance b a = .ok dba)
    (hbc : distance b c = .ok dbc) (hac : distance a c = .ok dac) :
    0 ≤ dab ∧ (dab = 0 ↔ a = b) ∧ dab = dba ∧ dac ≤ dab + dbc := by
  have h1 := (C29_defined_iff_same_dim a b).1.1 ⟨_, hab⟩
  have h2 := (C29_defined_iff_same_dim b c).1.1 ⟨_, hbc⟩
  rw [distance_eq a b h1] at hab
  rw [distance_eq b a h1.symm] at hba
  rw [distance_eq b c h2] at hbc
  rw [distance_eq a c (h1.trans h2)] at hac
  simp only [Res.ok.injEq] at hab hba hbc hac
  subst hab hba hbc hac
  refine ⟨Real.sqrt_nonneg _, ?_, by rw [sumSq_diff_comm], dist_triangle a b c h1 h2⟩
  rw [Real.sqrt_eq_zero (sumSq_nonneg _)]
  exact sumSq_diff_eq_zero a b h1

/-- Cauchy-Schwarz between `inner_product` and `norm`, and `inner_product` of a vector with itself is
its squared norm. -/
theorem C29_cauchy_schwarz (a b : Pos ℝ) (p : ℝ) (h : innerProduct a b = .ok p) :
    |p| ≤ Pos.norm a * Pos.norm b ∧ innerProduct a a = .ok (Pos.norm a ^ 2) := by
  have h1 := (C29_defined_iff_same_dim a b).2.2.1.1 ⟨_, h⟩
  rw [innerProduct_eq a b h1] at h
  simp only [Res.ok.injEq] at h
  subst h
  constructor
  · rw [norm_eq, norm_eq, ← Real.sqrt_mul (sumSq_nonneg a)]
    exact Real.abs_le_sqrt (ip_sq_le a b)
  · rw [innerProduct_eq a a rfl, norm_sq]
    congr 1
    simp only [ip, sumSq]
    have : ∀ l : List ℝ, List.zipWith (· * ·) l l = l.map fun x => x ^ 2 := by
      intro l
      induction l with
      | nil => rfl
      | cons x l ih => simp [pow_two]
    rw [this]

/-- `norm` is absolutely homogeneous and vanishes only at the origin. -/
theorem C29_norm (a : Pos ℝ) (c : ℝ) :
    0 ≤ Pos.norm a ∧ Pos.norm (scalarMul a c) = |c| * Pos.norm a ∧ (Pos.norm a = 0 ↔ ∀ x ∈ a, x = 0) := by
  refine ⟨norm_nonneg a, ?_, ?_⟩
  · exact norm_scale a c
  · rw [norm_eq, Real.sqrt_eq_zero (sumSq_nonneg _), sumSq_eq_zero]

/-- Symmetry survives rounding: for any monotone odd rounding the computed distance of `a, b` equals
the computed distance of `b, a`. -/
theorem C29_symmetric_under_rounding (R : Rounding) (a b : Pos (RF R)) :
    distance a b = distance b a := by
  unfold distance dim
  by_cases h : a.length = b.length
  · have key : ∀ (a b : List (RF R)) (acc : RF R),
        (a.zip b).foldl (fun r q => r + (q.1 - q.2) * (q.1 - q.2)) acc =
        (b.zip a).foldl (fun r q => r + (q.1 - q.2) * (q.1 - q.2)) acc := by
      intro a
      induction a with
      | nil => intro b acc; simp
      | cons x a ih =>
        intro b acc
        cases b with
        | nil => simp
        | cons y b =>
          have e : (x - y) * (x - y) = (y - x) * (y - x) := by
            ext
            simp only [RF.val_mul, RF.val_sub]
            have : x.val - y.val = -(y.val - x.val) := by ring
            rw [this, R.odd]; ring_nf
          simp only [List.zip_cons_cons, List.foldl_cons, e, ih]
    rw [key]; simp [h]
  · have h' : ¬ b.length = a.length := fun e => h e.symm
    simp [h, h']

/-- Integer positions: `taxi_distance` returns the sum of absolute differences exactly when it fits in
32 bits (overflow panics in a checked build), and is then a metric. -/
theorem C29_taxi (a b c : Pos ℤ) (hab : a.length = b.length) (hbc : b.length = c.length) :
    (taxiDistance a b = .ok (List.zipWith (fun x y => |x - y|) a b).sum ↔
      (List.zipWith (fun x y => |x - y|) a b).sum < 2 ^ 31) ∧
    (¬ (List.zipWith (fun x y => |x - y|) a b).sum < 2 ^ 31 → taxiDistance a b = .panic) ∧
    (∀ d, taxiDistance a b = .ok d → 0 ≤ d ∧ (d = 0 ↔ a = b) ∧ taxiDistance b a = .ok d) ∧
    (∀ d1 d2 d3, taxiDistance a b = .ok d1 → taxiDistance b c = .ok d2 → taxiDistance a c = .ok d3 →
      d3 ≤ d1 + d2) := by
  have e : (List.zipWith (fun x y => |x - y|) a b).sum = taxi a b := rfl
  rw [e]
  have hd : ∀ (a b : Pos ℤ) (d : ℤ), a.length = b.length → taxiDistance a b = .ok d → d = taxi a b := by
    intro a b d h hd
    rw [taxiDistance_eq a b h] at hd
    split at hd <;> simp at hd
    exact hd.symm
  refine ⟨?_, ?_, ?_, ?_⟩
  · rw [taxiDistance_eq a b hab]
    constructor
    · intro h; split at h
      · assumption
      · simp at h
    · intro h; rw [if_pos h]
  · intro h; rw [taxiDistance_eq a b hab, if_neg h]
  · intro d h
    have := hd a b d hab h
    subst this
    refine ⟨taxi_nonneg a b, taxi_eq_zero a b hab, ?_⟩
    rw [taxiDistance_eq a b hab] at h
    rw [taxiDistance_eq b a hab.symm, taxi_comm b a]
    exact h
  · intro d1 d2 d3 h1 h2 h3
    rw [hd a b d1 hab h1, hd b c d2 hbc h2, hd a c d3 (hab.trans hbc) h3]
    exact taxi_triangle a b c hab hbc

private theorem foldlI (r : ℝ) (l : List (ℤ × ℤ)) (h : ∀ q ∈ l, |q.1 - q.2| ≤ 46340) :
    l.foldl (fun (acc : Res ℝ) q => acc.bind fun r =>
      (chk32 (q.1 - q.2)).bind fun d => (chk32 (d * d)).bind fun e => .ok (r + ((e : ℤ) : ℝ))) (.ok r) =
    .ok (r + (l.map fun q => ((q.1 - q.2 : ℤ) : ℝ) ^ 2).sum) := by
  induction l generalizing r with
  | nil => simp
  | cons q l ih =>
    have hq := abs_le.1 (h q (by simp))
    have hsq : (q.1 - q.2) * (q.1 - q.2) < 2 ^ 31 := by nlinarith
    have h0 : 0 ≤ (q.1 - q.2) * (q.1 - q.2) := mul_self_nonneg _
    have e1 : chk32 (q.1 - q.2) = .ok (q.1 - q.2) := if_pos ⟨by omega, by omega⟩
    have e2 : chk32 ((q.1 - q.2) * (q.1 - q.2)) = .ok ((q.1 - q.2) * (q.1 - q.2)) := if_pos ⟨by omega, hsq⟩
    simp only [List.foldl_cons, Res.bind, e1, e2]
    have := ih (r + (((q.1 - q.2) * (q.1 - q.2) : ℤ) : ℝ)) (fun p hp => h p (by simp [hp]))
    simp only [Res.bind] at this
    rw [this, List.map_cons, List.sum_cons]
    congr 1
    push_cast; ring

private theorem foldlI_stuck (l : List (ℤ × ℤ)) :
    l.foldl (fun (acc : Res ℝ) q => acc.bind fun r =>
      (chk32 (q.1 - q.2)).bind fun d => (chk32 (d * d)).bind fun e => .ok (r + ((e : ℤ) : ℝ))) .panic = .panic := by
  induction l with
  | nil => rfl
  | cons q l ih => simpa [Res.bind] using ih

private theorem foldlI_panic (r : ℝ) (l : List (ℤ × ℤ)) (h : ∃ q ∈ l, 46340 < |q.1 - q.2|) :
    l.foldl (fun (acc : Res ℝ) q => acc.bind fun r =>
      (chk32 (q.1 - q.2)).bind fun d => (chk32 (d * d)).bind fun e => .ok (r + ((e : ℤ) : ℝ))) (.ok r) = .panic := by
  induction l generalizing r with
  | nil => simp at h
  | cons q l ih =>
    by_cases hq : |q.1 - q.2| ≤ 46340
    · have hq' := abs_le.1 hq
      have hsq : (q.1 - q.2) * (q.1 - q.2) < 2 ^ 31 := by nlinarith
      have h0 : 0 ≤ (q.1 - q.2) * (q.1 - q.2) := mul_self_nonneg _
      have e1 : chk32 (q.1 - q.2) = .ok (q.1 - q.2) := if_pos ⟨by omega, by omega⟩
      have e2 : chk32 ((q.1 - q.2) * (q.1 - q.2)) = .ok ((q.1 - q.2) * (q.1 - q.2)) := if_pos ⟨by omega, hsq⟩
      have := ih (r + (((q.1 - q.2) * (q.1 - q.2) : ℤ) : ℝ)) (by
        obtain ⟨p, hp, hp2⟩ := h
        rcases List.mem_cons.1 hp with rfl | hp
        · omega
        · exact ⟨p, hp, hp2⟩)
      simp only [List.foldl_cons]
      simp only [Res.bind, e1, e2] at this ⊢
      exact this
    · push Not at hq
      have hsq : 2 ^ 31 ≤ (q.1 - q.2) * (q.1 - q.2) := by
        rw [← abs_mul_abs_self]; nlinarith
      have e2 : chk32 ((q.1 - q.2) * (q.1 - q.2)) = .panic := if_neg (by omega)
      have e : ((Res.ok r).bind fun r => (chk32 (q.1 - q.2)).bind fun d =>
          (chk32 (d * d)).bind fun e => .ok (r + ((e : ℤ) : ℝ))) = .panic := by
        by_cases hd : -2 ^ 31 ≤ q.1 - q.2 ∧ q.1 - q.2 < 2 ^ 31
        · have e1 : chk32 (q.1 - q.2) = .ok (q.1 - q.2) := if_pos hd
          simp only [Res.bind, e1, e2]
        · have e1 : chk32 (q.1 - q.2) = .panic := if_neg hd
          simp only [Res.bind, e1]
      simp only [List.foldl_cons]
      rw [e]
      exact foldlI_stuck l

/-- Integer positions, exact arithmetic: `distance` of vectors of different lengths is an error; otherwise it is the
Euclidean distance if no coordinates differ by more than 46340, and panics (overflow of the square, debug build) if
some do.  The norm is defined for all vectors, so it is the distance to the origin only near it. -/
theorem C29_lattice_distance (a b : Pos ℤ) :
    (a.length ≠ b.length → distanceI (fun z => (z : ℝ)) a b = .err .invalidDimension) ∧
    (a.length = b.length → (∀ q ∈ a.zip b, |q.1 - q.2| ≤ 46340) →
      distanceI (fun z => (z : ℝ)) a b =
        .ok (Real.sqrt (List.zipWith (fun x y => ((x - y : ℤ) : ℝ) ^ 2) a b).sum)) ∧
    (a.length = b.length → (∃ q ∈ a.zip b, 46340 < |q.1 - q.2|) → distanceI (fun z => (z : ℝ)) a b = .panic) ∧
    normI (fun z => (z : ℝ)) a = Real.sqrt (a.map fun x : ℤ => (x : ℝ) ^ 2).sum := by
  refine ⟨fun h => ?_, fun h hq => ?_, fun h hq => ?_, ?_⟩
  · unfold distanceI; rw [if_pos (by simpa [dim] using h)]
  · unfold distanceI
    rw [if_neg (by simpa [dim] using h)]
    simp only [fl_add, fl_zero]
    rw [foldlI 0 _ hq]
    simp only [Res.map, zero_add, fl_sqrt]
    rw [List.map_zip_eq_zipWith]
    rfl
  · unfold distanceI
    rw [if_neg (by simpa [dim] using h)]
    simp only [fl_add, fl_zero]
    rw [foldlI_panic 0 _ hq]
    rfl
  · unfold normI
    simp only [fl_add, fl_zero, fl_mul, fl_sqrt]
    congr 1
    have : ∀ (r : ℝ) (l : List ℤ), l.foldl (fun (r : ℝ) (x : ℤ) => r + (x : ℝ) * (x : ℝ)) r = r + (l.map fun x : ℤ => (x : ℝ) ^ 2).sum := by
      intro r l
      induction l generalizing r with
      | nil => simp
      | cons x l ih => simp only [List.foldl_cons, ih, List.map_cons, List.sum_cons]; ring
    rw [this, zero_add]

example : distanceI (fun z => (z : ℝ)) [46341] [0] = .panic ∧
    distanceI (fun z => (z : ℝ)) [3, 0] [0, -4] = .ok 5 := by
  refine ⟨(C29_lattice_distance _ _).2.2.1 rfl ⟨(46341, 0), by simp, by norm_num⟩, ?_⟩
  rw [(C29_lattice_distance [3, 0] [0, -4]).2.1 rfl (by simp)]
  congr 1
  rw [show (List.zipWith (fun x y : ℤ => ((x - y : ℤ) : ℝ) ^ 2) [3, 0] [0, -4]).sum = 5 ^ 2 by norm_num]
  exact Real.sqrt_sq (by norm_num)

example : taxiDistance [1, -2, 3] [4, 0, 3] = .ok 5 := by decide
example : taxiDistance [2 ^ 30, 0] [0, -2 ^ 30] = .panic := by decide
example : distance [(3 : ℝ), 0] [0, 4] = .ok 5 := by
  rw [C29_euclidean [3, 0] [0, 4] rfl]; norm_num
  rw [show (25 : ℝ) = 5 ^ 2 by norm_num, Real.sqrt_sq (by norm_num)]

/-! ## C30: vector arithmetic -/

/-- Addition and subtraction are coordinatewise and defined (no panic) exactly for equal dimensions. -/
theorem C30_add_sub_coordinatewise {F : Type} [Fl F] (a b : Pos F) :
    (a.length = b.length →
      ∃ s d, add a b = .ok s ∧ sub a b = .ok d ∧ s.length = a.length ∧ d.length = a.length ∧
        ∀ (i : Nat) x y, a[i]? = some x → b[i]? = some y → s[i]? = some (x + y) ∧ d[i]? = some (x - y)) ∧
    (a.length ≠ b.length → add a b = .panic ∧ sub a b = .panic) := by
  constructor
  · intro h
    refine ⟨_, _, by simp only [add, dim, h]; simp; rfl, by simp only [sub, dim, h]; simp; rfl, ?_, ?_, ?_⟩
    · simp [h]
    · simp [h]
    · intro i x y hx hy
      simp [List.getElem?_zipWith, hx, hy]
  · intro h; simp [add, sub, dim, h]

/-- The in-place forms give the same values as the allocating ones (any arithmetic). -/
theorem C30_in_place_agree {F : Type} [Fl F] (a b : Pos F) (c : F) (h : a.length = b.length) :
    (∃ s, add a b = .ok s ∧ mutAdd a b = (s, .ok ()) ∧ mutAddBench a b = s) ∧
    (∃ d, sub a b = .ok d ∧ mutSub a b = (d, .ok ())) ∧
    mutScalarMul a c = scalarMul a c ∧ (scalarMul a c).length = a.length := by
  refine ⟨⟨List.zipWith (· + ·) a b, by simp [add, dim, h], mutZip_fst _ a b h.le, ?_⟩,
    ⟨List.zipWith (· - ·) a b, by simp [sub, dim, h], mutZip_fst _ a b h.le⟩, rfl, by simp [scalarMul]⟩
  rw [mutAddBench_eq]
  have : a.drop b.length = [] := by rw [List.drop_eq_nil_iff, h]
  rw [this, List.append_nil]

/-- Unequal dimensions: `mut_add`/`mut_sub` panic exactly when the operand is shorter (having already
changed the common coordinates), ignore extra coordinates otherwise; `mut_add_bench` never panics and
leaves the extra coordinates alone.  The dimension never changes. -/
theorem C30_in_place_unequal {F : Type} [Fl F] (a b : Pos F) :
    ((mutAdd a b).2 = .panic ↔ b.length < a.length) ∧ ((mutSub a b).2 = .panic ↔ b.length < a.length) ∧
    ((mutAdd a b).2 = .ok () ↔ a.length ≤ b.length) ∧
    (mutAdd a b).1 = List.zipWith (· + ·) a b ++ a.drop b.length ∧
    (mutSub a b).1 = List.zipWith (· - ·) a b ++ a.drop b.length ∧
    mutAddBench a b = (mutAdd a b).1 ∧
    (mutAdd a b).1.length = a.length ∧ (mutSub a b).1.length = a.length := by
  have hl1 := mutZip_length (fun x y : F => x + y) a b
  have hl2 := mutZip_length (fun x y : F => x - y) a b
  unfold mutAdd mutSub at *
  rcases Nat.lt_or_ge b.length a.length with h | h
  · rw [mutZip_panic _ a b h] at hl1 ⊢
    rw [mutZip_panic _ a b h] at hl2 ⊢
    refine ⟨by simp [h], by simp [h], by simp [h], rfl, rfl, mutAddBench_eq a b, hl1, hl2⟩
  · rw [mutZip_fst _ a b h] at hl1 ⊢
    rw [mutZip_fst _ a b h] at hl2 ⊢
    have hd : a.drop b.length = [] := by rw [List.drop_eq_nil_iff]; exact h
    refine ⟨by simp [h], by simp [h], by simp [h], by simp [hd], by simp [hd], ?_, hl1, hl2⟩
    rw [mutAddBench_eq, hd, List.append_nil]

/-- Exact arithmetic: adding then subtracting gives back the vector; addition commutes. -/
theorem C30_add_then_sub (a b : Pos ℝ) (h : a.length = b.length) :
    ((add a b).bind fun s => sub s b) = .ok a ∧ add a b = add b a ∧
    (mutSub (mutAdd a b).1 b).1 = a := by
  have e : List.zipWith (· - ·) (List.zipWith (· + ·) a b) b = a := by
    induction a generalizing b with
    | nil => simp
    | cons x a ih =>
      cases b with
      | nil => simp at h
      | cons y b => simp [ih b (by simpa using h)]
  refine ⟨?_, ?_, ?_⟩
  · have h1 : add a b = .ok (List.zipWith (· + ·) a b) := by simp [add, dim, h]
    rw [h1, Res.bind_ok]
    unfold sub dim
    rw [if_neg (by simp [h])]
    exact congrArg Res.ok e
  · unfold add dim
    rw [if_neg (by simp [h]), if_neg (by simp [h])]
    congr 1
    exact List.zipWith_comm_of_comm (fun x y => add_comm x y)
  · unfold mutSub mutAdd
    rw [mutZip_fst _ a b h.le, mutZip_fst _ _ b (by simp [h])]
    exact e

/-- `clear` keeps the dimension and makes every coordinate the default value. -/
theorem C30_clear {T : Type} (d : T) (a : Pos T) :
    (clear d a).length = a.length ∧ ∀ x ∈ clear d a, x = d := by
  constructor
  · simp [clear]
  · intro x hx; simp [clear] at hx; exact hx.2

example : mutAdd [(1 : ℝ), 2] [10] = ([1 + 10, 2], .panic) := by rfl
example : add [(1 : ℝ), 2] [10, 20] = .ok [1 + 10, 2 + 20] := by simp [add, dim]

/-! ## C31: text round trip -/

theorem withSeps_clean {T : Type} {f : NumFmt T} {ok : T → Prop} (hf : f.Faithful ok) (x : T)
    (rest : List (Char × T)) (hx : ok x) (hok : ∀ q ∈ rest, ok q.2)
    (hsep : ∀ q ∈ rest, q.1 = ',' ∨ q.1 = ':') :
    (∀ c ∈ withSeps f x rest, Str.isWs c = false ∧ c ≠ '(' ∧ c ≠ ')') ∧
    (Str.splitBy (fun c => c == ',' || c == ':') (withSeps f x rest)) =
      f.print x :: rest.map fun q => f.print q.2 := by
  induction rest generalizing x with
  | nil =>
    constructor
    · intro c hc
      have := hf.noPunct x hx c hc
      exact ⟨hf.noBlank x hx c hc, this.2.2.1, this.2.2.2⟩
    · simp only [withSeps, List.map_nil]
      apply Str.splitBy_clean
      intro c hc
      have := hf.noPunct x hx c hc
      simp [this.1, this.2.1]
  | cons q rest ih =>
    obtain ⟨d, y⟩ := q
    obtain ⟨h1, h2⟩ := ih y (hok (d, y) (by simp)) (fun q hq => hok q (by simp [hq])) (fun q hq => hsep q (by simp [hq]))
    have hd := hsep (d, y) (by simp)
    constructor
    · intro c hc
      simp only [withSeps, List.mem_append, List.mem_cons] at hc
      rcases hc with hc | rfl | hc
      · have := hf.noPunct x hx c hc
        exact ⟨hf.noBlank x hx c hc, this.2.2.1, this.2.2.2⟩
      · rcases hd with h | h <;> simp only at h <;> subst h <;> decide
      · exact h1 c hc
    · simp only [withSeps, List.map_cons]
      rw [Str.splitBy_cons, h2]
      · intro c hc
        have := hf.noPunct x hx c hc
        simp [this.1, this.2.1]
      · rcases hd with h | h <;> simp only at h <;> subst h <;> decide

/-- Whatever separators (`,` or `:`) stand between the printed coordinates, and whatever blanks
outside and parentheses inside surround the text, parsing gives the coordinates back. -/
theorem C31_parse_printed {T : Type} (f : NumFmt T) (ok : T → Prop) (hf : f.Faithful ok) (x : T)
    (rest : List (Char × T)) (hx : ok x) (hok : ∀ q ∈ rest, ok q.2)
    (hsep : ∀ q ∈ rest, q.1 = ',' ∨ q.1 = ':')
    (ws1 ws2 op cl : Str) (h1 : ∀ c ∈ ws1, Str.isWs c = true) (h2 : ∀ c ∈ ws2, Str.isWs c = true)
    (h3 : ∀ c ∈ op, c = '(' ∨ c = ')') (h4 : ∀ c ∈ cl, c = '(' ∨ c = ')') :
    fromStr f (ws1 ++ (op ++ withSeps f x rest ++ cl) ++ ws2) = .ok (x :: rest.map Prod.snd) := by
  obtain ⟨hc, hs⟩ := withSeps_clean hf x rest hx hok hsep
  have hpar : ∀ c, c = '(' ∨ c = ')' → Str.isWs c = false := by
    rintro c (rfl | rfl) <;> decide
  unfold fromStr
  simp only
  have e1 : Str.trim (ws1 ++ (op ++ withSeps f x rest ++ cl) ++ ws2) = op ++ withSeps f x rest ++ cl := by
    apply Str.trimMatches_clean h1 h2
    intro c hcm
    simp only [List.mem_append] at hcm
    rcases hcm with (h | h) | h
    · exact hpar c (h3 c h)
    · exact (hc c h).1
    · exact hpar c (h4 c h)
  have e2 : Str.trimMatches (fun c => c == '(' || c == ')') (op ++ withSeps f x rest ++ cl)
      = withSeps f x rest := by
    apply Str.trimMatches_clean
    · intro c h; rcases h3 c h with rfl | rfl <;> decide
    · intro c h; rcases h4 c h with rfl | rfl <;> decide
    · intro c h; simp [(hc c h).2.1, (hc c h).2.2]
  rw [e1, e2, hs]
  simp only [List.map_cons, List.map_map]
  rw [hf.roundtrip x hx]
  congr 1
  simp only [Option.getD_some, List.cons.injEq, true_and]
  apply List.map_congr_left
  intro q hq
  simp only [Function.comp]
  rw [hf.roundtrip q.2 (hok q hq)]; rfl

/-- Parsing what `Display` printed gives the position back, for every non-empty position. -/
theorem C31_display_roundtrip {T : Type} (f : NumFmt T) (ok : T → Prop) (hf : f.Faithful ok) (p : Pos T)
    (hp : ∀ x ∈ p, ok x) :
    (p ≠ [] → ∃ s, display f p = .ok s ∧ fromStr f s = .ok p) ∧
    (p = [] → display f p = .panic) := by
  constructor
  · intro hne
    cases p with
    | nil => exact absurd rfl hne
    | cons x xs =>
      have key : ∀ (xs : List T) (x : T) (pre : Str), xs.foldl (fun acc y => acc ++ [','] ++ f.print y) (pre ++ f.print x)
          = pre ++ withSeps f x (xs.map fun y => (',', y)) := by
        intro xs
        induction xs with
        | nil => intro x pre; simp [withSeps]
        | cons y ys ih =>
          intro x pre
          have := ih y (pre ++ f.print x ++ [','])
          simp only [List.foldl_cons, List.map_cons, withSeps]
          rw [this]; simp
      refine ⟨_, rfl, ?_⟩
      have hk := key xs x []
      simp only [List.nil_append] at hk
      rw [hk]
      have := C31_parse_printed f ok hf x (xs.map fun y => (',', y)) (hp x (by simp))
        (by intro q hq; simp at hq; obtain ⟨y, hy, rfl⟩ := hq; exact hp y (by simp [hy]))
        (by intro q hq; simp at hq; obtain ⟨y, _, rfl⟩ := hq; exact Or.inl rfl)
        [] [] [] [] (by simp) (by simp) (by simp) (by simp)
      simpa [Function.comp_def] using this
  · rintro rfl; rfl

/-- `usize` coordinates (64 bits) are printed and parsed faithfully, so the hypotheses are met. -/
theorem C31_usize_faithful : natFmt.Faithful (· < 2 ^ 64) where
  roundtrip _ h := Str.parse_printNat h
  noBlank _ _ c hc := Str.printNat_not_ws c hc
  noPunct _ _ c hc := by
    obtain ⟨d, hd, rfl⟩ := Str.printNat_mem hc
    have := Str.digitChar_props hd
    exact ⟨this.2.1, this.2.2.1, this.2.2.2.1, this.2.2.2.2.1⟩

example : fromStr natFmt " (12,0:7) ".toList = .ok [12, 0, 7] := by
  have := C31_parse_printed natFmt _ C31_usize_faithful 12 [(',', 0), (':', 7)] (by norm_num)
    (by simp) (by simp) [' '] [' '] ['('] [')'] (by decide) (by decide) (by decide) (by decide)
  have e : " (12,0:7) ".toList = [' '] ++ (['('] ++ withSeps natFmt 12 [(',', 0), (':', 7)] ++ [')']) ++ [' '] := by
    simp [withSeps, natFmt, Str.printNat, Str.digitChar]
  rw [e, this]; rfl

/-! ## C32: malformed text -/

/-- `from_str` never reports an error, whatever the text; the dimension it delivers is one more than
the number of separators in the trimmed text, hence at least 1. -/
theorem C32_never_rejects {T : Type} (f : NumFmt T) (s : Str) :
    ∃ p, fromStr f s = .ok p ∧ p ≠ [] ∧
      p.length = (Str.trimMatches (fun c => c == '(' || c == ')') (Str.trim s)).countP
        (fun c => c == ',' || c == ':') + 1 := by
  have hl : ((Str.splitBy (fun c => c == ',' || c == ':')
      (Str.trimMatches (fun c => c == '(' || c == ')') (Str.trim s))).map
      fun x => (f.parse x).getD f.dflt).length =
        (Str.trimMatches (fun c => c == '(' || c == ')') (Str.trim s)).countP
          (fun c => c == ',' || c == ':') + 1 := by
    rw [List.length_map, Str.length_splitBy]
  refine ⟨_, rfl, ?_, hl⟩
  intro h
  rw [h] at hl
  simp at hl

/-- In particular an unparsable text (not containing separators, blanks or parentheses) is accepted as
the one-dimensional default position, and the empty text too. -/
theorem C32_garbage_becomes_default {T : Type} (f : NumFmt T) (w : Str)
    (hw : ∀ c ∈ w, Str.isWs c = false ∧ c ≠ ',' ∧ c ≠ ':' ∧ c ≠ '(' ∧ c ≠ ')') (hp : f.parse w = none) :
    fromStr f w = .ok [f.dflt] := by
  unfold fromStr
  have e1 : Str.trim w = w := by
    have := Str.trimMatches_clean (p := Str.isWs) (a := []) (b := []) (s := w) (by simp) (by simp)
      (fun c hc => (hw c hc).1)
    simpa [Str.trim] using this
  have e2 : Str.trimMatches (fun c => c == '(' || c == ')') w = w := by
    have := Str.trimMatches_clean (p := fun c => c == '(' || c == ')') (a := []) (b := []) (s := w)
      (by simp) (by simp) (fun c hc => by simp [(hw c hc).2.2.2.1, (hw c hc).2.2.2.2])
    simpa using this
  simp only [e1, e2]
  rw [Str.splitBy_clean (fun c hc => by simp [(hw c hc).2.1, (hw c hc).2.2.1])]
  simp [hp]

example : fromStr natFmt "1,x2,3".toList = .ok [1, 0, 3] := by decide
example : fromStr natFmt "1, 2".toList = .ok [1, 0] := by decide

end Moledyn.Props
