import Verif.Model.Position
import Mathlib.Tactic.Linarith
import Mathlib.Tactic.Positivity
/-
Helper lemmas on vectors of reals.
-/
namespace Moledyn
namespace Pos

/-! ### folds as sums -/

/-- Euclidean norm squared of a list. -/
def sumSq (p : List ℝ) : ℝ := (p.map fun x => x ^ 2).sum

@[simp] theorem sumSq_nil : sumSq [] = 0 := rfl
@[simp] theorem sumSq_cons (x : ℝ) (p : List ℝ) : sumSq (x :: p) = x ^ 2 + sumSq p := by simp [sumSq]

theorem sumSq_nonneg (p : List ℝ) : 0 ≤ sumSq p := by
  induction p with
  | nil => simp
  | cons x p ih => rw [sumSq_cons]; positivity

theorem foldl_norm (p : List ℝ) (acc : ℝ) :
    p.foldl (fun res x => res + x * x) acc = acc + sumSq p := by
  induction p generalizing acc with
  | nil => simp
  | cons x p ih => rw [List.foldl_cons, ih, sumSq_cons]; ring

theorem norm_eq (p : Pos ℝ) : norm p = Real.sqrt (sumSq p) := by
  unfold norm
  have := foldl_norm p 0
  simp only [fl_sqrt, fl_zero, fl_add, fl_mul]
  rw [this, zero_add]

theorem norm_nonneg (p : Pos ℝ) : 0 ≤ norm p := by rw [norm_eq]; exact Real.sqrt_nonneg _

theorem norm_sq (p : Pos ℝ) : norm p ^ 2 = sumSq p := by
  rw [norm_eq, Real.sq_sqrt (sumSq_nonneg p)]

theorem sumSq_eq_zero (p : List ℝ) : sumSq p = 0 ↔ ∀ x ∈ p, x = 0 := by
  induction p with
  | nil => simp
  | cons x p ih =>
    rw [sumSq_cons]
    constructor
    · intro h
      have h1 : x ^ 2 = 0 := by have := sumSq_nonneg p; nlinarith [sq_nonneg x]
      have h2 : sumSq p = 0 := by have := sumSq_nonneg p; nlinarith [sq_nonneg x]
      intro y hy
      rcases List.mem_cons.1 hy with rfl | hy
      · exact pow_eq_zero_iff (two_ne_zero) |>.1 h1
      · exact ih.1 h2 y hy
    · intro h
      rw [h x (by simp), ih.2 (fun y hy => h y (by simp [hy]))]; norm_num

theorem sumSq_scale (p : List ℝ) (c : ℝ) : sumSq (p.map (· * c)) = c ^ 2 * sumSq p := by
  induction p with
  | nil => simp
  | cons x p ih => rw [List.map_cons, sumSq_cons, sumSq_cons, ih]; ring

theorem norm_scale (p : List ℝ) (c : ℝ) : norm (p.map (· * c)) = |c| * norm p := by
  rw [norm_eq, norm_eq, sumSq_scale, Real.sqrt_mul (sq_nonneg c), Real.sqrt_sq_eq_abs]

theorem sumSq_append (p q : List ℝ) : sumSq (p ++ q) = sumSq p + sumSq q := by simp [sumSq]

/-! ### differences -/

/-- coordinatewise difference -/
def diff (a b : List ℝ) : List ℝ := List.zipWith (· - ·) a b

theorem foldl_dist (a b : List ℝ) (acc : ℝ) :
    (a.zip b).foldl (fun r q => r + (q.1 - q.2) * (q.1 - q.2)) acc = acc + sumSq (diff a b) := by
  induction a generalizing b acc with
  | nil => simp [diff]
  | cons x a ih =>
    cases b with
    | nil => simp [diff]
    | cons y b => simp only [List.zip_cons_cons, List.foldl_cons, ih, diff, List.zipWith_cons_cons, sumSq_cons]; ring

theorem distance_eq (a b : Pos ℝ) (h : a.length = b.length) :
    distance a b = .ok (Real.sqrt (sumSq (diff a b))) := by
  unfold distance dim
  have := foldl_dist a b 0
  simp only [fl_sqrt, fl_zero, fl_add, fl_mul, fl_sub]
  rw [this, zero_add]
  simp [h]

theorem sumSq_diff_comm (a b : List ℝ) : sumSq (diff a b) = sumSq (diff b a) := by
  induction a generalizing b with
  | nil => simp [diff]
  | cons x a ih =>
    cases b with
    | nil => simp [diff]
    | cons y b =>
      have := ih b
      simp only [diff] at this
      simp only [diff, List.zipWith_cons_cons, sumSq_cons, this]; ring

theorem sumSq_diff_eq_zero (a b : List ℝ) (h : a.length = b.length) :
    sumSq (diff a b) = 0 ↔ a = b := by
  induction a generalizing b with
  | nil =>
    cases b with
    | nil => simp [diff]
    | cons y b => simp at h
  | cons x a ih =>
    cases b with
    | nil => simp at h
    | cons y b =>
      have ih := ih b (by simpa using h)
      have h1 := sumSq_nonneg (diff a b)
      simp only [diff] at ih h1
      simp only [diff, List.zipWith_cons_cons, sumSq_cons, List.cons.injEq]
      constructor
      · intro h0
        have hx : (x - y) ^ 2 = 0 := by nlinarith [sq_nonneg (x - y)]
        have hs : sumSq (List.zipWith (· - ·) a b) = 0 := by nlinarith [sq_nonneg (x - y)]
        exact ⟨by have := pow_eq_zero_iff (two_ne_zero) |>.1 hx; linarith, ih.1 hs⟩
      · rintro ⟨rfl, hab⟩
        rw [ih.2 hab]; ring

/-! ### inner product, Cauchy-Schwarz, triangle -/

/-- inner product of two lists -/
def ip (a b : List ℝ) : ℝ := (List.zipWith (· * ·) a b).sum

theorem foldl_ip (a b : List ℝ) (acc : ℝ) :
    (a.zip b).foldl (fun r q => r + q.1 * q.2) acc = acc + ip a b := by
  induction a generalizing b acc with
  | nil => simp [ip]
  | cons x a ih =>
    cases b with
    | nil => simp [ip]
    | cons y b => simp only [List.zip_cons_cons, List.foldl_cons, ih, ip, List.zipWith_cons_cons, List.sum_cons]; ring

theorem innerProduct_eq (a b : Pos ℝ) (h : a.length = b.length) :
    innerProduct a b = .ok (ip a b) := by
  unfold innerProduct dim
  have := foldl_ip a b 0
  simp only [fl_zero, fl_add, fl_mul]
  rw [this, zero_add]
  simp [h]

@[simp] theorem ip_cons (x y : ℝ) (a b : List ℝ) : ip (x :: a) (y :: b) = x * y + ip a b := by
  simp [ip]
@[simp] theorem ip_nil_left (b : List ℝ) : ip [] b = 0 := by simp [ip]
@[simp] theorem ip_nil_right (a : List ℝ) : ip a [] = 0 := by simp [ip]

theorem ip_sq_le (a b : List ℝ) : ip a b ^ 2 ≤ sumSq a * sumSq b := by
  induction a generalizing b with
  | nil => simp
  | cons x a ih =>
    cases b with
    | nil => simp
    | cons y b =>
      rw [ip_cons, sumSq_cons, sumSq_cons]
      have ih := ih b
      have ha := sumSq_nonneg a
      have hb := sumSq_nonneg b
      set A := sumSq a
      set B := sumSq b
      set P := ip a b
      have h1 : |P| ≤ Real.sqrt A * Real.sqrt B := by
        rw [← Real.sqrt_mul ha]
        exact Real.abs_le_sqrt ih
      have hA := Real.sq_sqrt ha
      have hB := Real.sq_sqrt hb
      have h2 : 2 * (x * y) * P ≤ x ^ 2 * B + y ^ 2 * A := by
        have h3 : 2 * (x * y) * P ≤ 2 * |x * y| * |P| := by
          calc 2 * (x * y) * P ≤ |2 * (x * y) * P| := le_abs_self _
            _ = 2 * |x * y| * |P| := by rw [abs_mul, abs_mul, abs_two]
        have h4 : 2 * |x * y| * |P| ≤ 2 * |x * y| * (Real.sqrt A * Real.sqrt B) :=
          mul_le_mul_of_nonneg_left h1 (by positivity)
        have h5 : 2 * |x * y| * (Real.sqrt A * Real.sqrt B) ≤ x ^ 2 * B + y ^ 2 * A := by
          have hs := sq_nonneg (|x| * Real.sqrt B - |y| * Real.sqrt A)
          have hx := sq_abs x
          have hy := sq_abs y
          rw [abs_mul]
          calc 2 * (|x| * |y|) * (Real.sqrt A * Real.sqrt B)
              = |x| ^ 2 * Real.sqrt B ^ 2 + |y| ^ 2 * Real.sqrt A ^ 2
                  - (|x| * Real.sqrt B - |y| * Real.sqrt A) ^ 2 := by ring
            _ ≤ x ^ 2 * B + y ^ 2 * A := by rw [hx, hy, hA, hB]; linarith
        linarith
      nlinarith

theorem sumSq_add (a b : List ℝ) (h : a.length = b.length) :
    sumSq (List.zipWith (· + ·) a b) = sumSq a + 2 * ip a b + sumSq b := by
  induction a generalizing b with
  | nil => cases b with
    | nil => simp
    | cons y b => simp at h
  | cons x a ih =>
    cases b with
    | nil => simp at h
    | cons y b =>
      rw [List.zipWith_cons_cons, sumSq_cons, ih b (by simpa using h), sumSq_cons, sumSq_cons, ip_cons]; ring

theorem sqrt_sq_add_le (a b : List ℝ) (h : a.length = b.length) :
    Real.sqrt (sumSq (List.zipWith (· + ·) a b)) ≤ Real.sqrt (sumSq a) + Real.sqrt (sumSq b) := by
  apply Real.sqrt_le_iff.2
  refine ⟨add_nonneg (Real.sqrt_nonneg _) (Real.sqrt_nonneg _), ?_⟩
  rw [sumSq_add a b h, add_sq, Real.sq_sqrt (sumSq_nonneg a), Real.sq_sqrt (sumSq_nonneg b)]
  have : ip a b ≤ Real.sqrt (sumSq a) * Real.sqrt (sumSq b) := by
    rw [← Real.sqrt_mul (sumSq_nonneg a)]
    exact le_trans (le_abs_self _) (Real.abs_le_sqrt (ip_sq_le a b))
  linarith

theorem diff_add_diff (a b c : List ℝ) (h1 : a.length = b.length) (h2 : b.length = c.length) :
    List.zipWith (· + ·) (diff a b) (diff b c) = diff a c := by
  induction a generalizing b c with
  | nil => simp [diff]
  | cons x a ih =>
    cases b with
    | nil => simp at h1
    | cons y b =>
      cases c with
      | nil => simp at h2
      | cons z c =>
        have := ih b c (by simpa using h1) (by simpa using h2)
        simp only [diff] at this ⊢
        simp [this]

theorem length_diff (a b : List ℝ) (h : a.length = b.length) : (diff a b).length = a.length := by
  simp [diff, h]

theorem dist_triangle (a b c : List ℝ) (h1 : a.length = b.length) (h2 : b.length = c.length) :
    Real.sqrt (sumSq (diff a c)) ≤ Real.sqrt (sumSq (diff a b)) + Real.sqrt (sumSq (diff b c)) := by
  rw [← diff_add_diff a b c h1 h2]
  apply sqrt_sq_add_le
  rw [length_diff a b h1, length_diff b c h2, h1]

/-! ### in-place operations -/

theorem mutZip_fst {T : Type} (op : T → T → T) (a b : Pos T) (h : a.length ≤ b.length) :
    mutZip op a b = (List.zipWith op a b, .ok ()) := by
  induction a generalizing b with
  | nil => simp [mutZip]
  | cons x a ih =>
    cases b with
    | nil => simp at h
    | cons y b => simp [mutZip, ih b (by simpa using h)]

theorem mutZip_panic {T : Type} (op : T → T → T) (a b : Pos T) (h : b.length < a.length) :
    mutZip op a b = (List.zipWith op a b ++ a.drop b.length, .panic) := by
  induction a generalizing b with
  | nil => simp at h
  | cons x a ih =>
    cases b with
    | nil => simp [mutZip]
    | cons y b => simp [mutZip, ih b (by simpa using h)]

theorem mutZip_length {T : Type} (op : T → T → T) (a b : Pos T) :
    (mutZip op a b).1.length = a.length := by
  rcases Nat.lt_or_ge b.length a.length with h | h
  · rw [mutZip_panic op a b h]; simp; omega
  · rw [mutZip_fst op a b h]; simp [h]

theorem mutAddBench_eq {T : Type} [Add T] (a b : Pos T) :
    mutAddBench a b = List.zipWith (· + ·) a b ++ a.drop b.length := by
  induction a generalizing b with
  | nil => simp [mutAddBench]
  | cons x a ih =>
    cases b with
    | nil => simp [mutAddBench]
    | cons y b => simp [mutAddBench, ih b]

/-! ### taxi distance -/

/-- exact taxi distance -/
def taxi (a b : List ℤ) : ℤ := (List.zipWith (fun x y => |x - y|) a b).sum

@[simp] theorem taxi_nil : taxi [] [] = 0 := rfl
@[simp] theorem taxi_cons (x y : ℤ) (a b : List ℤ) : taxi (x :: a) (y :: b) = |x - y| + taxi a b := by
  simp [taxi]

theorem taxi_nonneg (a b : List ℤ) : 0 ≤ taxi a b := by
  induction a generalizing b with
  | nil => simp [taxi]
  | cons x a ih =>
    cases b with
    | nil => simp [taxi]
    | cons y b => rw [taxi_cons]; have := ih b; positivity

theorem foldl_panic {α : Type} (l : List (ℤ × ℤ)) (f : α → ℤ × ℤ → Res α) :
    l.foldl (fun (acc : Res α) q => acc.bind fun r => f r q) .panic = .panic := by
  induction l with
  | nil => rfl
  | cons q l ih => simpa using ih

theorem foldl_taxi (a b : List ℤ) (r : ℤ) (hr : 0 ≤ r) (hr2 : r < 2 ^ 31) :
    (a.zip b).foldl (fun (acc : Res ℤ) q => acc.bind fun r =>
      (chk32 (q.1 - q.2)).bind fun d => (chk32 |d|).bind fun e => chk32 (r + e)) (.ok r)
    = if r + taxi a b < 2 ^ 31 then .ok (r + taxi a b) else .panic := by
  induction a generalizing b r with
  | nil => simpa [taxi] using hr2
  | cons x a ih =>
    cases b with
    | nil => simpa [taxi] using hr2
    | cons y b =>
      rw [List.zip_cons_cons, List.foldl_cons, taxi_cons]
      have hn := taxi_nonneg a b
      simp only [Res.bind_ok]
      by_cases h : r + |x - y| < 2 ^ 31
      · have hx : |x - y| < 2 ^ 31 := by omega
        have hx' := abs_lt.1 hx
        have hp : 0 ≤ |x - y| := abs_nonneg _
        have e1 : chk32 (x - y) = .ok (x - y) := by unfold chk32; rw [if_pos]; constructor <;> omega
        have e2 : chk32 |x - y| = .ok |x - y| := by unfold chk32; rw [if_pos]; constructor <;> omega
        have e3 : chk32 (r + |x - y|) = .ok (r + |x - y|) := by
          unfold chk32; rw [if_pos]; constructor <;> omega
        rw [e1, Res.bind_ok, e2, Res.bind_ok, e3, ih b _ (by omega) h]
        rw [add_assoc]
      · have hpanic : ((chk32 (x - y)).bind fun d => (chk32 |d|).bind fun e => chk32 (r + e)) = .panic := by
          unfold chk32
          split
          · simp only [Res.bind_ok]
            split
            · simp only [Res.bind_ok]
              rw [if_neg]; intro hc; omega
            · rfl
          · rfl
        rw [hpanic, foldl_panic _ (fun (r : ℤ) q => (chk32 (q.1 - q.2)).bind fun d => (chk32 |d|).bind fun e => chk32 (r + e)), if_neg (by omega)]

theorem taxiDistance_eq (a b : Pos ℤ) (h : a.length = b.length) :
    taxiDistance a b = if taxi a b < 2 ^ 31 then .ok (taxi a b) else .panic := by
  unfold taxiDistance dim
  rw [foldl_taxi a b 0 le_rfl (by norm_num)]
  simp [h]

theorem taxi_comm (a b : List ℤ) : taxi a b = taxi b a := by
  induction a generalizing b with
  | nil => cases b <;> simp [taxi]
  | cons x a ih =>
    cases b with
    | nil => simp [taxi]
    | cons y b => rw [taxi_cons, taxi_cons, ih, abs_sub_comm]

theorem taxi_eq_zero (a b : List ℤ) (h : a.length = b.length) : taxi a b = 0 ↔ a = b := by
  induction a generalizing b with
  | nil => cases b with
    | nil => simp
    | cons y b => simp at h
  | cons x a ih =>
    cases b with
    | nil => simp at h
    | cons y b =>
      have ih := ih b (by simpa using h)
      have h1 := taxi_nonneg a b
      have h2 : 0 ≤ |x - y| := abs_nonneg _
      rw [taxi_cons]
      constructor
      · intro h0
        have e1 : |x - y| = 0 := by omega
        have e2 : taxi a b = 0 := by omega
        rw [abs_eq_zero, sub_eq_zero] at e1
        rw [e1, ih.1 e2]
      · intro he
        injection he with e1 e2
        rw [ih.2 e2, e1]; simp

theorem taxi_triangle (a b c : List ℤ) (h1 : a.length = b.length) (h2 : b.length = c.length) :
    taxi a c ≤ taxi a b + taxi b c := by
  induction a generalizing b c with
  | nil => cases b with
    | nil => cases c with
      | nil => simp
      | cons z c => simp at h2
    | cons y b => simp at h1
  | cons x a ih =>
    cases b with
    | nil => simp at h1
    | cons y b =>
      cases c with
      | nil => simp at h2
      | cons z c =>
        have := ih b c (by simpa using h1) (by simpa using h2)
        rw [taxi_cons, taxi_cons, taxi_cons]
        have := abs_sub_le x y z
        omega

end Pos
end Moledyn
