import Verif.Props.SingleSearch
/-
Helper lemmas, any arithmetic in which a buffer of zeros is neutral: the variants that write into a buffer do what those that
make a new vector do.
-/
namespace Moledyn
variable {G F S : Type}

/-- A product that is added to zero, and zero to it, stays what it is: so in exact arithmetic, and with every rounding. -/
def NeutralZero (F : Type) [Fl F] : Prop := ∀ x y : F, Fl.zero + x * y + Fl.zero = x * y

theorem neutral_real : NeutralZero ℝ := by
  intro x y
  simp

theorem neutral_rounded (R : Rounding) : NeutralZero (RF R) := by
  intro x y
  have z : (Fl.zero : RF R).val = 0 := by simp [Fl.zero, R.zero]
  apply RF.ext
  rw [RF.val_add, RF.val_add, z, zero_add, add_zero, RF.val_mul, R.idem, R.idem]

variable [Fl F]

/-- on a buffer of zeros the in-place variant writes exactly what `random_move` returns. -/
theorem variants_agree_any (hz : NeutralZero F) (rng : RngOps G F) (a : IndepAgent F) (D : F)
    (hm : a.mtype = .brownian D) (g : G) (dt : F) :
    ∃ p g', a.randomMove rng g dt = (.ok p, g') ∧ p.length = a.dim ∧
      a.randomMoveToVec rng g dt (List.replicate a.dim Fl.zero) = ((p, .ok ()), g') := by
  have h := ((Props.C39_random_move rng).1 a g dt (List.replicate a.dim Fl.zero)).1 D hm
  have hlen : ∀ n g, (delivered rng.gaussian n g).length = n := by
    intro n
    induction n with
    | zero => intro g; rfl
    | succ n ih => intro g; simp [delivered, ih]
  refine ⟨_, _, h.1, by simp [hlen], ?_⟩
  rw [h.2 (by simp)]
  congr 2
  have : ∀ (l : List F) (c : F), List.zipWith (fun old r => old + r * c + Fl.zero) (List.replicate l.length Fl.zero) l =
      l.map (· * c) := by
    intro l c
    induction l with
    | nil => rfl
    | cons x l ih =>
      rw [List.length_cons, List.replicate_succ, List.zipWith_cons_cons, List.map_cons, ih, hz]
  have h2 := this (delivered rng.gaussian a.dim g) (Fl.sqrt (Fl.lit 2 * D * dt))
  rw [hlen] at h2
  exact h2

open Props in
/-- a turn with a buffer of the right dimension does what a turn with a new vector does. -/
theorem bufferTurn_any (hz : NeutralZero F) (rng : RngOps G F) (sys : SysOps G F) (dt : F) {n : Nat} (a : IndepAgent F) (b : Pos F) (g : G)
    (ha : a.dim = n) (hb : b.length = n) :
    ∃ b' : Pos F, b'.length = n ∧ bufferTurn rng sys dt (a, b, g) =
      (((freshTurn rng sys dt (a, g)).1.1, b', (freshTurn rng sys dt (a, g)).1.2), (freshTurn rng sys dt (a, g)).2) ∧
      (freshTurn rng sys dt (a, g)).1.1.dim = n := by
  have hc : b.clear (Fl.zero : F) = List.replicate a.dim Fl.zero := by
    simp [Pos.clear, ha, hb, List.map_const']
  cases hm : a.mtype with
  | brownian D =>
    obtain ⟨p, g', h1, h2, h3⟩ := variants_agree_any hz rng a D hm g dt
    refine ⟨p, by rw [h2, ha], ?_, ?_⟩
    · unfold bufferTurn freshTurn
      simp only [hc, h1, h3]
    · unfold freshTurn; simp only [h1]; exact ha
  | levy =>
    have h := ((C39_random_move rng).1 a g dt (List.replicate a.dim Fl.zero)).2.2 hm
    have h3 := h.2 (by simp)
    refine ⟨List.replicate a.dim Fl.zero, by simp [ha], ?_, ?_⟩
    · unfold bufferTurn freshTurn
      simp only [hc, h.1, h3]
    · unfold freshTurn; simp only [h.1]; exact ha

end Moledyn
