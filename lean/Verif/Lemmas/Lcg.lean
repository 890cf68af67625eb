import Verif.Model.Pcg
import Mathlib.Dynamics.PeriodicPts.Lemmas
import Mathlib.Data.BitVec
import Mathlib.SetTheory.Cardinal.Finite
import Mathlib.Tactic.Ring
import Mathlib.Tactic.Linarith
/-
Helper lemmas: a linear congruential generator modulo a power of two has the full period.
-/
namespace Moledyn
open Function

/-- `1 + a + … + a^(n-1)`. -/
def geo (a : Nat) : Nat → Nat
  | 0 => 0
  | n + 1 => geo a n * a + 1

theorem geo_add (a m n : Nat) : geo a (m + n) = geo a m * a ^ n + geo a n := by
  induction n with
  | zero => simp [geo]
  | succ n ih => rw [← Nat.add_assoc, geo, ih, geo, pow_succ]; ring

theorem pow_two_pow {a : Nat} (ha : a % 4 = 1) (k : Nat) : ∃ v, a ^ 2 ^ k = 1 + 2 ^ (k + 2) * v := by
  induction k with
  | zero => exact ⟨a / 4, by simp; omega⟩
  | succ k ih =>
    obtain ⟨v, hv⟩ := ih
    refine ⟨v + 2 ^ (k + 1) * v ^ 2, ?_⟩
    rw [pow_succ 2 k, pow_mul, hv]
    ring

theorem geo_two_pow {a : Nat} (ha : a % 4 = 1) (k : Nat) : ∃ u, geo a (2 ^ k) = 2 ^ k * (2 * u + 1) := by
  induction k with
  | zero => exact ⟨0, by simp [geo]⟩
  | succ k ih =>
    obtain ⟨u, hu⟩ := ih
    obtain ⟨v, hv⟩ := pow_two_pow ha k
    refine ⟨u + (2 * u + 1) * (2 ^ k * v), ?_⟩
    rw [pow_succ 2 k, mul_two, geo_add, hu, hv]
    ring

/-- the generator. -/
def lcg {w : Nat} (a c s : BitVec w) : BitVec w := s * a + c

theorem lcg_iterate {w : Nat} (a c s : BitVec w) (n : Nat) :
    ((lcg a c)^[n] s).toNat = (s.toNat * a.toNat ^ n + c.toNat * geo a.toNat n) % 2 ^ w := by
  induction n with
  | zero => simp [geo, Nat.mod_eq_of_lt s.isLt]
  | succ n ih =>
    rw [iterate_succ_apply', lcg, BitVec.toNat_add, BitVec.toNat_mul, ih, Nat.mod_add_mod, geo]
    conv_lhs => rw [Nat.add_mod, Nat.mod_mul_mod, ← Nat.add_mod]
    congr 1
    ring

theorem lcg_period {w : Nat} {a c : BitVec w} (ha : a.toNat % 4 = 1) (s : BitVec w) : IsPeriodicPt (lcg a c) (2 ^ w) s := by
  refine BitVec.eq_of_toNat_eq ?_
  obtain ⟨v, hv⟩ := pow_two_pow ha w
  obtain ⟨u, hu⟩ := geo_two_pow ha w
  rw [lcg_iterate, hv, hu, show s.toNat * (1 + 2 ^ (w + 2) * v) + c.toNat * (2 ^ w * (2 * u + 1)) =
    s.toNat + 2 ^ w * (s.toNat * 4 * v + c.toNat * (2 * u + 1)) by ring, Nat.add_mul_mod_self_left, Nat.mod_eq_of_lt s.isLt]

theorem lcg_not_period {k : Nat} {a c : BitVec (k + 1)} (ha : a.toNat % 4 = 1) (hc : c.toNat % 2 = 1) (s : BitVec (k + 1)) :
    ¬ IsPeriodicPt (lcg a c) (2 ^ k) s := by
  intro h
  have h' : ((lcg a c)^[2 ^ k] s).toNat = s.toNat := congrArg _ h
  obtain ⟨v, hv⟩ := pow_two_pow ha k
  obtain ⟨u, hu⟩ := geo_two_pow ha k
  obtain ⟨d, hd⟩ : ∃ d, c.toNat = 2 * d + 1 := ⟨c.toNat / 2, by omega⟩
  rw [lcg_iterate, hv, hu, hd, show s.toNat * (1 + 2 ^ (k + 2) * v) + (2 * d + 1) * (2 ^ k * (2 * u + 1)) =
    (s.toNat + 2 ^ k) + 2 ^ (k + 1) * (s.toNat * 2 * v + 2 * d * u + d + u) by ring, Nat.add_mul_mod_self_left] at h'
  have h1 := s.isLt
  have h2 : 2 ^ (k + 1) = 2 ^ k + 2 ^ k := by rw [pow_succ]; ring
  have h3 : 0 < 2 ^ k := Nat.two_pow_pos k
  rcases lt_or_ge (s.toNat + 2 ^ k) (2 ^ (k + 1)) with h4 | h4
  · rw [Nat.mod_eq_of_lt h4] at h'; omega
  · rw [Nat.mod_eq_sub_mod h4, Nat.mod_eq_of_lt (by omega)] at h'; omega

/-- the full period. -/
theorem lcg_minimalPeriod {k : Nat} {a c : BitVec (k + 1)} (ha : a.toNat % 4 = 1) (hc : c.toNat % 2 = 1) (s : BitVec (k + 1)) :
    minimalPeriod (lcg a c) s = 2 ^ (k + 1) :=
  have : Fact (Nat.Prime 2) := ⟨Nat.prime_two⟩
  minimalPeriod_eq_prime_pow (lcg_not_period ha hc s) (lcg_period ha s)

/-- the states of one period are all states. -/
theorem lcg_orbit {k : Nat} {a c : BitVec (k + 1)} (ha : a.toNat % 4 = 1) (hc : c.toNat % 2 = 1) (s : BitVec (k + 1)) :
    Bijective fun n : Fin (2 ^ (k + 1)) => (lcg a c)^[n.val] s := by
  have hp := lcg_minimalPeriod ha hc s
  have inj : Injective fun n : Fin (2 ^ (k + 1)) => (lcg a c)^[n.val] s := by
    intro m n h
    have := iterate_injOn_Iio_minimalPeriod (f := lcg a c) (x := s) (by rw [hp]; exact m.isLt) (by rw [hp]; exact n.isLt) h
    exact Fin.ext this
  have h2 : Injective (fun n : Fin (2 ^ (k + 1)) => ((lcg a c)^[n.val] s).toFin) :=
    fun m n h => inj (BitVec.toFin_inj.1 h)
  have h3 := Finite.injective_iff_surjective.1 h2
  refine ⟨inj, fun t => ?_⟩
  obtain ⟨n, hn⟩ := h3 t.toFin
  exact ⟨n, BitVec.toFin_inj.1 hn⟩

theorem lcg_reaches {k : Nat} {a c : BitVec (k + 1)} (ha : a.toNat % 4 = 1) (hc : c.toNat % 2 = 1) (s t : BitVec (k + 1)) :
    ∃ n, n < 2 ^ (k + 1) ∧ (lcg a c)^[n] s = t := by
  obtain ⟨n, hn⟩ := (lcg_orbit ha hc s).2 t
  exact ⟨n, n.isLt, hn⟩

theorem rotateRight_rotateLeft {w : Nat} (x : BitVec w) (r : Nat) : (x.rotateLeft r).rotateRight r = x := by
  apply BitVec.eq_of_getLsbD_eq
  intro i hi
  have : r % w < w := Nat.mod_lt _ (by omega)
  rw [BitVec.getLsbD_rotateRight]
  by_cases h : i < w - r % w
  · rw [decide_eq_true h, cond_true, BitVec.getLsbD_rotateLeft, decide_eq_false (by omega), cond_false, decide_eq_true (by omega)]
    simp
  · rw [decide_eq_false h, cond_false, decide_eq_true hi, BitVec.getLsbD_rotateLeft, decide_eq_true (by omega), cond_true]
    simp only [Bool.true_and]
    congr 1; omega

theorem rotateLeft_rotateRight {w : Nat} (x : BitVec w) (r : Nat) : (x.rotateRight r).rotateLeft r = x := by
  apply BitVec.eq_of_getLsbD_eq
  intro i hi
  have : r % w < w := Nat.mod_lt _ (by omega)
  rw [BitVec.getLsbD_rotateLeft]
  by_cases h : i < r % w
  · rw [decide_eq_true h, cond_true, BitVec.getLsbD_rotateRight, decide_eq_false (by omega), cond_false, decide_eq_true (by omega)]
    simp only [Bool.true_and]
    congr 1; omega
  · rw [decide_eq_false h, cond_false, decide_eq_true hi, BitVec.getLsbD_rotateRight, decide_eq_true (by omega), cond_true]
    simp only [Bool.true_and]
    congr 1; omega

end Moledyn
