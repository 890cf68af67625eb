import Verif.Model.Str
import Mathlib.Tactic.Linarith
import Mathlib.Data.Nat.Digits.Lemmas
/-
Helper lemmas on the string functions.
-/
namespace Moledyn
namespace Str

theorem dropWhile_all {p : Char → Bool} {a s : Str} (ha : ∀ c ∈ a, p c = true)
    (hs : ∀ c ∈ s.head?, p c = false) : (a ++ s).dropWhile p = s := by
  induction a with
  | nil =>
    cases s with
    | nil => rfl
    | cons c s => simp [hs c (by simp)]
  | cons c a ih => simp [ha c (by simp)]; simpa using ih (fun c hc => ha c (by simp [hc]))

theorem trimEnd_all {p : Char → Bool} {s b : Str} (hb : ∀ c ∈ b, p c = true)
    (hs : ∀ c ∈ s.getLast?, p c = false) : trimEnd p (s ++ b) = s := by
  unfold trimEnd
  rw [List.reverse_append, dropWhile_all (by simpa using hb) (by simpa using hs)]
  simp

/-- trimming removes exactly a prefix and suffix of matching characters around a core that does not
begin or end with one -/
theorem trimMatches_core {p : Char → Bool} {a s b : Str} (ha : ∀ c ∈ a, p c = true)
    (hb : ∀ c ∈ b, p c = true) (h1 : ∀ c ∈ s.head?, p c = false)
    (h2 : ∀ c ∈ s.getLast?, p c = false) : trimMatches p (a ++ s ++ b) = s := by
  unfold trimMatches trimStart
  cases s with
  | nil =>
    have : (a ++ [] ++ b).dropWhile p = [] := by
      have : ∀ c ∈ a ++ [] ++ b, p c = true := by
        intro c hc; simp at hc; rcases hc with h | h
        · exact ha c h
        · exact hb c h
      have h := dropWhile_all (s := []) this (by simp)
      simpa using h
    rw [this]; rfl
  | cons c s =>
    have : (a ++ c :: s ++ b).dropWhile p = c :: s ++ b := by
      rw [List.append_assoc]
      exact dropWhile_all ha (by simpa using h1 c (by simp))
    rw [this]
    exact trimEnd_all hb h2

theorem trimMatches_clean {p : Char → Bool} {a s b : Str} (ha : ∀ c ∈ a, p c = true)
    (hb : ∀ c ∈ b, p c = true) (hs : ∀ c ∈ s, p c = false) : trimMatches p (a ++ s ++ b) = s :=
  trimMatches_core ha hb (fun c hc => hs c (List.mem_of_mem_head? hc))
    (fun c hc => hs c (List.mem_of_mem_getLast? hc))

theorem trim_id {s : Str} (h1 : ∀ c ∈ s.head?, isWs c = false)
    (h2 : ∀ c ∈ s.getLast?, isWs c = false) : trim s = s := by
  have := trimMatches_core (p := isWs) (a := []) (b := []) (s := s) (by simp) (by simp) h1 h2
  simpa [trim] using this

theorem splitBy_ne_nil (p : Char → Bool) (s : Str) : splitBy p s ≠ [] := by
  induction s with
  | nil => simp [splitBy]
  | cons c s ih =>
    unfold splitBy
    split
    · simp
    · split <;> simp

theorem splitBy_clean {p : Char → Bool} {w : Str} (hw : ∀ c ∈ w, p c = false) :
    splitBy p w = [w] := by
  induction w with
  | nil => rfl
  | cons c w ih =>
    have := ih (fun c hc => hw c (by simp [hc]))
    simp [splitBy, hw c (by simp), this]

theorem splitBy_cons {p : Char → Bool} {w : Str} {c : Char} {s : Str} (hw : ∀ c ∈ w, p c = false)
    (hc : p c = true) : splitBy p (w ++ c :: s) = w :: splitBy p s := by
  induction w with
  | nil => simp [splitBy, hc]
  | cons d w ih =>
    have := ih (fun c hc => hw c (by simp [hc]))
    simp [splitBy, hw d (by simp), this]

/-- number of pieces is one more than the number of separators -/
theorem length_splitBy (p : Char → Bool) (s : Str) :
    (splitBy p s).length = s.countP p + 1 := by
  induction s with
  | nil => rfl
  | cons c s ih =>
    unfold splitBy
    by_cases hc : p c = true
    · simp [hc, ih]
    · simp only [hc, Bool.false_eq_true, if_false, List.countP_cons]
      cases h : splitBy p s with
      | nil => exact absurd h (splitBy_ne_nil p s)
      | cons w ws =>
        rw [h] at ih
        simpa using ih

/-- splitting at a point where a separator stands -/
theorem splitBy_append {p : Char → Bool} (s t : Str) {c : Char} (hc : p c = true) :
    splitBy p (s ++ c :: t) = splitBy p s ++ splitBy p t := by
  induction s with
  | nil => simp [splitBy, hc]
  | cons d s ih =>
    by_cases hd : p d = true
    · simp [splitBy, hd, ih]
    · simp only [List.cons_append, splitBy, hd, Bool.false_eq_true, if_false, ih]
      cases h : splitBy p s with
      | nil => exact absurd h (splitBy_ne_nil p s)
      | cons w ws => simp

/-! ### words -/

theorem words_nil : words [] = [] := by simp [words, splitBy]

theorem words_ws_append {a : Str} (s : Str) (ha : ∀ c ∈ a, isWs c = true) :
    words (a ++ s) = words s := by
  induction a with
  | nil => rfl
  | cons c a ih =>
    have := ih (fun c hc => ha c (by simp [hc]))
    rw [← this]
    simp [words, splitBy, ha c (by simp)]

theorem words_word {w : Str} (hw : ∀ c ∈ w, isWs c = false) (hne : w ≠ []) : words w = [w] := by
  simp [words, splitBy_clean hw, hne]

theorem words_cons {w : Str} {c : Char} {s : Str} (hw : ∀ c ∈ w, isWs c = false) (hne : w ≠ [])
    (hc : isWs c = true) : words (w ++ c :: s) = w :: words s := by
  simp [words, splitBy_cons hw hc, hne]

/-! ### numbers -/

theorem digitVal_digitChar {d : Nat} (h : d < 10) : digitVal (digitChar d) = some d := by
  interval_cases d <;> decide

theorem digitChar_props {d : Nat} (h : d < 10) :
    isWs (digitChar d) = false ∧ digitChar d ≠ ',' ∧ digitChar d ≠ ':' ∧ digitChar d ≠ '(' ∧
      digitChar d ≠ ')' ∧ digitChar d ≠ '+' ∧ digitChar d ≠ '-' ∧ digitChar d ≠ '.' := by
  interval_cases d <;> decide

theorem parseDigits_append (acc : Nat) (s t : Str) :
    parseDigits acc (s ++ t) = (parseDigits acc s).bind (parseDigits · t) := by
  induction s generalizing acc with
  | nil => simp [parseDigits]
  | cons c s ih =>
    simp only [List.cons_append, parseDigits]
    cases digitVal c with
    | none => rfl
    | some d => exact ih _

theorem parseDigits_digits (ds : List Nat) (h : ∀ d ∈ ds, d < 10) :
    parseDigits 0 (ds.map digitChar).reverse = some (Nat.ofDigits 10 ds) := by
  induction ds with
  | nil => rfl
  | cons d ds ih =>
    rw [List.map_cons, List.reverse_cons, parseDigits_append, ih (fun d hd => h d (by simp [hd]))]
    simp [parseDigits, digitVal_digitChar (h d (by simp)), Nat.ofDigits_cons]
    omega

theorem printNat_digits (n : Nat) :
    ∃ ds : List Nat, ds ≠ [] ∧ (∀ d ∈ ds, d < 10) ∧ printNat n = (ds.map digitChar).reverse ∧
      Nat.ofDigits 10 ds = n := by
  unfold printNat
  by_cases h : n = 0
  · subst h
    exact ⟨[0], by simp, by simp, by decide, by simp⟩
  · refine ⟨Nat.digits 10 n, Nat.digits_ne_nil_iff_ne_zero.2 h, ?_, by simp [h], Nat.ofDigits_digits 10 n⟩
    intro d hd
    exact Nat.digits_lt_base (by norm_num) hd

theorem printNat_mem {n : Nat} {c : Char} (h : c ∈ printNat n) : ∃ d < 10, c = digitChar d := by
  obtain ⟨ds, _, hd, hp, _⟩ := printNat_digits n
  rw [hp] at h
  simp at h
  obtain ⟨d, h1, h2⟩ := h
  exact ⟨d, hd d h1, h2.symm⟩

theorem printNat_ne_nil (n : Nat) : printNat n ≠ [] := by
  obtain ⟨ds, hne, _, hp, _⟩ := printNat_digits n
  rw [hp]; simpa using hne

theorem printNat_not_ws {n : Nat} : ∀ c ∈ printNat n, isWs c = false := by
  intro c hc
  obtain ⟨d, hd, rfl⟩ := printNat_mem hc
  exact (digitChar_props hd).1

theorem parse_printNat {n : Nat} (h : n < 2 ^ 64) : parseNat (printNat n) = some n := by
  obtain ⟨ds, hne, hd, hp, hv⟩ := printNat_digits n
  have hplus : ∀ r, printNat n ≠ '+' :: r := by
    intro r hr
    have : '+' ∈ printNat n := by rw [hr]; simp
    obtain ⟨d, hd, h⟩ := printNat_mem this
    exact (digitChar_props hd).2.2.2.2.2.1 h.symm
  have hbody : stripPlus (printNat n) = printNat n := by
    unfold stripPlus
    split
    · rename_i r hr; exact absurd hr (hplus r)
    · rfl
  unfold parseNat
  rw [hbody]
  simp only [if_neg (printNat_ne_nil n)]
  rw [hp, parseDigits_digits ds hd, hv]
  simp only [if_pos h]

theorem parse_printNat_big {n : Nat} (h : 2 ^ 64 ≤ n) : parseNat (printNat n) = none := by
  obtain ⟨ds, hne, hd, hp, hv⟩ := printNat_digits n
  have hplus : ∀ r, printNat n ≠ '+' :: r := by
    intro r hr
    have : '+' ∈ printNat n := by rw [hr]; simp
    obtain ⟨d, hd, h⟩ := printNat_mem this
    exact (digitChar_props hd).2.2.2.2.2.1 h.symm
  have hbody : stripPlus (printNat n) = printNat n := by
    unfold stripPlus
    split
    · rename_i r hr; exact absurd hr (hplus r)
    · rfl
  unfold parseNat
  rw [hbody]
  simp only [if_neg (printNat_ne_nil n)]
  rw [hp, parseDigits_digits ds hd, hv]
  simp; omega

end Str
end Moledyn
