import Verif.Lemmas.Str
import Verif.Model.TypesText
import Verif.Spec.Text
/-
Lemmas on words of printed sentences.
-/
namespace Moledyn
namespace Str

theorem words_append {s t : Str} {c : Char} (hc : isWs c = true) :
    words (s ++ c :: t) = words s ++ words t := by
  rw [words, splitBy_append s t hc, List.filter_append]
  rfl

theorem words_snoc {s w : Str} {c : Char} (hc : isWs c = true) (hw : ∀ c ∈ w, isWs c = false)
    (hne : w ≠ []) : words (s ++ c :: w) = words s ++ [w] := by
  rw [words_append hc, words_word hw hne]

theorem words_lit {a : Str} (b : Str) (t : Str) (h : a = b ++ [' ']) :
    words (a ++ t) = words b ++ words t := by
  subst h
  rw [List.append_assoc]
  exact words_append (by decide)

theorem words_blank {s : Str} (h : Str.Blank s) : words s = [] := by
  have := words_ws_append [] h
  simpa [words_nil] using this

theorem words_eq_nil_iff {s : Str} : words s = [] ↔ Str.Blank s := by
  refine ⟨fun h => ?_, words_blank⟩
  induction s with
  | nil => intro c hc; simp at hc
  | cons c s ih =>
    by_cases hc : isWs c = true
    · have h' : words s = [] := by
        have := words_ws_append (a := [c]) s (by simp [hc])
        rw [← this]; simpa using h
      intro d hd
      rcases List.mem_cons.1 hd with rfl | hd
      · exact hc
      · exact ih h' d hd
    · exfalso
      simp only [words, splitBy, hc, Bool.false_eq_true, if_false] at h
      cases hs : splitBy isWs s with
      | nil => exact absurd hs (splitBy_ne_nil _ _)
      | cons w ws => rw [hs] at h; simp at h

theorem dropBytes_ascii3 {a b c : Char} (ha : a.utf8Size = 1) (hb : b.utf8Size = 1)
    (hc : c.utf8Size = 1) (s : Str) : dropBytes 3 (a :: b :: c :: s) = .ok s := by
  unfold dropBytes; rw [ha]; simp
  unfold dropBytes; rw [hb]; simp
  unfold dropBytes; rw [hc]; simp
  unfold dropBytes; rfl

end Str
end Moledyn
