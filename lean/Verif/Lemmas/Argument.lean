import Verif.Lemmas.Text
import Verif.Spec.Argument
/-
Lemmas on lines, trimming and configuration blocks.
-/
namespace Moledyn
namespace Str

theorem isWs_cr : isWs '\r' = true := by decide

theorem trim_cons_ws {c : Char} {s : Str} (hc : isWs c = true) : trim (c :: s) = trim s := by
  simp [trim, trimMatches, trimStart, hc]

theorem trim_snoc_ws {c : Char} {s : Str} (hc : isWs c = true) : trim (s ++ [c]) = trim s := by
  simp only [trim, trimMatches, trimStart, List.dropWhile_append]
  split
  · rename_i h
    have h' : List.dropWhile isWs s = [] := by simpa using h
    simp [h', hc]
  · simp [trimEnd, hc]

theorem stripCR_cases (s : Str) : stripCR s = s ∨ ∃ t, s = t ++ ['\r'] ∧ stripCR s = t := by
  unfold stripCR
  split
  · rename_i h
    right
    obtain ⟨hne, hl⟩ := List.getLast?_eq_some_iff.1 h
    exact ⟨hne, hl, by simp [hl]⟩
  · left; rfl

theorem trim_stripCR (s : Str) : trim (stripCR s) = trim s := by
  rcases stripCR_cases s with h | ⟨t, h1, h2⟩
  · rw [h]
  · rw [h2, h1, trim_snoc_ws isWs_cr]

theorem stripCR_append (a : Str) {b : Str} (hb : b ≠ []) : stripCR (a ++ b) = a ++ stripCR b := by
  unfold stripCR
  rw [List.getLast?_append_of_ne_nil _ hb]
  split
  · rw [List.dropLast_append_of_ne_nil hb]
  · rfl

theorem mem_stripCR {s : Str} {c : Char} (h : c ∈ stripCR s) : c ∈ s := by
  rcases stripCR_cases s with h' | ⟨t, h1, h2⟩
  · rwa [h'] at h
  · rw [h2] at h; rw [h1]; simp [h]

theorem lines_cons {l rest : Str} (hl : '\n' ∉ l) :
    lines (l ++ '\n' :: rest) = stripCR l :: lines rest := by
  unfold lines
  rw [splitBy_cons (fun c hc => by
    have : c ≠ '\n' := fun h => hl (h ▸ hc)
    simp [this]) (by decide)]
  cases h : splitBy (· == '\n') rest with
  | nil => exact absurd h (splitBy_ne_nil _ _)
  | cons w ws => rfl

theorem lines_nil : lines [] = [] := by rfl

theorem mem_padRight {w : Nat} {s : Str} {c : Char} (h : c ∈ padRight w s) : c ∈ s ∨ c = ' ' := by
  simp only [padRight, List.mem_append, List.mem_replicate] at h
  tauto

/-- the line written for one field, split at the colon. -/
theorem split_line {w : Nat} {name s : Str} (hn : ':' ∉ name) (hs : ':' ∉ s) :
    splitBy (· == ':') (stripCR (padRight w name ++ [':', ' '] ++ s)) =
      [padRight w name, stripCR (' ' :: s)] := by
  have e : padRight w name ++ [':', ' '] ++ s = padRight w name ++ ([':'] ++ (' ' :: s)) := by simp
  rw [e, stripCR_append _ (by simp), stripCR_append _ (by simp)]
  show splitBy _ (padRight w name ++ ':' :: stripCR (' ' :: s)) = _
  rw [splitBy_cons ?_ (by decide), splitBy_clean ?_]
  · intro c hc
    have : c ≠ ':' := by
      rintro rfl
      have := mem_stripCR hc
      simp only [List.mem_cons] at this
      rcases this with h | h
      · exact absurd h (by decide)
      · exact hs h
    simp [this]
  · intro c hc
    have : c ≠ ':' := by
      rintro rfl
      rcases mem_padRight hc with h | h
      · exact hn h
      · exact absurd h (by decide)
    simp [this]

theorem noNL_line {w : Nat} {name s : Str} (hn : '\n' ∉ name) (hs : '\n' ∉ s) :
    '\n' ∉ padRight w name ++ [':', ' '] ++ s := by
  intro h
  simp only [List.mem_append, List.mem_cons, List.not_mem_nil, or_false] at h
  rcases h with (h | h | h) | h
  · rcases mem_padRight h with h | h
    · exact hn h
    · exact absurd h (by decide)
  · exact absurd h (by decide)
  · exact absurd h (by decide)
  · exact hs h

end Str
end Moledyn
