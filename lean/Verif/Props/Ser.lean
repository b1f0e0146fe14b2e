import Verif.Lemmas.Ser
/-!
# C31: escaping strings for the serialiser
-/
namespace Verif.Props
open Verif Verif.Ser Verif.Spec

/-- C31 in full: escaping returns for every byte string. -/
def C31_full : Prop := ∀ v, escapeDoubleQuotes v ≠ none

/-- C31 is false: a text ending in `\x4` makes the escaping slice past the end of the text. -/
theorem C31_escaping_false : ¬ C31_full := fun h => h bs!"a\\x4" (by decide)

/-- C31, the part that holds: escaping returns for every text in which each `\x`, `\u` and `\U` is followed by two, four and six
bytes. Missing: other texts, where it may panic (`C31_escaping_false`). -/
theorem C31_escaping_partial (v : List Byte) (h : ¬ TruncatedEscape v) : escapeDoubleQuotes v ≠ none := by
  obtain ⟨o, ho⟩ := esc_total (Nat.le_refl _) h
  rw [escape_eq, ho]; simp

/-- Exactly which texts are escaped, and what is written for them. -/
theorem C31_escaping_exact (v o : List Byte) : escapeDoubleQuotes v = some o ↔ Escaped v o := by
  rw [escape_eq]
  exact ⟨esc_sound, fun h => esc_complete h (Nat.le_refl _)⟩

/-- a text of every kind of unit meets the hypothesis of `C31_escaping_partial` -/
example : ¬ TruncatedEscape bs!"a\t\\x41\r\n\\u00e9\\q" ∧
    escapeDoubleQuotes bs!"a\t\\x41\r\n\\u00e9\\q" = some (bs!"a\\tA\\n" ++ [0xC3, 0xA9] ++ bs!"\\q") := by
  refine ⟨?_, by decide⟩
  rintro ⟨a, c, n, b, h1, h2, h3⟩
  have key : ∀ k, k < 17 → ∀ c n b, (bs!"a\t\\x41\r\n\\u00e9\\q").drop k = b%'\\' :: c :: b → digitsAfter c = some n → ¬ b.length < n := by
    intro k hk c n b h
    have : k = 0 ∨ k = 1 ∨ k = 2 ∨ k = 3 ∨ k = 4 ∨ k = 5 ∨ k = 6 ∨ k = 7 ∨ k = 8 ∨ k = 9 ∨ k = 10 ∨ k = 11 ∨ k = 12 ∨ k = 13 ∨ k = 14 ∨
      k = 15 ∨ k = 16 := by omega
    rcases this with rfl | rfl | rfl | rfl | rfl | rfl | rfl | rfl | rfl | rfl | rfl | rfl | rfl | rfl | rfl | rfl | rfl <;>
      simp at h
    all_goals
      obtain ⟨rfl, rfl⟩ := h
      intro hn
      simp [digitsAfter] at hn
      try subst hn
      try simp
  have hl := congrArg List.length h1
  refine key a.length ?_ c n b ?_ h2 h3
  · simp at hl; omega
  · rw [h1]; simp

/-- What is written need not be well-formed UTF-8, although it is passed on as a string (`from_utf8_unchecked`): the bytes after `\x`
are counted without regard to characters, so that `\xaé` is cut in the middle of the `é`. -/
theorem C31_utf8_false : ∃ v o, Utf8.valid v = true ∧ escapeDoubleQuotes v = some o ∧ Utf8.valid o = false :=
  ⟨bs!"\\xa" ++ [0xC3, 0xA9], [0xEF, 0xBF, 0xBD, 0xA9], by decide, by decide, by decide⟩

end Verif.Props
