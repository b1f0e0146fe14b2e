import Verif.Lemmas.Wrapping
import Verif.Props.Scalar
/-!
# C30: what the serialiser writes for a string loads as the string
-/
namespace Verif.Props
open Verif Verif.Ser Verif.Spec Verif.Scanner
variable {F : Type}

/-- C30 in full: whatever the formatter's line width, and however the string is divided into words. -/
def C30_full (fo : FloatOps F) : Prop :=
  ∀ fm v words, Segmentation v words → ∃ out, toPrettyStringStr fm v words = some out ∧ LoadsAs fo out v

theorem pretty_multi (fm : Formatter) (v words) : toPrettyStringStr fm v words = some (34 :: (multiLoop fm 0 words [] 0 ++ [34])) := by
  simp [toPrettyStringStr, serializeStr, useComplexForm, writeDoubleQuoteMulti]

/-- **C30 (partial)** For every line width and every division into words: a string without quotation marks, backslashes, line breaks and
NULs, without two adjacent blanks and without a `---` or `...` between blanks is written as a text that loads as the string.
Missing: other strings, for which it may be false (the `C30_…_false` theorems), and strings inside collections. -/
theorem C30_wrapped_partial (fo : FloatOps F) (fm : Formatter) (v : List Byte) (words : List (List Byte × Nat)) (hw : Segmentation v words)
    (h1 : NoSpecials v) (h2 : SingleBlanks v) (h3 : NoMarkers v) : ∃ out, toPrettyStringStr fm v words = some out ∧ LoadsAs fo out v := by
  refine ⟨_, pretty_multi fm v words, ?_⟩
  obtain ⟨rfl, hne⟩ := hw
  have hwr := multi_wrapped fm words [] 0 hne (by simpa using h2) (fun h => (h1 10 (by simpa using h)).2.2.1 rfl)
  exact folded_loads fo (wrapped_folded (by simpa using hwr) h1 h2 h3) ⟨by simp, _, rfl⟩

/-- **C30 (partial)** A string that fits on a line needs neither of the last two conditions. -/
theorem C30_unwrapped_partial (fo : FloatOps F) (fm : Formatter) (v : List Byte) (words : List (List Byte × Nat)) (hw : Segmentation v words)
    (h1 : NoSpecials v) (h2 : totalLength words ≤ fm.prefStringLength) : ∃ out, toPrettyStringStr fm v words = some out ∧ LoadsAs fo out v := by
  refine ⟨_, pretty_multi fm v words, ?_⟩
  obtain ⟨rfl, hne⟩ := hw
  rw [multi_short fm words [] 0 (by simpa using h2)]
  simpa using folded_loads fo (folded_refl h1) (q := []) ⟨by simp, _, rfl⟩

/-- a string that is wrapped twice at width 5 -/
def exWords : List (List Byte × Nat) := [(bs!"one", 3), (bs!" ", 1), (bs!"two", 3), (bs!" ", 1), (bs!"---x", 4), (bs!"!", 1)]

example : toPrettyStringStr { Formatter.default with prefStringLength := 5 } bs!"one two ---x!" exWords = some bs!"\"one\ntwo\n---x!\"" ∧
    Segmentation bs!"one two ---x!" exWords ∧ NoSpecials bs!"one two ---x!" ∧ SingleBlanks bs!"one two ---x!" ∧ NoMarkers bs!"one two ---x!" := by
  refine ⟨by decide, ⟨by decide, by decide⟩, by unfold NoSpecials; decide, ?_, ?_⟩
  · rintro x y (rfl | rfl) (rfl | rfl) <;> decide
  · rintro d c (rfl | rfl) (rfl | rfl) <;> decide

/-- one text does not load as two strings -/
theorem loadsAs_unique {fo : FloatOps F} {t v v'} (h : LoadsAs fo t v) (h' : LoadsAs fo t v') : v = v' := by
  obtain ⟨N, h⟩ := h
  obtain ⟨N', h'⟩ := h'
  have a := (h ⟨N + N', true⟩ (N + N') (by simp) (by omega)).2
  have b := (h' ⟨N + N', true⟩ (N + N') (by simp) (by omega)).2
  rw [a] at b
  simpa using b

/-- **C30 is false.** Nothing is escaped: `a" #b` loads as `a`, `\n` (a backslash and an `n`) as a line feed, a line feed as a space. And two
spaces where a line is too long are written as an empty line, which loads as a line feed. -/
theorem C30_serialise_false (fo : FloatOps F) :
    (∃ out, toPrettyStringStr .pretty bs!"a\" #b" [(bs!"a\" #b", 6)] = some out ∧ LoadsAs fo out bs!"a") ∧
    (∃ out, toPrettyStringStr .pretty bs!"\\n" [(bs!"\\n", 2)] = some out ∧ LoadsAs fo out bs!"\n") ∧
    (∃ out, toPrettyStringStr .pretty bs!"a\nb" [(bs!"a", 1), (bs!"\n", 1), (bs!"b", 1)] = some out ∧ LoadsAs fo out bs!"a b") ∧
    (∃ out, toPrettyStringStr { Formatter.pretty with prefStringLength := 2 } bs!"a  b" [(bs!"a", 1), (bs!"  ", 2), (bs!"b", 1)] = some out ∧
      LoadsAs fo out bs!"a\nb") ∧
    ¬ C30_full fo := by
  have ha : Chars bs!"a" bs!"a" := .same (by unfold Ordinary; decide) .nil
  have hb : Folded bs!"b" bs!"b" := .stop (.same (by unfold Ordinary; decide) .nil)
  have ink : InkHead bs!"b" := by intro c hc; cases hc; decide
  have mark : NotDocMark bs!"b" := by rintro d c r - h; cases h
  have k1 : ∃ out, toPrettyStringStr .pretty bs!"a\" #b" [(bs!"a\" #b", 6)] = some out ∧ LoadsAs fo out bs!"a" :=
    ⟨_, rfl, folded_loads fo (m := bs!"a") (q := bs!" #b\"") (.stop ha) ⟨by decide, _, rfl⟩⟩
  refine ⟨k1, ?_, ?_, ?_, ?_⟩
  · exact ⟨_, rfl, folded_loads fo (m := bs!"\\n") (q := []) (.stop (.esc (e := bs!"\\n") rfl .nil)) ⟨by decide, _, rfl⟩⟩
  · exact ⟨_, rfl, folded_loads fo (m := bs!"a\nb") (q := []) (.line (n := 0) ha ink mark hb) ⟨by decide, _, rfl⟩⟩
  · exact ⟨_, rfl, folded_loads fo (m := bs!"a\n\nb") (q := []) (.line (n := 1) ha ink mark hb) ⟨by decide, _, rfl⟩⟩
  · intro h
    obtain ⟨out, h1, h2⟩ := h .pretty bs!"a\" #b" [(bs!"a\" #b", 6)] ⟨by decide, by decide⟩
    obtain ⟨out', h1', h2'⟩ := k1
    rw [h1] at h1'
    cases h1'
    have := loadsAs_unique h2 h2'
    revert this
    decide

end Verif.Props
