import Verif.Lemmas.ScanQuoted
import Verif.Spec.ScannerRuns
/-!
# C02: the emitter's double-quoted strings are read back exactly
-/
namespace Verif.Props
open Verif Verif.Scanner Verif.Spec

/-- C02: in every state of the scanner in which a token may start (`indent ≤ col`), if the rest of the text is the double-quoted form the
emitter writes for `v`, followed by something that may follow a scalar, then one double-quoted scalar token with the value `v` is
produced, spanning from here to the next position looked at, and only text after the closing quotation mark is left. -/
theorem C02_double_quoted_reads_back (cfg : Cfg) (s : SSt) (v q post : List Byte) (hq : Emitter.escapeStr v = some q)
    (hr : s.src.rest = q ++ post) (hf : q.length ≤ cfg.fuel) (hc : 1 ≤ s.mark.col) (hi : s.indent ≤ s.mark.col)
    (hp : MayFollow (decide (0 < s.flowLevel)) post) :
    ∃ n s', scanFlowScalar cfg false s = (.ok ⟨⟨s.mark, s'.mark⟩, .scalar .doubleQuote v⟩, s') ∧
      s'.src.rest = post.drop n ∧ s'.mark.pos = s.mark.pos + q.length + n ∧ s'.mark.line = s.mark.line := by
  obtain ⟨m, hm⟩ := escapeLoop_split v
  have e : q = 34 :: (m ++ [34]) := by
    simp [Emitter.escapeStr, hm] at hq
    exact hq.symm
  subst e
  obtain ⟨n, h⟩ := scanFlowScalar_escaped (cfg := cfg) (s := s) (post := post) hm (by simp [hr]) (by simp at hf; omega) hc hi hp
  refine ⟨n, _, h, ?_, by simp [on]; omega, rfl⟩
  have e2 : (on s (m.length + 2)).src.rest = post := on_rest (w := 34 :: m ++ [34]) (by simp [hr]) (by simp)
  rw [← on_on]
  simp only [on, Source.Src.skip] at e2 ⊢
  rw [e2]

/-- the writer never fails, so every string has such a form -/
theorem C02_every_string_has_a_form (v : List Byte) : ∃ q, Emitter.escapeStr v = some q := by
  obtain ⟨m, hm⟩ := escapeLoop_split v
  exact ⟨34 :: (m ++ [34]), by simp [Emitter.escapeStr, hm]⟩

/-- a string with a quotation mark, a backslash, control characters, runs of spaces and a two byte character, followed by a comment -/
example : ∃ q, Emitter.escapeStr (bs!" a  \"b\\\n\t" ++ [0, 0xC3, 0xA9, 0x7f]) = some q ∧
    ((scanInput ⟨60, true⟩ (q ++ bs!" # c") 20).1.map (·.tt), (scanInput ⟨60, true⟩ (q ++ bs!" # c") 20).2) =
      ([.streamStart, .scalar .doubleQuote (bs!" a  \"b\\\n\t" ++ [0, 0xC3, 0xA9, 0x7f]), .streamEnd], .ended) :=
  ⟨_, rfl, by decide +kernel⟩

example : MayFollow false bs!"  # c" ∧ MayFollow true bs!" , b]" ∧ MayFollow false [] :=
  ⟨⟨2, bs!"# c", rfl, .inr ⟨_, _, rfl, by simp⟩⟩, ⟨1, bs!", b]", rfl, .inr ⟨_, _, rfl, by simp⟩⟩, ⟨0, [], rfl, .inl rfl⟩⟩

end Verif.Props
