import Verif.Lemmas.ScanBegin
import Verif.Props.Faults
import Verif.Props.Flow
/-!
# C69: brackets that are left open are reported

`Verif.Spec.Faults.unclosed` says which texts of flow collections are left open.
-/
namespace Verif.Props
open Verif Verif.Spec Verif.Spec.Block Verif.Scanner
variable {F : Type}

/-- the tokens of a text: as many `[` as `]`, and as many `{` as `}` (`{` and `}` also stand for the mapping with one entry that `[a: b]` contains) -/
def Balanced (l : List TokenType) : Prop :=
  l.count .flowSequenceStart = l.count .flowSequenceEnd ∧ l.count .flowMappingStart = l.count .flowMappingEnd

/-- C69, the full statement: in a text that loads, the brackets are in balance. -/
def C69_full (fo : FloatOps F) : Prop :=
  ∀ cfg n t docs, Loader.loadFrom fo cfg n t = .ok docs → Balanced ((scanInput cfg t n).1.map (·.tt))

/-! ## Tokens -/

/-- C69 for tokens, whatever tokens they are: if the parser gets to the end of the stream without an error, then before it no `[` is open that is not
closed, and the braces are in balance. What is missing: `]` may be closed more often than `[` was opened. -/
theorem C69_tokens_partial {toks : List Token} {tail m evs} (h : Accepts toks tail m evs) : ∃ d rest, toks.map (·.tt) = d ++ .streamEnd :: rest ∧ .streamEnd ∉ d ∧
    d.count .flowSequenceStart ≤ d.count .flowSequenceEnd ∧ d.count .flowMappingStart = d.count .flowMappingEnd := by
  obtain ⟨tts, rest, es, h1, -, hd⟩ := C60_sound h
  obtain ⟨d, rfl, h2, h3, h4, -⟩ := docs_count hd
  refine ⟨.streamStart :: d, rest, by rw [h1]; simp, by simp [h2], ?_, ?_⟩
  · simp only [sqOf] at h3
    simp
    omega
  · simp only [brOf] at h4
    simp
    omega

/-- C69 for tokens among which no `?` stands before a `]`, `,` or `:` (`Usual`): all brackets are in balance. -/
theorem C69_usual_partial {toks : List Token} {tts tail m evs} (ht : toks.map (·.tt) = .streamStart :: (tts ++ [.streamEnd])) (he : .streamEnd ∉ tts) (hu : Usual tts)
    (h : Accepts toks tail m (.streamStart :: evs)) : Balanced tts := by
  have hd := (C60_grammar_partial ht he hu tail m evs).1 h
  obtain ⟨d, h1, -, -, h4, h5⟩ := docs_count hd
  obtain rfl : tts = d := by simpa using h1
  have h5 := h5 rfl
  simp only [sqOf] at h5
  simp only [brOf] at h4
  exact ⟨by omega, by omega⟩

/-! ## Texts -/

/-- white space: spaces, tabs and line feeds -/
def WhiteSpace (a : List Byte) : Prop := ∀ c ∈ a, c ∈ bs!" \t\n"

theorem white_of {a} (h : WhiteSpace a) : ∀ x ∈ a, x = 32 ∨ x = 9 ∨ x = 10 := fun x hx => by simpa using h x hx

theorem begins_bad {cfg t} (h : Scanner.Begins t) (n : Nat) : BadT ((scanInput cfg t n).1.map (·.tt)) := by
  intro d rest hd _
  rcases begins_ever h n (d ++ [.streamEnd]) rest (by rw [hd]; simp) with h | h
  · exact absurd (by simp) h.counts.2.2
  · have hs : sqOf [TokenType.streamEnd] = 0 ∧ brOf [TokenType.streamEnd] = 0 := by decide
    unfold Exceeds at h
    rw [sqOf_append, brOf_append, hs.1, hs.2] at h
    simpa using h

theorem unclosed_text {full} {fo : FloatOps F} {absent c r} (hc : c ∈ bs!"[{") (h : Faults.unclosed (c :: r) .start 0 0 = true) : Faults.Text full fo absent (c :: r) := by
  refine ⟨[], 0, c :: r, .nil, .here (.brackets hc h), rfl, ?_⟩
  simp at hc
  rcases hc with rfl | rfl <;> simp

/-- C69 for texts: a text that is, after white space, a flow collection with more brackets of one kind opened than closed never loads as documents, and
pulling events from it never comes to the end of the stream. What is missing: comments, tags, carriage returns and `:` at the beginning of a word; too
many closing brackets. (For a flow collection anywhere in a text in block style: `C64_never_ok`.) -/
theorem C69_unclosed_partial {fo : FloatOps F} {a c r} (ha : WhiteSpace a) (hc : c ∈ bs!"[{") (h : Faults.unclosed (c :: r) .start 0 0 = true) (cfg : Cfg) (n : Nat) :
    (∀ docs, Loader.loadFrom fo cfg n (a ++ c :: r) ≠ .ok docs) ∧ ∀ k es, pullAll k (Loader.parserOn cfg n (a ++ c :: r)) ≠ (es, .ended) := by
  simp at hc
  exact never_loads (begins_bad ⟨a, c, r, rfl, white_of ha, .inl ⟨hc, h⟩⟩ n)

/-- and if there are neither reserved characters nor NUL nor the indicators of block scalars in it, it gives an error -/
theorem C69_error_partial {fo : FloatOps F} {c r} (hc : c ∈ bs!"[{") (h : Faults.unclosed (c :: r) .start 0 0 = true) (hr : ∀ b ∈ r, b ≠ 13 ∧ b ≠ 0 ∧ b ∉ bs!"%@`|>")
    {cfg : Cfg} {n : Nat} (hf : r.length + 5 ≤ cfg.fuel) (hn : 6 * r.length + 9 ≤ n) : ∃ e, Loader.loadFrom fo cfg n (c :: r) = .err e := by
  refine C64_simple (unclosed_text hc h) (fun b hb => ?_) (by simp; omega) (by simp; omega)
  rcases List.mem_cons.1 hb with rfl | hb
  · simp at hc
    rcases hc with rfl | rfl <;> decide
  · exact hr b hb

/-! ## Texts it applies to -/

/-- a JSON text that was cut off; brackets of the wrong kind; brackets in quotation marks do not close; a `:` after a quotation mark; aliases; several lines -/
example (fo : FloatOps F) {cfg n} (hf : 100 ≤ cfg.fuel) (hn : 300 ≤ n) :
    (∃ e, Loader.loadFrom fo cfg n bs!"{\"a\": [1, {\"b\": true}" = .err e) ∧ (∃ e, Loader.loadFrom fo cfg n bs!"[a}\n" = .err e) ∧
    (∃ e, Loader.loadFrom fo cfg n bs!"[\"]\", ']'']', a,\n b " = .err e) ∧ ∃ e, Loader.loadFrom fo cfg n bs!"{\"a[\":[1,\n 2, *x , &y 'it''s'" = .err e := by
  have go : ∀ {c r}, c ∈ bs!"[{" → Faults.unclosed (c :: r) .start 0 0 = true → (∀ b ∈ r, b ≠ 13 ∧ b ≠ 0 ∧ b ∉ bs!"%@`|>") → r.length < 40 → ∃ e, Loader.loadFrom fo cfg n (c :: r) = .err e :=
    fun hc h hr hl => C69_error_partial hc h hr (by omega) (by omega)
  exact ⟨go (by decide) (by decide) (by decide) (by decide), go (by decide) (by decide) (by decide) (by decide), go (by decide) (by decide) (by decide) (by decide),
    go (by decide) (by decide) (by decide) (by decide)⟩

/-- the last item of a block sequence -/
theorem fault_brackets {full} {fo : FloatOps F} {absent} : Faults.Text full fo absent bs!"- x\n- {b: [c, d}\n" := by
  refine ⟨[], 0, _, .nil, .seq (.laterItem (f := none) (t := bs!"- x") (g := bs!"\n") (E' := []) (.one (.inline (m := 0) (.leaf (block_word ⟨by simp, by simp [Block.Ink], by simp, by simp⟩ (by decide)
    (resolves_str rfl (by decide)))))) gap_lf (.inItem (m := 0) (t := bs!"{b: [c, d}\n") (.here (.brackets (by decide) (by decide))))), rfl, by decide⟩

example (fo : FloatOps F) {cfg n} (hf : 100 ≤ cfg.fuel) (hn : 200 ≤ n) : ∃ e, Loader.loadFrom fo cfg n bs!"- x\n- {b: [c, d}\n" = .err e :=
  C64_simple fault_brackets (by decide) (by simp; omega) (by simp; omega)

/-- tokens to which the first two apply: those of `[ ? ] ]`, and those of `[[], []]` -/
example : (∃ evs, Accepts ((.streamStart :: (extraBracket ++ [.streamEnd])).map tk) .ended .default (.streamStart :: evs)) ∧
    ∃ tts evs, tts = [.flowSequenceStart, .flowSequenceStart, .flowSequenceEnd, .flowEntry, .flowSequenceStart, .flowSequenceEnd, .flowSequenceEnd] ∧ .streamEnd ∉ tts ∧ Usual tts ∧
      Accepts ((.streamStart :: (tts ++ [.streamEnd])).map tk) .ended .default (.streamStart :: evs) := by
  have hd : ∃ evs, DerivesL true (fun _ => none) .flowItems [] [.flowSequenceStart, .flowSequenceEnd, .flowEntry, .flowSequenceStart, .flowSequenceEnd] evs [] :=
    ⟨_, .flowItem (x := [.flowSequenceStart, .flowSequenceEnd]) (.bare (.flowSeq (c := []) .noFlowItems))
      (.flowItem (x := [.flowSequenceStart, .flowSequenceEnd]) (sep := []) (c := []) (.bare (.flowSeq (c := []) .noFlowItems)) .noFlowItems (.inr ⟨rfl, rfl⟩)) (.inl rfl)⟩
  obtain ⟨evs, hd⟩ := hd
  exact ⟨C60_grammar_false.1, _, _, rfl, by decide, Parser.usual_check (by decide), (C60_own_grammar_exact (by simp [tk]) (by decide) _ _ _).2
    (.implicit (closed := false) (.bare (.flowSeq (c := [.flowSequenceStart, .flowSequenceEnd, .flowEntry, .flowSequenceStart, .flowSequenceEnd]) hd)) .stop)⟩

/-! ## What is false -/

/-- C69 is false: `[? ] ]` loads, with two `]` for one `[`. -/
theorem C69_balanced_false (fo : FloatOps F) : ¬ C69_full fo := by
  intro h
  have hl : ∃ docs, Loader.loadFrom fo ⟨40, false⟩ 40 bs!"[? ] ]" = .ok docs :=
    ⟨_, Loader.load_ok (evs := [.streamStart, .documentStart false, .sequenceStart 0 none, .mappingStart 0 none, .scalar ⟨[], .plain, 0, none⟩, .scalar ⟨[], .plain, 0, none⟩, .mappingEnd, .sequenceEnd,
      .documentEnd, .streamEnd]) (by decide +kernel) rfl⟩
  obtain ⟨docs, hl⟩ := hl
  have hb := (h _ _ _ _ hl).1
  have hc : ((scanInput ⟨40, false⟩ bs!"[? ] ]" 40).1.map (·.tt)).count .flowSequenceStart ≠ ((scanInput ⟨40, false⟩ bs!"[? ] ]" 40).1.map (·.tt)).count .flowSequenceEnd := by decide +kernel
  exact hc hb

end Verif.Props
