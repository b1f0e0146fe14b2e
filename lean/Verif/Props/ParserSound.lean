import Verif.Lemmas.ParserUsual
import Verif.Props.ParserComplete
import Verif.Props.PushPullExact
import Verif.Props.Scanner
/-!
# C60: the parser accepts nothing but the token grammar

`Accepts toks tail m evs`: pulling events from these tokens gives `evs` and then `None`, without an error.
-/
namespace Verif.Props
open Verif Verif.Parser Verif.Spec

/-- pulling from the tokens `toks` gives exactly the events `evs`, and then the parser says that there are no more -/
def Accepts (toks : List Token) (tail : Tail) (m : Marker) (evs : List Event) : Prop :=
  ∃ n es, pullAll n (new toks tail m false) = (es, .ended) ∧ es.map (·.1) = evs

theorem pullAll_of_delivers {s0 l p} (h : Delivers s0 l p) : ∀ {n e stop}, pullAll n p = (e, stop) →
    ∃ k e0, e0.map (·.1) = l ∧ pullAll k s0 = (e0 ++ e, stop) := by
  induction h with
  | nil => intro n e stop h; exact ⟨n, [], rfl, h⟩
  | @snoc l p ev sp p' _ hn ih =>
    intro n e stop h
    obtain ⟨k, e0, rfl, hk⟩ := ih (n := n + 1) (e := (ev, sp) :: e) (stop := stop) (by simp only [pullAll, hn, h])
    exact ⟨k, e0 ++ [(ev, sp)], by simp, by simpa using hk⟩

/-- every token sequence the parser accepts, whatever it is, begins with a stream of the parser's own grammar
(`DerivesDocsL true`: the grammar of YAML and the three rules marked `loose` in `Spec/TokenGrammar.lean`), and the events are those of that stream -/
theorem C60_sound {toks : List Token} {tail m evs} (h : Accepts toks tail m evs) :
    ∃ tts rest es, toks.map (·.tt) = .streamStart :: (tts ++ rest) ∧ evs = .streamStart :: es ∧ DerivesDocsL true true [] tts es := by
  obtain ⟨n, es, hp, rfl⟩ := h
  have h0 : At (fun _ => none) (new toks tail m false) .streamStart [] (toks.map (·.tt)) [] :=
    ⟨rfl, rfl, by simp [pend, new], by simp [new, mapGet, lastDef], rfl, by simp [new, mapGet], rfl, rfl, rfl⟩
  obtain ⟨r, hr, er, her, t, r2, rfl, hd⟩ := pull_sound h0 hp (fun _ => rfl)
  exact ⟨t, r2, er, hr, her, hd⟩

/-- C60, for the grammar the parser follows: tokens with one `STREAM-END`, at their end, are accepted if and only if they are a stream of that grammar, and
then the events are those of the stream. -/
theorem C60_own_grammar_exact {toks : List Token} {tts} (htoks : toks.map (·.tt) = .streamStart :: (tts ++ [.streamEnd])) (hend : .streamEnd ∉ tts)
    (tail m) (evs : List Event) :
    Accepts toks tail m (.streamStart :: evs) ↔ DerivesDocsL true true [] (tts ++ [.streamEnd]) evs := by
  constructor
  · intro h
    obtain ⟨t, rest, es, h1, h2, h3⟩ := C60_sound h
    cases h2
    rw [htoks] at h1
    simp only [List.cons.injEq, true_and] at h1
    have hmem := docs_last h3
    rcases List.append_eq_append_iff.1 h1 with ⟨q, rfl, h5⟩ | ⟨q, rfl, h5⟩
    · cases q with
      | nil =>
        simp only [List.append_nil] at hmem
        exact absurd hmem hend
      | cons x q =>
        simp only [List.cons_append, List.cons.injEq] at h5
        obtain ⟨rfl, h5⟩ := h5
        obtain ⟨rfl, rfl⟩ := List.append_eq_nil_iff.1 h5.symm
        exact h3
    · exact absurd (List.mem_append_left _ hmem) hend
  · intro h
    obtain ⟨s, hs, hn⟩ := complete h toks htoks tail m
    obtain ⟨k, e0, h1, h2⟩ := pullAll_of_delivers hs (n := 1) (e := []) (stop := .ended) (by simp only [pullAll, hn])
    exact ⟨k, e0, by simpa using h2, h1⟩

/-- C60: tokens in which no `KEY` stands directly before `VALUE`, `FLOW-ENTRY` or `FLOW-SEQUENCE-END`, and no `%TAG` directly before another directive, are
accepted if and only if they are a stream of the grammar of YAML, and then the events are those of the stream: every other sequence of tokens ends with
an error. Partial: of sequences with such neighbours some are accepted that YAML does not have (`C60_grammar_false`). -/
theorem C60_grammar_partial {toks : List Token} {tts} (htoks : toks.map (·.tt) = .streamStart :: (tts ++ [.streamEnd])) (hend : .streamEnd ∉ tts)
    (hu : Usual tts) (tail m) (evs : List Event) :
    Accepts toks tail m (.streamStart :: evs) ↔ DerivesDocs true [] (tts ++ [.streamEnd]) evs := by
  rw [C60_own_grammar_exact htoks hend]
  refine ⟨fun h => docs_strict h ?_, docs_loose⟩
  intro a b ⟨p, q, hpq⟩
  rcases List.eq_nil_or_concat q with rfl | ⟨q, x, rfl⟩
  · have : b = .streamEnd := by
      have h1 : (p ++ [a]) ++ [b] = tts ++ [.streamEnd] := by simpa using hpq
      exact (List.cons.inj (List.append_inj' h1 rfl).2).1
    subst this
    cases a <;> rfl
  · have h1 : (p ++ [a, b] ++ q) ++ [x] = tts ++ [.streamEnd] := by simpa using hpq
    exact hu a b ⟨p, q, (List.append_inj' h1 rfl).1⟩

/-- the tokens of `[a: b, {c}]`: they meet the hypotheses of `C60_grammar_partial`, and are accepted -/
example : ∃ tts evs, tts = [.flowSequenceStart, .key, .scalar .plain bs!"a", .value, .scalar .plain bs!"b", .flowEntry, .flowMappingStart,
      .scalar .plain bs!"c", .flowMappingEnd, .flowSequenceEnd] ∧ TokenType.streamEnd ∉ tts ∧ Usual tts ∧
    Accepts (((.streamStart :: (tts ++ [.streamEnd])) : List TokenType).map tk) .ended .default (.streamStart :: evs) ∧
    DerivesDocs true [] (tts ++ [.streamEnd]) evs := by
  have hu : Usual [.flowSequenceStart, .key, .scalar .plain bs!"a", .value, .scalar .plain bs!"b", .flowEntry, .flowMappingStart,
      .scalar .plain bs!"c", .flowMappingEnd, .flowSequenceEnd] := usual_check (by decide)
  have hd : DerivesDocs true [] ([.flowSequenceStart, .key, .scalar .plain bs!"a", .value, .scalar .plain bs!"b", .flowEntry,
      .flowMappingStart, .scalar .plain bs!"c", .flowMappingEnd, .flowSequenceEnd] ++ [.streamEnd])
      [.documentStart false, .sequenceStart 0 none, .mappingStart 0 none, .scalar ⟨bs!"a", .plain, 0, none⟩,
        .scalar ⟨bs!"b", .plain, 0, none⟩, .mappingEnd, .mappingStart 0 none, .scalar ⟨bs!"c", .plain, 0, none⟩,
        .scalar ⟨[], .plain, 0, none⟩, .mappingEnd, .sequenceEnd, .documentEnd, .streamEnd] :=
    .implicit (closed := false) (.bare (.flowSeq (.flowPair (sep := [.flowEntry]) (.bare .scalar) (.present (.bare .scalar))
      (.flowItem (sep := []) (.bare (.flowMap (.flowSingle (sep := []) (.bare .scalar) .noFlowEntries (.inr ⟨rfl, rfl⟩)))) .noFlowItems
        (.inr ⟨rfl, rfl⟩))
      (.inl rfl)))) .stop
  exact ⟨_, _, rfl, by decide, hu, (C60_grammar_partial (by simp [tk]) (by decide) hu _ _ _).2 hd, hd⟩

theorem not_accepted {toks : List Token} {tail m} (k) (h : (pullAll k (new toks tail m false)).2 ≠ .ended)
    (h' : (pullAll k (new toks tail m false)).2 ≠ .more) (evs) : ¬ Accepts toks tail m evs := by
  rintro ⟨n, es, hn, -⟩
  have h1 := pullAll_longer (m := max k n) h' (Nat.le_max_left ..)
  have h2 := pullAll_longer (m := max k n) (n := n) (by rw [hn]; simp) (Nat.le_max_right ..)
  rw [h1, hn] at h2
  rw [h2] at h
  exact h rfl

/-- an unclosed `[`, a comma twice, and a mapping closed by `]`: `Usual`, and refused -/
example : ∀ tts ∈ [[TokenType.flowSequenceStart, .scalar .plain bs!"a"], [.flowSequenceStart, .flowEntry, .flowEntry, .flowSequenceEnd],
      [.flowMappingStart, .flowSequenceEnd]], Usual tts ∧ ∀ evs, ¬ DerivesDocs true [] (tts ++ [.streamEnd]) evs := by
  intro tts ht
  have hu : Usual tts := usual_check (by revert tts; decide)
  have he : .streamEnd ∉ tts := by clear hu; revert tts; decide
  refine ⟨hu, fun evs h => ?_⟩
  have h := (C60_grammar_partial (toks := (((.streamStart :: (tts ++ [.streamEnd])) : List TokenType).map tk)) (by simp [tk, Function.comp_def]) he hu .ended
    .default _).2 h
  have h9 : ∀ tts ∈ [[TokenType.flowSequenceStart, .scalar .plain bs!"a"], [.flowSequenceStart, .flowEntry, .flowEntry, .flowSequenceEnd],
      [.flowMappingStart, .flowSequenceEnd]],
      (pullAll 9 (new (((.streamStart :: (tts ++ [.streamEnd])) : List TokenType).map tk) .ended .default false)).2 ≠ .ended ∧
      (pullAll 9 (new (((.streamStart :: (tts ++ [.streamEnd])) : List TokenType).map tk) .ended .default false)).2 ≠ .more := by
    decide +kernel
  exact not_accepted 9 (h9 tts ht).1 (h9 tts ht).2 _ h

/-- the tokens of the text `[ ? ] ]` -/
def extraBracket : List TokenType := [.flowSequenceStart, .key, .flowSequenceEnd, .flowSequenceEnd]

example : (scanInput ⟨20, false⟩ bs!"[ ? ] ]" 20).1.map (·.tt) = .streamStart :: (extraBracket ++ [.streamEnd]) := by decide +kernel

/-- C60 fails for the grammar of YAML: the tokens of `[ ? ] ]`, one bracket too many, are accepted; they are no stream of the grammar. -/
theorem C60_grammar_false :
    (∃ evs, Accepts ((.streamStart :: (extraBracket ++ [.streamEnd])).map tk) .ended .default (.streamStart :: evs)) ∧
    ∀ evs, ¬ DerivesDocs true [] (extraBracket ++ [.streamEnd]) evs := by
  refine ⟨⟨_, (C60_own_grammar_exact (tts := extraBracket) rfl (by decide) _ _ _).2
    (.implicit (c := extraBracket) (closed := false) (.bare (.flowSeq (c := [.key, .flowSequenceEnd])
      (.oddPairKey (sep := []) rfl (.inr (.inr rfl)) .noFlowItems (.inr ⟨rfl, rfl⟩)))) .stop)⟩, fun evs h => ?_⟩
  have := docs_brackets h
  revert this
  decide

/-- C60, from the text: events pulled from a text end without an error if and only if the scanner turns the text into a stream of the parser's
own grammar, and then the events are those of that stream. -/
theorem C60_text_exact (cfg : Scanner.Cfg) (n : Nat) (input : List Byte) (hf : input.length + 4 ≤ cfg.fuel) (evs : List Event) :
    (∃ k es, pullAll k (Loader.parserOn cfg n input) = (es, .ended) ∧ es.map (·.1) = .streamStart :: evs) ↔
    ∃ tts, (scanInput cfg input n).1.map (·.tt) = .streamStart :: (tts ++ [.streamEnd]) ∧
      DerivesDocsL true true [] (tts ++ [.streamEnd]) evs := by
  obtain ⟨-, hlast, -, -⟩ := C12_stream_end_final cfg input n hf
  have once : ∀ {x y : List TokenType}, (scanInput cfg input n).1.map (·.tt) = x ++ .streamEnd :: y → y = [] := by
    intro x y h
    obtain ⟨a, b, hab, -, hb⟩ := List.map_eq_append_iff.1 h
    obtain ⟨t, b, rfl, ht, rfl⟩ := List.map_eq_cons_iff.1 hb
    rw [hlast a t b hab ht]
    rfl
  constructor
  · intro h
    obtain ⟨t, rest, es, h1, h2, h3⟩ := C60_sound h
    cases h2
    obtain ⟨x, y, rfl⟩ := List.append_of_mem (docs_last h3)
    have h4 := once (x := .streamStart :: x) (y := y ++ rest) (by simpa using h1)
    obtain ⟨rfl, rfl⟩ := List.append_eq_nil_iff.1 h4
    exact ⟨x, by simpa using h1, h3⟩
  · rintro ⟨tts, h1, h2⟩
    refine (C60_own_grammar_exact h1 ?_ _ _ _).2 h2
    intro hm
    obtain ⟨x, y, rfl⟩ := List.append_of_mem hm
    have := once (x := .streamStart :: x) (y := y ++ [.streamEnd]) (by simpa using h1)
    simp at this

/-- C60, from the text, for the grammar of YAML. Partial: as `C60_grammar_partial`. -/
theorem C60_text_partial (cfg : Scanner.Cfg) (n : Nat) (input : List Byte) (hf : input.length + 4 ≤ cfg.fuel)
    (hu : Usual ((scanInput cfg input n).1.map (·.tt))) (evs : List Event) :
    (∃ k es, pullAll k (Loader.parserOn cfg n input) = (es, .ended) ∧ es.map (·.1) = .streamStart :: evs) ↔
    ∃ tts, (scanInput cfg input n).1.map (·.tt) = .streamStart :: tts ∧ DerivesDocs true [] tts evs := by
  rw [C60_text_exact cfg n input hf]
  constructor
  · rintro ⟨tts, h1, h2⟩
    rw [h1] at hu
    exact ⟨_, h1, docs_strict h2 (usual_tail hu)⟩
  · rintro ⟨tts, h1, h2⟩
    obtain ⟨x, y, rfl⟩ := List.append_of_mem (docs_last h2)
    obtain ⟨-, hlast, -, -⟩ := C12_stream_end_final cfg input n hf
    obtain ⟨a, b, hab, -, hb⟩ := List.map_eq_append_iff.1 (show _ = (.streamStart :: x) ++ (.streamEnd :: y) by simpa using h1)
    obtain ⟨t, b, rfl, ht, rfl⟩ := List.map_eq_cons_iff.1 hb
    rw [hlast a t b hab ht] at h1 h2
    exact ⟨x, h1, docs_loose h2⟩

/-- `a: [b]`, whose tokens are accepted, and `a: [b`, whose tokens are not: both `Usual` -/
example : Usual ((scanInput ⟨10, false⟩ bs!"a: [b]" 20).1.map (·.tt)) ∧ Usual ((scanInput ⟨10, false⟩ bs!"a: [b" 20).1.map (·.tt)) :=
  ⟨usual_check (by decide +kernel), usual_check (by decide +kernel)⟩

end Verif.Props
