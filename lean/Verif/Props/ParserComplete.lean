import Verif.Lemmas.ParserCompleteDoc
import Verif.Props.Parser
/-!
# C42: the parser accepts the token grammar

`DerivesDocs true [] toks evs` (`Spec/TokenGrammar.lean`): the token types `toks` are a stream of the grammar, without
`STREAM-START`, and `evs` are its events.
-/
namespace Verif.Props
open Verif Verif.Parser Verif.Spec

theorem complete {loose tts evs} (h : DerivesDocsL loose true [] tts evs) (toks : List Token)
    (htoks : toks.map (·.tt) = .streamStart :: tts) (tail m) :
    ∃ s, Delivers (new toks tail m false) (.streamStart :: evs) s ∧ nextEvent s = (.ok none, s) := by
  obtain ⟨s, hs⟩ := stream_delivers (tail := tail) (m := m) h htoks
  refine ⟨s, hs, ?_⟩
  obtain ⟨l, rfl, -⟩ := docs_noEnd h
  have hfin : s.streamEndEmitted = true := by
    generalize hx : Event.streamStart :: (l ++ [.streamEnd]) = x at hs
    cases hs with
    | nil => cases hx
    | snoc h1 hn =>
      have hx' : (Event.streamStart :: l) ++ [.streamEnd] = _ := hx
      obtain ⟨rfl, he⟩ := List.append_inj' hx' rfl
      simp only [List.cons.injEq, and_true] at he
      subst he
      have hf := delivers_facts h1
      obtain ⟨-, s1, -, -, -, -, hs⟩ := next_facts hf.invc hf.live hn
      rw [hs]; simp
  simp [nextEvent, hfin]

/-- C42: whatever their positions, the tokens of a stream of the grammar make the parser deliver exactly the events of that
stream, without an error, and nothing after them. Partial: `KEY` without a node in a single-pair mapping inside `[ ]` is not in
the grammar (`C42_flow_pair_false`), nor are several `%TAG` directives in one document (`C19_all_apply_false`). -/
theorem C42_complete_partial {tts evs} (h : DerivesDocs true [] tts evs) (toks : List Token)
    (htoks : toks.map (·.tt) = .streamStart :: tts) (tail m) :
    ∃ s, Delivers (new toks tail m false) (.streamStart :: evs) s ∧ nextEvent s = (.ok none, s) :=
  complete h toks htoks tail m

/-- `%YAML 1.2`, `---`, a block mapping with an anchored key, an indentless sequence with an empty entry, and a flow sequence
holding a single pair; `...`; then a bare document with an alias to the anchor. -/
example : ∃ tts evs, DerivesDocs true [] tts evs ∧ tts =
    [.versionDirective 1 2, .documentStart, .blockMappingStart,
     .key, .anchor bs!"a", .scalar .plain bs!"k", .value, .blockEntry, .scalar .plain bs!"x", .blockEntry,
     .key, .scalar .plain bs!"l", .value, .flowSequenceStart, .key, .scalar .plain bs!"p", .value, .flowEntry,
       .tag bs!"!!" bs!"str", .flowSequenceEnd,
     .blockEnd, .documentEnd, .alias bs!"a", .streamEnd] ∧ evs =
    [.documentStart true, .mappingStart 0 none,
     .scalar ⟨bs!"k", .plain, 1, none⟩, .sequenceStart 0 none, .scalar ⟨bs!"x", .plain, 0, none⟩,
       .scalar ⟨[], .plain, 0, none⟩, .sequenceEnd,
     .scalar ⟨bs!"l", .plain, 0, none⟩, .sequenceStart 0 none, .mappingStart 0 none, .scalar ⟨bs!"p", .plain, 0, none⟩,
       .scalar ⟨[], .plain, 0, none⟩, .mappingEnd, .scalar ⟨[], .plain, 0, some ⟨bs!"tag:yaml.org,2002:", bs!"str"⟩⟩, .sequenceEnd,
     .mappingEnd, .documentEnd, .documentStart false, .alias 1, .documentEnd, .streamEnd] := by
  refine ⟨_, _, .explicit (v := [.versionDirective 1 2]) (d := []) (closed := true) (.inr ⟨_, _, rfl⟩) (.inl rfl) (.inl rfl)
    (.present (.bare (.blockMap (by simp) (.keyValue (.present (.props (.anchor (n := bs!"a")) (.scalar (st := .plain) (v := bs!"k"))))
      (.present (.bare (.indentless (by simp)
        (.item (.present (.bare (.scalar (st := .plain) (v := bs!"x")))) (.item .absent .noItems)))))
      (.keyValue (.present (.bare (.scalar (st := .plain) (v := bs!"l")))) (.present (.bare (.flowSeq
        (.flowPair (.bare (.scalar (st := .plain) (v := bs!"p"))) .absent
          (.flowItem (.propsOnly (.tag (.secondary (sf := bs!"str") ?_))) .noFlowItems (.inr ⟨rfl, rfl⟩))
          (.inl rfl))))) .noEntries)))))
    (.implicit (closed := false) (.alias (n := bs!"a") (id := 1) ?_) .stop), ?_, ?_⟩
  all_goals rfl

/-- C42 fails for a pair without key node inside `[ ]`: `[? , x]`. The grammar of YAML (and libyaml) makes it a sequence of
a mapping of one empty key to an empty value, and `x`; the parser consumes the comma with the key and stops with an error. -/
theorem C42_flow_pair_false :
    ∃ evs s e s', Delivers (new ([.streamStart, .flowSequenceStart, .key, .flowEntry, .scalar .plain bs!"x", .flowSequenceEnd,
        .streamEnd].map tk) .ended .default false) evs s ∧
      evs = [.streamStart, .documentStart false, .sequenceStart 0 none, .mappingStart 0 none, .emptyScalar, .emptyScalar,
        .mappingEnd] ∧
      nextEvent s = (.err e, s') := by
  have h : (match pull 7 (new ([.streamStart, .flowSequenceStart, .key, .flowEntry, .scalar .plain bs!"x", .flowSequenceEnd,
      .streamEnd].map tk) .ended .default false) with
    | some (evs, s) => decide (evs = [.streamStart, .documentStart false, .sequenceStart 0 none, .mappingStart 0 none, .emptyScalar,
        .emptyScalar, .mappingEnd]) && (match nextEvent s with | (.err _, _) => true | _ => false)
    | none => false) = true := by decide +kernel
  split at h
  · rename_i evs s hp
    simp only [Bool.and_eq_true, decide_eq_true_eq] at h
    obtain ⟨h1, h⟩ := h
    split at h
    · rename_i e s' hn
      exact ⟨_, s, e, s', pull_delivers hp, h1, hn⟩
    · cases h
  · cases h

end Verif.Props
