import Verif.Spec.IterRuns
import Verif.Props.Parser
/-!
# C28: the event iterator
-/
namespace Verif.Props
open Verif Verif.Parser Verif.Spec Verif.Grammar

/-- C28 in full: for every complete run of the parser, the iterator gives an item for every event, then ends without an error. -/
def C28_full : Prop := ∀ toks tail m k evs s, Delivers (new toks tail m k) evs s → Stream evs →
  ∃ it it', Iterates (ParserIter.start (new toks tail m k)) (evs.filterMap item) it ∧
    ParserIter.next it = (.ok none, it') ∧ it'.error = none

/-- the events of the inside of a document -/
def inside : Event → Bool
  | .streamStart | .streamEnd | .documentStart _ | .documentEnd | .comment _ => false
  | _ => true

theorem delivers_split {s0 a b s} (h : Delivers s0 (a ++ b) s) : ∃ s1, Delivers s0 a s1 ∧ Delivers s1 b s := by
  generalize he : a ++ b = evs at h
  induction h generalizing b with
  | nil =>
    simp only [List.append_eq_nil_iff] at he
    obtain ⟨rfl, rfl⟩ := he
    exact ⟨s0, .nil, .nil⟩
  | @snoc evs s ev sp s' hd hn ih =>
    rcases List.eq_nil_or_concat b with rfl | ⟨b', e, rfl⟩
    · simp only [List.append_nil] at he; subst he
      exact ⟨s', .snoc hd hn, .nil⟩
    · rw [List.concat_eq_append, ← List.append_assoc] at he
      have := List.append_inj' he rfl
      simp only [List.cons.injEq, and_true] at this
      obtain ⟨rfl, rfl⟩ := this
      obtain ⟨s1, h1, h2⟩ := ih rfl
      refine ⟨s1, h1, ?_⟩
      rw [List.concat_eq_append]
      exact .snoc h2 hn

theorem delivers_one {s e s'} (h : Delivers s [e] s') : ∃ sp, nextEvent s = (.ok (some (e, sp)), s') := by
  generalize he : [e] = evs at h
  cases h with
  | nil => simp at he
  | @snoc evs s1 ev sp s2 hd hn =>
    cases evs with
    | nil =>
      simp only [List.nil_append, List.cons.injEq, and_true] at he
      subst he
      generalize hx : ([] : List Event) = l at hd
      cases hd with
      | nil => exact ⟨sp, hn⟩
      | snoc => simp at hx
    | cons x xs => simp at he

theorem delivers_cons {s e es s'} (h : Delivers s (e :: es) s') : ∃ s1 sp, nextEvent s = (.ok (some (e, sp)), s1) ∧ Delivers s1 es s' := by
  obtain ⟨s1, h1, h2⟩ := delivers_split (a := [e]) h
  obtain ⟨sp, h1⟩ := delivers_one h1
  exact ⟨s1, sp, h1, h2⟩

theorem impl_of_next {s e sp s'} (h : nextEvent s = (.ok (some (e, sp)), s')) : ∃ s1, nextEventImpl s = (.ok (e, sp), s1) ∧ (e ≠ .streamEnd → s1 = s') ∧
    (e = .streamEnd → s' = { s1 with streamEndEmitted := true }) := by
  unfold nextEvent at h
  split at h
  · simp at h
  · cases hn : nextEventImpl s with
    | mk r s1 =>
      rw [hn] at h
      cases r with
      | ok v =>
        obtain ⟨ev, sp'⟩ := v
        simp only [Prod.mk.injEq, Res.ok.injEq, Option.some.injEq] at h
        obtain ⟨⟨rfl, rfl⟩, h2⟩ := h
        refine ⟨s1, rfl, fun hh => ?_, fun hh => ?_⟩
        · rw [if_neg hh] at h2; exact h2
        · rw [if_pos hh] at h2; exact h2.symm
      | _ => simp at h

theorem pend_length (s : PSt) : (pend s).length ≤ s.toks.length + 1 := by
  unfold pend; cases s.token <;> simp

/-- aliases need tokens -/
theorem alias_tokens {s0 evs s als s'} (hf : RunFacts s0 [] s0) (h : Delivers s0 evs s) (h' : Delivers s als s') (ha : ∀ e ∈ als, isAlias e = true) :
    als.length ≤ (pend s).length := by
  induction als generalizing evs s with
  | nil => simp
  | cons e es ih =>
    obtain ⟨s1, sp, h1, h2⟩ := delivers_cons h'
    have := ih (h := .snoc h h1) (h' := h2) (fun x hx => ha x (by simp [hx]))
    have rf := run_facts hf h
    obtain ⟨-, s2, -, ho, -, -, hs2⟩ := next_facts rf.invc rf.live h1
    have hal := ha e (by simp)
    cases e <;> simp [isAlias] at hal
    simp only [reduceCtorEq, if_false] at hs2
    subst hs2
    obtain ⟨u, hu, -, -, hAl, -⟩ := ho.toks
    obtain ⟨n, hn, -⟩ := hAl
    cases u with
    | nil => simp [aliasNames] at hn
    | cons x xs => rw [hu]; simp; omega

theorem withEvent_run {α} {it : ParserIter.ItSt} {e sp p f} (h : nextEventImpl it.p = (.ok (e, sp), p)) :
    ParserIter.withEvent (α := α) it f = f e p := by
  unfold ParserIter.withEvent; rw [h]

theorem processDoc_skip {als s} {it : ParserIter.ItSt} (h : Delivers it.p als s) (ha : ∀ e ∈ als, isAlias e = true) (f : Nat) :
    ParserIter.processDoc (als.length + f) it = ParserIter.processDoc f { it with p := s } := by
  induction als generalizing it with
  | nil =>
    generalize hx : ([] : List Event) = l at h
    cases h with
    | nil => simp
    | snoc => simp at hx
  | cons e es ih =>
    obtain ⟨s1, sp, h1, h2⟩ := delivers_cons h
    have hal := ha e (by simp)
    cases e <;> simp [isAlias] at hal
    obtain ⟨s2, h3, h4, -⟩ := impl_of_next h1
    rw [h4 (by simp)] at h3
    rw [show (List.length (_ :: es) + f) = (es.length + f) + 1 by simp; omega, ParserIter.processDoc, withEvent_run h3]
    exact ih (it := { it with p := s1 }) h2 (fun x hx => ha x (by simp [hx]))

/-- the iterator is inside the document, and only aliases separate it from the parser state `s` -/
def Behind (s0 : PSt) (it : ParserIter.ItSt) (s : PSt) : Prop :=
  it.state = .inDocument ∧ it.error = none ∧ ∃ evs als, Delivers s0 evs it.p ∧ Delivers it.p als s ∧ ∀ e ∈ als, isAlias e = true

theorem next_behind {s0 it s} (hf : RunFacts s0 [] s0) (h : Behind s0 it s) : ∃ f, ParserIter.next it =
    match ParserIter.processDoc (f + 1) { it with p := s } with
    | (.err e, it) => (.ok none, { it with error := some e })
    | (.ok .streamEnd, it) => (.ok none, it)
    | (.ok r, it) => (.ok (some r), it)
    | (.panic, it) => (.panic, it)
    | (.hang, it) => (.hang, it) := by
  obtain ⟨h1, -, evs, als, h2, h3, h4⟩ := h
  have hl := alias_tokens hf h2 h3 h4
  have hp := pend_length it.p
  refine ⟨it.p.toks.length + 2 - als.length, ?_⟩
  rw [← processDoc_skip h3 h4]
  rw [show als.length + (it.p.toks.length + 2 - als.length + 1) = it.p.toks.length + 3 by omega]
  unfold ParserIter.next
  rw [h1]
  rfl

/-- an event inside the document -/
theorem behind_inside {s0 it s e sp s'} (hf : RunFacts s0 [] s0) (h : Behind s0 it s) (hn : nextEvent s = (.ok (some (e, sp)), s'))
    (hi : inside e = true) :
    (isAlias e = true ∧ Behind s0 it s') ∨
      (isAlias e = false ∧ ∃ o it', item e = some o ∧ ParserIter.next it = (.ok (some o), it') ∧ Behind s0 it' s') := by
  cases ha : isAlias e with
  | true =>
    obtain ⟨h1, h2, evs, als, h3, h4, h5⟩ := h
    refine .inl ⟨rfl, h1, h2, evs, als ++ [e], h3, .snoc h4 hn, ?_⟩
    intro x hx
    simp only [List.mem_append, List.mem_singleton] at hx
    rcases hx with hx | rfl
    · exact h5 x hx
    · exact ha
  | false =>
    right
    refine ⟨rfl, ?_⟩
    obtain ⟨f, hx⟩ := next_behind hf h
    obtain ⟨h1, h2, evs, als, h3, h4, h5⟩ := h
    obtain ⟨s2, hi2, h6, -⟩ := impl_of_next hn
    rw [h6 (by cases e <;> simp_all [inside])] at hi2
    rw [ParserIter.processDoc, withEvent_run (it := { it with p := s }) hi2] at hx
    have hb : Behind s0 { it with p := s' } s' :=
      ⟨h1, h2, evs ++ als ++ [e], [], by exact .snoc (delivers_trans h3 h4) hn, .nil, by simp⟩
    cases e <;> simp [isAlias, inside] at ha hi <;> exact ⟨_, _, rfl, hx, hb⟩

theorem iterates_trans {it0 a it b it'} (h : Iterates it0 a it) (h' : Iterates it b it') : Iterates it0 (a ++ b) it' := by
  induction h' with
  | nil => simpa using h
  | snoc _ hn ih => rw [← List.append_assoc]; exact .snoc ih hn

theorem behind_many {s0 it s es s'} (hf : RunFacts s0 [] s0) (h : Behind s0 it s) (hd : Delivers s es s') (hi : ∀ e ∈ es, inside e = true) :
    ∃ it', Iterates it ((es.filter notAlias).filterMap item) it' ∧ Behind s0 it' s' := by
  induction es generalizing it s with
  | nil =>
    generalize hx : ([] : List Event) = l at hd
    cases hd with
    | nil => exact ⟨it, .nil, h⟩
    | snoc => simp at hx
  | cons e es ih =>
    obtain ⟨s1, sp, h1, h2⟩ := delivers_cons hd
    rcases behind_inside hf h h1 (hi e (by simp)) with ⟨ha, hb⟩ | ⟨ha, o, it1, ho, hn, hb⟩
    · obtain ⟨it', h3, h4⟩ := ih hb h2 (fun x hx => hi x (by simp [hx]))
      exact ⟨it', by simpa [notAlias, ha] using h3, h4⟩
    · obtain ⟨it', h3, h4⟩ := ih hb h2 (fun x hx => hi x (by simp [hx]))
      refine ⟨it', ?_, h4⟩
      have := iterates_trans (.snoc .nil hn) h3
      simpa [notAlias, ha, ho] using this

theorem begin_doc {s0 b es s} (hd : Delivers s0 (.streamStart :: .documentStart b :: es) s) :
    ∃ it s1, ParserIter.next (ParserIter.start s0) = (.ok (some .docStart), it) ∧ Behind s0 it s1 ∧ Delivers s1 es s := by
  obtain ⟨s1, sp, h1, h2⟩ := delivers_cons hd
  obtain ⟨s2, sp2, h3, h4⟩ := delivers_cons h2
  obtain ⟨s1', i1, e1, -⟩ := impl_of_next h1
  obtain ⟨s2', i2, e2, -⟩ := impl_of_next h3
  rw [e1 (by simp)] at i1
  rw [e2 (by simp)] at i2
  refine ⟨⟨s2, .inDocument, none⟩, s2, ?_, ⟨rfl, rfl, [.streamStart, .documentStart b], [], ?_, .nil, by simp⟩, h4⟩
  · simp only [ParserIter.next, ParserIter.start, ParserIter.processStart]
    rw [withEvent_run (it := ⟨s0, .streamStart, none⟩) i1]
    simp only [ne_eq, not_true_eq_false, if_false]
    rw [withEvent_run (it := ⟨s1, .streamStart, none⟩) i2]
  · exact .snoc (.snoc .nil h1) h3

mutual
  theorem node_inside {evs} (h : Node evs) : ∀ e ∈ evs, inside e = true := by
    match h with
    | .scalar v => simp [inside]
    | .alias v => simp [inside]
    | .seq _ _ hb => have := nodes_inside hb; intro e he; simp at he; rcases he with rfl | he | rfl; rfl; exact this e he; rfl
    | .map _ _ hb => have := pairs_inside hb; intro e he; simp at he; rcases he with rfl | he | rfl; rfl; exact this e he; rfl
  theorem nodes_inside {evs} (h : Nodes evs) : ∀ e ∈ evs, inside e = true := by
    match h with
    | .nil => simp
    | .cons hx hxs =>
      intro e he; simp at he
      rcases he with he | he
      · exact node_inside hx e he
      · exact nodes_inside hxs e he
  theorem pairs_inside {evs} (h : Pairs evs) : ∀ e ∈ evs, inside e = true := by
    match h with
    | .nil => simp
    | .cons hk hv hxs =>
      intro e he; simp at he
      rcases he with he | he | he
      · exact node_inside hk e he
      · exact node_inside hv e he
      · exact pairs_inside hxs e he
end

/-- the first document, then `DocEnd`; the iterator is then as far as the parser -/
theorem whole_doc {toks tail m k b n more s} (hd : Delivers (new toks tail m k) (.streamStart :: .documentStart b :: (n ++ .documentEnd :: more)) s)
    (hn : Node n) : ∃ it, Iterates (ParserIter.start (new toks tail m k)) (.docStart :: ((n.filter notAlias).filterMap item ++ [.docEnd])) it ∧
      it.state = .endDocument ∧ it.error = none ∧ Delivers it.p more s := by
  have hf := new_facts toks tail m k
  obtain ⟨it1, s1, h1, h2, h3⟩ := begin_doc hd
  obtain ⟨s2, h4, h5⟩ := delivers_split h3
  obtain ⟨it2, h6, h7⟩ := behind_many hf h2 h4 (node_inside hn)
  obtain ⟨s3, sp, h8, h9⟩ := delivers_cons h5
  obtain ⟨f, hx⟩ := next_behind hf h7
  obtain ⟨s3', i, e, -⟩ := impl_of_next h8
  rw [e (by simp)] at i
  rw [ParserIter.processDoc, withEvent_run (it := { it2 with p := s2 }) i] at hx
  refine ⟨{ it2 with p := s3, state := .endDocument }, ?_, rfl, h7.2.1, h9⟩
  have := iterates_trans (iterates_trans (.snoc .nil h1) h6) (.snoc .nil hx)
  simpa using this

/-- C28 for streams of one document (any): the iterator gives an item for every event except aliases, in order, then ends, without an
error. Missing: aliases, and the documents after the first; there the claim is false (`C28_aliases_false`, `C28_documents_false`). -/
theorem C28_one_document_partial (toks : List Token) (tail : Tail) (m : Marker) (k : Bool) (b : Bool) (n : List Event) (s : PSt) (hn : Node n)
    (hd : Delivers (new toks tail m k) (.streamStart :: .documentStart b :: (n ++ [.documentEnd, .streamEnd])) s) :
    ∃ it it', Iterates (ParserIter.start (new toks tail m k)) (.docStart :: ((n.filter notAlias).filterMap item ++ [.docEnd])) it ∧
      ParserIter.next it = (.ok none, it') ∧ it'.error = none := by
  obtain ⟨it, h1, h2, h3, h4⟩ := whole_doc hd hn
  obtain ⟨s1, sp, h5, -⟩ := delivers_cons h4
  obtain ⟨s2, i, -, -⟩ := impl_of_next h5
  refine ⟨it, { it with p := s2 }, h1, ?_, h3⟩
  unfold ParserIter.next
  simp only [h2, ParserIter.finishDocument]
  rw [withEvent_run i]; simp

/-- C28 where there are more documents: the iterator ends after the first one, with the error that the next `DocumentStart` was not
expected. -/
theorem C28_more_documents (toks : List Token) (tail : Tail) (m : Marker) (k : Bool) (b b' : Bool) (n more : List Event) (s : PSt) (hn : Node n)
    (hd : Delivers (new toks tail m k) (.streamStart :: .documentStart b :: (n ++ .documentEnd :: .documentStart b' :: more)) s) :
    ∃ it it', Iterates (ParserIter.start (new toks tail m k)) (.docStart :: ((n.filter notAlias).filterMap item ++ [.docEnd])) it ∧
      ParserIter.next it = (.ok none, it') ∧ it'.error = some (.unexpectedEvent "StreamStart" "DocumentStart") := by
  obtain ⟨it, h1, h2, h3, h4⟩ := whole_doc hd hn
  obtain ⟨s1, sp, h5, -⟩ := delivers_cons h4
  obtain ⟨s2, i, -, -⟩ := impl_of_next h5
  refine ⟨it, { it with p := s2, error := some (.unexpectedEvent "StreamStart" "DocumentStart") }, h1, ?_, rfl⟩
  unfold ParserIter.next
  simp only [h2, ParserIter.finishDocument]
  rw [withEvent_run i]; rfl

/-- C28 where the parser fails inside the first document: the iterator gives an item for every event before the error except aliases,
then ends, and the error is stored. -/
theorem C28_error (toks : List Token) (tail : Tail) (m : Marker) (k : Bool) (b : Bool) (part : List Event) (s s' : PSt) (e : YErr)
    (hp : ∀ e ∈ part, e ≠ .documentEnd)
    (hd : Delivers (new toks tail m k) (.streamStart :: .documentStart b :: part) s) (he : nextEvent s = (.err e, s')) :
    ∃ it it', Iterates (ParserIter.start (new toks tail m k)) (.docStart :: (part.filter notAlias).filterMap item) it ∧
      ParserIter.next it = (.ok none, it') ∧ it'.error = some e := by
  have hf := new_facts toks tail m k
  have hi : ∀ e ∈ part, inside e = true := by
    have hg := (delivers_facts hd).gram
    simp only [steps, step, Option.bind_some] at hg
    have key : ∀ (es : List Event) (l g : List Frame), (∀ x ∈ l, (after x).isSome = true) → (∀ e ∈ es, e ≠ .documentEnd) → steps (l ++ [.docEnd]) es = some g →
        ∀ e ∈ es, inside e = true := by
      intro es
      induction es with
      | nil => simp
      | cons x xs ih =>
        intro l g hl hxs hs
        simp only [steps] at hs
        cases hst : step (l ++ [.docEnd]) x with
        | none => simp [hst] at hs
        | some g' =>
          simp only [hst, Option.bind_some] at hs
          rcases docBottom_step (.inr (.inr ⟨l, rfl, hl⟩)) hst with ⟨-, h, -⟩ | ⟨-, h, -⟩ | ⟨h, -⟩ | ⟨-, l', rfl, hl'⟩
          · exact absurd h (by cases l with | nil => simp | cons a as => simp)
          · exact absurd h (by cases l with | nil => simp | cons a as => simp)
          · exact absurd h (hxs x (by simp))
          · have h1 := ih l' g hl' (fun e he => hxs e (by simp [he])) hs
            intro e he
            simp only [List.mem_cons] at he
            rcases he with rfl | he
            · cases l with
              | nil => cases e <;> simp [step, after] at hst <;> simp [inside] <;> exact absurd rfl (hxs _ (by simp))
              | cons a as => 
                have := hl a (by simp)
                cases a <;> simp [after] at this <;> cases e <;> simp [step, after] at hst <;> rfl
            · exact h1 e he
    exact key part [.node] _ (by simp [after]) hp hg
  obtain ⟨it1, s1, h1, h2, h3⟩ := begin_doc hd
  obtain ⟨it2, h6, h7⟩ := behind_many hf h2 h3 hi
  obtain ⟨f, hx⟩ := next_behind hf h7
  have hie : nextEventImpl s = (.err e, s') := by
    unfold nextEvent at he
    split at he
    · simp at he
    · cases hn : nextEventImpl s with
      | mk r s1 => rw [hn] at he; cases r <;> simp at he; simp [he]
  have hw : ParserIter.processDoc (f + 1) { it2 with p := s } = (.err e, { it2 with p := s' }) := by
    unfold ParserIter.processDoc ParserIter.withEvent; simp [hie]
  rw [hw] at hx
  have := iterates_trans (.snoc .nil h1) h6
  exact ⟨it2, _, by simpa using this, hx, rfl⟩

/-- C28 for a stream without documents: no item, and an error is stored. -/
theorem C28_no_document (toks : List Token) (tail : Tail) (m : Marker) (k : Bool) (s : PSt)
    (hd : Delivers (new toks tail m k) [.streamStart, .streamEnd] s) :
    ∃ it', ParserIter.next (ParserIter.start (new toks tail m k)) = (.ok none, it') ∧ it'.error = some (.unexpectedEvent "DocStart" "StreamEnd") := by
  obtain ⟨s1, sp, h1, h2⟩ := delivers_cons hd
  obtain ⟨s2, sp2, h3, -⟩ := delivers_cons h2
  obtain ⟨s1', i1, e1, -⟩ := impl_of_next h1
  obtain ⟨s2', i2, -, -⟩ := impl_of_next h3
  rw [e1 (by simp)] at i1
  refine ⟨⟨s2', .streamStart, some (.unexpectedEvent "DocStart" "StreamEnd")⟩, ?_, rfl⟩
  simp only [ParserIter.next, ParserIter.start, ParserIter.processStart]
  rw [withEvent_run (it := ⟨new toks tail m k, .streamStart, none⟩) i1]
  simp only [ne_eq, not_true_eq_false, if_false]
  rw [withEvent_run (it := ⟨s1, .streamStart, none⟩) i2]
  rfl

/-- `n` items, for concrete runs -/
def iterate : Nat → ParserIter.ItSt → Option (List ParserIter.YamEvent × ParserIter.ItSt)
  | 0, it => some ([], it)
  | n + 1, it => match iterate n it with
    | none => none
    | some (outs, it1) => match ParserIter.next it1 with
      | (.ok (some o), it2) => some (outs ++ [o], it2)
      | _ => none

theorem iterates_iterate {it0 outs it} (h : Iterates it0 outs it) : iterate outs.length it0 = some (outs, it) := by
  induction h with
  | nil => rfl
  | snoc _ hn ih => simp [iterate, ih, hn]

theorem iterate_iterates {n it0 outs it} (h : iterate n it0 = some (outs, it)) : Iterates it0 outs it := by
  induction n generalizing outs it with
  | zero => simp only [iterate, Option.some.injEq, Prod.mk.injEq] at h; rw [← h.1, ← h.2]; exact .nil
  | succ n ih =>
    simp only [iterate] at h
    split at h
    · cases h
    · rename_i outs1 it1 hp
      split at h
      · rename_i o it2 hn
        simp only [Option.some.injEq, Prod.mk.injEq] at h
        rw [← h.1, ← h.2]
        exact .snoc (ih hp) hn
      · cases h

/-- `&a [x, {y: *a}]` -/
def exIter : List Token := exToks.take 12 ++ [tk .streamEnd]

/-- the node of `exIter` -/
def exIterNode : List Event := [.sequenceStart 1 none, .scalar ⟨bs!"x", .plain, 0, none⟩, .mappingStart 0 none,
  .scalar ⟨bs!"y", .plain, 0, none⟩, .alias 1, .mappingEnd, .sequenceEnd]

theorem exIterNode_node : Node exIterNode := .seq 1 none (.cons (.scalar _) (.cons (.map 0 none (.cons (.scalar _) (.alias 1) .nil)) .nil))

/-- the hypotheses of `C28_one_document_partial` are met by a document with nesting and an alias -/
theorem exIter_run : ∃ s, Delivers (new exIter .ended .default false) (.streamStart :: .documentStart false :: (exIterNode ++ [.documentEnd, .streamEnd])) s :=
  pull_run (n := 11) (by decide +kernel)

/-- C28 is false: an alias gives no item. -/
theorem C28_aliases_false : ¬ C28_full := by
  intro h
  obtain ⟨s, hs⟩ := exIter_run
  obtain ⟨it, it', h1, -⟩ := h _ _ _ _ _ _ hs (.mk (.cons false exIterNode_node .nil))
  have h2 := iterates_iterate h1
  have h3 : (iterate 9 (ParserIter.start (new exIter .ended .default false))).map (·.1) ≠
      some ((.streamStart :: .documentStart false :: (exIterNode ++ [.documentEnd, .streamEnd])).filterMap item) := by decide +kernel
  exact h3 (by rw [show 9 = ((.streamStart :: .documentStart false :: (exIterNode ++ [.documentEnd, .streamEnd])).filterMap item).length from by decide, h2]; rfl)

/-- `x`, then `--- y` -/
def exIterTwo : List Token := [.streamStart, .scalar .plain bs!"x", .documentStart, .scalar .plain bs!"y", .streamEnd].map tk

/-- C28 is false even without aliases: the iterator stops after the first document. -/
theorem C28_documents_false : ∃ toks evs s, Delivers (new toks .ended .default false) evs s ∧ Stream evs ∧ (∀ e ∈ evs, isAlias e = false) ∧
    ¬ ∃ it, Iterates (ParserIter.start (new toks .ended .default false)) (evs.filterMap item) it := by
  have hr : ∃ s, Delivers (new exIterTwo .ended .default false) (.streamStart :: .documentStart false :: ([.scalar ⟨bs!"x", .plain, 0, none⟩] ++
      .documentEnd :: .documentStart true :: ([.scalar ⟨bs!"y", .plain, 0, none⟩] ++ [.documentEnd, .streamEnd]))) s :=
    pull_run (n := 8) (by decide +kernel)
  obtain ⟨s, hs⟩ := hr
  refine ⟨exIterTwo, _, s, hs, .mk (.cons false (.scalar _) (.cons true (.scalar _) .nil)), by decide, ?_⟩
  rintro ⟨it, h1⟩
  have h2 := iterates_iterate h1
  have h3 : (iterate 6 (ParserIter.start (new exIterTwo .ended .default false))).map (·.1) = none := by decide +kernel
  have h4 := congrArg (Option.map (·.1)) h2
  exact absurd (h3.symm.trans h4) (by simp)

/-- the hypotheses of `C28_error`: `[x` and an error of the scanner -/
example : ∃ s s' e, Delivers (new (exToks.take 1 ++ [tk .flowSequenceStart, tk (.scalar .plain bs!"x")]) (.error .unexpectedEof) .default false)
    [.streamStart, .documentStart false, .sequenceStart 0 none, .scalar ⟨bs!"x", .plain, 0, none⟩] s ∧ nextEvent s = (.err e, s') := by
  have hp : ((pull 4 (new (exToks.take 1 ++ [tk .flowSequenceStart, tk (.scalar .plain bs!"x")]) (.error .unexpectedEof) .default false)).map
      (fun r => (r.1, (nextEvent r.2).1))) = some ([.streamStart, .documentStart false, .sequenceStart 0 none, .scalar ⟨bs!"x", .plain, 0, none⟩], .err .unexpectedEof) := by
    decide +kernel
  simp only [Option.map_eq_some_iff] at hp
  obtain ⟨⟨evs, s⟩, h1, h2⟩ := hp
  simp only [Prod.mk.injEq] at h2
  obtain ⟨rfl, h2⟩ := h2
  exact ⟨s, (nextEvent s).2, _, pull_delivers h1, by rw [← h2]⟩

end Verif.Props
