import Verif.Spec.TextTree
import Verif.Spec.TokenStream
/-!
# The parser on tokens of valid UTF-8

Every event has a text and a tag of valid UTF-8 if all tokens have.
-/
namespace Verif.Parser
open Verif Verif.Spec

/-- the texts of a token are valid UTF-8 -/
def TextTok (t : Token) : Prop := ∀ w ∈ tokenTexts t.tt, Utf8Text w

def TextEv (e : Event × Span) : Prop := TextEvent e.1

/-- all texts that the parser holds -/
structure Holds (s : PSt) : Prop where
  toks : ∀ t ∈ s.toks, TextTok t
  token : ∀ t, s.token = some t → TextTok t
  tags : ∀ p ∈ s.tags, Utf8Text p.2
  current : ∀ e, s.current = some e → TextEv e

/-- the program keeps valid texts and delivers what `Q` says -/
def Txt {α} (Q : α → Prop) (m : PM α) : Prop := ∀ s, Holds s → Holds (m s).2 ∧ ∀ a, (m s).1 = .ok a → Q a

theorem Txt.bind {α β} {Q : α → Prop} {R : β → Prop} {m : PM α} {k : α → PM β} (hm : Txt Q m) (hk : ∀ a, Q a → Txt R (k a)) : Txt R (m >>= k) := by
  intro s h
  have h1 := hm s h
  simp only [Bind.bind]
  rcases e : m s with ⟨r, t⟩
  rw [e] at h1
  cases r with
  | ok a => exact hk a (h1.2 a rfl) t h1.1
  | err e => exact ⟨h1.1, fun _ h => by cases h⟩
  | panic => exact ⟨h1.1, fun _ h => by cases h⟩
  | hang => exact ⟨h1.1, fun _ h => by cases h⟩

theorem Txt.pure {α} {Q : α → Prop} {a : α} (h : Q a) : Txt Q (Pure.pure a : PM α) := fun _ hs => ⟨hs, fun _ e => by cases e; exact h⟩
theorem Txt.throwAt {α} {Q : α → Prop} {sp msg} : Txt Q (throwAt sp msg : PM α) := fun _ hs => ⟨hs, fun _ e => by cases e⟩
theorem Txt.throw_bind {α β} {Q : β → Prop} {sp msg} {k : α → PM β} : Txt Q ((Parser.throwAt sp msg : PM α) >>= k) := fun _ hs => ⟨hs, fun _ e => by cases e⟩
theorem Txt.panic {α} {Q : α → Prop} : Txt Q (panic : PM α) := fun _ hs => ⟨hs, fun _ e => by cases e⟩
theorem Txt.hang {α} {Q : α → Prop} : Txt Q (fun s => (.hang, s) : PM α) := fun _ hs => ⟨hs, fun _ e => by cases e⟩

theorem txt_scan : Txt TextTok scanNextToken := by
  intro s h
  unfold scanNextToken
  split
  · next t ts e =>
    exact ⟨⟨fun x hx => h.toks x (by simp [e, hx]), h.token, h.tags, h.current⟩, fun a ha => by cases ha; exact h.toks _ (by simp [e])⟩
  · split <;> exact ⟨h, fun _ e => by cases e⟩

theorem txt_peek : Txt TextTok peekToken := by
  intro s h
  unfold peekToken
  split
  · next t e => exact ⟨h, fun a ha => by cases ha; exact h.token _ e⟩
  · have h1 := txt_scan s h
    split
    · next t s' e =>
      rw [e] at h1
      exact ⟨⟨h1.1.toks, fun x hx => by cases hx; exact h1.2 _ rfl, h1.1.tags, h1.1.current⟩, fun a ha => by cases ha; exact h1.2 _ rfl⟩
    · exact h1

theorem Holds.noTok {s : PSt} (h : Holds s) : Holds { s with token := none } := ⟨h.toks, fun _ e => (by cases e), h.tags, h.current⟩

theorem txt_fetch : Txt TextTok fetchToken := by
  intro s h
  unfold fetchToken
  split
  · next t e => exact ⟨h.noTok, fun a ha => by cases ha; exact h.token _ e⟩
  · exact ⟨h, fun _ e => by cases e⟩

theorem txt_skip : Txt (fun _ => True) skip := fun _ h => ⟨h.noTok, fun _ _ => trivial⟩
theorem txt_pop : Txt (fun _ => True) popState := by
  intro s h
  unfold popState
  split <;> exact ⟨⟨h.toks, h.token, h.tags, h.current⟩, fun _ _ => trivial⟩
theorem txt_push {st} : Txt (fun _ => True) (pushState st) := fun _ h => ⟨⟨h.toks, h.token, h.tags, h.current⟩, fun _ _ => trivial⟩
theorem txt_set {st} : Txt (fun _ => True) (setState st) := fun _ h => ⟨⟨h.toks, h.token, h.tags, h.current⟩, fun _ _ => trivial⟩
theorem txt_tags {x : List (List Byte × List Byte)} (hx : ∀ p ∈ x, Utf8Text p.2) : Txt (fun _ => True) (modify fun s => { s with tags := x }) :=
  fun _ h => ⟨⟨h.toks, h.token, hx, h.current⟩, fun _ _ => trivial⟩
theorem txt_keep : Txt (fun _ => True) (modify fun s => { s with tags := if s.keepTags then s.tags else [] }) := fun s h =>
  have h1 : ∀ p ∈ (if s.keepTags then s.tags else []), Utf8Text p.2 := by
    split
    · exact h.tags
    · intro _ h; cases h
  ⟨⟨h.toks, h.token, h1, h.current⟩, fun _ _ => trivial⟩
theorem txt_register {n} : Txt (fun _ => True) (registerAnchor n) := fun _ h => ⟨⟨h.toks, h.token, h.tags, h.current⟩, fun _ _ => trivial⟩
theorem txt_gets {α} {f : PSt → α} : Txt (fun _ => True) (gets f) := fun _ h => ⟨h, fun _ _ => trivial⟩

theorem text_mapGet {m : List (List Byte × List Byte)} {k v} (h : ∀ p ∈ m, Utf8Text p.2) (e : mapGet m k = some v) : Utf8Text v := by
  obtain ⟨p, hp, rfl⟩ := Option.map_eq_some_iff.1 e
  exact h p (List.mem_of_find?_eq_some hp)

theorem txt_resolve {sp h x} (h1 : Utf8Text h) (h2 : Utf8Text x) : Txt (fun t => TextTag (some t)) (resolveTagM sp h x) := by
  intro s hs
  refine ⟨hs, fun t e => ?_⟩
  replace e : resolveTag s.tags sp h x = .ok t := e
  unfold resolveTag at e
  split at e
  · cases e
    refine ⟨?_, h2⟩
    cases hg : mapGet s.tags bs!"!!" with
    | none => exact ⟨"tag:yaml.org,2002:".toList, by show bs!"tag:yaml.org,2002:" = _; decide +kernel⟩
    | some v => exact text_mapGet hs.tags hg
  split at e
  · split at e
    · next hg => cases e; exact ⟨text_mapGet hs.tags hg, h2⟩
    · cases e; exact ⟨⟨[], rfl⟩, h2⟩
  split at e
  · next hg => cases e; exact ⟨text_mapGet hs.tags hg, h2⟩
  split at e
  · cases e
  · cases e; exact ⟨h1, h2⟩

theorem Txt.ite {α} {Q : α → Prop} {c : Prop} [Decidable c] {m n : PM α} (h1 : c → Txt Q m) (h2 : ¬ c → Txt Q n) : Txt Q (if c then m else n) := by
  split
  · exact h1 ‹_›
  · exact h2 ‹_›

theorem text_empty : Utf8Text [] := ⟨[], rfl⟩
theorem text_fst {sp h x} (ht : TextTok ⟨sp, .tag h x⟩) : Utf8Text h := ht h (by simp [tokenTexts])
theorem text_snd {sp h x} (ht : TextTok ⟨sp, .tag h x⟩) : Utf8Text x := ht x (by simp [tokenTexts])
theorem text_pref {sp h x} (ht : TextTok ⟨sp, .tagDirective h x⟩) : ∀ p ∈ mapInsert [] h x, Utf8Text p.2 := by
  intro p hp
  simp [mapInsert] at hp
  subst hp
  exact ht x (by simp [tokenTexts])
theorem text_scalar {sp st v a t sp'} (h : TextTok ⟨sp, .scalar st v⟩) (ht : TextTag t) : TextEv (.scalar ⟨v, st, a, t⟩, sp') := ⟨h v (by simp [tokenTexts]), ht⟩

/-- one step: a token that is looked at is split into its cases -/
macro "txt1" : tactic => `(tactic| first
  | with_reducible assumption
  | with_reducible exact Txt.panic
  | with_reducible exact Txt.hang
  | with_reducible exact Txt.throwAt
  | with_reducible exact Txt.throw_bind
  | ((with_reducible refine Txt.pure ?_); first | trivial | assumption | exact ⟨text_empty, trivial⟩ | exact ⟨text_empty, ‹_›⟩ | exact text_scalar ‹_› ‹_›)
  | ((with_reducible refine Txt.bind txt_peek ?_); rintro ⟨sp, tt⟩ htk; try dsimp only)
  | ((with_reducible refine Txt.bind txt_fetch ?_); rintro ⟨sp, tt⟩ -; try dsimp only)
  | ((with_reducible refine Txt.bind txt_skip ?_); intro _ _)
  | ((with_reducible refine Txt.bind txt_pop ?_); intro _ _)
  | ((with_reducible refine Txt.bind txt_push ?_); intro _ _)
  | ((with_reducible refine Txt.bind txt_set ?_); intro _ _)
  | ((with_reducible refine Txt.bind (txt_tags ?_) ?_); (first | exact text_pref ‹_› | simp); intro _ _)
  | ((with_reducible refine Txt.bind txt_keep ?_); intro _ _)
  | ((with_reducible refine Txt.bind txt_register ?_); intro _ _)
  | ((with_reducible refine Txt.bind (txt_resolve (text_fst ‹_›) (text_snd ‹_›)) ?_); intro _ _)
  | ((with_reducible refine Txt.bind txt_gets ?_); intro _ _)
  | ((with_reducible refine Txt.bind (Q := fun _ => True) (Txt.pure ?_) ?_); trivial; intro _ _)
  | (with_reducible refine Txt.ite (fun _ => ?_) (fun _ => ?_))
  | split)

theorem txt_streamStart : Txt TextEv streamStart := by
  unfold streamStart
  repeat' txt1

theorem txt_directivesLoop : ∀ n v, Txt (fun _ => True) (processDirectivesLoop n v) := by
  intro n
  induction n with
  | zero => intro v; exact Txt.hang
  | succ n ih =>
    intro v
    unfold processDirectivesLoop
    repeat' (first | with_reducible exact ih _ | txt1)

theorem txt_directives : Txt (fun _ => True) processDirectives := by
  intro s
  unfold processDirectives
  exact txt_directivesLoop _ _ s

theorem txt_explicit : Txt TextEv explicitDocumentStart := by
  unfold explicitDocumentStart
  refine Txt.bind txt_directives fun _ _ => ?_
  repeat' txt1

theorem txt_skipEnds : ∀ n, Txt (fun _ => True) (skipDocumentEnds n) := by
  intro n
  induction n with
  | zero => exact Txt.hang
  | succ n ih =>
    unfold skipDocumentEnds
    repeat' txt1

theorem txt_documentStart {i} : Txt TextEv (documentStart i) := by
  unfold documentStart
  refine Txt.bind txt_gets fun n _ => Txt.bind (txt_skipEnds _) fun _ _ => ?_
  repeat' (first | with_reducible exact txt_explicit | ((with_reducible refine Txt.bind txt_directives ?_); intro _ _) | txt1)

theorem txt_nodeContent {x y i t} (ht : TextTag t) : Txt TextEv (parseNodeContent x y i t) := by
  unfold parseNodeContent
  repeat' txt1

theorem txt_node {x y} : Txt TextEv (parseNode x y) := by
  unfold parseNode
  repeat' (first | exact txt_nodeContent (by first | assumption | trivial) | txt1)

theorem txt_documentContent : Txt TextEv documentContent := by
  unfold documentContent
  repeat' (first | with_reducible exact txt_node | txt1)

theorem txt_documentEnd : Txt TextEv documentEnd := by
  unfold documentEnd
  repeat' (first | with_reducible exact txt_node | txt1)

theorem txt_blockMappingKey {x} : Txt TextEv (blockMappingKey x) := by
  unfold blockMappingKey
  repeat' (first | with_reducible exact txt_node | txt1)

theorem txt_blockMappingValue {x} : Txt TextEv (blockMappingValue x) := by
  unfold blockMappingValue
  repeat' (first | with_reducible exact txt_node | txt1)

theorem txt_flowMappingKey {x} : Txt TextEv (flowMappingKey x) := by
  unfold flowMappingKey
  repeat' (first | with_reducible exact txt_node | txt1)

theorem txt_flowMappingValue {x} : Txt TextEv (flowMappingValue x) := by
  unfold flowMappingValue
  repeat' (first | with_reducible exact txt_node | txt1)

theorem txt_flowRest : Txt TextEv flowSequenceEntryRest := by
  unfold flowSequenceEntryRest
  repeat' (first | with_reducible exact txt_node | txt1)

theorem txt_flowEntry {x} : Txt TextEv (flowSequenceEntry x) := by
  unfold flowSequenceEntry
  repeat' (first | with_reducible exact txt_flowRest | txt1)

theorem txt_indentless : Txt TextEv indentlessSequenceEntry := by
  unfold indentlessSequenceEntry
  repeat' (first | with_reducible exact txt_node | txt1)

theorem txt_blockSequenceEntry {x} : Txt TextEv (blockSequenceEntry x) := by
  unfold blockSequenceEntry
  repeat' (first | with_reducible exact txt_node | txt1)

theorem txt_entryKey : Txt TextEv flowSequenceEntryMappingKey := by
  unfold flowSequenceEntryMappingKey
  repeat' (first | with_reducible exact txt_node | txt1)

theorem txt_entryValue : Txt TextEv flowSequenceEntryMappingValue := by
  unfold flowSequenceEntryMappingValue
  repeat' (first | with_reducible exact txt_node | txt1)

theorem txt_entryEnd {m} : Txt TextEv (flowSequenceEntryMappingEnd m) := by
  unfold flowSequenceEntryMappingEnd
  repeat' txt1

theorem txt_dispatch {st} : Txt TextEv (dispatch st) := by
  cases st <;> dsimp only [dispatch] <;> first
    | exact txt_streamStart
    | exact txt_documentStart
    | exact txt_documentContent
    | exact txt_documentEnd
    | exact txt_node
    | exact txt_blockMappingKey
    | exact txt_blockMappingValue
    | exact txt_blockSequenceEntry
    | exact txt_flowEntry
    | exact txt_flowMappingKey
    | exact txt_flowMappingValue
    | exact txt_indentless
    | exact txt_entryKey
    | exact txt_entryValue
    | exact txt_entryEnd
    | exact Txt.panic

theorem txt_parse : Txt TextEv parse := by
  intro s h
  unfold parse
  split
  · exact ⟨h, fun _ e => by cases e; trivial⟩
  · exact txt_dispatch s h

theorem txt_nextEventImpl : Txt TextEv nextEventImpl := by
  intro s h
  unfold nextEventImpl
  split
  · exact txt_parse s h
  · next v e => exact ⟨⟨h.toks, h.token, h.tags, fun _ e => (by cases e)⟩, fun a ha => by cases ha; exact h.current _ e⟩

end Verif.Parser
