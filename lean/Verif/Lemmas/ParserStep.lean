import Verif.Lemmas.ParserSafe
/-!
# What one successful parser step does
-/
set_option linter.unusedVariables false
namespace Verif.Parser
open Verif Verif.Grammar

/-- what the grammar expects in each parser state (for a state on the stack: after the current node) -/
def fr : PState → List Frame
  | .streamStart => [.streamStart]
  | .implicitDocumentStart => [.docStart]
  | .documentStart => [.docStart]
  | .documentContent => [.node]
  | .documentEnd => [.docEnd]
  | .blockNode => [.node]
  | .blockSequenceFirstEntry => [.seq]
  | .blockSequenceEntry => [.seq]
  | .indentlessSequenceEntry => [.seq]
  | .blockMappingFirstKey => [.key]
  | .blockMappingKey => [.key]
  | .blockMappingValue => [.val]
  | .flowSequenceFirstEntry => [.seq]
  | .flowSequenceEntry => [.seq]
  | .flowSequenceEntryMappingKey => [.key, .seq]
  | .flowSequenceEntryMappingValue => [.val, .seq]
  | .flowSequenceEntryMappingEnd _ => [.key, .seq]
  | .flowMappingFirstKey => [.key]
  | .flowMappingKey => [.key]
  | .flowMappingValue => [.val]
  | .flowMappingEmptyValue => [.val]
  | .endState => []
  | .flowMappingFirstKeyCont => [.key]
  | .blockMappingValueCont => [.val]

/-- what the grammar expects for a stack of states -/
def frStack : List PState → List Frame
  | [] => []
  | x :: xs => fr x ++ frStack xs

/-- what the grammar expects in a parser configuration -/
def frames (s : PSt) : List Frame := fr s.state ++ frStack s.states

/-- weight of a state waiting on the stack -/
def wst : PState → Nat
  | .streamStart => 1
  | .implicitDocumentStart => 6
  | .documentStart => 1
  | .documentContent => 5
  | .documentEnd => 2
  | .blockNode => 3
  | .blockSequenceFirstEntry => 1
  | .blockSequenceEntry => 1
  | .indentlessSequenceEntry => 1
  | .blockMappingFirstKey => 2
  | .blockMappingKey => 2
  | .blockMappingValue => 2
  | .flowSequenceFirstEntry => 1
  | .flowSequenceEntry => 1
  | .flowSequenceEntryMappingKey => 8
  | .flowSequenceEntryMappingValue => 3
  | .flowSequenceEntryMappingEnd _ => 2
  | .flowMappingFirstKey => 1
  | .flowMappingKey => 1
  | .flowMappingValue => 2
  | .flowMappingEmptyValue => 2
  | .endState => 0
  | .flowMappingFirstKeyCont => 5
  | .blockMappingValueCont => 5

/-- weight of the current state; a block mapping looks at the next token -/
def wcur (st : PState) (hd : Option Token) : Nat :=
  match st with
  | .blockMappingKey => if hd.map (·.tt) = some .value then 2 else 1
  | .blockMappingValue => if hd.map (·.tt) = some .value then 1 else 2
  | st => wst st

theorem wcur_le (st hd) : wcur st hd ≤ wst st := by
  unfold wcur
  split
  · split <;> simp [wst]
  · split <;> simp [wst]
  · exact Nat.le_refl _

def wstack : List PState → Nat
  | [] => 0
  | x :: xs => wst x + wstack xs

/-- every event makes this smaller -/
def measure (s : PSt) : Nat := 10 * (pend s).length + wcur s.state (pend s).head? + wstack s.states

/-- names in the anchor definitions among the tokens -/
def anchorNames : List Token → List (List Byte)
  | [] => []
  | t :: ts => match t.tt with
    | .anchor n => n :: anchorNames ts
    | _ => anchorNames ts

/-- style and text of the scalars among the tokens -/
def scalarTexts : List Token → List (ScalarType × List Byte)
  | [] => []
  | t :: ts => match t.tt with
    | .scalar st v => (st, v) :: scalarTexts ts
    | _ => scalarTexts ts

/-- names in the aliases among the tokens -/
def aliasNames : List Token → List (List Byte)
  | [] => []
  | t :: ts => match t.tt with
    | .alias n => n :: aliasNames ts
    | _ => aliasNames ts

/-- handle and suffix of the tags among the tokens -/
def tagToks : List Token → List (List Byte × List Byte)
  | [] => []
  | t :: ts => match t.tt with
    | .tag h sf => (h, sf) :: tagToks ts
    | _ => tagToks ts

/-- the tag an event carries -/
def evTag : Event → Option Tag
  | .scalar v => v.tag
  | .sequenceStart _ t => t
  | .mappingStart _ t => t
  | _ => none

/-- how the tags among the consumed tokens show up in the event -/
def TagOK (tags : List (List Byte × List Byte)) (s : PSt) (ev : Event) : Prop :=
  (tags = [] ∧ evTag ev = none) ∨
  (∃ h sf sp t, tags = [(h, sf)] ∧ resolveTag s.tags sp h sf = .ok t ∧ evTag ev = some t)

/-- the anchor number an event carries (0: none) -/
def evAnchor : Event → Nat
  | .scalar v => v.anchorId
  | .sequenceStart a _ => a
  | .mappingStart a _ => a
  | _ => 0

/-- how the scalars among the consumed tokens show up in the event -/
def TextOK (texts : List (ScalarType × List Byte)) (ev : Event) : Prop :=
  match ev with
  | .scalar v => texts = [(v.style, v.value)] ∨ (texts = [] ∧ v.style = .plain ∧ v.value = [])
  | _ => texts = []

/-- how the anchors among the consumed tokens show up in the event and in the table -/
def AnchorOK (names : List (List Byte)) (s : PSt) (ev : Event) (s' : PSt) : Prop :=
  (names = [] ∧ evAnchor ev = 0 ∧ s'.anchors = s.anchors ∧ s'.anchorIdCount = s.anchorIdCount) ∨
  (∃ n, names = [n] ∧ evAnchor ev = s.anchorIdCount ∧ s'.anchors = mapInsert s.anchors n s.anchorIdCount ∧
    s'.anchorIdCount = s.anchorIdCount + 1)

/-- how the aliases among the consumed tokens show up in the event -/
def AliasOK (names : List (List Byte)) (s : PSt) (ev : Event) : Prop :=
  match ev with
  | .alias id => ∃ n, names = [n] ∧ mapGet s.anchors n = some id
  | _ => names = []

/-- fields no event changes -/
def Kept (s s' : PSt) : Prop :=
  s'.tail = s.tail ∧ s'.endMark = s.endMark ∧ s'.current = s.current ∧ s'.streamEndEmitted = s.streamEndEmitted ∧
  s'.keepTags = s.keepTags

/-- in a "first" state the opening token is still there -/
def HeadOK (s : PSt) : Prop :=
  match s.state with
  | .blockMappingFirstKey => (pend s).head?.map (·.tt) = some .blockMappingStart
  | .blockSequenceFirstEntry => (pend s).head?.map (·.tt) = some .blockSequenceStart
  | .flowMappingFirstKey => (pend s).head?.map (·.tt) = some .flowMappingStart
  | .flowSequenceFirstEntry => (pend s).head?.map (·.tt) = some .flowSequenceStart
  | .flowMappingFirstKeyCont => False
  | .blockMappingValueCont => False
  | _ => True

/-- no state that only exists with the `comment` feature is waiting -/
def NoCont (sts : List PState) : Prop :=
  ∀ x ∈ sts, x ≠ .flowMappingFirstKeyCont ∧ x ≠ .blockMappingValueCont ∧ x ≠ .blockMappingFirstKey ∧
    x ≠ .blockSequenceFirstEntry ∧ x ≠ .flowMappingFirstKey ∧ x ≠ .flowSequenceFirstEntry

/-- the shape of what `parse_node` does: a leaf returns to the waiting state, an opening event enters a new state -/
def NodeShape (s : PSt) (ev : Event) (s' : PSt) : Prop :=
  (s.states = s'.state :: s'.states ∧ ((∃ v, ev = .scalar v) ∨ (∃ i, ev = .alias i)) ∧
    (pend s').length < (pend s).length) ∨
  (s'.states = s.states ∧ (∃ a t, ev = .sequenceStart a t) ∧
    (s'.state = .indentlessSequenceEntry ∨ s'.state = .flowSequenceFirstEntry ∨ s'.state = .blockSequenceFirstEntry)) ∨
  (s'.states = s.states ∧ (∃ a t, ev = .mappingStart a t) ∧
    (s'.state = .flowMappingFirstKey ∨ s'.state = .blockMappingFirstKey))

/-- everything about `parse_node` -/
def NodeOut (s : PSt) (ev : Event) (s' : PSt) : Prop :=
  Kept s s' ∧ s'.tags = s.tags ∧ HeadOK s' ∧ NodeShape s ev s' ∧
  ∃ u, pend s = u ++ pend s' ∧ TextOK (scalarTexts u) ev ∧ AnchorOK (anchorNames u) s ev s' ∧ AliasOK (aliasNames u) s ev ∧
    TagOK (tagToks u) s ev

/-- everything about `parse_node` after anchor and tag -/
def ContentOut (id : Nat) (tag : Option Tag) (some? : Bool) (s : PSt) (ev : Event) (s' : PSt) : Prop :=
  Kept s s' ∧ s'.tags = s.tags ∧ s'.anchors = s.anchors ∧ s'.anchorIdCount = s.anchorIdCount ∧ HeadOK s' ∧
  evAnchor ev = id ∧ evTag ev = tag ∧
  ((s.states = s'.state :: s'.states ∧ (∃ v, ev = .scalar v) ∧ ((pend s').length < (pend s).length ∨ some? = true)) ∨
  (s'.states = s.states ∧ (∃ a t, ev = .sequenceStart a t) ∧
    (s'.state = .indentlessSequenceEntry ∨ s'.state = .flowSequenceFirstEntry ∨ s'.state = .blockSequenceFirstEntry)) ∨
  (s'.states = s.states ∧ (∃ a t, ev = .mappingStart a t) ∧
    (s'.state = .flowMappingFirstKey ∨ s'.state = .blockMappingFirstKey))) ∧
  ∃ u, pend s = u ++ pend s' ∧ TextOK (scalarTexts u) ev ∧ anchorNames u = [] ∧ aliasNames u = [] ∧ tagToks u = []

theorem headOK_pop {s : PSt} {st sts} (h : NoCont (st :: sts)) (hs : s.state = st) : HeadOK s := by
  have := h st (by simp)
  unfold HeadOK
  split <;> simp_all

theorem parseNodeContent_out {b i id tag s} (hc : NoCont s.states) (hne : s.states ≠ []) :
    wp (parseNodeContent b i id tag) (fun r s' => ContentOut id tag (tag.isSome || decide (id > 0)) s r.1 s') (fun _ => True) s := by
  unfold parseNodeContent
  wp_run
  all_goals first
    | trivial
    | exact hne (by assumption)
    | skip
  all_goals simp_all [ContentOut, Kept, evAnchor, TextOK, ScalarValue.emptyWithAnchor, scalarTexts, anchorNames, aliasNames, tagToks, evTag]
  all_goals first
    | (simp_all [HeadOK]; done)
    | exact headOK_pop hc rfl
    | (refine ⟨headOK_pop hc rfl, ?_⟩; exact ⟨[_], rfl, by simp_all [scalarTexts, anchorNames, aliasNames, tagToks]⟩)

theorem anchorNames_append (a b) : anchorNames (a ++ b) = anchorNames a ++ anchorNames b := by
  induction a with
  | nil => rfl
  | cons t ts ih => simp only [List.cons_append, anchorNames]; split <;> simp [ih]

theorem scalarTexts_append (a b) : scalarTexts (a ++ b) = scalarTexts a ++ scalarTexts b := by
  induction a with
  | nil => rfl
  | cons t ts ih => simp only [List.cons_append, scalarTexts]; split <;> simp [ih]

theorem aliasNames_append (a b) : aliasNames (a ++ b) = aliasNames a ++ aliasNames b := by
  induction a with
  | nil => rfl
  | cons t ts ih => simp only [List.cons_append, aliasNames]; split <;> simp [ih]

theorem tagToks_append (a b) : tagToks (a ++ b) = tagToks a ++ tagToks b := by
  induction a with
  | nil => rfl
  | cons t ts ih => simp only [List.cons_append, tagToks]; split <;> simp [ih]

theorem nodeOut_of_content {s s1 s' : PSt} {ev id tg sm} (pre : List Token) (h : ContentOut id tg sm s1 ev s')
    (hst : s1.states = s.states) (htags : s1.tags = s.tags) (hk : Kept s s1) (hp : pend s = pre ++ pend s1)
    (ht : scalarTexts pre = []) (ha : aliasNames pre = [])
    (hanch : (anchorNames pre = [] ∧ id = 0 ∧ s1.anchors = s.anchors ∧ s1.anchorIdCount = s.anchorIdCount) ∨
      (∃ n, anchorNames pre = [n] ∧ id = s.anchorIdCount ∧ s1.anchors = mapInsert s.anchors n s.anchorIdCount ∧
        s1.anchorIdCount = s.anchorIdCount + 1))
    (htg : (tagToks pre = [] ∧ tg = none) ∨
      (∃ h sf sp t, tagToks pre = [(h, sf)] ∧ resolveTag s.tags sp h sf = .ok t ∧ tg = some t))
    (hlen : sm = true → pre ≠ []) : NodeOut s ev s' := by
  obtain ⟨k, tg', an, ac, ho, hid, het, hsh, u, hu, htx, hn, hal, hut⟩ := h
  refine ⟨?_, by rw [tg', htags], ho, ?_, pre ++ u, by rw [hp, hu, List.append_assoc], ?_, ?_, ?_, ?_⟩
  · simp only [Kept] at *; simp [*]
  · have hl : (pend s).length = pre.length + (pend s1).length := by rw [hp]; simp
    rcases hsh with ⟨h1, h2, h3⟩ | ⟨h1, h2, h3⟩ | ⟨h1, h2, h3⟩
    · refine .inl ⟨by rw [← hst, h1], .inl h2, ?_⟩
      rcases h3 with h3 | h3
      · omega
      · have := List.length_pos_iff.2 (hlen h3)
        have : (pend s1).length = u.length + (pend s').length := by rw [hu]; simp
        omega
    · exact .inr (.inl ⟨by rw [h1, hst], h2, h3⟩)
    · exact .inr (.inr ⟨by rw [h1, hst], h2, h3⟩)
  · rw [scalarTexts_append, ht]; exact htx
  · rw [anchorNames_append, hn, List.append_nil]
    unfold AnchorOK
    rw [an, ac, hid]
    exact hanch
  · rw [aliasNames_append, ha, hal]
    rcases hsh with ⟨h1, ⟨v, rfl⟩, h3⟩ | ⟨h1, ⟨_, _, rfl⟩, h3⟩ | ⟨h1, ⟨_, _, rfl⟩, h3⟩ <;> simp [AliasOK]
  · rw [tagToks_append, hut, List.append_nil]
    unfold TagOK
    rw [het]
    exact htg

attribute [local irreducible] parseNodeContent

theorem parseNode_out {b i s} (hc : NoCont s.states) (hne : s.states ≠ []) :
    wp (parseNode b i) (fun r s' => NodeOut s r.1 s') (fun _ => True) s := by
  unfold parseNode
  wp_run
  all_goals first
    | trivial
    | exact hne (by assumption)
    | skip
  · simp_all [NodeOut, Kept, NodeShape, AliasOK]
    exact ⟨headOK_pop hc rfl, [_], rfl, by simp_all [scalarTexts, anchorNames, aliasNames, AnchorOK, TextOK, evAnchor, TagOK, tagToks, evTag]⟩
  · rename_i hp1 _ _ ht1 _ _ _ _ hp2 _ _ _ ht2 _ _
    refine wp_mono (parseNodeContent_out hc hne) (fun r s' h => ?_) (fun _ _ => trivial)
    simp only [pend_mk'] at hp2
    refine nodeOut_of_content [_, _] h rfl rfl ⟨rfl, rfl, rfl, rfl, rfl⟩ (by rw [hp1, hp2]; rfl) ?_ ?_ ?_ ?_ (by simp) <;>
    simp [scalarTexts, anchorNames, aliasNames, tagToks, ht1, ht2]
    try exact ⟨_, _, ⟨rfl, rfl⟩, _, by assumption⟩
  · rename_i hp1 _ _ ht1 _ _ _ _ hp2 _ _
    refine wp_mono (parseNodeContent_out hc hne) (fun r s' h => ?_) (fun _ _ => trivial)
    simp only [pend_mk'] at hp2
    refine nodeOut_of_content [_] h rfl rfl ⟨rfl, rfl, rfl, rfl, rfl⟩ (by rw [hp1, hp2]; rfl) ?_ ?_ ?_ ?_ (by simp) <;>
    simp [scalarTexts, anchorNames, aliasNames, tagToks, ht1]
    try exact ⟨_, _, ⟨rfl, rfl⟩, _, by assumption⟩
  · rename_i hp1 _ _ _ ht1 _ _ _ _ _ _ hp2 _ _ ht2
    refine wp_mono (parseNodeContent_out hc hne) (fun r s' h => ?_) (fun _ _ => trivial)
    simp only [pend_mk'] at hp2
    refine nodeOut_of_content [_, _] h rfl rfl ⟨rfl, rfl, rfl, rfl, rfl⟩ (by rw [hp1, hp2]; rfl) ?_ ?_ ?_ ?_ (by simp) <;>
    simp [scalarTexts, anchorNames, aliasNames, tagToks, ht1, ht2]
    try exact ⟨_, _, ⟨rfl, rfl⟩, _, by assumption⟩
  · rename_i hp1 _ _ _ ht1 _ _ _ _ _ _ hp2 _ _
    refine wp_mono (parseNodeContent_out hc hne) (fun r s' h => ?_) (fun _ _ => trivial)
    simp only [pend_mk'] at hp2
    refine nodeOut_of_content [_] h rfl rfl ⟨rfl, rfl, rfl, rfl, rfl⟩ (by rw [hp1, hp2]; rfl) ?_ ?_ ?_ ?_ (by simp) <;>
    simp [scalarTexts, anchorNames, aliasNames, tagToks, ht1]
    try exact ⟨_, _, ⟨rfl, rfl⟩, _, by assumption⟩
  · rename_i hp1 _ _ _ _
    refine wp_mono (parseNodeContent_out hc hne) (fun r s' h => ?_) (fun _ _ => trivial)
    refine nodeOut_of_content [] h rfl rfl ⟨rfl, rfl, rfl, rfl, rfl⟩ (by rw [hp1]; rfl) rfl rfl ?_ ?_ (by simp) <;>
    simp [anchorNames, tagToks]

/-- everything one event does -/
structure StepOut (s : PSt) (ev : Event) (s' : PSt) : Prop where
  kept : Kept s s'
  head : HeadOK s'
  nocont : NoCont s'.states
  gram : step (frames s) ev = some (frames s')
  meas : measure s' < measure s
  tags : docLevel s.state = false → s'.tags = s.tags
  toks : ∃ u, pend s = u ++ pend s' ∧ TextOK (scalarTexts u) ev ∧ AnchorOK (anchorNames u) s ev s' ∧
    AliasOK (aliasNames u) s ev ∧ TagOK (tagToks u) s ev

theorem NoCont.tail {x xs} (h : NoCont (x :: xs)) : NoCont xs := fun y hy => h y (by simp [hy])

/-- an event that is a whole node, or opens one -/
theorem stepOut_of_node {s s1 s' : PSt} {ev f a rest} (pre : List Token) (h : NodeOut s1 ev s')
    (hp : pend s = pre ++ pend s1) (hf : fr s.state = f :: rest) (ha : after f = some a)
    (hst : frStack s1.states = a ++ (rest ++ frStack s.states)) (hc : NoCont s1.states)
    (hm : wstack s1.states + 2 < 10 * pre.length + wcur s.state (pend s).head? + wstack s.states)
    (hk : Kept s s1) (htags : s1.tags = s.tags) (han : s1.anchors = s.anchors) (hac : s1.anchorIdCount = s.anchorIdCount)
    (h1 : scalarTexts pre = []) (h2 : anchorNames pre = []) (h3 : aliasNames pre = []) (h4 : tagToks pre = []) : StepOut s ev s' := by
  obtain ⟨k, tg, ho, hsh, u, hu, htx, hn, hal, htt⟩ := h
  have hl : (pend s).length = pre.length + (pend s1).length := by rw [hp]; simp
  have hl' : (pend s1).length = u.length + (pend s').length := by rw [hu]; simp
  have hw := wcur_le s'.state (pend s').head?
  refine ⟨?_, ho, ?_, ?_, ?_, fun _ => by rw [tg, htags], pre ++ u, by rw [hp, hu, List.append_assoc], ?_, ?_, ?_, ?_⟩
  · simp only [Kept] at *; simp [*]
  · rcases hsh with ⟨h1, _⟩ | ⟨h1, _⟩ | ⟨h1, _⟩
    · rw [h1] at hc; exact hc.tail
    · rw [h1]; exact hc
    · rw [h1]; exact hc
  · rcases hsh with ⟨h1, h2, -⟩ | ⟨h1, ⟨_, _, rfl⟩, h3⟩ | ⟨h1, ⟨_, _, rfl⟩, h3⟩
    · have : frames s' = a ++ (rest ++ frStack s.states) := by rw [← hst, h1]; rfl
      rcases h2 with ⟨_, rfl⟩ | ⟨_, rfl⟩ <;> simp [frames, hf, step, ha] <;> simp [← this, frames]
    · have e : fr s'.state = [.seq] := by rcases h3 with h3 | h3 | h3 <;> simp [h3, fr]
      simp [frames, hf, step, ha, e, h1, hst]
    · have e : fr s'.state = [.key] := by rcases h3 with h3 | h3 <;> simp [h3, fr]
      simp [frames, hf, step, ha, e, h1, hst]
  · unfold measure
    rcases hsh with ⟨h1, h2, h4⟩ | ⟨h1, ⟨_, _, rfl⟩, h3⟩ | ⟨h1, ⟨_, _, rfl⟩, h3⟩
    · rw [h1] at hm; simp only [wstack] at hm; omega
    · have : wst s'.state ≤ 2 := by rcases h3 with h3 | h3 | h3 <;> simp [h3, wst]
      rw [h1]; omega
    · have : wst s'.state ≤ 2 := by rcases h3 with h3 | h3 <;> simp [h3, wst]
      rw [h1]; omega
  · rw [scalarTexts_append, h1]; exact htx
  · rw [anchorNames_append, h2]
    unfold AnchorOK at *
    rw [han, hac] at hn
    simpa using hn
  · rw [aliasNames_append, h3]
    unfold AliasOK at *
    rw [han] at hal
    simpa using hal
  · rw [tagToks_append, h4]
    unfold TagOK at *
    rw [htags] at htt
    simpa using htt

/-- any other event -/
theorem stepOut_plain {s s' : PSt} {ev} (pre : List Token) (hp : pend s = pre ++ pend s')
    (hev : TextOK [] ev ∧ evAnchor ev = 0 ∧ evTag ev = none ∧ ∀ i, ev ≠ .alias i)
    (hk : Kept s s') (hh : HeadOK s') (hc : NoCont s'.states) (hg : step (frames s) ev = some (frames s'))
    (hm : wcur s'.state (pend s').head? + wstack s'.states < 10 * pre.length + wcur s.state (pend s).head? + wstack s.states)
    (htags : docLevel s.state = false → s'.tags = s.tags)
    (han : s'.anchors = s.anchors) (hac : s'.anchorIdCount = s.anchorIdCount)
    (h1 : scalarTexts pre = []) (h2 : anchorNames pre = []) (h3 : aliasNames pre = []) (h4 : tagToks pre = []) : StepOut s ev s' := by
  have hl : (pend s).length = pre.length + (pend s').length := by rw [hp]; simp
  refine ⟨hk, hh, hc, hg, ?_, htags, pre, hp, by rw [h1]; exact hev.1, ?_, ?_, .inl ⟨h4, hev.2.2.1⟩⟩
  · unfold measure; omega
  · exact .inl ⟨h2, hev.2.1, han, hac⟩
  · unfold AliasOK
    split
    · exact absurd rfl (hev.2.2.2 _)
    · exact h3

attribute [local irreducible] parseNode

theorem NoCont.push {x xs} (hx : x ≠ .flowMappingFirstKeyCont ∧ x ≠ .blockMappingValueCont ∧ x ≠ .blockMappingFirstKey ∧
    x ≠ .blockSequenceFirstEntry ∧ x ≠ .flowMappingFirstKey ∧ x ≠ .flowSequenceFirstEntry) (h : NoCont xs) :
    NoCont (x :: xs) := by
  intro y hy
  rcases List.mem_cons.1 hy with rfl | hy
  · exact hx
  · exact h y hy

theorem headOK_of_pop {s0 s : PSt} {st sts} (h : NoCont s0.states) (he : s0.states = st :: sts) (hs : s.state = st) :
    HeadOK s := headOK_pop (he ▸ h) hs

theorem NoCont.of_pop {s0 : PSt} {st sts} (h : NoCont s0.states) (he : s0.states = st :: sts) : NoCont sts :=
  NoCont.tail (he ▸ h)

set_option hygiene false in
/-- close the side goals of `stepOut_plain` -/
macro "plain_with" pre:term : tactic => `(tactic| (
  refine stepOut_plain $pre ?_ (by simp [TextOK, Event.emptyScalar, ScalarValue.empty, evAnchor, evTag]) ⟨rfl, rfl, rfl, rfl, rfl⟩
    (by first | exact headOK_of_pop hc (by assumption) rfl | (simp_all [HeadOK]; done))
    (by first | exact hc | exact hc.of_pop (by assumption) | exact NoCont.push (by simp) hc)
    ?_ ?_ (fun _ => rfl) rfl rfl ?_ ?_ ?_ ?_
  · simp_all
  · simp_all [frames, fr, frStack, step, after, Event.emptyScalar]
  · have := fun st hd => wcur_le st hd
    first
    | (simp_all [wcur, wst, wstack]; done)
    | (simp_all [wcur, wst, wstack]; omega)
    | (simp_all [wst, wstack]; refine Nat.lt_of_le_of_lt (Nat.add_le_add_right (wcur_le _ _) _) ?_; simp [wcur, wst]; try omega)
  · simp_all [scalarTexts]
  · simp_all [anchorNames]
  · simp_all [aliasNames]
  · simp_all [tagToks]
  done))

set_option hygiene false in
/-- close the side goals of `stepOut_of_node` -/
macro "node_with" pre:term : tactic => `(tactic| (
  refine wp_mono (parseNode_out (by first | exact hc | exact NoCont.push (by simp) hc) (by first | exact hne | simp))
    (fun r s' h => ?_) (fun _ _ => trivial)
  refine stepOut_of_node $pre h ?_ (by rw [hs]; rfl) (by rfl) (by rfl)
    (by first | exact hc | exact NoCont.push (by simp) hc) ?_ ⟨rfl, rfl, rfl, rfl, rfl⟩ rfl rfl rfl ?_ ?_ ?_ ?_
  · simp_all
  · first
    | (simp_all [wcur, wst, wstack]; done)
    | (simp_all [wcur, wst, wstack]; omega)
  · simp_all [scalarTexts]
  · simp_all [anchorNames]
  · simp_all [aliasNames]
  · simp_all [tagToks]
  done))

set_option hygiene false in
/-- symbolic execution of one parser function -/
macro "step_tac" : tactic => `(tactic| (
  wp_run
  all_goals first
    | trivial
    | contradiction
    | exact hne (by assumption)
    | skip
  all_goals (try simp only [pend_mk, pend_mk', List.cons.injEq] at *)
  all_goals subst_vars
  all_goals first
    | plain_with []
    | plain_with ((pend s).take 1)
    | plain_with ((pend s).take 2)
    | node_with []
    | node_with ((pend s).take 1)
    | node_with ((pend s).take 2)
    | skip))

theorem blockMappingKey_out {s} (hc : NoCont s.states) (hne : s.states ≠ []) (hs : s.state = .blockMappingKey) :
    wp (blockMappingKey false) (fun r s' => StepOut s r.1 s') (fun _ => True) s := by
  unfold blockMappingKey
  step_tac

theorem blockMappingFirstKey_out {s} (hc : NoCont s.states) (hne : s.states ≠ []) (hs : s.state = .blockMappingFirstKey)
    (hh : (pend s).head?.map (·.tt) = some .blockMappingStart) :
    wp (blockMappingKey true) (fun r s' => StepOut s r.1 s') (fun _ => True) s := by
  unfold blockMappingKey
  step_tac

theorem blockMappingValue_out {s} (hc : NoCont s.states) (hne : s.states ≠ []) (hs : s.state = .blockMappingValue) :
    wp (blockMappingValue true) (fun r s' => StepOut s r.1 s') (fun _ => True) s := by
  unfold blockMappingValue
  step_tac

theorem blockSequenceFirstEntry_out {s} (hc : NoCont s.states) (hne : s.states ≠ []) (hs : s.state = .blockSequenceFirstEntry)
    (hh : (pend s).head?.map (·.tt) = some .blockSequenceStart) :
    wp (blockSequenceEntry true) (fun r s' => StepOut s r.1 s') (fun _ => True) s := by
  unfold blockSequenceEntry
  step_tac

theorem blockSequenceEntry_out {s} (hc : NoCont s.states) (hne : s.states ≠ []) (hs : s.state = .blockSequenceEntry) :
    wp (blockSequenceEntry false) (fun r s' => StepOut s r.1 s') (fun _ => True) s := by
  unfold blockSequenceEntry
  step_tac

theorem flowSequenceFirstEntry_out {s} (hc : NoCont s.states) (hne : s.states ≠ []) (hs : s.state = .flowSequenceFirstEntry)
    (hh : (pend s).head?.map (·.tt) = some .flowSequenceStart) :
    wp (flowSequenceEntry true) (fun r s' => StepOut s r.1 s') (fun _ => True) s := by
  unfold flowSequenceEntry flowSequenceEntryRest
  step_tac

theorem flowSequenceEntry_out {s} (hc : NoCont s.states) (hne : s.states ≠ []) (hs : s.state = .flowSequenceEntry) :
    wp (flowSequenceEntry false) (fun r s' => StepOut s r.1 s') (fun _ => True) s := by
  unfold flowSequenceEntry flowSequenceEntryRest
  step_tac

theorem flowMappingFirstKey_out {s} (hc : NoCont s.states) (hne : s.states ≠ []) (hs : s.state = .flowMappingFirstKey)
    (hh : (pend s).head?.map (·.tt) = some .flowMappingStart) :
    wp (flowMappingKey .firstKey) (fun r s' => StepOut s r.1 s') (fun _ => True) s := by
  unfold flowMappingKey
  step_tac

theorem flowMappingKey_out {s} (hc : NoCont s.states) (hne : s.states ≠ []) (hs : s.state = .flowMappingKey) :
    wp (flowMappingKey .nonFirstKey) (fun r s' => StepOut s r.1 s') (fun _ => True) s := by
  unfold flowMappingKey
  step_tac

theorem flowMappingValue_out {s} (hc : NoCont s.states) (hne : s.states ≠ []) (hs : s.state = .flowMappingValue) :
    wp (flowMappingValue false) (fun r s' => StepOut s r.1 s') (fun _ => True) s := by
  unfold flowMappingValue
  step_tac

theorem flowMappingEmptyValue_out {s} (hc : NoCont s.states) (hne : s.states ≠ []) (hs : s.state = .flowMappingEmptyValue) :
    wp (flowMappingValue true) (fun r s' => StepOut s r.1 s') (fun _ => True) s := by
  unfold flowMappingValue
  step_tac

theorem indentlessSequenceEntry_out {s} (hc : NoCont s.states) (hne : s.states ≠ []) (hs : s.state = .indentlessSequenceEntry) :
    wp (indentlessSequenceEntry) (fun r s' => StepOut s r.1 s') (fun _ => True) s := by
  unfold indentlessSequenceEntry
  step_tac

theorem flowSequenceEntryMappingKey_out {s} (hc : NoCont s.states) (hne : s.states ≠ []) (hs : s.state = .flowSequenceEntryMappingKey) :
    wp (flowSequenceEntryMappingKey) (fun r s' => StepOut s r.1 s') (fun _ => True) s := by
  unfold flowSequenceEntryMappingKey
  step_tac

theorem flowSequenceEntryMappingValue_out {s} (hc : NoCont s.states) (hne : s.states ≠ []) (hs : s.state = .flowSequenceEntryMappingValue) :
    wp (flowSequenceEntryMappingValue) (fun r s' => StepOut s r.1 s') (fun _ => True) s := by
  unfold flowSequenceEntryMappingValue
  step_tac

theorem documentContent_out {s} (hc : NoCont s.states) (hne : s.states ≠ []) (hs : s.state = .documentContent) :
    wp (documentContent) (fun r s' => StepOut s r.1 s') (fun _ => True) s := by
  unfold documentContent
  step_tac

end Verif.Parser
