import Verif.Model.Loader
import Verif.Spec.Places
/-!
# The parser does not look at places

Changing all places by some function before parsing or after it is the same.
-/
namespace Verif.Parser
open Verif Verif.Spec

variable {f : Marker → Marker}

def mapState (f : Marker → Marker) : PState → PState
  | .flowSequenceEntryMappingEnd m => .flowSequenceEntryMappingEnd (f m)
  | s => s

def mapSt (f : Marker → Marker) (s : PSt) : PSt :=
  { s with
    toks := s.toks.map (Token.mapM f)
    tail := tailMapM f s.tail
    endMark := f s.endMark
    states := s.states.map (mapState f)
    state := mapState f s.state
    token := s.token.map (Token.mapM f)
    current := s.current.map (evMapM f) }

def mapRes {α} (f : Marker → Marker) (g : α → α) : Res α → Res α
  | .ok a => .ok (g a)
  | .err e => .err (YErr.mapM f e)
  | .panic => .panic
  | .hang => .hang

/-- the second program does on the changed state what the first does -/
def Same {α} (f : Marker → Marker) (g : α → α) (m m' : PM α) : Prop := ∀ s, m' (mapSt f s) = (mapRes f g (m s).1, mapSt f (m s).2)

theorem Same.bind {α β} {g : α → α} {h : β → β} {m m' : PM α} {k k' : α → PM β} (hm : Same f g m m') (hk : ∀ a, Same f h (k a) (k' (g a))) :
    Same f h (m >>= k) (m' >>= k') := by
  intro s
  have h1 := hm s
  simp only [Bind.bind]
  rcases e : m s with ⟨r, t⟩
  rw [e] at h1
  rw [h1]
  cases r with
  | ok a => exact hk a t
  | err e => rfl
  | panic => rfl
  | hang => rfl

theorem Same.pure {α} {g : α → α} {a a' : α} (h : a' = g a) : Same f g (Pure.pure a : PM α) (Pure.pure a') := by
  intro s; subst h; rfl

theorem Same.throwAt {α} {g : α → α} {sp sp' : Span} {msg} (h : sp' = Span.mapM f sp) : Same f g (throwAt sp msg : PM α) (Parser.throwAt sp' msg) := by
  intro s; subst h; rfl

theorem Same.throw_bind {α β} {h : β → β} {sp sp' : Span} {msg} {k k' : α → PM β} (e : sp' = Span.mapM f sp) :
    Same f h ((Parser.throwAt sp msg : PM α) >>= k) (Parser.throwAt sp' msg >>= k') := by
  intro s; subst e; rfl

theorem Same.panic {α} {g : α → α} : Same f g (panic : PM α) (Parser.panic) := fun _ => rfl

theorem Same.hang {α} {g : α → α} : Same f g (fun s => (.hang, s) : PM α) (fun s => (.hang, s)) := fun _ => rfl

theorem same_scan : Same f (Token.mapM f) scanNextToken scanNextToken := by
  intro s
  unfold scanNextToken
  cases h : s.toks with
  | nil =>
    have h1 : (mapSt f s).toks = [] := by simp [mapSt, h]
    rw [h1]
    simp only
    cases ht : s.tail <;> simp only [mapSt, ht, tailMapM] <;> rfl
  | cons t ts =>
    have h1 : (mapSt f s).toks = Token.mapM f t :: ts.map (Token.mapM f) := by simp [mapSt, h]
    rw [h1]
    rfl

theorem same_peek : Same f (Token.mapM f) peekToken peekToken := by
  intro s
  unfold peekToken
  cases h : s.token with
  | some t =>
    have h1 : (mapSt f s).token = some (Token.mapM f t) := by simp [mapSt, h]
    rw [h1]
    rfl
  | none =>
    have h1 : (mapSt f s).token = none := by simp [mapSt, h]
    rw [h1]
    simp only
    rw [same_scan s]
    rcases scanNextToken s with ⟨r, t⟩
    cases r <;> rfl

theorem same_fetch : Same f (Token.mapM f) fetchToken fetchToken := by
  intro s
  unfold fetchToken
  cases h : s.token with
  | some t =>
    have h1 : (mapSt f s).token = some (Token.mapM f t) := by simp [mapSt, h]
    rw [h1]
    rfl
  | none =>
    have h1 : (mapSt f s).token = none := by simp [mapSt, h]
    rw [h1]
    rfl

theorem same_skip : Same f id skip skip := fun _ => rfl

theorem same_pop : Same f id popState popState := by
  intro s
  unfold popState
  cases h : s.states with
  | nil =>
    have h1 : (mapSt f s).states = [] := by simp [mapSt, h]
    rw [h1]; rfl
  | cons t ts =>
    have h1 : (mapSt f s).states = mapState f t :: ts.map (mapState f) := by simp [mapSt, h]
    rw [h1]; rfl

theorem same_push {st st'} (h : st' = mapState f st) : Same f id (pushState st) (pushState st') := by intro s; subst h; rfl

theorem same_set {st st'} (h : st' = mapState f st) : Same f id (setState st) (setState st') := by intro s; subst h; rfl

theorem same_tags {x} : Same f id (modify fun s => { s with tags := x }) (modify fun s => { s with tags := x }) := fun _ => rfl

theorem same_keep : Same f id (modify fun s => { s with tags := if s.keepTags then s.tags else [] }) (modify fun s => { s with tags := if s.keepTags then s.tags else [] }) := fun _ => rfl

theorem same_register {n} : Same f id (registerAnchor n) (registerAnchor n) := fun _ => rfl

theorem same_resolve {sp sp' h x} (e : sp' = Span.mapM f sp) : Same f id (resolveTagM sp h x) (resolveTagM sp' h x) := by
  intro s
  subst e
  have : resolveTag s.tags (Span.mapM f sp) h x = mapRes f id (resolveTag s.tags sp h x) := by
    unfold resolveTag
    split
    · rfl
    · split
      · split <;> rfl
      · split
        · rfl
        · split <;> rfl
  show (resolveTag s.tags (Span.mapM f sp) h x, mapSt f s) = _
  rw [this]
  rfl

theorem same_anchors : Same f id (gets (·.anchors)) (gets (·.anchors)) := fun _ => rfl

theorem same_length : Same f id (gets fun s => s.toks.length) (gets fun s => s.toks.length) := by
  intro s
  simp [gets, mapSt, mapRes]

theorem Same.ite {α} {g : α → α} {c : Prop} [Decidable c] {m n m' n' : PM α} (h1 : c → Same f g m m') (h2 : ¬ c → Same f g n n') :
    Same f g (if c then m else n) (if c then m' else n') := by
  split
  · exact h1 ‹_›
  · exact h2 ‹_›

/-- one step: a token that is looked at is split into its cases -/
macro "same1" : tactic => `(tactic| first
  | with_reducible assumption
  | with_reducible exact Same.panic
  | with_reducible exact Same.hang
  | ((with_reducible refine Same.pure ?_); rfl)
  | ((with_reducible refine Same.throwAt ?_); rfl)
  | ((with_reducible refine Same.throw_bind ?_); rfl)
  | ((with_reducible refine Same.bind same_peek ?_); rintro ⟨sp, tt⟩; try dsimp only [Token.mapM])
  | ((with_reducible refine Same.bind same_fetch ?_); rintro ⟨sp, tt⟩; try dsimp only [Token.mapM])
  | ((with_reducible refine Same.bind same_skip ?_); intro _)
  | ((with_reducible refine Same.bind same_pop ?_); intro _)
  | ((with_reducible refine Same.bind (same_push ?_) ?_); rfl; intro _)
  | ((with_reducible refine Same.bind (same_set ?_) ?_); rfl; intro _)
  | ((with_reducible refine Same.bind same_tags ?_); intro _)
  | ((with_reducible refine Same.bind same_keep ?_); intro _)
  | ((with_reducible refine Same.bind same_register ?_); intro _; dsimp only [id])
  | ((with_reducible refine Same.bind (same_resolve ?_) ?_); rfl; intro _; dsimp only [id])
  | ((with_reducible refine Same.bind same_anchors ?_); intro _; dsimp only [id])
  | ((with_reducible refine Same.bind (g := id) (Same.pure (g := id) ?_) ?_); rfl; intro _; dsimp only [id])
  | (with_reducible refine Same.ite (fun _ => ?_) (fun _ => ?_))
  | split)

theorem same_streamStart : Same f (evMapM f) streamStart streamStart := by
  unfold streamStart
  repeat' same1

theorem same_directivesLoop : ∀ n v, Same f id (processDirectivesLoop n v) (processDirectivesLoop n v) := by
  intro n
  induction n with
  | zero => intro v; exact Same.hang
  | succ n ih =>
    intro v
    unfold processDirectivesLoop
    repeat' (first | with_reducible exact ih _ | same1)

theorem same_directives : Same f id processDirectives processDirectives := by
  intro s
  unfold processDirectives
  rw [show (mapSt f s).toks.length = s.toks.length by simp [mapSt]]
  exact same_directivesLoop _ _ s

theorem same_explicit : Same f (evMapM f) explicitDocumentStart explicitDocumentStart := by
  unfold explicitDocumentStart
  refine Same.bind same_directives fun _ => ?_
  repeat' same1

theorem same_skipEnds : ∀ n, Same f id (skipDocumentEnds n) (skipDocumentEnds n) := by
  intro n
  induction n with
  | zero => exact Same.hang
  | succ n ih =>
    unfold skipDocumentEnds
    repeat' same1

theorem same_documentStart {i} : Same f (evMapM f) (documentStart i) (documentStart i) := by
  unfold documentStart
  refine Same.bind same_length fun n => Same.bind (same_skipEnds _) fun _ => ?_
  repeat' (first | with_reducible exact same_explicit | ((with_reducible refine Same.bind same_directives ?_); intro _) | same1)

theorem same_nodeContent {x y i t} : Same f (evMapM f) (parseNodeContent x y i t) (parseNodeContent x y i t) := by
  unfold parseNodeContent
  repeat' same1

theorem same_node {x y} : Same f (evMapM f) (parseNode x y) (parseNode x y) := by
  unfold parseNode
  repeat' (first | with_reducible exact same_nodeContent | same1)

theorem same_documentContent : Same f (evMapM f) documentContent documentContent := by
  unfold documentContent
  repeat' (first | with_reducible exact same_node | same1)

theorem same_documentEnd : Same f (evMapM f) documentEnd documentEnd := by
  unfold documentEnd
  repeat' (first | with_reducible exact same_node | same1)

theorem same_blockMappingKey {x} : Same f (evMapM f) (blockMappingKey x) (blockMappingKey x) := by
  unfold blockMappingKey
  repeat' (first | with_reducible exact same_node | same1)

theorem same_blockMappingValue {x} : Same f (evMapM f) (blockMappingValue x) (blockMappingValue x) := by
  unfold blockMappingValue
  repeat' (first | with_reducible exact same_node | same1)

theorem same_flowMappingKey {x} : Same f (evMapM f) (flowMappingKey x) (flowMappingKey x) := by
  unfold flowMappingKey
  repeat' (first | with_reducible exact same_node | same1)

theorem same_flowMappingValue {x} : Same f (evMapM f) (flowMappingValue x) (flowMappingValue x) := by
  unfold flowMappingValue
  repeat' (first | with_reducible exact same_node | same1)

theorem same_flowRest : Same f (evMapM f) flowSequenceEntryRest flowSequenceEntryRest := by
  unfold flowSequenceEntryRest
  repeat' (first | with_reducible exact same_node | same1)

theorem same_flowEntry {x} : Same f (evMapM f) (flowSequenceEntry x) (flowSequenceEntry x) := by
  unfold flowSequenceEntry
  repeat' (first | with_reducible exact same_flowRest | same1)

theorem same_indentless : Same f (evMapM f) indentlessSequenceEntry indentlessSequenceEntry := by
  unfold indentlessSequenceEntry
  repeat' (first | with_reducible exact same_node | same1)

theorem same_blockSequenceEntry {x} : Same f (evMapM f) (blockSequenceEntry x) (blockSequenceEntry x) := by
  unfold blockSequenceEntry
  repeat' (first | with_reducible exact same_node | same1)

theorem same_entryKey : Same f (evMapM f) flowSequenceEntryMappingKey flowSequenceEntryMappingKey := by
  unfold flowSequenceEntryMappingKey
  repeat' (first | with_reducible exact same_node | same1)

theorem same_entryValue : Same f (evMapM f) flowSequenceEntryMappingValue flowSequenceEntryMappingValue := by
  unfold flowSequenceEntryMappingValue
  repeat' (first | with_reducible exact same_node | same1)

theorem same_entryEnd {m} : Same f (evMapM f) (flowSequenceEntryMappingEnd m) (flowSequenceEntryMappingEnd (f m)) := by
  unfold flowSequenceEntryMappingEnd
  repeat' same1

theorem same_dispatch {st} : Same f (evMapM f) (dispatch st) (dispatch (mapState f st)) := by
  cases st <;> dsimp only [mapState, dispatch] <;> first
    | exact same_streamStart
    | exact same_documentStart
    | exact same_documentContent
    | exact same_documentEnd
    | exact same_node
    | exact same_blockMappingKey
    | exact same_blockMappingValue
    | exact same_blockSequenceEntry
    | exact same_flowEntry
    | exact same_flowMappingKey
    | exact same_flowMappingValue
    | exact same_indentless
    | exact same_entryKey
    | exact same_entryValue
    | exact same_entryEnd
    | exact Same.panic

theorem same_parse : Same f (evMapM f) parse parse := by
  intro s
  unfold parse
  have h : ((mapSt f s).state == .endState) = (s.state == .endState) := by
    show (mapState f s.state == .endState) = _
    cases s.state <;> rfl
  rw [h]
  split
  · rfl
  · exact same_dispatch s

theorem same_nextEventImpl : Same f (evMapM f) nextEventImpl nextEventImpl := by
  intro s
  unfold nextEventImpl
  cases h : s.current with
  | none =>
    have h1 : (mapSt f s).current = none := by simp [mapSt, h]
    rw [h1]
    exact same_parse s
  | some v =>
    have h1 : (mapSt f s).current = some (evMapM f v) := by simp [mapSt, h]
    rw [h1]
    rfl

end Verif.Parser
