import Verif.Lemmas.ParserRun
import Verif.Spec.TokenGrammar
/-!
# The parser delivers the events of every token stream of the grammar: symbolic execution and one-step lemmas
-/
namespace Verif.Parser
open Verif Verif.Spec

/-- running `m` from `s` succeeds, with a value and state satisfying `Q` -/
def runs {α} (m : PM α) (Q : α → PSt → Prop) (s : PSt) : Prop := ∃ a s', m s = (.ok a, s') ∧ Q a s'

/-- The parser is in state `st` with stack `stack`, the tokens `toks` are still to be consumed, anchors named `ns` have been
registered, and `lk` gives the declared tag prefixes. -/
structure At (lk : List Byte → Option (List Byte)) (s : PSt) (st : PState) (stack : List PState) (toks : List TokenType)
    (ns : List (List Byte)) : Prop where
  state : s.state = st
  stack : s.states = stack
  toks : (pend s).map (·.tt) = toks
  anchors : ∀ n, mapGet s.anchors n = lastDef ns n
  count : s.anchorIdCount = ns.length + 1
  tags : ∀ h, mapGet s.tags h = lk h
  keep : s.keepTags = false
  current : s.current = none
  live : s.streamEndEmitted = false

variable {lk : List Byte → Option (List Byte)} {s : PSt} {st st' : PState} {stack : List PState} {tt : TokenType}
  {X : List TokenType} {ns : List (List Byte)} {t : Token}

theorem runs_pure {α} {a : α} {Q s} (h : Q a s) : runs (pure a) Q s := ⟨a, s, rfl, h⟩

theorem runs_bind {α β} {m : PM α} {f : α → PM β} {Q s} (h : runs m (fun a s' => runs (f a) Q s') s) :
    runs (m >>= f) Q s := by
  obtain ⟨a, s1, h1, b, s2, h2, h3⟩ := h
  exact ⟨b, s2, by simp [Bind.bind, h1, h2], h3⟩

theorem runs_peek {Q : Token → PSt → Prop} (h : At lk s st stack (tt :: X) ns)
    (k : ∀ t s1, t.tt = tt → s1.token = some t → At lk s1 st stack (tt :: X) ns → Q t s1) : runs peekToken Q s := by
  cases ht : s.token with
  | some t =>
    refine ⟨t, s, by simp [peekToken, ht], k t s ?_ ht h⟩
    have := h.toks
    simp [pend, ht] at this
    exact this.1
  | none =>
    have h2 := h.toks
    simp only [pend, ht, Option.toList, List.nil_append] at h2
    cases hk : s.toks with
    | nil => simp [hk] at h2
    | cons t ts =>
      refine ⟨t, _, by simp [peekToken, ht, scanNextToken, hk]; rfl, k t _ ?_ rfl ?_⟩
      · simp [hk] at h2; exact h2.1
      · refine ⟨h.state, h.stack, ?_, h.anchors, h.count, h.tags, h.keep, h.current, h.live⟩
        simpa [pend, hk] using h2

theorem runs_gets {α} {f : PSt → α} {Q s} (h : Q (f s) s) : runs (gets f) Q s := ⟨_, s, rfl, h⟩

theorem runs_skip {Q : Unit → PSt → Prop} (h : At lk s st stack (tt :: X) ns) (ht : s.token = some t)
    (k : ∀ s1, At lk s1 st stack X ns → Q () s1) : runs skip Q s := by
  refine ⟨(), _, rfl, k _ ⟨h.state, h.stack, ?_, h.anchors, h.count, h.tags, h.keep, h.current, h.live⟩⟩
  have := h.toks
  simp [pend, ht] at this
  simpa [pend] using this.2

theorem runs_fetch {Q : Token → PSt → Prop} (h : At lk s st stack (tt :: X) ns) (ht : s.token = some t)
    (k : ∀ s1, At lk s1 st stack X ns → Q t s1) : runs fetchToken Q s := by
  refine ⟨t, _, by simp only [fetchToken, ht], k { s with token := none } ⟨h.state, h.stack, ?_, h.anchors, h.count, h.tags, h.keep, h.current, h.live⟩⟩
  have := h.toks
  simp [pend, ht] at this
  simpa [pend] using this.2

theorem runs_setState {Q : Unit → PSt → Prop} {toks o} (h : At lk s st stack toks ns) (ho : s.token = o)
    (k : ∀ s1, At lk s1 st' stack toks ns → s1.token = o → Q () s1) : runs (setState st') Q s :=
  ⟨(), _, rfl, k _ ⟨rfl, h.stack, h.toks, h.anchors, h.count, h.tags, h.keep, h.current, h.live⟩ ho⟩

theorem runs_push {Q : Unit → PSt → Prop} {toks o} (h : At lk s st stack toks ns) (ho : s.token = o)
    (k : ∀ s1, At lk s1 st (st' :: stack) toks ns → s1.token = o → Q () s1) : runs (pushState st') Q s :=
  ⟨(), _, rfl, k _ ⟨h.state, by simp [h.stack], h.toks, h.anchors, h.count, h.tags, h.keep, h.current, h.live⟩ ho⟩

theorem runs_pop {Q : Unit → PSt → Prop} {toks o} (h : At lk s st (st' :: stack) toks ns) (ho : s.token = o)
    (k : ∀ s1, At lk s1 st' stack toks ns → s1.token = o → Q () s1) : runs popState Q s :=
  ⟨(), { s with state := st', states := stack }, by simp [popState, h.stack],
    k _ ⟨rfl, rfl, h.toks, h.anchors, h.count, h.tags, h.keep, h.current, h.live⟩ ho⟩

theorem runs_registerAnchor {Q : Nat → PSt → Prop} {toks n} (h : At lk s st stack toks ns)
    (k : ∀ s1, At lk s1 st stack toks (ns ++ [n]) → s1.token = s.token → Q (ns.length + 1) s1) :
    runs (registerAnchor n) Q s := by
  refine ⟨_, _, rfl, ?_⟩
  rw [h.count]
  refine k _ ⟨h.state, h.stack, h.toks, ?_, ?_, h.tags, h.keep, h.current, h.live⟩ rfl
  · intro m
    simp only [mapGet_insert, lastDef_snoc, h.anchors]
  · simp

theorem runs_resolveTag {Q : Tag → PSt → Prop} {toks sp hd sf tg} (h : At lk s st stack toks ns) (hr : ReadsAs lk hd sf tg)
    (k : Q tg s) : runs (resolveTagM sp hd sf) Q s := by
  refine ⟨tg, s, ?_, k⟩
  unfold resolveTagM resolveTag
  simp only [h.tags]
  cases hr with
  | @declared _ _ p hp =>
    by_cases h1 : hd = bs!"!!"
    · subst h1; simp [hp]
    · simp only [h1, beq_iff_eq, if_false]
      by_cases h2 : hd.isEmpty && sf == bs!"!"
      · simp only [h2, if_true]
        have : hd = [] := by simp at h2; exact h2.1
        subst this
        simp [hp]
      · simp [h2, hp]
  | secondary hp => simp [hp]
  | other hp h1 h2 =>
    simp only [h1, beq_iff_eq, if_false]
    by_cases h3 : hd.isEmpty && sf == bs!"!"
    · have : hd = [] := by simp at h3; exact h3.1
      subst this
      simp [hp]
    · simp [h3, hp, h2]

attribute [irreducible] runs

/-- symbolic execution -/
macro "rstep" : tactic => `(tactic| first
  | apply runs_bind
  | apply runs_pure
  | (refine runs_peek (by assumption) ?_; intro _ _ _ _ _)
  | (refine runs_skip (by assumption) (by assumption) ?_; intro _ _)
  | (refine runs_fetch (by assumption) (by assumption) ?_; intro _ _)
  | (refine runs_setState (by assumption) (by first | assumption | rfl) ?_; intro _ _ _)
  | (refine runs_push (by assumption) (by first | assumption | rfl) ?_; intro _ _ _)
  | (refine runs_pop (by assumption) (by first | assumption | rfl) ?_; intro _ _ _)
  | (refine runs_registerAnchor (by assumption) ?_; intro _ _ _)
  | (refine runs_resolveTag (by assumption) (by assumption) ?_))

/-- tokens that can follow a node standing at a place -/
def follow : Place → TokenType → Bool
  | .block, .blockEntry | .block, .blockEnd | .block, .key | .block, .value => true
  | .block, .documentStart | .block, .documentEnd | .block, .streamEnd => true
  | .block, .versionDirective _ _ | .block, .tagDirective _ _ => true
  | .pair, .key | .pair, .value | .pair, .blockEnd => true
  | .flow, .key | .flow, .value | .flow, .flowEntry | .flow, .flowSequenceEnd | .flow, .flowMappingEnd => true
  | _, _ => false

/-- is a node at this place parsed as a block node? -/
def isBlock : Place → Bool
  | .flow => false
  | _ => true

/-- may an indentless sequence stand at this place? -/
def isPair : Place → Bool
  | .pair => true
  | _ => false

variable {Q : Event × Span → PSt → Prop} {p : Place} {f : TokenType} {rest : List TokenType} {sts : List PState}

/-! ## `parse_node` -/

theorem content_scalar {ty v a tg} (h : At lk s st (st' :: sts) (.scalar ty v :: X) ns)
    (k : ∀ sp s1, At lk s1 st' sts X ns → Q (.scalar ⟨v, ty, a, tg⟩, sp) s1) :
    runs (parseNodeContent (isBlock p) (isPair p) a tg) Q s := by
  unfold parseNodeContent
  rstep; rstep
  rename_i t s1 ht htok h1
  simp only [ht]
  rstep; rstep; rstep; rstep; rstep
  exact k _ _ (by assumption)

theorem content_blockSeq {a tg} (hp : p ≠ .flow) (h : At lk s st sts (.blockSequenceStart :: X) ns)
    (k : ∀ sp s1, At lk s1 .blockSequenceFirstEntry sts (.blockSequenceStart :: X) ns → Q (.sequenceStart a tg, sp) s1) :
    runs (parseNodeContent (isBlock p) (isPair p) a tg) Q s := by
  unfold parseNodeContent
  rstep; rstep
  rename_i t s1 ht htok h1
  have : isBlock p = true := by cases p <;> simp [isBlock] at hp ⊢
  simp only [ht, this, if_true]
  rstep; rstep; rstep
  exact k _ _ (by assumption)

theorem content_blockMap {a tg} (hp : p ≠ .flow) (h : At lk s st sts (.blockMappingStart :: X) ns)
    (k : ∀ sp s1, At lk s1 .blockMappingFirstKey sts (.blockMappingStart :: X) ns → Q (.mappingStart a tg, sp) s1) :
    runs (parseNodeContent (isBlock p) (isPair p) a tg) Q s := by
  unfold parseNodeContent
  rstep; rstep
  rename_i t s1 ht htok h1
  have : isBlock p = true := by cases p <;> simp [isBlock] at hp ⊢
  simp only [ht, this, if_true]
  rstep; rstep; rstep
  exact k _ _ (by assumption)

theorem content_indentless {a tg} (h : At lk s st sts (.blockEntry :: X) ns)
    (k : ∀ sp s1, At lk s1 .indentlessSequenceEntry sts (.blockEntry :: X) ns → Q (.sequenceStart a tg, sp) s1) :
    runs (parseNodeContent (isBlock .pair) (isPair .pair) a tg) Q s := by
  unfold parseNodeContent
  rstep; rstep
  rename_i t s1 ht htok h1
  simp only [ht, isPair, if_true]
  rstep; rstep; rstep
  exact k _ _ (by assumption)

theorem content_flowSeq {a tg} (h : At lk s st sts (.flowSequenceStart :: X) ns)
    (k : ∀ sp s1, At lk s1 .flowSequenceFirstEntry sts (.flowSequenceStart :: X) ns → Q (.sequenceStart a tg, sp) s1) :
    runs (parseNodeContent (isBlock p) (isPair p) a tg) Q s := by
  unfold parseNodeContent
  rstep; rstep
  rename_i t s1 ht htok h1
  simp only [ht]
  rstep; rstep; rstep
  exact k _ _ (by assumption)

theorem content_flowMap {a tg} (h : At lk s st sts (.flowMappingStart :: X) ns)
    (k : ∀ sp s1, At lk s1 .flowMappingFirstKey sts (.flowMappingStart :: X) ns → Q (.mappingStart a tg, sp) s1) :
    runs (parseNodeContent (isBlock p) (isPair p) a tg) Q s := by
  unfold parseNodeContent
  rstep; rstep
  rename_i t s1 ht htok h1
  simp only [ht]
  rstep; rstep; rstep
  exact k _ _ (by assumption)

theorem content_empty {a tg} (hat : a > 0 ∨ tg.isSome) (hf : follow p f = true) (h : At lk s st (st' :: sts) (f :: X) ns)
    (k : ∀ sp s1, At lk s1 st' sts (f :: X) ns → Q (.scalar ⟨[], .plain, a, tg⟩, sp) s1) :
    runs (parseNodeContent (isBlock p) (isPair p) a tg) Q s := by
  unfold parseNodeContent
  rstep; rstep
  rename_i t s1 ht htok h1
  have hc : (tg.isSome || decide (a > 0)) = true := by rcases hat with h | h <;> simp [h]
  simp only [hc, if_true, ht]
  cases p <;> cases f <;> simp only [follow, Bool.false_eq_true] at hf <;>
    simp only [isPair, if_false, Bool.false_eq_true] <;>
    (rstep; rstep; rstep; exact k _ _ (by assumption))

/-- a token that opens the content of a node -/
def contentHead : TokenType → Bool
  | .scalar _ _ | .blockSequenceStart | .blockMappingStart | .flowSequenceStart | .flowMappingStart | .blockEntry => true
  | _ => false

theorem node_alias {n id b i} (hid : lastDef ns n = some id) (h : At lk s st (st' :: sts) (.alias n :: X) ns)
    (k : ∀ sp s1, At lk s1 st' sts X ns → Q (.alias id, sp) s1) : runs (parseNode b i) Q s := by
  unfold parseNode
  rstep; rstep
  rename_i t s1 ht htok h1
  simp only [ht]
  rstep; rstep; rstep; rstep
  rename_i s2 h2 _ s3 h3
  apply runs_bind
  apply runs_gets
  rw [h3.anchors, hid]
  exact runs_pure (k _ _ (by assumption))

theorem node_bare {b i} (hc : contentHead tt = true) (h : At lk s st sts (tt :: X) ns)
    (k : ∀ s1, At lk s1 st sts (tt :: X) ns → runs (parseNodeContent b i 0 none) Q s1) : runs (parseNode b i) Q s := by
  unfold parseNode
  rstep; rstep
  rename_i t s1 ht htok h1
  simp only [ht]
  cases tt <;> simp [contentHead] at hc <;> exact k _ h1

theorem node_props {b i q a tg ns1} (hq : Properties lk ns q a tg ns1) (hc : contentHead tt = true ∨ ∃ p, follow p tt = true)
    (h : At lk s st sts (q ++ (tt :: X)) ns)
    (k : ∀ s1, At lk s1 st sts (tt :: X) ns1 → runs (parseNodeContent b i a tg) Q s1) : runs (parseNode b i) Q s := by
  unfold parseNode
  cases hq with
  | anchor =>
    simp only [List.cons_append, List.nil_append] at h
    rstep; rstep
    rename_i t s1 ht htok h1
    simp only [ht]
    rstep; rstep; rstep; rstep; rstep; rstep
    rename_i t2 s2 ht2 _ h2
    rw [ht2]
    cases tt <;> first
      | exact k _ h2
      | (rcases hc with hc | ⟨p, hc⟩ <;> (try cases p) <;> simp [contentHead, follow] at hc)
  | tag hr =>
    simp only [List.cons_append, List.nil_append] at h
    rstep; rstep
    rename_i t s1 ht htok h1
    simp only [ht]
    rstep; rstep; rstep; rstep; rstep; rstep
    rename_i t2 s2 ht2 _ h2
    rw [ht2]
    cases tt <;> first
      | exact k _ h2
      | (rcases hc with hc | ⟨p, hc⟩ <;> (try cases p) <;> simp [contentHead, follow] at hc)
  | anchorTag hr =>
    simp only [List.cons_append, List.nil_append] at h
    rstep; rstep
    rename_i t s1 ht htok h1
    simp only [ht]
    rstep; rstep; rstep; rstep; rstep; rstep
    rename_i t2 s2 ht2 _ h2
    rw [ht2]
    simp only
    rstep; rstep; rstep; rstep
    exact k _ (by assumption)
  | tagAnchor hr =>
    simp only [List.cons_append, List.nil_append] at h
    rstep; rstep
    rename_i t s1 ht htok h1
    simp only [ht]
    rstep; rstep; rstep; rstep; rstep; rstep
    rename_i t2 s2 ht2 _ h2
    rw [ht2]
    simp only
    rstep; rstep; rstep; rstep
    exact k _ (by assumption)

/-! ## One step in a collection -/

attribute [local irreducible] parseNode parseNodeContent

/-- symbolic execution with the token types known -/
macro "rgo" : tactic => `(tactic| repeat first
  | rstep
  | (simp only [*, if_true, if_false, Bool.false_eq_true, Bool.not_true, Bool.not_false, Bool.true_or, Bool.false_or,
      Bool.or_true, Bool.or_false, reduceCtorEq, beq_self_eq_true, bne_self_eq_false, beq_iff_eq, bne_iff_ne, ne_eq,
      not_true_eq_false, not_false_eq_true, pure_bind]))

set_option hygiene false in
/-- read off the prefix `if first ..` -/
macro "pre_simp" : tactic => `(tactic| simp only [if_true, if_false, Bool.false_eq_true, List.nil_append, List.cons_append] at h ⊢)

theorem bs_end {first} (h : At lk s st (st' :: sts) ((if first then [.blockSequenceStart] else []) ++ .blockEnd :: X) ns)
    (k : ∀ sp s1, At lk s1 st' sts X ns → Q (.sequenceEnd, sp) s1) : runs (blockSequenceEntry first) Q s := by
  unfold blockSequenceEntry
  cases first <;> pre_simp <;> rgo
  all_goals exact k _ _ (by assumption)

theorem bs_empty {first} (hf : f = .blockEntry ∨ f = .blockEnd)
    (h : At lk s st sts ((if first then [.blockSequenceStart] else []) ++ .blockEntry :: f :: X) ns)
    (k : ∀ sp s1, At lk s1 .blockSequenceEntry sts (f :: X) ns → Q (.emptyScalar, sp) s1) :
    runs (blockSequenceEntry first) Q s := by
  unfold blockSequenceEntry
  rcases hf with hf | hf <;> subst hf <;>
  cases first <;> pre_simp <;> rgo
  all_goals exact k _ _ (by assumption)

theorem bs_node {first} (hf : follow .block f = false)
    (h : At lk s st sts ((if first then [.blockSequenceStart] else []) ++ .blockEntry :: f :: X) ns)
    (k : ∀ s1, At lk s1 st (.blockSequenceEntry :: sts) (f :: X) ns → runs (parseNode true false) Q s1) :
    runs (blockSequenceEntry first) Q s := by
  unfold blockSequenceEntry
  cases f <;> simp only [follow, Bool.true_eq_false] at hf <;>
  cases first <;> pre_simp <;> rgo
  all_goals exact k _ (by assumption)

theorem il_end (hf : follow .pair f = true) (h : At lk s st (st' :: sts) (f :: X) ns)
    (k : ∀ sp s1, At lk s1 st' sts (f :: X) ns → Q (.sequenceEnd, sp) s1) : runs indentlessSequenceEntry Q s := by
  unfold indentlessSequenceEntry
  cases f <;> simp only [follow, Bool.false_eq_true] at hf <;> rgo
  all_goals exact k _ _ (by assumption)

theorem il_empty (hf : f = .blockEntry ∨ f = .key ∨ f = .value ∨ f = .blockEnd)
    (h : At lk s st sts (.blockEntry :: f :: X) ns)
    (k : ∀ sp s1, At lk s1 .indentlessSequenceEntry sts (f :: X) ns → Q (.emptyScalar, sp) s1) :
    runs indentlessSequenceEntry Q s := by
  unfold indentlessSequenceEntry
  rcases hf with hf | hf | hf | hf <;> subst hf <;> rgo
  all_goals exact k _ _ (by assumption)

theorem il_node (hf : follow .block f = false) (h : At lk s st sts (.blockEntry :: f :: X) ns)
    (k : ∀ s1, At lk s1 st (.indentlessSequenceEntry :: sts) (f :: X) ns → runs (parseNode true false) Q s1) :
    runs indentlessSequenceEntry Q s := by
  unfold indentlessSequenceEntry
  cases f <;> simp only [follow, Bool.true_eq_false] at hf <;> rgo
  all_goals exact k _ (by assumption)

theorem bm_end {first} (h : At lk s st (st' :: sts) ((if first then [.blockMappingStart] else []) ++ .blockEnd :: X) ns)
    (k : ∀ sp s1, At lk s1 st' sts X ns → Q (.mappingEnd, sp) s1) : runs (blockMappingKey first) Q s := by
  unfold blockMappingKey
  cases first <;> pre_simp <;> rgo
  all_goals exact k _ _ (by assumption)

theorem bm_noKey {first} (h : At lk s st sts ((if first then [.blockMappingStart] else []) ++ .value :: X) ns)
    (k : ∀ sp s1, At lk s1 .blockMappingValue sts (.value :: X) ns → Q (.emptyScalar, sp) s1) :
    runs (blockMappingKey first) Q s := by
  unfold blockMappingKey
  cases first <;> pre_simp <;> rgo
  all_goals exact k _ _ (by assumption)

theorem bm_keyEmpty {first} (hf : f = .key ∨ f = .value ∨ f = .blockEnd)
    (h : At lk s st sts ((if first then [.blockMappingStart] else []) ++ .key :: f :: X) ns)
    (k : ∀ sp s1, At lk s1 .blockMappingValue sts (f :: X) ns → Q (.emptyScalar, sp) s1) :
    runs (blockMappingKey first) Q s := by
  unfold blockMappingKey
  rcases hf with hf | hf | hf <;> subst hf <;> cases first <;> pre_simp <;> rgo
  all_goals exact k _ _ (by assumption)

theorem bm_keyNode {first} (hf : follow .pair f = false)
    (h : At lk s st sts ((if first then [.blockMappingStart] else []) ++ .key :: f :: X) ns)
    (k : ∀ s1, At lk s1 st (.blockMappingValue :: sts) (f :: X) ns → runs (parseNode true true) Q s1) :
    runs (blockMappingKey first) Q s := by
  unfold blockMappingKey
  cases f <;> simp only [follow, Bool.true_eq_false] at hf <;> cases first <;> pre_simp <;> rgo
  all_goals exact k _ (by assumption)

theorem bv_none (hf : f = .key ∨ f = .blockEnd) (h : At lk s st sts (f :: X) ns)
    (k : ∀ sp s1, At lk s1 .blockMappingKey sts (f :: X) ns → Q (.emptyScalar, sp) s1) :
    runs (blockMappingValue true) Q s := by
  unfold blockMappingValue
  rcases hf with hf | hf <;> subst hf <;> rgo
  all_goals exact k _ _ (by assumption)

theorem bv_empty (hf : f = .key ∨ f = .value ∨ f = .blockEnd) (h : At lk s st sts (.value :: f :: X) ns)
    (k : ∀ sp s1, At lk s1 .blockMappingKey sts (f :: X) ns → Q (.emptyScalar, sp) s1) :
    runs (blockMappingValue true) Q s := by
  unfold blockMappingValue
  rcases hf with hf | hf | hf <;> subst hf <;> rgo
  all_goals exact k _ _ (by assumption)

theorem bv_node (hf : follow .pair f = false) (h : At lk s st sts (.value :: f :: X) ns)
    (k : ∀ s1, At lk s1 st (.blockMappingKey :: sts) (f :: X) ns → runs (parseNode true true) Q s1) :
    runs (blockMappingValue true) Q s := by
  unfold blockMappingValue
  cases f <;> simp only [follow, Bool.true_eq_false] at hf <;> rgo
  all_goals exact k _ (by assumption)

/-- what has been read of a flow mapping when `flow_mapping_key` is entered -/
def fmPre : KeyFlow → List TokenType
  | .firstKey => [.flowMappingStart]
  | _ => [.flowEntry]

set_option hygiene false in
/-- read off the prefix `fmPre kf` -/
macro "fm_simp" : tactic => `(tactic| (first | exact absurd rfl hk | simp only [fmPre, List.nil_append, List.cons_append] at h ⊢))

theorem fm_end {kf} (hk : kf ≠ .firstKeyContinue) (h : At lk s st (st' :: sts) (fmPre kf ++ .flowMappingEnd :: X) ns)
    (k : ∀ sp s1, At lk s1 st' sts X ns → Q (.mappingEnd, sp) s1) : runs (flowMappingKey kf) Q s := by
  unfold flowMappingKey
  cases kf <;> fm_simp <;> rgo
  all_goals exact k _ _ (by assumption)

theorem fm_end' (h : At lk s st (st' :: sts) (.flowMappingEnd :: X) ns)
    (k : ∀ sp s1, At lk s1 st' sts X ns → Q (.mappingEnd, sp) s1) : runs (flowMappingKey .nonFirstKey) Q s := by
  unfold flowMappingKey
  rgo
  all_goals exact k _ _ (by assumption)

theorem fm_noKey {kf} (hk : kf ≠ .firstKeyContinue) (h : At lk s st sts (fmPre kf ++ .value :: X) ns)
    (k : ∀ sp s1, At lk s1 .flowMappingValue sts (.value :: X) ns → Q (.emptyScalar, sp) s1) :
    runs (flowMappingKey kf) Q s := by
  unfold flowMappingKey
  cases kf <;> fm_simp <;> rgo
  all_goals exact k _ _ (by assumption)

theorem fm_keyEmpty {kf} (hk : kf ≠ .firstKeyContinue) (hf : f = .value ∨ f = .flowEntry ∨ f = .flowMappingEnd)
    (h : At lk s st sts (fmPre kf ++ .key :: f :: X) ns)
    (k : ∀ sp s1, At lk s1 .flowMappingValue sts (f :: X) ns → Q (.emptyScalar, sp) s1) :
    runs (flowMappingKey kf) Q s := by
  unfold flowMappingKey
  rcases hf with hf | hf | hf <;> subst hf <;> cases kf <;> fm_simp <;> rgo
  all_goals exact k _ _ (by assumption)

theorem fm_keyNode {kf} (hk : kf ≠ .firstKeyContinue) (hf : follow .flow f = false)
    (h : At lk s st sts (fmPre kf ++ .key :: f :: X) ns)
    (k : ∀ s1, At lk s1 st (.flowMappingValue :: sts) (f :: X) ns → runs (parseNode false false) Q s1) :
    runs (flowMappingKey kf) Q s := by
  unfold flowMappingKey
  cases f <;> simp only [follow, Bool.true_eq_false] at hf <;> cases kf <;> fm_simp <;> rgo
  all_goals exact k _ (by assumption)

theorem fm_node {kf} (hk : kf ≠ .firstKeyContinue) (hf : follow .flow f = false)
    (h : At lk s st sts (fmPre kf ++ f :: X) ns)
    (k : ∀ s1, At lk s1 st (.flowMappingEmptyValue :: sts) (f :: X) ns → runs (parseNode false false) Q s1) :
    runs (flowMappingKey kf) Q s := by
  unfold flowMappingKey
  cases f <;> simp only [follow, Bool.true_eq_false] at hf <;> cases kf <;> fm_simp <;> rgo
  all_goals exact k _ (by assumption)

theorem fv_emptyValue (h : At lk s st sts (f :: X) ns)
    (k : ∀ sp s1, At lk s1 .flowMappingKey sts (f :: X) ns → Q (.emptyScalar, sp) s1) :
    runs (flowMappingValue true) Q s := by
  unfold flowMappingValue
  rgo
  all_goals exact k _ _ (by assumption)

theorem fv_none (hf : f = .flowEntry ∨ f = .flowMappingEnd) (h : At lk s st sts (f :: X) ns)
    (k : ∀ sp s1, At lk s1 .flowMappingKey sts (f :: X) ns → Q (.emptyScalar, sp) s1) :
    runs (flowMappingValue false) Q s := by
  unfold flowMappingValue
  rcases hf with hf | hf <;> subst hf <;> rgo
  all_goals exact k _ _ (by assumption)

theorem fv_empty (hf : f = .flowEntry ∨ f = .flowMappingEnd) (h : At lk s st sts (.value :: f :: X) ns)
    (k : ∀ sp s1, At lk s1 .flowMappingKey sts (f :: X) ns → Q (.emptyScalar, sp) s1) :
    runs (flowMappingValue false) Q s := by
  unfold flowMappingValue
  rcases hf with hf | hf <;> subst hf <;> rgo
  all_goals exact k _ _ (by assumption)

theorem fv_node (hf : follow .flow f = false) (h : At lk s st sts (.value :: f :: X) ns)
    (k : ∀ s1, At lk s1 st (.flowMappingKey :: sts) (f :: X) ns → runs (parseNode false false) Q s1) :
    runs (flowMappingValue false) Q s := by
  unfold flowMappingValue
  cases f <;> simp only [follow, Bool.true_eq_false] at hf <;> rgo
  all_goals exact k _ (by assumption)

/-- what has been read of a flow sequence when `flow_sequence_entry` is entered -/
def fsPre (first : Bool) : List TokenType := if first then [.flowSequenceStart] else [.flowEntry]

set_option hygiene false in
/-- read off the prefix `fsPre first` -/
macro "fs_simp" : tactic => `(tactic| (simp only [fsPre, if_true, if_false, Bool.false_eq_true, List.nil_append, List.cons_append] at h ⊢))

theorem fs_end {first} (h : At lk s st (st' :: sts) (fsPre first ++ .flowSequenceEnd :: X) ns)
    (k : ∀ sp s1, At lk s1 st' sts X ns → Q (.sequenceEnd, sp) s1) : runs (flowSequenceEntry first) Q s := by
  unfold flowSequenceEntry flowSequenceEntryRest
  cases first <;> fs_simp <;> rgo
  all_goals exact k _ _ (by assumption)

theorem fs_end' (h : At lk s st (st' :: sts) (.flowSequenceEnd :: X) ns)
    (k : ∀ sp s1, At lk s1 st' sts X ns → Q (.sequenceEnd, sp) s1) : runs (flowSequenceEntry false) Q s := by
  unfold flowSequenceEntry flowSequenceEntryRest
  rgo
  all_goals exact k _ _ (by assumption)

theorem fs_key {first} (h : At lk s st sts (fsPre first ++ .key :: X) ns)
    (k : ∀ sp s1, At lk s1 .flowSequenceEntryMappingKey sts X ns → Q (.mappingStart 0 none, sp) s1) :
    runs (flowSequenceEntry first) Q s := by
  unfold flowSequenceEntry flowSequenceEntryRest
  cases first <;> fs_simp <;> rgo
  all_goals exact k _ _ (by assumption)

theorem fs_node {first} (hf : follow .flow f = false) (h : At lk s st sts (fsPre first ++ f :: X) ns)
    (k : ∀ s1, At lk s1 st (.flowSequenceEntry :: sts) (f :: X) ns → runs (parseNode false false) Q s1) :
    runs (flowSequenceEntry first) Q s := by
  unfold flowSequenceEntry flowSequenceEntryRest
  cases f <;> simp only [follow, Bool.true_eq_false] at hf <;> cases first <;> fs_simp <;> rgo
  all_goals exact k _ (by assumption)

theorem fp_key (hf : follow .flow f = false) (h : At lk s st sts (f :: X) ns)
    (k : ∀ s1, At lk s1 st (.flowSequenceEntryMappingValue :: sts) (f :: X) ns → runs (parseNode false false) Q s1) :
    runs flowSequenceEntryMappingKey Q s := by
  unfold flowSequenceEntryMappingKey
  cases f <;> simp only [follow, Bool.true_eq_false] at hf <;> rgo
  all_goals exact k _ (by assumption)

theorem fp_odd (hf : f = .value ∨ f = .flowEntry ∨ f = .flowSequenceEnd) (h : At lk s st sts (f :: X) ns)
    (k : ∀ sp s1, At lk s1 .flowSequenceEntryMappingValue sts X ns → Q (.emptyScalar, sp) s1) :
    runs flowSequenceEntryMappingKey Q s := by
  unfold flowSequenceEntryMappingKey
  rcases hf with hf | hf | hf <;> subst hf <;> rgo

theorem fp_noValue (hf : f = .flowEntry ∨ f = .flowSequenceEnd) (h : At lk s st sts (f :: X) ns)
    (k : ∀ sp s1 m, At lk s1 (.flowSequenceEntryMappingEnd m) sts (f :: X) ns → Q (.emptyScalar, sp) s1) :
    runs flowSequenceEntryMappingValue Q s := by
  unfold flowSequenceEntryMappingValue
  rcases hf with hf | hf <;> subst hf <;> rgo
  all_goals exact k _ _ _ (by assumption)

theorem fp_empty (hf : f = .flowEntry ∨ f = .flowSequenceEnd) (h : At lk s st sts (.value :: f :: X) ns)
    (k : ∀ sp s1 m, At lk s1 (.flowSequenceEntryMappingEnd m) sts (f :: X) ns → Q (.emptyScalar, sp) s1) :
    runs flowSequenceEntryMappingValue Q s := by
  unfold flowSequenceEntryMappingValue
  rcases hf with hf | hf <;> subst hf <;> rgo
  all_goals exact k _ _ _ (by assumption)

theorem fp_node (hf : follow .flow f = false) (h : At lk s st sts (.value :: f :: X) ns)
    (k : ∀ s1 m st1, At lk s1 st1 (.flowSequenceEntryMappingEnd m :: sts) (f :: X) ns →
      runs (parseNode false false) Q s1) : runs flowSequenceEntryMappingValue Q s := by
  unfold flowSequenceEntryMappingValue
  cases f <;> simp only [follow, Bool.true_eq_false] at hf <;> rgo
  all_goals exact k _ _ _ (by assumption)

theorem fp_end {m} (h : At lk s st sts X ns)
    (k : ∀ sp s1, At lk s1 .flowSequenceEntry sts X ns → Q (.mappingEnd, sp) s1) :
    runs (flowSequenceEntryMappingEnd m) Q s := by
  unfold flowSequenceEntryMappingEnd
  rgo

end Verif.Parser
