import Verif.Lemmas.ParserCompleteDoc
import Verif.Spec.PullRuns
/-!
# The parser accepts nothing but the token grammar

For every configuration of the parser, `Res` says which tokens and events can follow: the tokens are those of the unfinished nonterminals of
the grammar. Every step of the parser goes backwards along it.
-/
namespace Verif.Parser
open Verif Verif.Spec

/-- whenever running `m` from `s` succeeds, value and state satisfy `Q` -/
def post {α} (m : PM α) (Q : α → PSt → Prop) (s : PSt) : Prop := ∀ a s', m s = (.ok a, s') → Q a s'

variable {lk lk' : List Byte → Option (List Byte)} {s : PSt} {st st' : PState} {stack sts : List PState} {tt : TokenType}
  {toks X : List TokenType} {ns : List (List Byte)} {t : Token} {p : Place}

theorem post_pure {α} {a : α} {Q s} (h : Q a s) : post (pure a) Q s := by
  intro b s' e
  cases e
  exact h

theorem post_bind {α β} {m : PM α} {f : α → PM β} {Q s} (h : post m (fun a s' => post (f a) Q s') s) :
    post (m >>= f) Q s := by
  intro b s' e
  simp only [Bind.bind] at e
  rcases hm : m s with ⟨r, s1⟩
  rw [hm] at e
  cases r with
  | ok a => exact h a s1 hm b s' e
  | _ => cases e

theorem post_throwAt {α} {sp msg} {Q : α → PSt → Prop} : post (throwAt sp msg) Q s := by
  intro b s' e
  cases e

theorem post_gets {α} {f : PSt → α} {Q s} (h : Q (f s) s) : post (gets f) Q s := by
  intro b s' e
  cases e
  exact h

theorem post_peek {Q : Token → PSt → Prop} (h : At lk s st stack toks ns)
    (k : ∀ t X s1, toks = t.tt :: X → s1.token = some t → At lk s1 st stack (t.tt :: X) ns → Q t s1) : post peekToken Q s := by
  intro a s' e
  have h2 := h.toks
  cases ht : s.token with
  | some t =>
    simp only [peekToken, ht, Prod.mk.injEq, Res.ok.injEq] at e
    obtain ⟨rfl, rfl⟩ := e
    simp only [pend, ht, Option.toList, List.cons_append, List.nil_append, List.map_cons] at h2
    exact k _ _ _ h2.symm ht (by rw [h2]; exact h)
  | none =>
    simp only [pend, ht, Option.toList, List.nil_append] at h2
    cases hk : s.toks with
    | nil =>
      simp only [peekToken, ht, scanNextToken, hk] at e
      cases htl : s.tail <;> simp [htl] at e
    | cons t ts =>
      simp only [peekToken, ht, scanNextToken, hk, Prod.mk.injEq, Res.ok.injEq] at e
      obtain ⟨rfl, rfl⟩ := e
      simp only [hk, List.map_cons] at h2
      refine k _ _ _ h2.symm rfl ?_
      refine ⟨h.state, h.stack, ?_, h.anchors, h.count, h.tags, h.keep, h.current, h.live⟩
      simp [pend]

theorem post_repeek {Q : Token → PSt → Prop} (ht : s.token = some t) (k : Q t s) : post peekToken Q s := by
  intro a s' e
  simp only [peekToken, ht, Prod.mk.injEq, Res.ok.injEq] at e
  obtain ⟨rfl, rfl⟩ := e
  exact k

theorem post_skip {Q : Unit → PSt → Prop} (h : At lk s st stack (tt :: X) ns) (ht : s.token = some t)
    (k : ∀ s1, At lk s1 st stack X ns → Q () s1) : post skip Q s := by
  intro a s' e
  cases e
  refine k _ ⟨h.state, h.stack, ?_, h.anchors, h.count, h.tags, h.keep, h.current, h.live⟩
  have := h.toks
  simp [pend, ht] at this
  simpa [pend] using this.2

theorem post_fetch {Q : Token → PSt → Prop} (h : At lk s st stack (tt :: X) ns) (ht : s.token = some t)
    (k : ∀ s1, At lk s1 st stack X ns → Q t s1) : post fetchToken Q s := by
  intro a s' e
  simp only [fetchToken, ht, Prod.mk.injEq, Res.ok.injEq] at e
  obtain ⟨rfl, rfl⟩ := e
  refine k { s with token := none } ⟨h.state, h.stack, ?_, h.anchors, h.count, h.tags, h.keep, h.current, h.live⟩
  have := h.toks
  simp [pend, ht] at this
  simpa [pend] using this.2

theorem post_setState {Q : Unit → PSt → Prop} {o} (h : At lk s st stack toks ns) (ho : s.token = o)
    (k : ∀ s1, At lk s1 st' stack toks ns → s1.token = o → Q () s1) : post (setState st') Q s := by
  intro a s' e
  cases e
  exact k _ ⟨rfl, h.stack, h.toks, h.anchors, h.count, h.tags, h.keep, h.current, h.live⟩ ho

theorem post_push {Q : Unit → PSt → Prop} {o} (h : At lk s st stack toks ns) (ho : s.token = o)
    (k : ∀ s1, At lk s1 st (st' :: stack) toks ns → s1.token = o → Q () s1) : post (pushState st') Q s := by
  intro a s' e
  cases e
  exact k _ ⟨h.state, by simp [h.stack], h.toks, h.anchors, h.count, h.tags, h.keep, h.current, h.live⟩ ho

theorem post_pop {Q : Unit → PSt → Prop} {o} (h : At lk s st stack toks ns) (ho : s.token = o)
    (k : ∀ st' sts s1, stack = st' :: sts → At lk s1 st' sts toks ns → s1.token = o → Q () s1) : post popState Q s := by
  intro a s' e
  cases hs : s.states with
  | nil => simp [popState, hs] at e
  | cons st' sts =>
    simp only [popState, hs, Prod.mk.injEq] at e
    obtain ⟨-, rfl⟩ := e
    exact k st' sts _ (by rw [← h.stack, hs]) ⟨rfl, rfl, h.toks, h.anchors, h.count, h.tags, h.keep, h.current, h.live⟩ ho

theorem post_registerAnchor {Q : Nat → PSt → Prop} {n} (h : At lk s st stack toks ns)
    (k : ∀ s1, At lk s1 st stack toks (ns ++ [n]) → s1.token = s.token → Q (ns.length + 1) s1) :
    post (registerAnchor n) Q s := by
  intro a s' e
  simp only [registerAnchor, Prod.mk.injEq, Res.ok.injEq] at e
  obtain ⟨rfl, rfl⟩ := e
  rw [h.count]
  refine k _ ⟨h.state, h.stack, h.toks, ?_, ?_, h.tags, h.keep, h.current, h.live⟩ rfl
  · intro m
    simp only [mapGet_insert, lastDef_snoc, h.anchors]
  · simp

theorem post_resolveTag {Q : Tag → PSt → Prop} {sp hd sf} (h : At lk s st stack toks ns)
    (k : ∀ tg, ReadsAs lk hd sf tg → Q tg s) : post (resolveTagM sp hd sf) Q s := by
  intro a s' e
  unfold resolveTagM resolveTag at e
  simp only [h.tags, Prod.mk.injEq] at e
  obtain ⟨e, rfl⟩ := e
  apply k
  by_cases h1 : hd = bs!"!!"
  · subst h1
    cases hl : lk bs!"!!" with
    | none => simp [hl] at e; subst e; exact .secondary hl
    | some q => simp [hl] at e; subst e; exact .declared hl
  · simp only [h1, beq_iff_eq, if_false] at e
    by_cases h2 : hd.isEmpty && sf == bs!"!"
    · simp only [h2, if_true] at e
      have : hd = [] := by simp at h2; exact h2.1
      subst this
      cases hl : lk [] with
      | none => simp [hl] at e; subst e; exact .other hl h1 (by simp)
      | some q => simp [hl] at e; subst e; exact .declared hl
    · simp only [h2, Bool.false_eq_true, if_false] at e
      cases hl : lk hd with
      | none =>
        simp only [hl] at e
        split at e
        · cases e
        · rename_i h3
          cases e
          exact .other hl h1 h3
      | some q => simp only [hl, Res.ok.injEq] at e; subst e; exact .declared hl

theorem post_ite {α} {c : Prop} [Decidable c] {m m' : PM α} {Q s} (h1 : c → post m Q s) (h2 : ¬ c → post m' Q s) :
    post (if c then m else m') Q s := by
  by_cases h : c
  · rw [if_pos h]; exact h1 h
  · rw [if_neg h]; exact h2 h

theorem post_setTags {Q : Unit → PSt → Prop} {g : PSt → List (List Byte × List Byte)} {o} (h : At lk s st stack toks ns)
    (ho : s.token = o) (hg : ∀ k, mapGet (g s) k = lk' k)
    (k : ∀ s1, At lk' s1 st stack toks ns → s1.token = o → Q () s1) : post (modify fun s => { s with tags := g s }) Q s := by
  intro a s' e
  cases e
  exact k _ ⟨h.state, h.stack, h.toks, h.anchors, h.count, hg, h.keep, h.current, h.live⟩ ho

theorem post_hang {α} {Q : α → PSt → Prop} : post (fun s => (.hang, s)) Q s := by
  intro a s' e
  cases e

theorem post_mono {α} {m : PM α} {Q Q' s} (h : post m Q s) (hq : ∀ a s', Q a s' → Q' a s') : post m Q' s :=
  fun a s' e => hq a s' (h a s' e)

attribute [irreducible] post

/-- symbolic execution -/
macro "pstep" : tactic => `(tactic| first
  | apply post_bind
  | apply post_pure
  | apply post_throwAt
  | (refine post_repeek (by assumption) ?_)
  | (refine post_peek (by assumption) ?_; intro _ _ _ hpk _ _; try subst hpk)
  | (refine post_skip (by assumption) (by assumption) ?_; intro _ _)
  | (refine post_fetch (by assumption) (by assumption) ?_; intro _ _)
  | (refine post_setState (by assumption) (by first | assumption | rfl) ?_; intro _ _ _)
  | (refine post_push (by assumption) (by first | assumption | rfl) ?_; intro _ _ _)
  | (refine post_pop (by assumption) (by first | assumption | rfl) ?_; intro _ _ _ hpp _ _; try subst hpp))

/-! ## What is left to do -/

/-- what remains: anchor names, tokens and events -/
abbrev Cont := List (List Byte) → List TokenType → List Event → Prop

/-- a nonterminal, then `K` -/
def Der (lk : List Byte → Option (List Byte)) (nt : NT) (K : Cont) : Cont := fun ns toks evs =>
  ∃ c e r er ns1, DerivesL true lk nt ns c e ns1 ∧ K ns1 r er ∧ toks = c ++ r ∧ evs = e ++ er

/-- a token, then `K` -/
def Tok (t : TokenType) (K : Cont) : Cont := fun ns toks evs => ∃ r, toks = t :: r ∧ K ns r evs

/-- an event, then `K` -/
def Ev (e : Event) (K : Cont) : Cont := fun ns toks evs => ∃ er, evs = e :: er ∧ K ns toks er

/-- documents up to the end of the stream; tokens after it are not looked at -/
def RDocs (free : Bool) : Cont := fun ns toks evs => ∃ t r, toks = t ++ r ∧ DerivesDocsL true free ns t evs

/-- the rest of a block mapping -/
def RBlockMap (lk : List Byte → Option (List Byte)) (K : Cont) : Cont := Der lk .entries (Tok .blockEnd (Ev .mappingEnd K))
/-- the rest of a block sequence -/
def RBlockSeq (lk : List Byte → Option (List Byte)) (K : Cont) : Cont := Der lk (.items false) (Tok .blockEnd (Ev .sequenceEnd K))
/-- the items of a flow sequence -/
def RItems (lk : List Byte → Option (List Byte)) (K : Cont) : Cont := Der lk .flowItems (Tok .flowSequenceEnd (Ev .sequenceEnd K))
/-- the rest of a flow sequence after an item -/
def RSeq (lk : List Byte → Option (List Byte)) (K : Cont) : Cont := fun ns toks evs =>
  Tok .flowEntry (RItems lk K) ns toks evs ∨ Tok .flowSequenceEnd (Ev .sequenceEnd K) ns toks evs
/-- the entries of a flow mapping -/
def REntries (lk : List Byte → Option (List Byte)) (K : Cont) : Cont := Der lk .flowEntries (Tok .flowMappingEnd (Ev .mappingEnd K))
/-- the rest of a flow mapping after an entry -/
def RMap (lk : List Byte → Option (List Byte)) (K : Cont) : Cont := fun ns toks evs =>
  Tok .flowEntry (REntries lk K) ns toks evs ∨ Tok .flowMappingEnd (Ev .mappingEnd K) ns toks evs
/-- the end of a pair in a flow sequence -/
def REnd (lk : List Byte → Option (List Byte)) (K : Cont) : Cont := Ev .mappingEnd (RSeq lk K)
/-- the value of a pair in a flow sequence -/
def RVal (lk : List Byte → Option (List Byte)) (K : Cont) : Cont := fun ns toks evs =>
  Tok .value (Der lk (.node? .flow) (REnd lk K)) ns toks evs ∨ Ev .emptyScalar (REnd lk K) ns toks evs

/-- what a state expects, `K` being what is expected after it -/
def Rs (lk : List Byte → Option (List Byte)) (K : Cont) : PState → Cont
  | .streamStart => fun ns toks evs => (∀ h, lk h = none) → Tok .streamStart (Ev .streamStart (RDocs true)) ns toks evs
  | .implicitDocumentStart => fun ns toks evs => (∀ h, lk h = none) → RDocs true ns toks evs
  | .documentStart => fun ns toks evs => (∀ h, lk h = none) → toks.head? ≠ some .documentEnd →
      (∀ d, toks.head? = some d → isDirectiveTok d = false) → RDocs false ns toks evs
  | .documentContent => Der lk (.node? .block) K
  | .documentEnd => Ev .documentEnd fun ns toks evs => Tok .documentEnd (RDocs true) ns toks evs ∨ RDocs false ns toks evs
  | .blockNode => Der lk (.node .block) K
  | .blockSequenceFirstEntry => fun ns toks evs => ∃ t, Tok t (RBlockSeq lk K) ns toks evs
  | .blockSequenceEntry => RBlockSeq lk K
  | .indentlessSequenceEntry => Der lk (.items true) fun ns toks evs => toks.head? ≠ some .blockEntry ∧ Ev .sequenceEnd K ns toks evs
  | .blockMappingFirstKey => fun ns toks evs => ∃ t, Tok t (RBlockMap lk K) ns toks evs
  | .blockMappingKey => RBlockMap lk K
  | .blockMappingValue => fun ns toks evs =>
      Tok .value (Der lk (.node? .pair) (RBlockMap lk K)) ns toks evs ∨ toks.head? ≠ some .value ∧ Ev .emptyScalar (RBlockMap lk K) ns toks evs
  | .flowSequenceFirstEntry => fun ns toks evs => ∃ t, Tok t (RItems lk K) ns toks evs
  | .flowSequenceEntry => RSeq lk K
  | .flowSequenceEntryMappingKey => fun ns toks evs => Der lk (.node .flow) (RVal lk K) ns toks evs ∨
      ∃ x, (x = .value ∨ x = .flowEntry ∨ x = .flowSequenceEnd) ∧ Tok x (Ev .emptyScalar (RVal lk K)) ns toks evs
  | .flowSequenceEntryMappingValue => RVal lk K
  | .flowSequenceEntryMappingEnd _ => REnd lk K
  | .flowMappingFirstKey => fun ns toks evs => ∃ t, Tok t (REntries lk K) ns toks evs
  | .flowMappingKey => RMap lk K
  | .flowMappingValue => fun ns toks evs =>
      Tok .value (Der lk (.node? .flow) (RMap lk K)) ns toks evs ∨ Ev .emptyScalar (RMap lk K) ns toks evs
  | .flowMappingEmptyValue => Ev .emptyScalar (RMap lk K)
  | .endState => fun _ _ _ => True
  | .flowMappingFirstKeyCont => fun _ _ _ => True
  | .blockMappingValueCont => fun _ _ _ => True

/-- what a stack of states expects -/
def Rst (lk : List Byte → Option (List Byte)) : List PState → Cont
  | [] => fun _ _ _ => False
  | st :: sts => Rs lk (Rst lk sts) st

variable {K : Cont} {evs : List Event} {e : Event} {nt : NT}

theorem Der.absent (h : K ns toks evs) : Der lk (.node? p) K ns toks (.emptyScalar :: evs) :=
  ⟨[], [.emptyScalar], toks, evs, ns, .absent, h, rfl, rfl⟩

theorem Der.present (h : Der lk (.node p) K ns toks evs) : Der lk (.node? p) K ns toks evs := by
  obtain ⟨c, e, r, er, ns1, hd, hk, rfl, rfl⟩ := h
  exact ⟨c, e, r, er, ns1, .present hd, hk, rfl, rfl⟩

/-- the result of one step: where the parser is, and how what is left after it makes up what was left before -/
def Stepped (J : Cont) (ns : List (List Byte)) (toks : List TokenType) (r : Event × Span) (s' : PSt) : Prop :=
  ∃ lk' st' stack' toks' ns', At lk' s' st' stack' toks' ns' ∧ r.1 ≠ .streamEnd ∧
    ∀ evs, Rst lk' (st' :: stack') ns' toks' evs → J ns toks (r.1 :: evs)

theorem Stepped.mono {J J' : Cont} {toks'} {ns'} {r s'} (h : Stepped J ns toks r s') (hj : ∀ evs, J ns toks evs → J' ns' toks' evs) : Stepped J' ns' toks' r s' := by
  obtain ⟨a, b, c, d, f, h1, h2, h3⟩ := h
  exact ⟨a, b, c, d, f, h1, h2, fun evs he => hj _ (h3 evs he)⟩

/-! ## `parse_node` -/

theorem content_sound {a tg} (h : At lk s st stack toks ns) :
    post (parseNodeContent (isBlock p) (isPair p) a tg) (Stepped (fun ns toks evs =>
      Der lk (.content p a tg) (Rst lk stack) ns toks evs ∨
      (a > 0 ∨ tg.isSome = true) ∧ Ev (.scalar ⟨[], .plain, a, tg⟩) (Rst lk stack) ns toks evs) ns toks) s := by
  have other : ∀ {s t}, At lk s st stack toks ns → post (if tg.isSome || decide (a > 0) then do
      popState
      pure (Event.scalar (ScalarValue.emptyWithAnchor a tg), t)
    else throwAt t "while parsing a node, did not find expected node content") (Stepped (fun ns toks evs =>
      Der lk (.content p a tg) (Rst lk stack) ns toks evs ∨
      (a > 0 ∨ tg.isSome = true) ∧ Ev (.scalar ⟨[], .plain, a, tg⟩) (Rst lk stack) ns toks evs) ns toks) s := by
    intro s t h
    refine post_ite (fun hc => ?_) (fun _ => post_throwAt)
    pstep; pstep; pstep
    refine ⟨lk, _, _, _, _, by assumption, by simp, fun evs he => .inr ⟨?_, evs, rfl, he⟩⟩
    rcases Bool.or_eq_true_iff.1 hc with hc | hc
    · exact .inr hc
    · exact .inl (by simpa using hc)
  unfold parseNodeContent
  pstep; pstep
  rename_i t X s1 ht h1
  dsimp only
  split
  · rename_i htt
    refine post_ite (fun hc => ?_) (fun _ => other h1)
    have hp : p = .pair := by cases p <;> simp [isPair] at hc ⊢
    subst hp
    pstep; pstep; pstep
    refine ⟨lk, _, _, _, _, by assumption, by simp, fun evs he => .inl ?_⟩
    obtain ⟨c, e, r, er, ns1, hd, ⟨hr, er', rfl, hk⟩, hx, rfl⟩ := he
    refine ⟨c, _, r, er', ns1, .indentless ?_ hd, hk, hx, by simp⟩
    rintro rfl
    rw [List.nil_append] at hx
    rw [← hx, htt] at hr
    simp at hr
  · rename_i htt
    rw [htt] at h1 ⊢
    pstep; pstep; pstep; pstep; pstep
    refine ⟨lk, _, _, _, _, by assumption, by simp, fun evs he => .inl ?_⟩
    exact ⟨[_], [_], _, _, _, .scalar, he, rfl, rfl⟩
  · rename_i htt
    rw [htt] at h1 ⊢
    pstep; pstep; pstep
    refine ⟨lk, _, _, _, _, by assumption, by simp, fun evs he => .inl ?_⟩
    obtain ⟨t, r, hr, c, e, r', er, ns1, hd, ⟨r2, hr2, er2, her2, hk⟩, rfl, rfl⟩ := he
    cases hr
    subst hr2 her2
    exact ⟨_, _, r2, er2, ns1, .flowSeq hd, hk, by simp, by simp⟩
  · rename_i htt
    rw [htt] at h1 ⊢
    pstep; pstep; pstep
    refine ⟨lk, _, _, _, _, by assumption, by simp, fun evs he => .inl ?_⟩
    obtain ⟨t, r, hr, c, e, r', er, ns1, hd, ⟨r2, hr2, er2, her2, hk⟩, rfl, rfl⟩ := he
    cases hr
    subst hr2 her2
    exact ⟨_, _, r2, er2, ns1, .flowMap hd, hk, by simp, by simp⟩
  · rename_i htt
    refine post_ite (fun hc => ?_) (fun _ => other h1)
    have hp : p ≠ .flow := by cases p <;> simp [isBlock] at hc ⊢
    rw [htt] at h1 ⊢
    pstep; pstep; pstep
    refine ⟨lk, _, _, _, _, by assumption, by simp, fun evs he => .inl ?_⟩
    obtain ⟨t, r, hr, c, e, r', er, ns1, hd, ⟨r2, hr2, er2, her2, hk⟩, rfl, rfl⟩ := he
    cases hr
    subst hr2 her2
    exact ⟨_, _, r2, er2, ns1, .blockSeq hp hd, hk, by simp, by simp⟩
  · rename_i htt
    refine post_ite (fun hc => ?_) (fun _ => other h1)
    have hp : p ≠ .flow := by cases p <;> simp [isBlock] at hc ⊢
    rw [htt] at h1 ⊢
    pstep; pstep; pstep
    refine ⟨lk, _, _, _, _, by assumption, by simp, fun evs he => .inl ?_⟩
    obtain ⟨t, r, hr, c, e, r', er, ns1, hd, ⟨r2, hr2, er2, her2, hk⟩, rfl, rfl⟩ := he
    cases hr
    subst hr2 her2
    exact ⟨_, _, r2, er2, ns1, .blockMap hp hd, hk, by simp, by simp⟩
  · exact other h1

attribute [local irreducible] parseNodeContent

/-- anchor and tag in front of what the content lemma gives -/
theorem props_sound {q a tg ns1 r s'} (hq : Properties lk ns q a tg ns1) (h : Stepped (fun ns toks evs =>
      Der lk (.content p a tg) K ns toks evs ∨
      (a > 0 ∨ tg.isSome = true) ∧ Ev (.scalar ⟨[], .plain, a, tg⟩) K ns toks evs) ns1 toks r s') :
    Stepped (Der lk (.node p) K) ns (q ++ toks) r s' := by
  refine h.mono fun evs he => ?_
  rcases he with ⟨c, e, r, er, ns2, hd, hk, rfl, rfl⟩ | ⟨-, er, rfl, hk⟩
  · exact ⟨q ++ c, e, r, er, ns2, .props hq hd, hk, by simp, rfl⟩
  · exact ⟨q, _, toks, er, ns1, .propsOnly hq, hk, rfl, rfl⟩

theorem node_sound (h : At lk s st stack toks ns) :
    post (parseNode (isBlock p) (isPair p)) (Stepped (Der lk (.node p) (Rst lk stack)) ns toks) s := by
  unfold parseNode
  pstep; pstep
  rename_i t X s1 ht h1
  split
  · rename_i n htt
    rw [htt] at h1 ⊢
    pstep; pstep; pstep; pstep; apply post_bind; apply post_gets
    rename_i h2
    rw [h2.anchors]
    split
    · exact post_throwAt
    · rename_i id hid
      pstep
      refine ⟨lk, _, _, _, _, h2, by simp, fun evs he => ?_⟩
      exact ⟨[_], [_], _, _, _, .alias hid, he, rfl, rfl⟩
  · rename_i n htt
    rw [htt] at h1 ⊢
    pstep; pstep; apply post_bind
    refine post_registerAnchor (by assumption) fun s3 h3 _ => ?_
    pstep; pstep
    rename_i t2 X2 s4 ht2 h4
    split
    · rename_i hd sf htt2
      rw [htt2] at h4 ⊢
      pstep; pstep; apply post_bind
      refine post_resolveTag (by assumption) fun tg htg => ?_
      exact post_mono (content_sound (by assumption)) fun a b hab => props_sound (q := [_, _]) (.anchorTag htg) hab
    · exact post_mono (content_sound (by assumption)) fun a b hab => props_sound (q := [_]) .anchor hab
  · rename_i hd sf htt
    rw [htt] at h1 ⊢
    pstep; pstep; apply post_bind
    refine post_resolveTag (by assumption) fun tg htg => ?_
    pstep; pstep
    rename_i t2 X2 s4 ht2 h4
    split
    · rename_i n htt2
      rw [htt2] at h4 ⊢
      pstep; pstep; apply post_bind
      refine post_registerAnchor (by assumption) fun s3 h3 _ => ?_
      exact post_mono (content_sound (by assumption)) fun a b hab => props_sound (q := [_, _]) (.tagAnchor htg) hab
    · exact post_mono (content_sound (by assumption)) fun a b hab => props_sound (q := [_]) (.tag htg) hab
  · refine post_mono (content_sound h1) fun a b hab => hab.mono fun evs he => ?_
    rcases he with ⟨c, e, r, er, ns2, hd, hk, hx, rfl⟩ | ⟨h, -⟩
    · exact ⟨c, e, r, er, ns2, .bare hd, hk, hx, rfl⟩
    · simp at h

attribute [local irreducible] parseNode

/-! ## The states -/

/-- all that `parse_node` leaves to show, in the state pushed before it -/
theorem node_goal {J : Cont} {X' : List TokenType} (h : At lk s st (st' :: stack) toks ns)
    (hj : ∀ evs, Der lk (.node p) (Rs lk (Rst lk stack) st') ns toks evs → J ns X' evs) :
    post (parseNode (isBlock p) (isPair p)) (Stepped J ns X') s :=
  post_mono (node_sound h) fun _ _ hab => hab.mono hj

theorem node_pair {J : Cont} {X' : List TokenType} (h : At lk s st (st' :: stack) toks ns)
    (hj : ∀ evs, Der lk (.node .pair) (Rs lk (Rst lk stack) st') ns toks evs → J ns X' evs) :
    post (parseNode true true) (Stepped J ns X') s := node_goal h hj

theorem node_block' {J : Cont} {X' : List TokenType} (h : At lk s st (st' :: stack) toks ns)
    (hj : ∀ evs, Der lk (.node .block) (Rs lk (Rst lk stack) st') ns toks evs → J ns X' evs) :
    post (parseNode true false) (Stepped J ns X') s := node_goal h hj

theorem node_flow {J : Cont} {X' : List TokenType} (h : At lk s st (st' :: stack) toks ns)
    (hj : ∀ evs, Der lk (.node .flow) (Rs lk (Rst lk stack) st') ns toks evs → J ns X' evs) :
    post (parseNode false false) (Stepped J ns X') s := node_goal h hj

/-- an event other than the end of the stream -/
theorem stepped {J : Cont} {e sp s' toks' ns'} (h : At lk s' st stack toks ns) (he : e ≠ .streamEnd)
    (hj : ∀ evs, Rs lk (Rst lk stack) st ns toks evs → J ns' toks' (e :: evs)) : Stepped J ns' toks' (e, sp) s' :=
  ⟨lk, st, stack, toks, ns, h, he, hj⟩

/-- the first token of a collection is skipped unseen -/
theorem first_sound {J : Cont} {m : PM (Event × Span)} (h : At lk s st stack toks ns)
    (hm : ∀ {s toks}, At lk s st stack toks ns → post m (Stepped J ns toks) s) :
    post (do
      let _ ← peekToken
      skip
      m) (Stepped (fun ns toks evs => ∃ t, Tok t J ns toks evs) ns toks) s := by
  pstep; pstep; pstep; pstep
  exact post_mono (hm (by assumption)) fun _ _ hab => hab.mono fun evs he => ⟨_, _, rfl, he⟩

theorem blockSeq_item (h : Der lk (.node? .block) (RBlockSeq lk K) ns toks evs) : RBlockSeq lk K ns (.blockEntry :: toks) evs := by
  obtain ⟨c, e, r, er, ns1, hd, ⟨c', e', r', er', ns2, hd', hk, rfl, rfl⟩, rfl, rfl⟩ := h
  exact ⟨_, _, r', er', ns2, .item hd hd', hk, by simp, by simp⟩

theorem blockSeq_end (h : K ns toks evs) : RBlockSeq lk K ns (.blockEnd :: toks) (.sequenceEnd :: evs) :=
  ⟨[], [], _, _, ns, .noItems, ⟨_, rfl, _, rfl, h⟩, rfl, rfl⟩

theorem blockSequenceEntry_sound (h : At lk s st stack toks ns) :
    post (blockSequenceEntry false) (Stepped (RBlockSeq lk (Rst lk stack)) ns toks) s := by
  have empty : ∀ {s sp X}, At lk s st stack X ns → post (do
      setState .blockSequenceEntry
      pure (Event.emptyScalar, sp)) (Stepped (RBlockSeq lk (Rst lk stack)) ns (.blockEntry :: X)) s := by
    intro s sp X h
    pstep; pstep; pstep
    refine stepped (by assumption) (by simp [Event.emptyScalar]) fun evs he => ?_
    exact blockSeq_item (Der.absent he)
  unfold blockSequenceEntry
  simp only [Bool.false_eq_true, if_false]
  pstep; pstep
  rename_i t X s1 ht h1
  split
  · rename_i htt
    rw [htt] at h1 ⊢
    pstep; pstep; pstep; pstep; pstep
    refine stepped (by assumption) (by simp) fun evs he => ?_
    exact blockSeq_end he
  · rename_i htt
    rw [htt] at h1 ⊢
    pstep; pstep; pstep; pstep
    split
    · exact empty (by assumption)
    · exact empty (by assumption)
    · pstep; pstep
      exact node_block' (by assumption) fun evs he => blockSeq_item he.present
  · exact post_throwAt

theorem blockSequenceFirst_sound (h : At lk s st stack toks ns) :
    post (blockSequenceEntry true) (Stepped (Rs lk (Rst lk stack) .blockSequenceFirstEntry) ns toks) s :=
  first_sound h fun h => blockSequenceEntry_sound h

/-! ### Indentless sequences -/

theorem indentless_item (h : Der lk (.node? .block) (Rs lk K .indentlessSequenceEntry) ns toks evs) :
    Rs lk K .indentlessSequenceEntry ns (.blockEntry :: toks) evs := by
  obtain ⟨c, e, r, er, ns1, hd, ⟨c', e', r', er', ns2, hd', hk, rfl, rfl⟩, rfl, rfl⟩ := h
  exact ⟨_, _, r', er', ns2, .item hd hd', hk, by simp, by simp⟩

theorem indentlessSequenceEntry_sound (h : At lk s st stack toks ns) :
    post indentlessSequenceEntry (Stepped (Rs lk (Rst lk stack) .indentlessSequenceEntry) ns toks) s := by
  have empty : ∀ {s sp X}, At lk s st stack X ns → post (do
      setState .indentlessSequenceEntry
      pure (Event.emptyScalar, sp)) (Stepped (Rs lk (Rst lk stack) .indentlessSequenceEntry) ns (.blockEntry :: X)) s := by
    intro s sp X h
    pstep; pstep; pstep
    refine stepped (by assumption) (by simp [Event.emptyScalar]) fun evs he => ?_
    exact indentless_item (Der.absent he)
  unfold indentlessSequenceEntry
  pstep; pstep
  rename_i t X s1 ht h1
  split
  · rename_i htt
    rw [htt] at h1 ⊢
    pstep; pstep; pstep; pstep
    dsimp only
    split
    · exact empty (by assumption)
    · exact empty (by assumption)
    · exact empty (by assumption)
    · exact empty (by assumption)
    · pstep; pstep
      exact node_block' (by assumption) fun evs he => indentless_item he.present
  · rename_i htt
    pstep; pstep; pstep
    refine stepped (by assumption) (by simp) fun evs he => ?_
    exact ⟨[], [], _, _, ns, .noItems, ⟨by simpa using htt, _, rfl, he⟩, rfl, rfl⟩

/-! ### Block mappings -/

theorem blockMap_key (h : Der lk (.node? .pair) (Rs lk K .blockMappingValue) ns toks evs) : RBlockMap lk K ns (.key :: toks) evs := by
  obtain ⟨c, e, r, er, ns1, hd, hv, rfl, rfl⟩ := h
  rcases hv with ⟨r, rfl, v, ev, r2, er2, ns2, hd2, ⟨c3, e3, r3, er3, ns3, hd3, hk, rfl, rfl⟩, rfl, rfl⟩ |
    ⟨hh, er, rfl, c3, e3, r3, er3, ns3, hd3, hk, rfl, rfl⟩
  · exact ⟨_, _, r3, er3, ns3, .keyValue hd hd2 hd3, hk, by simp, by simp⟩
  · refine ⟨_, _, r3, er3, ns3, .keyOnly hd hd3 ?_, hk, by simp, by simp [Event.emptyScalar, ScalarValue.empty]⟩
    intro h
    apply hh
    rw [List.head?_append, h]
    rfl

theorem blockMap_value (h : Rs lk K .blockMappingValue ns (.value :: toks) evs) : RBlockMap lk K ns (.value :: toks) (.emptyScalar :: evs) := by
  rcases h with ⟨r, hr, v, ev, r2, er2, ns2, hd2, ⟨c3, e3, r3, er3, ns3, hd3, hk, rfl, rfl⟩, rfl, rfl⟩ | ⟨h, -⟩
  · cases hr
    exact ⟨_, _, r3, er3, ns3, .valueOnly hd2 hd3, hk, by simp, by simp [Event.emptyScalar, ScalarValue.empty]⟩
  · simp at h

theorem blockMap_end (h : K ns toks evs) : RBlockMap lk K ns (.blockEnd :: toks) (.mappingEnd :: evs) :=
  ⟨[], [], _, _, ns, .noEntries, ⟨_, rfl, _, rfl, h⟩, rfl, rfl⟩

theorem blockMappingKey_sound (h : At lk s st stack toks ns) :
    post (blockMappingKey false) (Stepped (RBlockMap lk (Rst lk stack)) ns toks) s := by
  have empty : ∀ {s sp X}, At lk s st stack X ns → post (do
      setState .blockMappingValue
      pure (Event.emptyScalar, sp)) (Stepped (RBlockMap lk (Rst lk stack)) ns (.key :: X)) s := by
    intro s sp X h
    pstep; pstep; pstep
    refine stepped (by assumption) (by simp [Event.emptyScalar]) fun evs he => ?_
    exact blockMap_key (Der.absent he)
  unfold blockMappingKey
  simp only [Bool.false_eq_true, if_false]
  pstep; pstep
  rename_i t X s1 ht h1
  split
  · rename_i htt
    rw [htt] at h1 ⊢
    pstep; pstep; pstep; pstep
    split
    · exact empty (by assumption)
    · exact empty (by assumption)
    · exact empty (by assumption)
    · pstep; pstep
      exact node_pair (by assumption) fun evs he => blockMap_key he.present
  · rename_i htt
    rw [htt] at h1 ⊢
    pstep; pstep; pstep
    refine stepped (by assumption) (by simp [Event.emptyScalar]) fun evs he => ?_
    exact blockMap_value he
  · rename_i htt
    rw [htt] at h1 ⊢
    pstep; pstep; pstep; pstep; pstep
    refine stepped (by assumption) (by simp) fun evs he => ?_
    exact blockMap_end he
  · exact post_throwAt

theorem blockMappingFirst_sound (h : At lk s st stack toks ns) :
    post (blockMappingKey true) (Stepped (Rs lk (Rst lk stack) .blockMappingFirstKey) ns toks) s :=
  first_sound h fun h => blockMappingKey_sound h

theorem blockMappingValue_sound (h : At lk s st stack toks ns) :
    post (blockMappingValue true) (Stepped (Rs lk (Rst lk stack) .blockMappingValue) ns toks) s := by
  have empty : ∀ {s sp X}, At lk s st stack X ns → post (do
      setState .blockMappingKey
      pure (Event.emptyScalar, sp)) (Stepped (Rs lk (Rst lk stack) .blockMappingValue) ns (.value :: X)) s := by
    intro s sp X h
    pstep; pstep; pstep
    refine stepped (by assumption) (by simp [Event.emptyScalar]) fun evs he => ?_
    exact .inl ⟨_, rfl, Der.absent he⟩
  unfold blockMappingValue
  pstep; pstep
  rename_i t X s1 ht h1
  by_cases htt : t.tt = .value
  · rw [htt] at h1 ⊢
    simp only [beq_self_eq_true, if_true, Bool.true_or]
    pstep; pstep; pstep; pstep
    split
    · exact empty (by assumption)
    · exact empty (by assumption)
    · exact empty (by assumption)
    · pstep; pstep
      exact node_pair (by assumption) fun evs he => .inl ⟨_, rfl, he.present⟩
  · have hb : (t.tt == TokenType.value) = false := by simpa using htt
    simp only [hb, Bool.false_eq_true, if_false, Bool.not_true, Bool.or_self]
    pstep; pstep; pstep; pstep; pstep
    refine stepped (by assumption) (by simp [Event.emptyScalar]) fun evs he => ?_
    exact .inr ⟨by simpa using htt, _, rfl, he⟩

/-! ### Flow sequences -/

theorem seq_of (h : RSeq lk K ns toks evs) : ∃ sep c e r er ns1, DerivesL true lk .flowItems ns c e ns1 ∧
    (sep = [.flowEntry] ∨ sep = [] ∧ c = []) ∧ K ns1 r er ∧ toks = sep ++ (c ++ .flowSequenceEnd :: r) ∧ evs = e ++ .sequenceEnd :: er := by
  rcases h with ⟨r, rfl, c, e, r2, er2, ns1, hd, ⟨r3, rfl, er3, rfl, hk⟩, rfl, rfl⟩ | ⟨r, rfl, er, rfl, hk⟩
  · exact ⟨[.flowEntry], c, e, r3, er3, ns1, hd, .inl rfl, hk, rfl, rfl⟩
  · exact ⟨[], [], [], r, er, ns, .noFlowItems, .inr ⟨rfl, rfl⟩, hk, rfl, rfl⟩

theorem items_node (h : Der lk (.node .flow) (RSeq lk K) ns toks evs) : RItems lk K ns toks evs := by
  obtain ⟨c, e, r, er, ns1, hd, hs, rfl, rfl⟩ := h
  obtain ⟨sep, c2, e2, r2, er2, ns2, hd2, hsep, hk, rfl, rfl⟩ := seq_of hs
  exact ⟨_, _, _, _, ns2, .flowItem hd hd2 hsep, ⟨_, rfl, _, rfl, hk⟩, by simp, by simp⟩

theorem items_end (h : K ns toks evs) : RItems lk K ns (.flowSequenceEnd :: toks) (.sequenceEnd :: evs) :=
  ⟨[], [], _, _, ns, .noFlowItems, ⟨_, rfl, _, rfl, h⟩, rfl, rfl⟩

theorem items_pair (h : Rs lk K .flowSequenceEntryMappingKey ns toks evs) : RItems lk K ns (.key :: toks) (.mappingStart 0 none :: evs) := by
  rcases h with ⟨c, e, r, er, ns1, hd, hv, rfl, rfl⟩ | ⟨x, hx, r, rfl, er, rfl, hv⟩
  · rcases hv with ⟨r, rfl, v, ev, r2, er2, ns2, hd2, ⟨er3, rfl, hs⟩, rfl, rfl⟩ | ⟨er, rfl, er3, rfl, hs⟩
    · obtain ⟨sep, c2, e2, r2, er2, ns2, hd3, hsep, hk, rfl, rfl⟩ := seq_of hs
      exact ⟨_, _, _, _, _, .flowPair hd hd2 hd3 hsep, ⟨_, rfl, _, rfl, hk⟩, by simp, by simp⟩
    · obtain ⟨sep, c2, e2, r2, er2, ns2, hd3, hsep, hk, rfl, rfl⟩ := seq_of hs
      exact ⟨_, _, _, _, _, .flowPairKey hd hd3 hsep, ⟨_, rfl, _, rfl, hk⟩, by simp, by simp [Event.emptyScalar, ScalarValue.empty]⟩
  · rcases hv with ⟨r, rfl, v, ev, r2, er2, ns2, hd2, ⟨er3, rfl, hs⟩, rfl, rfl⟩ | ⟨er, rfl, er3, rfl, hs⟩
    · obtain ⟨sep, c2, e2, r2, er2, ns2, hd3, hsep, hk, rfl, rfl⟩ := seq_of hs
      exact ⟨_, _, _, _, _, .oddPair rfl hx hd2 hd3 hsep, ⟨_, rfl, _, rfl, hk⟩, by simp, by simp [Event.emptyScalar, ScalarValue.empty]⟩
    · obtain ⟨sep, c2, e2, r2, er2, ns2, hd3, hsep, hk, rfl, rfl⟩ := seq_of hs
      exact ⟨_, _, _, _, _, .oddPairKey rfl hx hd3 hsep, ⟨_, rfl, _, rfl, hk⟩, by simp, by simp [Event.emptyScalar, ScalarValue.empty]⟩

theorem flowSequenceRest_sound (h : At lk s st stack toks ns) :
    post flowSequenceEntryRest (Stepped (RItems lk (Rst lk stack)) ns toks) s := by
  unfold flowSequenceEntryRest
  pstep; pstep
  rename_i t X s1 ht h1
  split
  · rename_i htt
    rw [htt] at h1 ⊢
    pstep; pstep; pstep; pstep; pstep
    refine stepped (by assumption) (by simp) fun evs he => ?_
    exact items_end he
  · rename_i htt
    rw [htt] at h1 ⊢
    pstep; pstep; pstep; pstep; pstep
    refine stepped (by assumption) (by simp) fun evs he => ?_
    exact items_pair he
  · pstep; pstep
    exact node_flow (by assumption) fun evs he => items_node he

attribute [local irreducible] flowSequenceEntryRest

theorem flowSequenceEntry_sound (h : At lk s st stack toks ns) :
    post (flowSequenceEntry false) (Stepped (RSeq lk (Rst lk stack)) ns toks) s := by
  unfold flowSequenceEntry
  simp only [Bool.false_eq_true, if_false, Bool.not_false, if_true]
  pstep; pstep
  rename_i t X s1 ht h1
  split
  · rename_i htt
    rw [htt] at h1 ⊢
    pstep; pstep; pstep; pstep; pstep
    refine stepped (by assumption) (by simp) fun evs he => ?_
    exact .inr ⟨_, rfl, _, rfl, he⟩
  · rename_i htt
    rw [htt] at h1 ⊢
    pstep; pstep
    exact post_mono (flowSequenceRest_sound (by assumption)) fun _ _ hab => hab.mono fun evs he => .inl ⟨_, rfl, he⟩
  · exact post_throwAt

theorem flowSequenceFirst_sound (h : At lk s st stack toks ns) :
    post (flowSequenceEntry true) (Stepped (Rs lk (Rst lk stack) .flowSequenceFirstEntry) ns toks) s := by
  unfold flowSequenceEntry
  simp only [if_true, Bool.not_true, Bool.false_eq_true, if_false]
  refine first_sound h fun h => ?_
  pstep; pstep
  rename_i t X s1 ht h1
  split
  · rename_i htt
    rw [htt] at h1 ⊢
    pstep; pstep; pstep; pstep; pstep
    refine stepped (by assumption) (by simp) fun evs he => ?_
    exact items_end he
  · exact flowSequenceRest_sound (by assumption)
  · exact flowSequenceRest_sound (by assumption)

theorem flowPairKey_sound (h : At lk s st stack toks ns) :
    post flowSequenceEntryMappingKey (Stepped (Rs lk (Rst lk stack) .flowSequenceEntryMappingKey) ns toks) s := by
  unfold flowSequenceEntryMappingKey
  pstep; pstep
  rename_i t X s1 ht h1
  dsimp only
  split
  · rename_i htt
    rw [htt] at h1 ⊢
    pstep; pstep; pstep; pstep; pstep
    refine stepped (by assumption) (by simp [Event.emptyScalar]) fun evs he => ?_
    exact .inr ⟨_, .inl rfl, _, rfl, _, rfl, he⟩
  · rename_i htt
    rw [htt] at h1 ⊢
    pstep; pstep; pstep; pstep; pstep
    refine stepped (by assumption) (by simp [Event.emptyScalar]) fun evs he => ?_
    exact .inr ⟨_, .inr (.inl rfl), _, rfl, _, rfl, he⟩
  · rename_i htt
    rw [htt] at h1 ⊢
    pstep; pstep; pstep; pstep; pstep
    refine stepped (by assumption) (by simp [Event.emptyScalar]) fun evs he => ?_
    exact .inr ⟨_, .inr (.inr rfl), _, rfl, _, rfl, he⟩
  · pstep; pstep
    exact node_flow (by assumption) fun evs he => .inl he

theorem flowPairValue_sound (h : At lk s st stack toks ns) :
    post flowSequenceEntryMappingValue (Stepped (RVal lk (Rst lk stack)) ns toks) s := by
  unfold flowSequenceEntryMappingValue
  pstep; pstep
  rename_i t X s1 ht h1
  split
  · rename_i htt
    rw [htt] at h1 ⊢
    pstep; pstep; pstep; pstep; pstep; pstep
    dsimp only
    split
    · pstep; pstep; pstep
      refine stepped (by assumption) (by simp [Event.emptyScalar]) fun evs he => ?_
      exact .inl ⟨_, rfl, Der.absent he⟩
    · pstep; pstep; pstep
      refine stepped (by assumption) (by simp [Event.emptyScalar]) fun evs he => ?_
      exact .inl ⟨_, rfl, Der.absent he⟩
    · pstep; pstep
      exact node_flow (by assumption) fun evs he => .inl ⟨_, rfl, he.present⟩
  · pstep; pstep; pstep
    refine stepped (by assumption) (by simp [Event.emptyScalar]) fun evs he => ?_
    exact .inr ⟨_, rfl, he⟩

theorem flowPairEnd_sound {m} (h : At lk s st stack toks ns) :
    post (flowSequenceEntryMappingEnd m) (Stepped (REnd lk (Rst lk stack)) ns toks) s := by
  unfold flowSequenceEntryMappingEnd
  pstep; pstep; pstep
  refine stepped (by assumption) (by simp) fun evs he => ?_
  exact ⟨_, rfl, he⟩

/-! ### Flow mappings -/

theorem map_of (h : RMap lk K ns toks evs) : ∃ sep c e r er ns1, DerivesL true lk .flowEntries ns c e ns1 ∧
    (sep = [.flowEntry] ∨ sep = [] ∧ c = []) ∧ K ns1 r er ∧ toks = sep ++ (c ++ .flowMappingEnd :: r) ∧ evs = e ++ .mappingEnd :: er := by
  rcases h with ⟨r, rfl, c, e, r2, er2, ns1, hd, ⟨r3, rfl, er3, rfl, hk⟩, rfl, rfl⟩ | ⟨r, rfl, er, rfl, hk⟩
  · exact ⟨[.flowEntry], c, e, r3, er3, ns1, hd, .inl rfl, hk, rfl, rfl⟩
  · exact ⟨[], [], [], r, er, ns, .noFlowEntries, .inr ⟨rfl, rfl⟩, hk, rfl, rfl⟩

theorem entries_end (h : K ns toks evs) : REntries lk K ns (.flowMappingEnd :: toks) (.mappingEnd :: evs) :=
  ⟨[], [], _, _, ns, .noFlowEntries, ⟨_, rfl, _, rfl, h⟩, rfl, rfl⟩

theorem entries_single (h : Der lk (.node .flow) (Rs lk K .flowMappingEmptyValue) ns toks evs) : REntries lk K ns toks evs := by
  obtain ⟨c, e, r, er, ns1, hd, ⟨er, rfl, hs⟩, rfl, rfl⟩ := h
  obtain ⟨sep, c2, e2, r2, er2, ns2, hd2, hsep, hk, rfl, rfl⟩ := map_of hs
  exact ⟨_, _, _, _, ns2, .flowSingle hd hd2 hsep, ⟨_, rfl, _, rfl, hk⟩, by simp, by simp [Event.emptyScalar, ScalarValue.empty]⟩

theorem entries_key (h : Der lk (.node? .flow) (Rs lk K .flowMappingValue) ns toks evs) : REntries lk K ns (.key :: toks) evs := by
  obtain ⟨c, e, r, er, ns1, hd, hv, rfl, rfl⟩ := h
  rcases hv with ⟨r, rfl, v, ev, r2, er2, ns2, hd2, hs, rfl, rfl⟩ | ⟨er, rfl, hs⟩
  · obtain ⟨sep, c2, e2, r2, er2, ns2, hd3, hsep, hk, rfl, rfl⟩ := map_of hs
    exact ⟨_, _, _, _, _, .flowKeyValue hd hd2 hd3 hsep, ⟨_, rfl, _, rfl, hk⟩, by simp, by simp⟩
  · obtain ⟨sep, c2, e2, r2, er2, ns2, hd3, hsep, hk, rfl, rfl⟩ := map_of hs
    exact ⟨_, _, _, _, _, .flowKeyOnly hd hd3 hsep, ⟨_, rfl, _, rfl, hk⟩, by simp, by simp [Event.emptyScalar, ScalarValue.empty]⟩

theorem entries_value (h : Rs lk K .flowMappingValue ns (.value :: toks) evs) : REntries lk K ns (.value :: toks) (.emptyScalar :: evs) := by
  rcases h with ⟨r, hr, v, ev, r2, er2, ns2, hd2, hs, rfl, rfl⟩ | ⟨er, rfl, hs⟩
  · cases hr
    obtain ⟨sep, c2, e2, r2, er2, ns2, hd3, hsep, hk, rfl, rfl⟩ := map_of hs
    exact ⟨_, _, _, _, _, .flowValueOnly hd2 hd3 hsep, ⟨_, rfl, _, rfl, hk⟩, by simp, by simp [Event.emptyScalar, ScalarValue.empty]⟩
  · rcases hs with ⟨r, hr, -⟩ | ⟨r, hr, -⟩ <;> simp at hr

theorem flowMappingValue_sound (h : At lk s st stack toks ns) :
    post (flowMappingValue false) (Stepped (Rs lk (Rst lk stack) .flowMappingValue) ns toks) s := by
  unfold flowMappingValue
  pstep; pstep
  rename_i t X s1 ht h1
  simp only [Bool.false_eq_true, if_false]
  split
  · rename_i htt
    rw [htt] at h1 ⊢
    pstep; pstep; pstep; pstep
    split
    · pstep; pstep; pstep
      refine stepped (by assumption) (by simp [Event.emptyScalar]) fun evs he => ?_
      exact .inl ⟨_, rfl, Der.absent he⟩
    · pstep; pstep; pstep
      refine stepped (by assumption) (by simp [Event.emptyScalar]) fun evs he => ?_
      exact .inl ⟨_, rfl, Der.absent he⟩
    · pstep; pstep
      exact node_flow (by assumption) fun evs he => .inl ⟨_, rfl, he.present⟩
  · pstep; pstep; pstep
    refine stepped (by assumption) (by simp [Event.emptyScalar]) fun evs he => ?_
    exact .inr ⟨_, rfl, he⟩

theorem flowMappingEmpty_sound (h : At lk s st stack toks ns) :
    post (flowMappingValue true) (Stepped (Rs lk (Rst lk stack) .flowMappingEmptyValue) ns toks) s := by
  unfold flowMappingValue
  pstep; pstep
  simp only [if_true]
  pstep; pstep; pstep
  refine stepped (by assumption) (by simp [Event.emptyScalar]) fun evs he => ?_
  exact ⟨_, rfl, he⟩

/-- the part of `flow_mapping_key` after a comma -/
theorem flowMappingEntry_sound {sp : Span} (h : At lk s st stack toks ns) :
    post (do
      let t3 ← peekToken
      let isKey ← pure (t3.tt == .key)
      if isKey then do
        skip
        let t4 ← peekToken
        match t4.tt with
        | .value => do
          setState .flowMappingValue
          pure (.emptyScalar, t4.span)
        | .flowEntry => do
          setState .flowMappingValue
          pure (.emptyScalar, t4.span)
        | .flowMappingEnd => do
          setState .flowMappingValue
          pure (.emptyScalar, t4.span)
        | _ => do
          pushState .flowMappingValue
          parseNode false false
      else do
        let t5 ← peekToken
        match t5.tt with
        | .value => do
          setState .flowMappingValue
          pure (.emptyScalar, t5.span)
        | .flowMappingEnd => do
          popState
          skip
          pure (.mappingEnd, sp)
        | _ => do
          pushState .flowMappingEmptyValue
          parseNode false false) (Stepped (REntries lk (Rst lk stack)) ns toks) s := by
  have empty : ∀ {s sp X}, At lk s st stack X ns → post (do
      setState .flowMappingValue
      pure (Event.emptyScalar, sp)) (Stepped (REntries lk (Rst lk stack)) ns (.key :: X)) s := by
    intro s sp X h
    pstep; pstep; pstep
    refine stepped (by assumption) (by simp [Event.emptyScalar]) fun evs he => ?_
    exact entries_key (Der.absent he)
  pstep; pstep
  rename_i t X s1 ht h1
  pstep; pstep
  refine post_ite (fun hc => ?_) (fun hc => ?_)
  · have htt : t.tt = .key := by simpa using hc
    rw [htt] at h1 ⊢
    pstep; pstep; pstep; pstep
    split
    · exact empty (by assumption)
    · exact empty (by assumption)
    · exact empty (by assumption)
    · pstep; pstep
      exact node_flow (by assumption) fun evs he => entries_key he.present
  · pstep; pstep
    split
    · rename_i htt
      rw [htt] at h1 ⊢
      pstep; pstep; pstep
      refine stepped (by assumption) (by simp [Event.emptyScalar]) fun evs he => ?_
      exact entries_value he
    · rename_i htt
      rw [htt] at h1 ⊢
      pstep; pstep; pstep; pstep; pstep
      refine stepped (by assumption) (by simp) fun evs he => ?_
      exact entries_end he
    · pstep; pstep
      exact node_flow (by assumption) fun evs he => entries_single he

theorem flowMappingFirst_sound (h : At lk s st stack toks ns) :
    post (flowMappingKey .firstKey) (Stepped (Rs lk (Rst lk stack) .flowMappingFirstKey) ns toks) s := by
  unfold flowMappingKey
  simp only [beq_self_eq_true, if_true]
  refine first_sound h fun h => ?_
  pstep; pstep
  rename_i t X s1 ht h1
  split
  · rename_i htt
    rw [htt] at h1 ⊢
    pstep; pstep; pstep; pstep; pstep
    refine stepped (by assumption) (by simp) fun evs he => ?_
    exact entries_end he
  · exact flowMappingEntry_sound h1

theorem flowMappingKey_sound (h : At lk s st stack toks ns) :
    post (flowMappingKey .nonFirstKey) (Stepped (RMap lk (Rst lk stack)) ns toks) s := by
  unfold flowMappingKey
  simp only [show (KeyFlow.nonFirstKey == KeyFlow.firstKey) = false from rfl, Bool.false_eq_true, if_false]
  pstep; pstep
  rename_i t X s1 ht h1
  split
  · rename_i htt
    rw [htt] at h1 ⊢
    pstep; pstep; pstep; pstep; pstep
    refine stepped (by assumption) (by simp) fun evs he => ?_
    exact .inr ⟨_, rfl, _, rfl, he⟩
  · simp only [beq_self_eq_true, if_true]
    pstep; pstep
    split
    · rename_i htt
      rw [htt] at h1 ⊢
      pstep; pstep
      exact post_mono (flowMappingEntry_sound (by assumption)) fun _ _ hab => hab.mono fun evs he => .inl ⟨_, rfl, he⟩
    · pstep; pstep

/-! ### Documents -/

theorem docs_strays : ∀ {n}, RDocs true ns toks evs → RDocs true ns (List.replicate n .documentEnd ++ toks) evs := by
  intro n h
  induction n with
  | zero => simpa using h
  | succ n ih =>
    obtain ⟨t, r, hr, hd⟩ := ih
    refine ⟨.documentEnd :: t, r, ?_, .strayEnd hd⟩
    rw [List.replicate_succ, List.cons_append, hr, List.cons_append]

theorem skipDocumentEnds_sound {fuel} (h : At lk s st stack toks ns) :
    post (skipDocumentEnds fuel) (fun _ s1 => ∃ n X, toks = List.replicate n .documentEnd ++ X ∧ At lk s1 st stack X ns ∧
      X.head? ≠ some .documentEnd) s := by
  induction fuel generalizing s toks with
  | zero => exact post_hang
  | succ fuel ih =>
    unfold skipDocumentEnds
    pstep; pstep
    rename_i t X s1 ht h1
    split
    · rename_i htt
      rw [htt] at h1 ⊢
      pstep; pstep
      refine post_mono (ih (by assumption)) fun _ s2 h2 => ?_
      obtain ⟨n, Y, rfl, h3, h4⟩ := h2
      exact ⟨n + 1, Y, rfl, h3, h4⟩
    · rename_i htt
      pstep
      exact ⟨0, _, rfl, h1, by simpa using htt⟩

theorem directives_loop_sound {fuel vr} (h : At lk s st stack toks ns) :
    post (processDirectivesLoop fuel vr) (fun _ s1 => ∃ ds X, toks = ds ++ X ∧ (∀ d ∈ ds, isDirectiveTok d = true) ∧
      ds.countP isVersion + (if vr then 1 else 0) ≤ 1 ∧
      At (if ds = [] then lk else declaredBy ds.getLast?.toList) s1 st stack X ns ∧ ∀ d, X.head? = some d → isDirectiveTok d = false) s := by
  induction fuel generalizing s toks lk vr with
  | zero => exact post_hang
  | succ fuel ih =>
    have last : ∀ {d : TokenType} {ds : List TokenType} {s1 X}, At (if ds = [] then declaredBy [d] else declaredBy ds.getLast?.toList) s1 st stack X ns →
        At (if d :: ds = [] then lk else declaredBy (d :: ds).getLast?.toList) s1 st stack X ns := by
      intro d ds s1 X h
      simp only [reduceCtorEq, if_false]
      cases ds with
      | nil => simpa using h
      | cons e es =>
        simp only [reduceCtorEq, if_false] at h
        simpa [List.getLast?_cons_cons] using h
    unfold processDirectivesLoop
    pstep; pstep
    rename_i t X s1 ht h1
    split
    · rename_i a b htt
      refine post_ite (fun _ => post_throwAt) (fun hvr => ?_)
      rw [htt] at h1 ⊢
      pstep
      refine post_setTags (lk' := declaredBy [.versionDirective a b]) h1 ht (fun k => by simp [mapGet, declaredBy]) fun s2 h2 _ => ?_
      pstep; pstep
      refine post_mono (ih (by assumption)) fun _ s2 h2 => ?_
      obtain ⟨ds, Y, rfl, h3, h4, h5, h6⟩ := h2
      refine ⟨.versionDirective a b :: ds, Y, rfl, ?_, ?_, last h5, h6⟩
      · simpa using ⟨rfl, h3⟩
      · rw [List.countP_cons_of_pos rfl]
        simp at h4 hvr
        subst hvr
        simpa using h4
    · rename_i hh q htt
      rw [htt] at h1 ⊢
      pstep
      refine post_setTags (lk' := declaredBy [.tagDirective hh q]) h1 ht (fun k => by simp [mapGet_insert, declaredBy]; rfl) fun s2 h2 _ => ?_
      pstep; pstep
      refine post_mono (ih (by assumption)) fun _ s2 h2 => ?_
      obtain ⟨ds, Y, rfl, h3, h4, h5, h6⟩ := h2
      refine ⟨.tagDirective hh q :: ds, Y, rfl, ?_, ?_, last h5, h6⟩
      · simpa using ⟨rfl, h3⟩
      · rw [List.countP_cons_of_neg (by simp [isVersion])]
        exact h4
    · rename_i htt1 htt2
      pstep
      refine ⟨[], _, rfl, by simp, by simp; split <;> omega, by simpa using h1, ?_⟩
      intro d hd
      simp at hd
      subst hd
      cases h : t.tt <;> first | rfl | exact absurd h (htt1 _ _) | exact absurd h (htt2 _ _)

unseal post in
theorem directives_sound (h : At lk s st stack toks ns) :
    post processDirectives (fun _ s1 => ∃ ds X, toks = ds ++ X ∧ (∀ d ∈ ds, isDirectiveTok d = true) ∧
      ds.countP isVersion ≤ 1 ∧
      At (if ds = [] then lk else declaredBy ds.getLast?.toList) s1 st stack X ns ∧ ∀ d, X.head? = some d → isDirectiveTok d = false) s := by
  intro a s' e
  have := directives_loop_sound (fuel := s.toks.length + 2) (vr := false) h a s' e
  simpa using this

attribute [local irreducible] processDirectives skipDocumentEnds

/-- what stands after the node of a document -/
theorem docs_of (h : Rs lk K .documentEnd ns toks evs) : ∃ closed t r er, DerivesDocsL true closed ns t er ∧
    toks = (if closed then [.documentEnd] else []) ++ t ++ r ∧ evs = .documentEnd :: er := by
  obtain ⟨er, rfl, h⟩ := h
  rcases h with ⟨r, rfl, t, r', rfl, hd⟩ | ⟨t, r, rfl, hd⟩
  · exact ⟨true, t, r', er, hd, rfl, rfl⟩
  · exact ⟨false, t, r, er, hd, rfl, rfl⟩

theorem explicitDocumentStart_sound {free} (h : At (fun _ => none) s st stack toks ns)
    (hf : free = true ∨ ∀ d, toks.head? = some d → isDirectiveTok d = false) :
    post explicitDocumentStart (Stepped (RDocs free) ns toks) s := by
  unfold explicitDocumentStart
  pstep
  refine post_mono (directives_sound h) fun _ s1 h1 => ?_
  obtain ⟨ds, X, rfl, hds, hv, h1, -⟩ := h1
  have h1 : At (declaredBy ds.getLast?.toList) s1 st stack X ns := by
    cases ds with
    | nil => exact h1
    | cons d ds => simpa using h1
  pstep; pstep
  rename_i t X s2 ht h2
  split
  · rename_i htt
    rw [htt] at h2 ⊢
    pstep; pstep; pstep; pstep; pstep; pstep; pstep
    refine stepped (by assumption) (by simp) fun evs he => ?_
    obtain ⟨c, e, r, er, ns1, hd, hk, rfl, rfl⟩ := he
    obtain ⟨closed, t, r, er, hdd, rfl, rfl⟩ := docs_of hk
    refine ⟨_, r, ?_, .directives rfl hds hv ?_ hd hdd⟩
    · simp
    · rcases hf with hf | hf
      · exact .inl hf
      · cases ds with
        | nil => exact .inr rfl
        | cons d ds =>
          have := hf d (by simp)
          rw [hds d (by simp)] at this
          cases this
  · exact post_throwAt

attribute [local irreducible] explicitDocumentStart

theorem documentStart_sound {b} (h : At (fun _ => none) s st stack toks ns)
    (hb : b = true ∨ toks.head? ≠ some .documentEnd ∧ ∀ d, toks.head? = some d → isDirectiveTok d = false) :
    post (documentStart b) (fun r s' => r.1 = .streamEnd ∧ RDocs b ns toks [.streamEnd] ∨ Stepped (RDocs b) ns toks r s') s := by
  unfold documentStart
  pstep; apply post_gets; pstep
  refine post_mono (skipDocumentEnds_sound h) fun _ s1 h1 => ?_
  obtain ⟨n, X, rfl, h1, hX⟩ := h1
  have lift : ∀ {evs}, RDocs b ns X evs → RDocs b ns (List.replicate n .documentEnd ++ X) evs := by
    intro evs hr
    cases b with
    | true => exact docs_strays hr
    | false =>
      cases n with
      | zero => simpa using hr
      | succ n => simp [List.replicate_succ] at hb
  have hX' : b = true ∨ ∀ d, X.head? = some d → isDirectiveTok d = false := by
    rcases hb with hb | hb
    · exact .inl hb
    · cases n with
      | zero => exact .inr (by simpa using hb.2)
      | succ n => simp [List.replicate_succ] at hb
  clear hb h
  pstep; pstep
  rename_i t X s2 ht h2
  have ex : ∀ {s}, At (fun _ => none) s st stack (t.tt :: X) ns → post explicitDocumentStart
      (fun r s' => r.1 = .streamEnd ∧ RDocs b ns (List.replicate n .documentEnd ++ t.tt :: X) [.streamEnd] ∨
        Stepped (RDocs b) ns (List.replicate n .documentEnd ++ t.tt :: X) r s') s :=
    fun h => post_mono (explicitDocumentStart_sound h hX') fun _ _ hab => .inr (hab.mono fun evs he => lift he)
  split
  · rename_i htt
    rw [htt] at h2 lift ⊢
    pstep; pstep; pstep; pstep; pstep
    exact .inl ⟨rfl, lift ⟨[.streamEnd], _, rfl, .stop⟩⟩
  · exact ex h2
  · exact ex h2
  · exact ex h2
  · rename_i h3 h4 h5 h6
    refine post_ite (fun hb => ?_) (fun _ => ex h2)
    subst hb
    pstep
    refine post_mono (directives_sound h2) fun _ s3 h3' => ?_
    obtain ⟨ds, Y, hY, hds, -, h7, -⟩ := h3'
    have : ds = [] := by
      cases ds with
      | nil => rfl
      | cons d ds =>
        simp only [List.cons_append, List.cons.injEq] at hY
        have hd := hds d (by simp)
        rw [← hY.1] at hd
        cases h : t.tt <;> first
          | exact absurd h (h4 _ _)
          | exact absurd h (h5 _ _)
          | (rw [h] at hd; cases hd)
    subst this
    simp only [if_true, List.nil_append] at h7 hY
    subst hY
    pstep; pstep; pstep; pstep; pstep
    refine .inr (stepped (by assumption) (by simp) fun evs he => ?_)
    obtain ⟨c, e, r, er, ns1, hd, hk, hx, rfl⟩ := he
    obtain ⟨closed, t', r, er, hdd, rfl, rfl⟩ := docs_of hk
    refine lift ⟨_, r, ?_, .implicit hd hdd⟩
    rw [hx]
    simp

theorem documentContent_sound (h : At lk s st stack toks ns) :
    post documentContent (Stepped (Der lk (.node? .block) (Rst lk stack)) ns toks) s := by
  unfold documentContent
  pstep; pstep
  rename_i t X s2 ht h2
  have empty : post (do
      popState
      pure (Event.emptyScalar, t.span)) (Stepped (Der lk (.node? .block) (Rst lk stack)) ns (t.tt :: X)) s2 := by
    pstep
    refine post_pop h2 rfl fun a b s3 hab h3 _ => ?_
    subst hab
    pstep
    exact stepped h3 (by simp [Event.emptyScalar]) fun evs he => Der.absent he
  dsimp only
  split
  · exact empty
  · exact empty
  · exact empty
  · exact empty
  · exact empty
  · exact post_mono (node_sound (p := .block) h2) fun _ _ hab => hab.mono fun evs he => he.present

theorem documentEnd_sound (h : At lk s st stack toks ns) :
    post documentEnd (Stepped (Rs lk (Rst lk stack) .documentEnd) ns toks) s := by
  unfold documentEnd
  pstep; pstep
  rename_i t X s2 ht h2
  by_cases htt : t.tt = .documentEnd
  · rw [htt] at h2 ⊢
    simp only [beq_self_eq_true, if_true]
    pstep; pstep; pstep
    rename_i s3 h3
    refine post_setTags (lk' := fun _ => none) h3 rfl (fun k => ?_) fun s4 h4 _ => ?_
    · simp [h3.keep, mapGet]
    pstep; pstep; pstep
    refine stepped (by assumption) (by simp) fun evs he => ?_
    exact ⟨_, rfl, .inl ⟨_, rfl, he fun _ => rfl⟩⟩
  · have hb : (t.tt == TokenType.documentEnd) = false := by simpa using htt
    simp only [hb, Bool.false_eq_true, if_false]
    pstep
    refine post_setTags (lk' := fun _ => none) h2 ht (fun k => ?_) fun s4 h4 _ => ?_
    · simp [h2.keep, mapGet]
    pstep; pstep
    split
    · exact post_throwAt
    · exact post_throwAt
    · rename_i h5 h6
      pstep; pstep; pstep
      refine stepped (by assumption) (by simp) fun evs he => ?_
      refine ⟨_, rfl, .inr (he (fun _ => rfl) (by simpa using htt) ?_)⟩
      intro d hd
      simp at hd
      subst hd
      cases h : t.tt <;> first | rfl | exact absurd h (h5 _ _) | exact absurd h (h6 _ _)

theorem streamStart_sound (h : At lk s st stack toks ns) (hlk : ∀ h, lk h = none) :
    post streamStart (Stepped (Tok .streamStart (Ev .streamStart (RDocs true))) ns toks) s := by
  unfold streamStart
  pstep; pstep
  rename_i t X s2 ht h2
  split
  · rename_i htt
    rw [htt] at h2 ⊢
    pstep; pstep; pstep; pstep; pstep
    refine stepped (by assumption) (by simp) fun evs he => ?_
    exact ⟨_, rfl, _, rfl, he hlk⟩
  · exact post_throwAt

/-! ### All states -/

/-- what a state relies on (nothing reaches the last three) -/
def Pre (lk : List Byte → Option (List Byte)) (toks : List TokenType) : PState → Prop
  | .streamStart => ∀ h, lk h = none
  | .implicitDocumentStart => ∀ h, lk h = none
  | .documentStart => (∀ h, lk h = none) ∧ toks.head? ≠ some .documentEnd ∧ ∀ d, toks.head? = some d → isDirectiveTok d = false
  | .endState => False
  | .flowMappingFirstKeyCont => False
  | .blockMappingValueCont => False
  | _ => True

theorem rs_of_not_pre (h : ¬ Pre lk toks st) : Rs lk K st ns toks evs := by
  cases st <;> simp only [Pre, not_true] at h <;> simp only [Rs] <;> intros <;> simp_all

theorem dispatch_sound (h : At lk s st stack toks ns) (hp : Pre lk toks st) :
    post (dispatch st) (fun r s' => r.1 = .streamEnd ∧ Rs lk (Rst lk stack) st ns toks [.streamEnd] ∨
      Stepped (Rs lk (Rst lk stack) st) ns toks r s') s := by
  have free : ∀ {J : Cont} {m}, post m (Stepped J ns toks) s →
      post m (fun r s' => r.1 = .streamEnd ∧ J ns toks [.streamEnd] ∨ Stepped J ns toks r s') s :=
    fun h => post_mono h fun _ _ h => .inr h
  cases st <;> simp only [Pre] at hp <;> simp only [dispatch, Rs]
  case streamStart =>
    exact post_mono (streamStart_sound h hp) fun _ _ hab => .inr (hab.mono fun evs he _ => he)
  case implicitDocumentStart =>
    obtain rfl : lk = fun _ => none := funext hp
    refine post_mono (documentStart_sound h (.inl rfl)) fun _ _ hab => ?_
    rcases hab with ⟨h1, h2⟩ | hab
    · exact .inl ⟨h1, fun _ => h2⟩
    · exact .inr (hab.mono fun evs he _ => he)
  case documentStart =>
    obtain rfl : lk = fun _ => none := funext hp.1
    refine post_mono (documentStart_sound h (.inr hp.2)) fun _ _ hab => ?_
    rcases hab with ⟨h1, h2⟩ | hab
    · exact .inl ⟨h1, fun _ _ _ => h2⟩
    · exact .inr (hab.mono fun evs he _ _ _ => he)
  case documentContent =>
    exact free (documentContent_sound h)
  case documentEnd => exact free (documentEnd_sound h)
  case blockNode => exact free (node_sound (p := .block) h)
  case blockSequenceFirstEntry => exact free (blockSequenceFirst_sound h)
  case blockSequenceEntry => exact free (blockSequenceEntry_sound h)
  case indentlessSequenceEntry => exact free (indentlessSequenceEntry_sound h)
  case blockMappingFirstKey => exact free (blockMappingFirst_sound h)
  case blockMappingKey => exact free (blockMappingKey_sound h)
  case blockMappingValue => exact free (blockMappingValue_sound h)
  case flowSequenceFirstEntry => exact free (flowSequenceFirst_sound h)
  case flowSequenceEntry => exact free (flowSequenceEntry_sound h)
  case flowSequenceEntryMappingKey => exact free (flowPairKey_sound h)
  case flowSequenceEntryMappingValue => exact free (flowPairValue_sound h)
  case flowSequenceEntryMappingEnd => exact free (flowPairEnd_sound h)
  case flowMappingFirstKey => exact free (flowMappingFirst_sound h)
  case flowMappingKey => exact free (flowMappingKey_sound h)
  case flowMappingValue => exact free (flowMappingValue_sound h)
  case flowMappingEmptyValue => exact free (flowMappingEmpty_sound h)

unseal post in
theorem pull_sound : ∀ {n s lk st stack toks ns evs}, At lk s st stack toks ns → pullAll n s = (evs, .ended) →
    Rs lk (Rst lk stack) st ns toks (evs.map (·.1)) := by
  intro n
  induction n with
  | zero => intro s lk st stack toks ns evs _ h; simp [pullAll] at h
  | succ n ih =>
    intro s lk st stack toks ns evs h hp
    by_cases hpre : Pre lk toks st
    · have hne : st ≠ .endState := by
        rintro rfl
        exact hpre
      have hst : nextEvent s = match dispatch st s with
          | (.ok (ev, sp), s') => (.ok (some (ev, sp)), if ev = .streamEnd then { s' with streamEndEmitted := true } else s')
          | (.err e, s') => (.err e, s')
          | (.panic, s') => (.panic, s')
          | (.hang, s') => (.hang, s') := by
        simp [nextEvent, h.live, nextEventImpl, h.current, parse, hne, stateMachine, h.state]
        rcases dispatch st s with ⟨_ | _ | _ | _, _⟩ <;> rfl
      simp only [pullAll, hst] at hp
      rcases hd : dispatch st s with ⟨r, s'⟩
      rw [hd] at hp
      cases r with
      | ok r =>
        obtain ⟨ev, sp⟩ := r
        simp only [Prod.mk.injEq] at hp
        obtain ⟨h1, h2⟩ := hp
        rcases dispatch_sound h hpre _ _ hd with ⟨he, hr⟩ | ⟨lk', st', stack', toks', ns', hat, hne', hr⟩
        · simp only at he
          subst he
          simp only [if_true] at h1 h2
          have : (pullAll n { s' with streamEndEmitted := true }).1 = [] := by
            cases n with
            | zero => rfl
            | succ n => simp [pullAll, nextEvent]
          rw [this] at h1
          subst h1
          exact hr
        · simp only at hne'
          rw [if_neg hne'] at h1 h2
          subst h1
          exact hr _ (ih hat (Prod.ext rfl h2))
      | _ => simp at hp
    · exact rs_of_not_pre hpre

end Verif.Parser
