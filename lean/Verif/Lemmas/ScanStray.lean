import Verif.Lemmas.ScanHead
/-!
# The first token of the queue

When the queue of the scanner is empty and neither a directive nor `---` follows, then the next token is neither of these, whatever is inserted before it.
-/
namespace Verif.Scanner
open Verif Verif.CharUtils Verif.Source Verif.Spec
open Verif.Parser (Stray)

/-- the first token, if there is one, is stray; with `z` there is one -/
def Front (z : Bool) (s : SSt) : Prop := (∀ x, s.tokens.head? = some x → Stray x.tt) ∧ (z = true → s.tokens ≠ [])

/-- if `m` succeeds, it takes `Front z` to `Front z'` -/
def Mn (z z' : Bool) {α} (m : SM α) : Prop := ∀ s a s', Front z s → m s = (.ok a, s') → Front z' s'

variable {z z' : Bool}

theorem stray_seq : Stray .blockSequenceStart := ⟨by simp, rfl⟩
theorem stray_map : Stray .blockMappingStart := ⟨by simp, rfl⟩
theorem stray_key : Stray .key := ⟨by simp, rfl⟩
theorem stray_flowMap : Stray .flowMappingStart := ⟨by simp, rfl⟩
theorem stray_flowSeq : Stray .flowSequenceStart := ⟨by simp, rfl⟩
theorem stray_flowMapEnd : Stray .flowMappingEnd := ⟨by simp, rfl⟩
theorem stray_flowSeqEnd : Stray .flowSequenceEnd := ⟨by simp, rfl⟩
theorem stray_docEnd : Stray .documentEnd := ⟨by simp, rfl⟩

theorem mn_pure {α} {a : α} : Mn z z (pure a) := fun s _ s' h e => by
  simp only [Pure.pure, Prod.mk.injEq] at e
  rw [← e.2]
  exact h

theorem mn_bind' {z1} {α β} {m : SM α} {f : α → SM β} (hm : Mn z z1 m) (hf : ∀ a, Mn z1 z' (f a)) : Mn z z' (m >>= f) := by
  intro s b s' h e
  obtain ⟨a, s1, h1, h2⟩ := bind_ok e
  exact hf a _ _ _ (hm _ _ _ h h1) h2

theorem mn_bind {α β} {m : SM α} {f : α → SM β} (hm : Mn z z m) (hf : ∀ a, Mn z z' (f a)) : Mn z z' (m >>= f) := mn_bind' hm hf

theorem mn_fail {α m msg} : Mn z z' (fail m msg : SM α) := fun _ _ _ _ e => by cases e
theorem mn_panic {α} : Mn z z' (panic : SM α) := fun _ _ _ _ e => by cases e
theorem mn_hang {α} : Mn z z' (hang : SM α) := fun _ _ _ _ e => by cases e

theorem mn_keep {α} {m : SM α} (h : ∀ s, (m s).2.tokens = s.tokens) : Mn z z m := fun s a s' hs e => by
  have := h s
  rw [e] at this
  unfold Front
  rw [this]
  exact hs

theorem mn_gets {α} {f : SSt → α} : Mn z z (gets f) := mn_keep fun _ => rfl
theorem mn_upd {f : SSt → SSt} (h : ∀ s, (f s).tokens = s.tokens) : Mn z z (upd f) := mn_keep h

theorem mn_ite {α} {c : Prop} [Decidable c] {m n : SM α} (hm : Mn z z' m) (hn : Mn z z' n) : Mn z z' (if c then m else n) := by
  split
  · exact hm
  · exact hn

theorem mn_failIf {c m msg} : Mn z z (failIf c m msg) := by unfold failIf; exact mn_ite mn_fail mn_pure
theorem mn_when {c m} (h : Mn z z m) : Mn z z (when c m) := by unfold when; exact mn_ite h mn_pure

theorem mn_loop {σ α} {body : σ → SM (Loop σ α)} (h : ∀ x, Mn z z (body x)) : ∀ n x, Mn z z (loopM body n x)
  | 0, _ => by rw [loopM]; exact mn_hang
  | n + 1, x => by
    rw [loopM]
    refine mn_bind (h x) fun r => ?_
    cases r with
    | next y => exact mn_loop h n y
    | done a => exact mn_pure

theorem front_append {s : SSt} {l : List Token} {z'} (h : Front z s) (hl : ∀ x ∈ l, Stray x.tt) (hz : z' = true → z = true ∨ l ≠ []) : Front z' { s with tokens := s.tokens ++ l } := by
  obtain ⟨h1, h2⟩ := h
  refine ⟨fun x hx => ?_, fun h => ?_⟩
  · cases ht : s.tokens with
    | nil =>
      simp only [ht, List.nil_append] at hx
      exact hl x (List.mem_of_mem_head? hx)
    | cons y ys =>
      simp only [ht, List.cons_append, List.head?_cons, Option.some.injEq] at hx
      subst hx
      exact h1 y (by rw [ht]; rfl)
  · rcases hz h with h | h
    · have := h2 h
      simp [this]
    · simp [h]

theorem mn_push {sp tt} (h : Stray tt) : Mn z z' (push sp tt) := fun s _ s' hs e => by
  simp only [push, upd, Prod.mk.injEq] at e
  rw [← e.2]
  exact front_append hs (by simpa using h) (fun _ => .inr (by simp))

theorem mn_push_any {sp tt} : Mn true z' (push sp tt) := fun s _ s' hs e => by
  simp only [push, upd, Prod.mk.injEq] at e
  rw [← e.2]
  obtain ⟨h1, h2⟩ := hs
  have h2 := h2 rfl
  refine ⟨fun x hx => ?_, fun _ => by simp⟩
  cases ht : s.tokens with
  | nil => exact absurd ht h2
  | cons y ys =>
    simp only [ht, List.cons_append, List.head?_cons, Option.some.injEq] at hx
    subst hx
    exact h1 y (by rw [ht]; rfl)

theorem mn_insertToken {n sp tt} (h : Stray tt) : Mn z z' (insertToken n sp tt) := fun s _ s' hs e => by
  unfold insertToken at e
  split at e
  · cases e
  · simp only [Prod.mk.injEq] at e
    rw [← e.2]
    obtain ⟨h1, h2⟩ := hs
    refine ⟨fun x hx => ?_, fun _ => by simp⟩
    cases ht : s.tokens.take (n - s.tokensParsed) with
    | nil =>
      simp only [ht, List.nil_append, List.head?_cons, Option.some.injEq] at hx
      subst hx
      exact h
    | cons y ys =>
      simp only [ht, List.cons_append, List.head?_cons, Option.some.injEq] at hx
      subst hx
      refine h1 y ?_
      have := congrArg List.head? ht
      rw [List.head?_take] at this
      split at this
      · cases this
      · exact this

theorem mn_peekz {n} : Mn z z (peekz n) := mn_gets
theorem mn_atEof : Mn z z atEof := mn_gets
theorem mn_getMark : Mn z z getMark := mn_gets
theorem mn_setAllowed {b} : Mn z z (setAllowed b) := mn_upd fun _ => rfl
theorem mn_skipN {n} : Mn z z (skipN n) := mn_upd fun _ => rfl
theorem mn_skipNonBlank : Mn z z skipNonBlank := mn_upd fun _ => rfl
theorem mn_skipBlank : Mn z z skipBlank := mn_upd fun _ => rfl
theorem mn_skipCounted {f} : Mn z z (skipCounted f) := mn_upd fun _ => rfl
theorem mn_skipLinebreak : Mn z z skipLinebreak := mn_upd fun s => by
  split
  · rfl
  · split <;> rfl
theorem mn_skipWsToEol {a b} : Mn z z (skipWsToEol a b) := mn_keep fun s => by
  unfold skipWsToEol
  dsimp only
  split <;> rfl
theorem mn_fetchAlpha : Mn z z fetchAlpha := mn_keep fun _ => rfl
theorem mn_pushNonBreakz : Mn z z pushNonBreakz := mn_keep fun s => by
  unfold pushNonBreakz
  split <;> rfl

theorem mn_unrollIndent {c} : Mn z z (unrollIndent c) := fun s _ s' hs e => by
  unfold unrollIndent at e
  split at e
  · simp only [Prod.mk.injEq] at e
    rw [← e.2]
    exact hs
  · split at e
    · cases e
    · simp only [Prod.mk.injEq] at e
      rw [← e.2]
      exact front_append hs (fun x hx => by rw [List.eq_of_mem_replicate hx]; exact ⟨by simp, rfl⟩) .inl

theorem mn_decreaseFlowLevel : Mn z z decreaseFlowLevel := mn_keep fun s => by
  unfold decreaseFlowLevel
  split
  · split <;> rfl
  · rfl
theorem mn_staleSimpleKeys : Mn z z staleSimpleKeys := mn_keep fun s => by
  unfold staleSimpleKeys
  split <;> rfl
theorem mn_removeSimpleKey : Mn z z removeSimpleKey := mn_keep fun s => by
  unfold removeSimpleKey
  split
  · rfl
  · split <;> rfl
theorem mn_saveSimpleKey : Mn z z saveSimpleKey := mn_upd fun s => by split <;> rfl

/-- goals `Mn z z' m` by the form of `m` -/
macro "mn" "[" ls:term,* "]" : tactic => do
  let base ← `(tactic| first
    | with_reducible exact mn_pure
    | with_reducible exact mn_fail
    | with_reducible exact mn_panic
    | with_reducible exact mn_failIf
    | with_reducible exact mn_peekz
    | with_reducible exact mn_atEof
    | with_reducible exact mn_getMark
    | with_reducible exact mn_push_any
    | (with_reducible refine mn_push ?_); exact ⟨by simp, rfl⟩
    | with_reducible exact mn_setAllowed
    | with_reducible exact mn_skipN
    | with_reducible exact mn_skipNonBlank
    | with_reducible exact mn_skipBlank
    | with_reducible exact mn_skipCounted
    | with_reducible exact mn_skipLinebreak
    | with_reducible exact mn_skipWsToEol
    | with_reducible exact mn_fetchAlpha
    | with_reducible exact mn_pushNonBreakz
    | with_reducible exact mn_unrollIndent
    | with_reducible exact mn_decreaseFlowLevel
    | with_reducible exact mn_staleSimpleKeys
    | with_reducible exact mn_removeSimpleKey
    | with_reducible exact mn_saveSimpleKey
    | with_reducible exact mn_gets
    | with_reducible refine mn_when ?_
    | with_reducible refine mn_ite ?_ ?_
    | with_reducible refine mn_bind ?_ (fun _ => ?_)
    | with_reducible refine mn_upd (fun _ => rfl)
    | with_reducible refine mn_loop (fun _ => ?_) _ _
    | dsimp only
    | split)
  let alts := ls.getElems
  let mut t := base
  for l in alts do
    t ← `(tactic| first | with_reducible exact $l | $t:tactic)
  `(tactic| repeat' $t:tactic)

theorem mn_skipToNextToken {cfg} : Mn z z (skipToNextToken cfg) := by
  unfold skipToNextToken skipToNextTokenBody; mn []

theorem mn_skipYamlWhitespace {cfg} : Mn z z (skipYamlWhitespace cfg) := by
  unfold skipYamlWhitespace skipYamlWhitespaceBody; mn []

theorem mn_readBreak {l} : Mn z z (readBreak l) := by unfold readBreak; mn []

theorem mn_dropNonBlock {c} : Mn z z (dropNonBlock c) := mn_upd fun s => by
  split
  · split <;> rfl
  · rfl

theorem mn_pushBlock {c n tt m} (h : Stray tt) : Mn z z (pushBlock c n tt m) := by
  unfold pushBlock
  refine mn_bind mn_gets fun i => mn_ite (mn_bind (mn_upd fun _ => rfl) fun _ => ?_) mn_pure
  cases n with
  | none => exact mn_push h
  | some x => exact mn_insertToken h

theorem mn_rollIndent {c n tt m} (h : Stray tt) : Mn z z (rollIndent c n tt m) := by
  unfold rollIndent; mn [mn_dropNonBlock, mn_pushBlock h]

theorem mn_rollOneColIndent : Mn z z rollOneColIndent := mn_upd fun s => by
  split
  · split <;> rfl
  · rfl

theorem mn_unrollNonBlockIndents : Mn z z unrollNonBlockIndents := mn_upd fun _ => rfl
theorem mn_increaseFlowLevel : Mn z z increaseFlowLevel := mn_upd fun _ => rfl

theorem mn_plainRun {x} : Mn z z (plainRunBody x) := by unfold plainRunBody; mn []
theorem mn_plainContent {cfg x} : Mn z z (plainContent cfg x) := by unfold plainContent; mn [mn_plainRun]
theorem mn_plainBlank {a b x} : Mn z z (plainBlankBody a b x) := by unfold plainBlankBody; mn []
theorem mn_plainAfter {cfg a b x} : Mn z z (plainAfter cfg a b x) := by unfold plainAfter; mn [mn_plainBlank]
theorem mn_plainBody {cfg a b x} : Mn z z (plainBody cfg a b x) := by unfold plainBody; mn [mn_plainContent, mn_plainAfter]
theorem mn_scanPlainScalar {cfg} : Mn z z (scanPlainScalar cfg) := by
  unfold scanPlainScalar; mn [mn_plainBody, mn_unrollNonBlockIndents]

theorem mn_hexEscape {a b} : Mn z z (hexEscape a b) := by unfold hexEscape; mn []
theorem mn_resolveEscape {a} : Mn z z (resolveEscape a) := by unfold resolveEscape; mn [mn_hexEscape]
theorem mn_flowChars {a b x} : Mn z z (flowCharsBody a b x) := by unfold flowCharsBody; mn [mn_resolveEscape]
theorem mn_flowBlank {x} : Mn z z (flowBlankBody x) := by unfold flowBlankBody; mn [mn_readBreak]
theorem mn_flowBody {cfg a b x} : Mn z z (flowBody cfg a b x) := by unfold flowBody; mn [mn_flowChars, mn_flowBlank]
theorem mn_scanFlowScalar {cfg a} : Mn z z (scanFlowScalar cfg a) := by unfold scanFlowScalar; mn [mn_flowBody]

theorem mn_blockChomp : Mn z z blockChomp := by unfold blockChomp; mn []
theorem mn_blockIncrement {m} : Mn z z (blockIncrement m) := by unfold blockIncrement; mn []
theorem mn_blockHeader {m} : Mn z z (blockHeader m) := by unfold blockHeader; mn [mn_blockChomp, mn_blockIncrement]
theorem mn_spaces {x} : Mn z z (spacesBody x) := by unfold spacesBody; mn []
theorem mn_firstLine {cfg x} : Mn z z (firstLineBody cfg x) := by unfold firstLineBody; mn [mn_spaces, mn_readBreak]
theorem mn_skipFirstLine {cfg x} : Mn z z (skipFirstLineIndent cfg x) := by unfold skipFirstLineIndent; mn [mn_firstLine]
theorem mn_indentSpaces {i x} : Mn z z (indentSpacesBody i x) := by unfold indentSpacesBody; mn []
theorem mn_deepIndent {cfg i x} : Mn z z (deepIndentBody cfg i x) := by unfold deepIndentBody; mn [mn_indentSpaces]
theorem mn_blockIndentSpaces {cfg i} : Mn z z (blockIndentSpaces cfg i) := by unfold blockIndentSpaces; mn [mn_indentSpaces, mn_deepIndent]
theorem mn_blockIndent {cfg i x} : Mn z z (blockIndentBody cfg i x) := by unfold blockIndentBody; mn [mn_blockIndentSpaces, mn_readBreak]
theorem mn_skipBlockIndent {cfg i x} : Mn z z (skipBlockIndent cfg i x) := by unfold skipBlockIndent; mn [mn_blockIndent]
theorem mn_content {x} : Mn z z (contentBody x) := by unfold contentBody; mn []
theorem mn_contentLine {cfg x} : Mn z z (contentLine cfg x) := by unfold contentLine; mn [mn_content]
theorem mn_blockBody {cfg l i x} : Mn z z (blockBody cfg l i x) := by
  unfold blockBody; mn [mn_contentLine, mn_readBreak, mn_skipBlockIndent]
theorem mn_blockContent {cfg l c i x} : Mn z z' (blockContent cfg l c i x) := by unfold blockContent; mn [mn_blockBody]
theorem mn_blockFindIndent {cfg i} : Mn z z (blockFindIndent cfg i) := by
  unfold blockFindIndent; mn [mn_skipFirstLine, mn_skipBlockIndent]
theorem mn_blockHeaderBreak : Mn z z blockHeaderBreak := by unfold blockHeaderBreak; mn [mn_readBreak]
theorem mn_scanBlockScalar {cfg l} : Mn z z' (scanBlockScalar cfg l) := by
  unfold scanBlockScalar
  mn [mn_blockHeader, mn_blockHeaderBreak, mn_blockFindIndent, mn_blockContent, mn_unrollNonBlockIndents]

theorem mn_anchorBody {x} : Mn z z (anchorBody x) := by unfold anchorBody; mn []
theorem mn_scanAnchor {cfg a} : Mn z z (scanAnchor cfg a) := by unfold scanAnchor; mn [mn_anchorBody]
theorem mn_uriStep {a b} : Mn z z (uriStep a b) := by unfold uriStep; mn []
theorem mn_uriBody {m x} : Mn z z (uriBody m x) := by unfold uriBody; mn [mn_uriStep]
theorem mn_uriEscapes {cfg m} : Mn z z (scanUriEscapes cfg m) := by unfold scanUriEscapes; mn [mn_uriBody]
theorem mn_uriScans {cfg x m} : Mn z z (uriScansOrNonBlank cfg x m) := by unfold uriScansOrNonBlank; mn [mn_uriEscapes]
theorem mn_uriChars {cfg m x} : Mn z z (uriCharsBody cfg m x) := by unfold uriCharsBody; mn [mn_uriScans]
theorem mn_verbatim {cfg m} : Mn z z (scanVerbatimTag cfg m) := by unfold scanVerbatimTag; mn [mn_uriChars]
theorem mn_tagHandle {a m} : Mn z z (scanTagHandle a m) := by unfold scanTagHandle; mn []
theorem mn_suffix {cfg m x} : Mn z z (suffixBody cfg m x) := by unfold suffixBody; mn [mn_uriEscapes]
theorem mn_tagSuffix {cfg h m} : Mn z z (scanTagSuffix cfg h m) := by unfold scanTagSuffix; mn [mn_suffix]
theorem mn_tagParts {cfg m} : Mn z z (scanTagParts cfg m) := by unfold scanTagParts; mn [mn_verbatim, mn_tagHandle, mn_tagSuffix]
theorem mn_scanTag {cfg} : Mn z z (scanTag cfg) := by unfold scanTag; mn [mn_tagParts]
theorem mn_directiveName : Mn z z scanDirectiveName := by unfold scanDirectiveName; mn []
theorem mn_version {cfg m x} : Mn z z (versionBody cfg m x) := by unfold versionBody; mn []
theorem mn_versionNumber {cfg m} : Mn z z (scanVersionNumber cfg m) := by unfold scanVersionNumber; mn [mn_version]
theorem mn_versionDirective {cfg m} : Mn z z (scanVersionDirective cfg m) := by unfold scanVersionDirective; mn [mn_versionNumber]
theorem mn_prefixStart {cfg m} : Mn z z (scanPrefixStart cfg m) := by unfold scanPrefixStart; mn [mn_uriScans]
theorem mn_tagPrefix {cfg m} : Mn z z (scanTagPrefix cfg m) := by unfold scanTagPrefix; mn [mn_prefixStart, mn_uriChars]
theorem mn_tagDirective {cfg m} : Mn z z (scanTagDirective cfg m) := by unfold scanTagDirective; mn [mn_tagHandle, mn_tagPrefix]
theorem mn_otherDirective {m} : Mn z z (scanOtherDirective m) := by unfold scanOtherDirective; mn []
theorem mn_directive {cfg} : Mn z z (scanDirective cfg) := by
  unfold scanDirective; mn [mn_directiveName, mn_versionDirective, mn_tagDirective, mn_otherDirective]

/-! ## What is returned -/

/-- what `m` returns is so -/
def Ret {α} (m : SM α) (P : α → Prop) : Prop := ∀ s a s', m s = (.ok a, s') → P a

theorem ret_pure {α} {a : α} {P : α → Prop} (h : P a) : Ret (pure a) P := fun s _ s' e => by
  simp only [Pure.pure, Prod.mk.injEq, Res.ok.injEq] at e
  rw [← e.1]
  exact h

theorem ret_bind {α β} {m : SM α} {f : α → SM β} {P : β → Prop} (hf : ∀ a, Ret (f a) P) : Ret (m >>= f) P := fun s b s' e => by
  obtain ⟨a, s1, -, h2⟩ := bind_ok e
  exact hf a _ _ _ h2

theorem mn_bindR {α β} {m : SM α} {f : α → SM β} {P : α → Prop} (hm : Mn z z m) (hr : Ret m P) (hf : ∀ a, P a → Mn z z' (f a)) : Mn z z' (m >>= f) := by
  intro s b s' h e
  obtain ⟨a, s1, h1, h2⟩ := bind_ok e
  exact hf a (hr _ _ _ h1) _ _ _ (hm _ _ _ h h1) h2

theorem stray_scalar {st v} : Stray (.scalar st v) := ⟨by simp, rfl⟩

theorem ret_plain {cfg} : Ret (scanPlainScalar cfg) fun t => Stray t.tt := by
  unfold scanPlainScalar
  repeat refine ret_bind fun _ => ?_
  exact ret_pure stray_scalar

theorem ret_flow {cfg l} : Ret (scanFlowScalar cfg l) fun t => Stray t.tt := by
  unfold scanFlowScalar
  repeat refine ret_bind fun _ => ?_
  exact ret_pure stray_scalar

theorem ret_anchor {cfg a} : Ret (scanAnchor cfg a) fun t => Stray t.tt := by
  unfold scanAnchor
  repeat refine ret_bind fun _ => ?_
  refine ret_pure ?_
  cases a <;> exact ⟨by simp, rfl⟩

theorem ret_tag {cfg} : Ret (scanTag cfg) fun t => Stray t.tt := by
  unfold scanTag
  repeat refine ret_bind fun _ => ?_
  exact ret_pure ⟨by simp, rfl⟩

/-! ## The next token -/

theorem mn_pushTok {t} (h : Stray t.tt) : Mn z z' (pushTok t) := mn_push h

theorem mn_fetchStreamEnd : Mn z z' fetchStreamEnd := by
  unfold fetchStreamEnd
  refine mn_bind (mn_upd fun s => by split <;> rfl) fun _ => mn_bind mn_getMark fun _ => mn_bind mn_gets fun _ => mn_bind mn_failIf fun _ => ?_
  mn []

theorem mn_docIndicator {tt} (h : Stray tt) : Mn z z' (fetchDocumentIndicator tt) := by unfold fetchDocumentIndicator; mn [mn_push h]
theorem mn_docIndicator_any {tt} : Mn true true (fetchDocumentIndicator tt) := by unfold fetchDocumentIndicator; mn []
theorem mn_finishDocument : Mn z true finishDocument := by
  unfold finishDocument
  refine mn_bind' (z1 := true) (mn_docIndicator stray_docEnd) fun _ => ?_
  mn []

theorem mn_noteFlowStart {tt} : Mn z z (noteFlowStart tt) := by unfold noteFlowStart; mn []
theorem mn_fetchFlowStart {tt} (h : Stray tt) : Mn z z' (fetchFlowStart tt) := by
  unfold fetchFlowStart; mn [mn_rollOneColIndent, mn_increaseFlowLevel, mn_noteFlowStart, mn_push h]

theorem mn_endImplicit {m} : Mn z z (endImplicitMapping m) := fun s _ s' hs e => by
  simp only [endImplicitMapping, upd, Prod.mk.injEq] at e
  rw [← e.2]
  split
  · exact front_append (s := { s with flowMappingStarted := false, implicitFlowMappingStates := _ }) hs (by simpa using ⟨by simp, rfl⟩) .inl
  · exact hs

theorem mn_fetchFlowEnd {tt} (h : Stray tt) : Mn z z' (fetchFlowEnd tt) := by
  unfold fetchFlowEnd
  mn [mn_endImplicit, mn_push h, mn_upd fun s => by split <;> rfl]

theorem mn_fetchPlain {cfg} : Mn z z' (fetchPlainScalar cfg) := by
  unfold fetchPlainScalar
  exact mn_bind mn_saveSimpleKey fun _ => mn_bind mn_setAllowed fun _ => mn_bindR mn_scanPlainScalar ret_plain fun _ h => mn_pushTok h
theorem mn_fetchFlowEntry : Mn z z' fetchFlowEntry := by unfold fetchFlowEntry; mn [mn_endImplicit]
theorem mn_fetchBlockEntry : Mn z z' fetchBlockEntry := by
  unfold fetchBlockEntry; mn [mn_rollIndent stray_seq, mn_rollOneColIndent]
theorem mn_fetchKeyStart {m} : Mn z z (fetchKeyStart m) := by unfold fetchKeyStart; mn [mn_rollIndent stray_map]
theorem mn_fetchKey {cfg} : Mn z z' (fetchKey cfg) := by unfold fetchKey; mn [mn_fetchKeyStart, mn_skipYamlWhitespace]
theorem mn_skipColon : Mn z z skipColon := by unfold skipColon; mn []
theorem mn_afterSimple {sk st im} : Mn z z (valueAfterSimpleKey sk st im) := by
  unfold valueAfterSimpleKey; mn [mn_insertToken stray_key, mn_insertToken stray_flowMap, mn_rollIndent stray_map, mn_rollOneColIndent]
theorem mn_afterComplex {st im} : Mn z z (valueAfterComplexKey st im) := by
  unfold valueAfterComplexKey; mn [mn_rollIndent stray_map, mn_rollOneColIndent]
theorem mn_afterKey {sk st im} : Mn z z (valueAfterKey sk st im) := by
  unfold valueAfterKey; mn [mn_afterSimple, mn_afterComplex]
theorem mn_fetchValue : Mn z z' fetchValue := by unfold fetchValue; mn [mn_skipColon, mn_afterKey]
theorem mn_fetchFlowValue : Mn z z' fetchFlowValue := by unfold fetchFlowValue; mn [mn_fetchValue]
theorem mn_fetchAnchor {cfg a} : Mn z z' (fetchAnchor cfg a) := by
  unfold fetchAnchor
  exact mn_bind mn_saveSimpleKey fun _ => mn_bind mn_setAllowed fun _ => mn_bindR mn_scanAnchor ret_anchor fun _ h => mn_pushTok h
theorem mn_fetchTag {cfg} : Mn z z' (fetchTag cfg) := by
  unfold fetchTag
  exact mn_bind mn_saveSimpleKey fun _ => mn_bind mn_setAllowed fun _ => mn_bindR mn_scanTag ret_tag fun _ h => mn_pushTok h
theorem mn_fetchBlockScalar {cfg l} : Mn z z' (fetchBlockScalar cfg l) := by unfold fetchBlockScalar; mn [mn_scanBlockScalar]
theorem mn_fetchFlowScalar {cfg l} : Mn z z' (fetchFlowScalar cfg l) := by
  unfold fetchFlowScalar
  exact mn_bind mn_saveSimpleKey fun _ => mn_bind mn_setAllowed fun _ => mn_bindR mn_scanFlowScalar ret_flow fun _ h => mn_bind mn_skipToNextToken fun _ =>
    mn_bind (mn_upd fun _ => rfl) fun _ => mn_pushTok h
theorem mn_unexpectedChar : Mn z z' unexpectedChar := by unfold unexpectedChar; mn []
theorem mn_fetchDirective {cfg} : Mn true true (fetchDirective cfg) := by unfold fetchDirective pushTok; mn [mn_directive]

theorem mn_fetchMain {cfg} : Mn z z' (fetchMain cfg) := by
  unfold fetchMain
  mn [mn_fetchFlowStart stray_flowSeq, mn_fetchFlowStart stray_flowMap, mn_fetchFlowEnd stray_flowSeqEnd, mn_fetchFlowEnd stray_flowMapEnd, mn_fetchFlowEntry, mn_fetchBlockEntry, mn_fetchKey, mn_fetchValue, mn_fetchFlowValue,
    mn_fetchAnchor, mn_fetchTag, mn_fetchBlockScalar, mn_fetchFlowScalar, mn_fetchPlain, mn_unexpectedChar]

theorem mn_fetchAtToken {cfg} : Mn true true (fetchAtToken cfg) := by
  unfold fetchAtToken; mn [mn_fetchDirective, mn_docIndicator_any, mn_finishDocument, mn_fetchMain]

theorem mn_fetchStreamStart : Mn true true fetchStreamStart := fun s _ s' hs e => by
  simp only [fetchStreamStart, upd, Prod.mk.injEq] at e
  rw [← e.2]
  obtain ⟨h1, h2⟩ := hs
  have h2 := h2 rfl
  refine ⟨fun x hx => ?_, fun _ => by simp⟩
  cases ht : s.tokens with
  | nil => exact absurd ht h2
  | cons y ys =>
    simp only [ht, List.cons_append, List.head?_cons, Option.some.injEq] at hx
    subst hx
    exact h1 y (by rw [ht]; rfl)

theorem mn_fetchNextToken {cfg} : Mn true true (fetchNextToken cfg) := by
  unfold fetchNextToken; mn [mn_skipToNextToken, mn_fetchStreamEnd, mn_fetchAtToken, mn_fetchStreamStart]

theorem mn_fetchMoreBody {cfg x} : Mn true true (fetchMoreBody cfg x) := by
  unfold fetchMoreBody; mn [mn_fetchNextToken]

/-- the queue was empty: what is taken next is what the next fetch brings -/
theorem stray_next {cfg v s'} {x : Token} (hv : v.tokens = []) (h1 : ∀ v', fetchNextToken cfg v = (.ok (), v') → Front true v') (h : next cfg v = (.ok (some x), s')) : Stray x.tt := by
  unfold next at h
  split at h
  · cases h
  split at h
  · rename_i t s1 ht
    simp only [Prod.mk.injEq, Res.ok.injEq, Option.some.injEq] at h
    rw [← h.1]
    clear h
    unfold nextToken at ht
    rw [gets_bind] at ht
    split at ht
    · simp only [Pure.pure, Prod.mk.injEq, Res.ok.injEq] at ht
      rw [← ht.1]
      exact ⟨by simp, rfl⟩
    rw [gets_bind] at ht
    obtain ⟨_, s2, h2, h3⟩ := bind_ok ht
    have hf : Front false s2 := by
      unfold when at h2
      split at h2
      · unfold fetchMoreTokens at h2
        obtain ⟨_, s3, h4, h5⟩ := bind_ok h2
        simp only [upd, Prod.mk.injEq] at h5
        have h6 : Front true s3 := by
          cases hn : cfg.fuel with
          | zero => rw [hn, loopM] at h4; cases h4
          | succ m =>
            rw [hn, loopM] at h4
            obtain ⟨r, s4, h7, h8⟩ := bind_ok h4
            have h9 : Front true s4 := by
              unfold fetchMoreBody at h7
              rw [gets_bind, hv, List.isEmpty_nil, if_pos rfl] at h7
              obtain ⟨_, s5, h10, h11⟩ := bind_ok h7
              simp only [Pure.pure, Prod.mk.injEq] at h11
              rw [← h11.2]
              exact h1 _ h10
            cases r with
            | next y => exact mn_loop (fun _ => mn_fetchMoreBody) m y _ _ _ h9 h8
            | done a =>
              simp only [Pure.pure, Prod.mk.injEq] at h8
              rw [← h8.2]
              exact h9
        rw [← h5.2]
        exact ⟨h6.1, fun h => by cases h⟩
      · simp only [Pure.pure, Prod.mk.injEq] at h2
        rw [← h2.2]
        refine ⟨fun x hx => ?_, fun h => ?_⟩
        · rw [hv] at hx; cases hx
        · cases h
    unfold popToken at h3
    split at h3
    · cases h3
    · rename_i t' ts hts
      simp only [Prod.mk.injEq, Res.ok.injEq] at h3
      rw [← h3.1]
      exact hf.1 _ (by rw [hts]; rfl)
  all_goals cases h

theorem staled_keeps {s s' : SSt} (h : staleSimpleKeys s = (.ok (), s')) : s'.src = s.src ∧ s'.mark = s.mark := by
  unfold staleSimpleKeys at h
  split at h
  · cases h
  · simp only [Prod.mk.injEq] at h
    rw [← h.2]
    exact ⟨rfl, rfl⟩

theorem unrolled_keeps {c} {s s' : SSt} (h : unrollIndent c s = (.ok (), s')) : s'.src = s.src ∧ s'.mark = s.mark := by
  unfold unrollIndent at h
  split at h
  · simp only [Prod.mk.injEq] at h
    rw [← h.2]
    exact ⟨rfl, rfl⟩
  · split at h
    · cases h
    · simp only [Prod.mk.injEq] at h
      rw [← h.2]
      exact ⟨rfl, rfl⟩

/-- `q` begins neither with `%` nor with `---` -/
def NoStart (q : List Byte) : Prop := ∀ s : SSt, s.src.rest = q → s.src.peekz 0 ≠ 37 ∧ nextIsDocumentStart s = false

/-- what the next fetch brings -/
theorem first_stray {cfg e out q c al p pre} (h : Here cfg e out [] 0 q c al) (ho : EOk p pre e) (hl : e.tokens.length = p) (hq : c = 1 → NoStart q) {v'}
    (hx : fetchNextToken cfg (view p e) = (.ok (), v')) : Front true v' := by
  obtain ⟨s1, n, k, h1, hrest, hcol, -, -, -, -, -, -, hst⟩ := h
  obtain ⟨h2, -⟩ := (sim_skipToNextToken _ ho).1 _ _ h1
  have f0 : Front false (view p e) := by
    refine ⟨fun x hx => ?_, fun h => by cases h⟩
    simp only [view, ← hl, List.drop_length, List.head?_nil] at hx
    cases hx
  have f1 := mn_skipToNextToken _ _ _ f0 h2
  unfold fetchNextToken at hx
  rw [gets_bind, if_pos (by exact hst), bind_run h2] at hx
  obtain ⟨_, s2, h3, hx⟩ := bind_ok hx
  have f2 := mn_staleSimpleKeys _ _ _ f1 h3
  have k2 := staled_keeps h3
  unfold getMark at hx
  rw [gets_bind] at hx
  obtain ⟨_, s3, h4, hx⟩ := bind_ok hx
  have f3 := mn_unrollIndent _ _ _ f2 h4
  have k3 := unrolled_keeps h4
  have hr : s3.src.rest = q := by rw [k3.1, k2.1]; exact hrest
  unfold atEof at hx
  rw [gets_bind] at hx
  split at hx
  · exact mn_fetchStreamEnd _ _ _ f3 hx
  · rename_i hne
    have n3 : (s3.mark.col == 1 && s3.src.peekz 0 == b%'%') = false ∧ (s3.mark.col == 1 && nextIsDocumentStart s3) = false := by
      by_cases hz : q = []
      · subst hz
        have : nextIsDocumentStart s3 = false := by simp [nextIsDocumentStart, Src.nextIsThree, Src.peekz, hr]
        exact ⟨by simp [Src.peekz, hr], by simp [this]⟩
      have hm : s3.mark.col = c := by rw [k3.2, k2.2]; exact (hcol hz).1
      rw [hm]
      by_cases hc : c = 1
      · obtain ⟨n1, n2⟩ := hq hc s3 hr
        exact ⟨by simpa [hc] using n1, by simp [n2]⟩
      · simp [hc]
    unfold fetchAtToken getMark at hx
    simp only [gets_bind, n3.1, n3.2, Bool.false_eq_true, if_false] at hx
    split at hx
    · exact mn_finishDocument _ _ _ f3 hx
    · rw [gets_bind] at hx
      obtain ⟨_, s4, h5, hx⟩ := bind_ok hx
      exact mn_fetchMain _ _ _ (mn_failIf _ _ _ f3 h5) hx

theorem next_one {cfg p pre e e1 out tok} (ho : EOk p pre e) (hl : e.tokens.length = p) (h : fetchNextToken cfg e = (.ok (), e1)) (hk : NoKeys e1)
    (ht : types e = out) (ht1 : types e1 = out ++ [tok]) (hne : tok ≠ .streamEnd) (hf : 1 < cfg.fuel) :
    ∃ t, next cfg (view p e) = (.ok (some t), view (p + 1) e1) ∧ EOk (p + 1) (pre ++ [t]) e1 ∧ e1.tokens.length = p + 1 ∧ t.tt = tok := by
  obtain ⟨h2, ho'⟩ := (sim_fetchNextToken _ ho).1 _ _ h
  have hlen : e1.tokens.length = p + 1 := by
    have h3 := congrArg List.length ht
    have h4 := congrArg List.length ht1
    simp [types] at h3 h4
    omega
  have hpl : p < e1.tokens.length := by omega
  have htt : e1.tokens[p].tt = tok := by
    have h3 : (types e1)[p]'(by simp [types]; omega) = e1.tokens[p].tt := by simp [types]
    rw [← h3]
    have h4 : out.length = p := by rw [← ht]; simp [types, hl]
    simp only [ht1]
    rw [List.getElem_append_right (by omega)]
    simp
  have hd : e1.tokens.drop p = e1.tokens[p] :: e1.tokens.drop (p + 1) := List.drop_eq_getElem_cons hpl
  have fl := ho.flag
  have fl' := ho'.flag
  simp only [flags, Prod.mk.injEq] at fl fl'
  have hends : (e1.tokens[p].tt == TokenType.streamEnd) = false := by rw [htt]; simpa using hne
  refine ⟨e1.tokens[p], ?_, ⟨ho'.zero, hpl, ho'.flag, ?_, fun k h1 h2 => by rw [hk k h1] at h2; cases h2⟩, hlen, htt⟩
  · have hb : fetchMoreBody cfg () (view p e) = (.ok (.next ()), view p e1) := by
      unfold fetchMoreBody
      have he : (view p e).tokens.isEmpty = true := by simp [view]; omega
      ev [he]
      rw [bind_run h2]
      rfl
    have hb2 : fetchMoreBody cfg () (view p e1) = (.ok (.done ()), view p e1) := by
      unfold fetchMoreBody
      have he : (view p e1).tokens.isEmpty = false := by simp [view]; omega
      ev [he]
      rw [bind_run (noKeys_stale (e := view p e1) hk)]
      have hmo : ((view p e1).simpleKeys.any fun k => k.possible && k.tokenNumber == (view p e1).tokensParsed) = false := by
        simp only [List.any_eq_false, Bool.and_eq_true]
        intro k hkk hx
        rw [hk k hkk] at hx
        cases hx.1
      ev [hmo]
    obtain ⟨m, hm⟩ : ∃ m, cfg.fuel = m + 2 := ⟨cfg.fuel - 2, by omega⟩
    have h1 : loopM (fetchMoreBody cfg) cfg.fuel () (view p e) = (.ok (), view p e1) := by
      rw [hm]
      exact (loop_next hb).trans (loop_done hb2)
    have hfm : fetchMoreTokens cfg (view p e) = (.ok (), { view p e1 with tokensAvailable := true }) := by
      unfold fetchMoreTokens
      rw [bind_run h1]
      rfl
    have hp : popToken { view p e1 with tokensAvailable := true } = (.ok e1.tokens[p], view (p + 1) e1) := by
      unfold popToken
      simp only [view, hd, hends, Bool.or_false]
      rcases e1 with ⟨⟩
      simp only at fl'
      simp only [fl']
    have hnt : nextToken cfg (view p e) = (.ok e1.tokens[p], view (p + 1) e1) := by
      unfold nextToken
      have e1 : (view p e).streamEndProduced = false := fl.2.2.2.1
      have e2 : (view p e).tokensAvailable = false := fl.2.2.1
      ev [e1, e2, Bool.not_false]
      rw [bind_run hfm, hp]
    unfold next
    have e3 : ((view p e).error.isSome || (view p e).streamEndReached) = false := by
      show (e.error.isSome || e.streamEndReached) = false
      simp [fl]
    rw [e3, hnt]
    rfl
  · rw [List.take_add_one, ho'.taken, List.getElem?_eq_getElem hpl]
    rfl

/-- directives, one after the other, and then something at some indentation -/
theorem directives_lazy {t ds} (h : Block.Directives t ds) (hne : ds ≠ []) : ∃ toks, AimToks ds toks ∧ ∀ {cfg : Cfg} {s out al q j p pre}, TokenHead q →
    Here cfg s out [] 0 (t ++ (Block.spaces j ++ q)) 1 al → al = true ∨ Quiet cfg s →
    (t ++ (Block.spaces j ++ q)).length < cfg.fuel → EOk p pre s → s.tokens.length = p → types s = out → 1 < cfg.fuel →
    ∃ s' al' dts, dts.map (·.tt) = toks ∧ Here cfg s' (out ++ toks) [] 0 q (j + 1) al' ∧ EOk (p + dts.length) (pre ++ dts) s' ∧ s'.tokens.length = p + dts.length ∧
      ∀ N, ds.length ≤ N → (scan cfg N (view p s)).1 = dts ++ (scan cfg (N - ds.length) (view (p + dts.length) s')).1 := by
  induction h with
  | nil => exact absurd rfl hne
  | @cons t d e ls r ds h1 h2 h3 h4 ih =>
    obtain ⟨tok, htok, htt⟩ := directive_tok h1
    by_cases hds : ds = []
    · subst hds
      cases h4
      refine ⟨[tok], .cons htok .nil, fun {cfg s out al q j p pre} hq hh ha hf ho hl hty hfu => ?_⟩
      have e1 : t ++ (e ++ 10 :: (ls ++ [])) ++ (Block.spaces j ++ q) = t ++ (e ++ 10 :: (ls ++ (Block.spaces j ++ q))) := by simp
      rw [e1] at hh hf
      obtain ⟨s1, al1, hf1, hh1, hq1⟩ := directive_indented hh ha h1 (directive_run htt) h2 h3 hq hf
      obtain ⟨s2, hf2, hty2, hk2⟩ := directive_last hh ha h1 (directive_run htt) h2 hf
      obtain rfl : s1 = s2 := by rw [hf1] at hf2; simpa using hf2
      obtain ⟨x, hx, ho1, hl1, hxt⟩ := next_one ho hl hf1 hk2 hty hty2 (by cases htok <;> simp) hfu
      refine ⟨s1, al1, [x], by simp [hxt], hh1, ho1, hl1, fun N hN => ?_⟩
      obtain ⟨N, rfl⟩ : ∃ j, N = j + 1 := ⟨N - 1, by simp at hN; omega⟩
      rw [scan, hx]
      rfl
    obtain ⟨toks, h5, ih⟩ := ih hds
    refine ⟨tok :: toks, .cons htok h5, fun {cfg s out al q j p pre} hq hh ha hf ho hl hty hfu => ?_⟩
    have e1 : t ++ (e ++ 10 :: (ls ++ r)) ++ (Block.spaces j ++ q) = t ++ (e ++ 10 :: (ls ++ (r ++ (Block.spaces j ++ q)))) := by simp
    rw [e1] at hh hf
    have hhd : TokenHead (r ++ (Block.spaces j ++ q)) := by
      cases h4 with
      | nil => exact absurd rfl hds
      | cons h => obtain ⟨r, rfl, -⟩ := directive_head h; simp [TokenHead]
    obtain ⟨s1, al1, hf1, hh1, hq1⟩ := directive_step hh ha h1 (directive_run htt) h2 h3 hhd hf
    obtain ⟨s2, hf2, hty2, hk2⟩ := directive_last hh ha h1 (directive_run htt) h2 hf
    obtain rfl : s1 = s2 := by rw [hf1] at hf2; simpa using hf2
    obtain ⟨x, hx, ho1, hl1, hxt⟩ := next_one ho hl hf1 hk2 hty hty2 (by cases htok <;> simp) hfu
    obtain ⟨s', al', dts, g1, g2, g3, g4, g5⟩ := ih hq hh1 (.inr hq1) (by simp at hf ⊢; omega) ho1 hl1 hty2 hfu
    have hlen : p + (x :: dts).length = p + 1 + dts.length := by simp; omega
    refine ⟨s', al', x :: dts, by simp [hxt, g1], by simpa using g2, by rw [hlen]; simpa using g3, by rw [hlen]; exact g4, fun N hN => ?_⟩
    obtain ⟨N, rfl⟩ : ∃ j, N = j + 1 := ⟨N - 1, by simp at hN; omega⟩
    rw [scan, hx, hlen]
    simp only [List.length_cons, Nat.add_sub_add_right, List.cons_append]
    rw [g5 N (by simpa using hN)]

theorem first_next {cfg : Cfg} {input} (hf : 1 < cfg.fuel) : ∃ ss, ss.tt = .streamStart ∧ next cfg (Scanner.new input) = (.ok (some ss), view 1 (fetchStreamStart (Scanner.new input)).2) ∧
    EOk 1 [ss] (fetchStreamStart (Scanner.new input)).2 := by
  have hb1 : fetchMoreBody cfg () (Scanner.new input) = (.ok (.next ()), (fetchStreamStart (Scanner.new input)).2) := rfl
  have hb2 : fetchMoreBody cfg () (fetchStreamStart (Scanner.new input)).2 = (.ok (.done ()), (fetchStreamStart (Scanner.new input)).2) := rfl
  obtain ⟨m, hm⟩ : ∃ m, cfg.fuel = m + 2 := ⟨cfg.fuel - 2, by omega⟩
  have hl : loopM (fetchMoreBody cfg) cfg.fuel () (Scanner.new input) = (.ok (), (fetchStreamStart (Scanner.new input)).2) := by
    rw [hm]
    exact (loop_next hb1).trans (loop_done hb2)
  have hfm : fetchMoreTokens cfg (Scanner.new input) =
      (.ok (), { (fetchStreamStart (Scanner.new input)).2 with tokensAvailable := true }) := by
    unfold fetchMoreTokens
    rw [bind_run hl]
    rfl
  have hnt : nextToken cfg (Scanner.new input) = (.ok ⟨Span.empty ⟨0, 1, 1⟩, .streamStart⟩, view 1 (fetchStreamStart (Scanner.new input)).2) := by
    unfold nextToken
    rw [gets_bind, if_neg (by exact Bool.false_ne_true), gets_bind, show (!(Scanner.new input).tokensAvailable) = true from rfl]
    unfold when
    rw [if_pos rfl, bind_run hfm]
    rfl
  refine ⟨_, rfl, ?_, ⟨rfl, Nat.le_refl _, rfl, rfl, fun k hk hp => ?_⟩⟩
  · unfold next
    rw [if_neg (by exact Bool.false_ne_true), hnt]
    rfl
  · obtain rfl : k = SimpleKey.new Marker.default := by simpa [fetchStreamStart, upd, Scanner.new] using hk
    cases hp

/-- directives and something else: the tokens -/
theorem stray_scan {cfg : Cfg} {a d ds j q} (ha : Block.IdleLines a) (hd : Block.Directives d ds) (hne : ds ≠ []) (hq : TokenHead q) (hs : j = 0 → NoStart q)
    (hf : (a ++ (d ++ (Block.spaces j ++ q))).length + 2 < cfg.fuel) {N : Nat} (hN : (a ++ (d ++ (Block.spaces j ++ q))).length + 2 ≤ N) :
    ∃ ss dts r, (scanInput cfg (a ++ (d ++ (Block.spaces j ++ q))) N).1 = ss :: (dts ++ r) ∧ ss.tt = .streamStart ∧ dts ≠ [] ∧ (∀ d ∈ dts, isDirectiveTok d.tt = true) ∧
      ∀ x ∈ r.head?, Stray x.tt := by
  have hhd : TokenHead (d ++ (Block.spaces j ++ q)) := by
    cases hd with
    | nil => exact absurd rfl hne
    | cons h => obtain ⟨r, rfl, -⟩ := directive_head h; simp [TokenHead]
  have h0 := text_here (cfg := cfg) (n := 0) ha hhd (by simp [Block.spaces] at hf ⊢; omega)
  obtain ⟨toks, hk, hrun⟩ := directives_lazy hd hne
  obtain ⟨ss, hss, hnx, ho⟩ := first_next (cfg := cfg) (input := a ++ (d ++ (Block.spaces j ++ q))) (by omega)
  obtain ⟨s', al', dts, g1, g2, g3, g4, g5⟩ := hrun (cfg := cfg) (s := (fetchStreamStart (Scanner.new (a ++ (d ++ (Block.spaces j ++ q))))).2) (out := [.streamStart]) hq (by have e0 : Block.spaces 0 = [] := rfl; simpa only [e0, List.nil_append, Nat.zero_add] using h0) (.inl rfl) (by simp at hf ⊢; omega) ho rfl rfl (by omega)
  have hlen : dts.length = ds.length := by rw [← aims_length hk, ← g1]; simp
  have hle := directives_length hd
  obtain ⟨N, rfl⟩ : ∃ j, N = j + 1 := ⟨N - 1, by omega⟩
  refine ⟨ss, dts, (scan cfg (N - ds.length) (view (1 + dts.length) s')).1, ?_, hss, ?_, ?_, ?_⟩
  · unfold scanInput
    rw [scan, hnx]
    dsimp only
    rw [g5 N (by simp at hN; omega)]
  · rintro rfl
    exact hne (List.eq_nil_of_length_eq_zero hlen.symm)
  · intro x hx
    exact aims_directive hk _ (by rw [← g1]; exact List.mem_map_of_mem hx)
  · intro x hx
    generalize N - ds.length = M at hx
    cases M with
    | zero => rw [scan] at hx; cases hx
    | succ M =>
      rw [scan] at hx
      split at hx
      · rename_i t s2 hn
        simp only [List.head?_cons, Option.mem_def, Option.some.injEq] at hx
        subst hx
        refine stray_next ?_ (fun v' => first_stray g2 g3 g4 (fun hj => hs (by omega))) hn
        simp [view, ← g4]
      all_goals simp at hx

theorem noStart_of {q : List Byte} (h : ∀ c, q.head? = some c → c ≠ 37) (hs : ¬ Faults.StartLine q) : NoStart q := by
  intro s hr
  constructor
  · rw [peekz_head hr]
    cases q with
    | nil => decide
    | cons c q => exact h c rfl
  · rw [Bool.eq_false_iff]
    intro hd
    refine hs ?_
    simp only [nextIsDocumentStart, Src.nextIsThree, Src.peekz, hr, Bool.and_eq_true, beq_iff_eq] at hd
    obtain ⟨⟨⟨h0, h1⟩, h2⟩, h3⟩ := hd
    match q, h0, h1, h2, h3 with
    | [], h0, _, _, _ => simp at h0
    | [_], _, h1, _, _ => simp at h1
    | [_, _], _, _, h2, _ => simp at h2
    | a :: b :: c :: r, h0, h1, h2, h3 =>
      simp at h0 h1 h2
      subst h0 h1 h2
      refine ⟨r, rfl, fun c hc => ?_⟩
      cases r with
      | nil => cases hc
      | cons x r =>
        cases hc
        simp [isBlankOrBreakz, isBlank, isBreak] at h3
        simp
        omega

/-- directives and no document: the tokens -/
theorem noDocument_scan {cfg : Cfg} {t : List Byte} (h : Faults.NoDocument t) (hf : t.length + 2 < cfg.fuel) {N : Nat} (hN : t.length + 2 ≤ N) :
    (.streamEnd ∉ (scanInput cfg t N).1.map (·.tt)) ∨
    ∃ ss ds x r, (scanInput cfg t N).1 = ss :: (ds ++ x :: r) ∧ ss.tt = .streamStart ∧ (∀ d ∈ ds, isDirectiveTok d.tt = true) ∧ Parser.Refused ds x := by
  obtain ⟨a, d, ds, j, q, ha, hd, hne, hq, hs, rfl⟩ := h
  obtain ⟨ss, dts, r, h1, h2, h3, h4, h5⟩ := stray_scan (cfg := cfg) ha hd hne (q := q) (fun c hc => by have := hq c hc; simp at this; omega)
    (fun hj => noStart_of (fun c hc he => (hs hj).1 (by rw [hc, he])) (hs hj).2) hf hN
  cases r with
  | nil =>
    left
    rw [h1]
    simp only [List.append_nil, List.map_cons, List.mem_cons, List.mem_map, not_or, not_exists, not_and]
    refine ⟨by rw [h2]; simp, fun x hx he => ?_⟩
    have := h4 x hx
    rw [he] at this
    cases this
  | cons x r => exact .inr ⟨ss, dts, x, r, h1, h2, h4, .inr ⟨h3, h5 x rfl⟩⟩

end Verif.Scanner
