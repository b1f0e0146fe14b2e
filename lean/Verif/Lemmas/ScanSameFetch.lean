import Verif.Lemmas.ScanSameBlock
/-!
# Two runs of the scanner side by side: fetching tokens
-/
namespace Verif.Scanner
open Verif Verif.CharUtils Verif.Source Verif.Spec

variable {b : Bool} {l : Nat}

theorem out_fetchStreamEnd {s s' : SSt} (h : Rel b l s s') : Out b l Eq (fetchStreamEnd s) (fetchStreamEnd s') := by
  unfold fetchStreamEnd
  rw [upd_bind, upd_bind]
  have h : Rel b l (if s.mark.col ≠ 0 then { s with mark := ⟨s.mark.pos, 1, s.mark.line + 1⟩ } else s)
      (if s'.mark.col ≠ 0 then { s' with mark := ⟨s'.mark.pos, 1, s'.mark.line + 1⟩ } else s') := by
    rw [h.col]
    split
    · refine { h with mark := ⟨rfl, ?_⟩, keys := ?_ }
      · have := h.line; simp only; omega
      · refine h.keys.mono fun k k' hk => ⟨hk.possible, hk.required, hk.number, hk.mark, fun hp => ?_, fun hp hl => ?_⟩
        · have := hk.before hp; simp only; omega
        · have := hk.before hp; simp only at hl; omega
    · exact h
  generalize (if s.mark.col ≠ 0 then { s with mark := ⟨s.mark.pos, 1, s.mark.line + 1⟩ } else s) = s at h
  generalize (if s'.mark.col ≠ 0 then { s' with mark := ⟨s'.mark.pos, 1, s'.mark.line + 1⟩ } else s') = s' at h
  simp only [getMark_bind, gets_bind]
  rw [h.keys.any (f' := fun k => k.required && k.possible) (f := fun k => k.required && k.possible) fun k k' hk => by rw [hk.required, hk.possible]]
  refine Out.failIf_bind h.mark fun _ => ?_
  have hm := h.mark
  rw [upd_bind, upd_bind]
  have h : Rel b l { s with simpleKeys := s.simpleKeys.map fun k => { k with possible := false } } { s' with simpleKeys := s'.simpleKeys.map fun k => { k with possible := false } } :=
    { h with keys := h.keys.map fun k k' hk => ⟨rfl, hk.required, hk.number, nofun, nofun, nofun⟩ }
  exact Out.bindE (out_unrollIndent h) fun _ s s' h => Out.bindE (out_removeSimpleKey h) fun _ s s' h => Out.bindE (out_setAllowed h) fun _ s s' h => out_push h hm hm

theorem unroll_src {c} (s : SSt) : (unrollIndent c s).2.src = s.src := by
  unfold unrollIndent
  split
  · rfl
  · split <;> rfl

theorem removeKey_src (s : SSt) : (removeSimpleKey s).2.src = s.src := by
  unfold removeSimpleKey
  split
  · rfl
  · split <;> rfl

theorem saveKey_src (s : SSt) : (saveSimpleKey s).2.src = s.src := by
  show (if s.simpleKeyAllowed then { s with simpleKeys := keyHere s :: s.simpleKeys.tail } else s).src = s.src
  split <;> rfl

theorem rollOne_src (s : SSt) : (rollOneColIndent s).2.src = s.src := by
  show SSt.src (match s.indents with
    | x :: _ => if s.flowLevel = 0 ∧ x.needsBlockEnd = true then { s with indents := ⟨s.indent, false⟩ :: s.indents, indent := s.indent + 1 } else s
    | [] => s) = _
  split
  · split <;> rfl
  · rfl

theorem decrease_src (s : SSt) : (decreaseFlowLevel s).2.src = s.src := by
  unfold decreaseFlowLevel
  split
  · split <;> rfl
  · rfl

theorem endImplicit_src {m} (s : SSt) : (endImplicitMapping m s).2.src = s.src := by
  show SSt.src (match s.implicitFlowMappingStates with
    | .inside :: xs => { s with flowMappingStarted := false, implicitFlowMappingStates := .possible :: xs, tokens := s.tokens ++ [⟨⟨m, s.mark⟩, .flowMappingEnd⟩] }
    | _ => s) = _
  split <;> rfl

theorem out_fetchDocumentIndicator {tt} {s s' : SSt} (h : Rel b l s s') (hf : Flat b s.src.rest 3) : Out b l Eq (fetchDocumentIndicator tt s) (fetchDocumentIndicator tt s') := by
  unfold fetchDocumentIndicator
  refine Out.bindK (out_unrollIndent h) unroll_src unroll_src fun _ s1 s1' h e1 _ => ?_
  refine Out.bindK (out_removeSimpleKey h) removeKey_src removeKey_src fun _ s2 s2' h e2 _ => ?_
  refine Out.bindK (out_setAllowed h) (fun _ => rfl) (fun _ => rfl) fun _ s3 s3' h e3 _ => ?_
  simp only [getMark_bind]
  have hm := h.mark
  refine Out.bindE (out_skipN h (by rw [e3, e2, e1]; exact hf)) fun _ s s' h => ?_
  simp only [getMark_bind]
  exact out_push h hm h.mark

theorem out_fetchStreamStart {s s' : SSt} (h : Rel b l s s') : Out b l Eq (fetchStreamStart s) (fetchStreamStart s') := by
  refine ⟨rfl, { h with indent := rfl, started := rfl, allowed := rfl, tokens := ?_, keys := .cons ⟨rfl, rfl, rfl, nofun, nofun, nofun⟩ h.keys }⟩
  simp [tokView, h.tokens, Span.empty, h.col, h.line]

theorem out_fetchFlowStart {tt} {s s' : SSt} (h : Rel b l s s') (he : s'.src.peekz 0 = s.src.peekz 0) : Out b l Eq (fetchFlowStart tt s) (fetchFlowStart tt s') := by
  unfold fetchFlowStart
  refine Out.bindK (out_saveSimpleKey h) saveKey_src saveKey_src fun _ s1 s1' h e1 e1' => ?_
  refine Out.bindK (out_rollOneColIndent h) rollOne_src rollOne_src fun _ s2 s2' h e2 e2' => ?_
  have he : s2'.src.peekz 0 = s2.src.peekz 0 := by rw [e2, e1, e2', e1', he]
  unfold increaseFlowLevel setAllowed skipNonBlank
  simp only [upd_bind, getMark_bind]
  have hm := h.mark
  have h : Rel b l
      { s2 with simpleKeys := SimpleKey.new ⟨0, 0, 0⟩ :: s2.simpleKeys, flowLevel := s2.flowLevel + 1, simpleKeyAllowed := true, src := s2.src.skip 1, mark := { s2.mark with pos := s2.mark.pos + 1, col := s2.mark.col + 1 }, leadingWhitespace := false }
      { s2' with simpleKeys := SimpleKey.new ⟨0, 0, 0⟩ :: s2'.simpleKeys, flowLevel := s2'.flowLevel + 1, simpleKeyAllowed := true, src := s2'.src.skip 1, mark := { s2'.mark with pos := s2'.mark.pos + 1, col := s2'.mark.col + 1 }, leadingWhitespace := false } := by
    have h1 := h.adv (w := false) (h.flat1 he)
    refine { h1 with keys := .cons ⟨rfl, rfl, rfl, nofun, nofun, nofun⟩ h1.keys, level := by rw [h.level], allowed := rfl, adjs := .inr ?_ }
    have := h.adj
    have := h.adj'
    simp only
    constructor <;> intro <;> omega
  revert h
  generalize ({ s2 with simpleKeys := SimpleKey.new ⟨0, 0, 0⟩ :: s2.simpleKeys, flowLevel := s2.flowLevel + 1, simpleKeyAllowed := true, src := s2.src.skip 1, mark := { s2.mark with pos := s2.mark.pos + 1, col := s2.mark.col + 1 }, leadingWhitespace := false } : SSt) = s3
  generalize ({ s2' with simpleKeys := SimpleKey.new ⟨0, 0, 0⟩ :: s2'.simpleKeys, flowLevel := s2'.flowLevel + 1, simpleKeyAllowed := true, src := s2'.src.skip 1, mark := { s2'.mark with pos := s2'.mark.pos + 1, col := s2'.mark.col + 1 }, leadingWhitespace := false } : SSt) = s3'
  intro h
  refine Out.bindE (m := noteFlowStart tt) (m' := noteFlowStart tt) ?_ fun _ s s' h => Out.bindE (out_skipWsToEol h) fun _ s s' h => ?_
  · unfold noteFlowStart
    refine Out.ite (fun _ => ⟨rfl, ?_⟩) fun _ => ⟨rfl, ?_⟩
    · exact { h with flowMapping := rfl }
    · exact { h with implicit := by simp [h.implicit] }
  · simp only [getMark_bind]
    exact out_push h hm h.mark

theorem out_endImplicit {m m'} {s s' : SSt} (h : Rel b l s s') (hm : MR l m m') : Out b l Eq (endImplicitMapping m s) (endImplicitMapping m' s') := by
  refine ⟨rfl, ?_⟩
  simp only [h.implicit]
  split
  · refine { h with flowMapping := rfl, implicit := rfl, tokens := ?_ }
    simp [tokView, h.tokens, h.col, h.line, hm.1, hm.2]
  · exact h

theorem out_fetchFlowEnd {tt} {s s' : SSt} (h : Rel b l s s') (he : s'.src.peekz 0 = s.src.peekz 0) : Out b l Eq (fetchFlowEnd tt s) (fetchFlowEnd tt s') := by
  unfold fetchFlowEnd
  refine Out.bindK (out_removeSimpleKey h) removeKey_src removeKey_src fun _ s1 s1' h e1 e1' => ?_
  refine Out.bindK (out_decreaseFlowLevel h) decrease_src decrease_src fun _ s2 s2' h e2 e2' => ?_
  refine Out.bindK (out_setAllowed h) (fun _ => rfl) (fun _ => rfl) fun _ s3 s3' h e3 e3' => ?_
  simp only [getMark_bind]
  have hm := h.mark
  have he : s3'.src.peekz 0 = s3.src.peekz 0 := by rw [e3, e2, e1, e3', e2', e1', he]
  generalize hq : s3.mark = m at hm
  generalize hq' : s3'.mark = m' at hm
  refine Out.bindK (out_when h fun _ => ?_) ?_ ?_ fun _ s4 s4' h e4 e4' => ?_
  · refine Out.bindE (out_endImplicit h hm) fun _ s s' h => ⟨rfl, { h with implicit := by simp [h.implicit] }⟩
  · intro s
    unfold when
    split
    · exact endImplicit_src (m := m) s
    · rfl
  · intro s
    unfold when
    split
    · exact endImplicit_src (m := m') s
    · rfl
  · refine Out.bindE (out_skipNonBlank h (by rw [e4, e4', he])) fun _ s s' h => Out.bindE (out_skipWsToEol h) fun _ s s' h => ?_
    rw [upd_bind, upd_bind]
    have h : Rel b l (if s.flowLevel > 0 then { s with adjacentValueAllowedAt := s.mark.pos } else s) (if s'.flowLevel > 0 then { s' with adjacentValueAllowedAt := s'.mark.pos } else s') := by
      rw [h.level]
      split
      · exact { h with level := rfl, adj := Nat.le_refl _, adj' := Nat.le_refl _, adjs := .inr ⟨fun _ => rfl, fun _ => rfl⟩ }
      · exact h
    rw [getMark_bind, getMark_bind]
    exact out_push h hm h.mark

theorem out_fetchPlain {cfg : Cfg} {s s' : SSt} (h : Rel b l s s') : Out b l Eq (fetchPlainScalar cfg s) (fetchPlainScalar cfg s') := by
  unfold fetchPlainScalar
  exact Out.bindE (out_saveSimpleKey h) fun _ s s' h => Out.bindE (out_setAllowed h) fun _ s s' h => Out.bind (out_scanPlain h) fun _ _ s s' _ _ ht h => out_pushTok h ht

theorem out_fetchFlowEntry {s s' : SSt} (h : Rel b l s s') (he : s'.src.peekz 0 = s.src.peekz 0) : Out b l Eq (fetchFlowEntry s) (fetchFlowEntry s') := by
  unfold fetchFlowEntry
  refine Out.bindK (out_removeSimpleKey h) removeKey_src removeKey_src fun _ s1 s1' h e1 e1' => ?_
  refine Out.bindK (out_setAllowed h) (fun _ => rfl) (fun _ => rfl) fun _ s3 s3' h e3 e3' => ?_
  simp only [getMark_bind]
  have hm := h.mark
  refine Out.bindK (out_endImplicit h hm) endImplicit_src endImplicit_src fun _ s4 s4' h e4 e4' => ?_
  refine Out.bindE (out_skipNonBlank h (by rw [e4, e3, e1, e4', e3', e1', he])) fun _ s s' h => Out.bindE (out_skipWsToEol h) fun _ s s' h => ?_
  simp only [getMark_bind]
  exact out_push h hm h.mark

theorem anchored_eq {s s' : SSt} (h : Rel b l s s') : anchoredEntry s' = anchoredEntry s := by
  unfold anchoredEntry
  have ht : s'.tokens.getLast?.map (tokView 0) = s.tokens.getLast?.map (tokView l) := by
    rw [← List.getLast?_map, ← List.getLast?_map, h.tokens]
  cases h1 : s.tokens.getLast? with
  | none =>
    rw [h1] at ht
    cases h2 : s'.tokens.getLast? with
    | none => rfl
    | some t' => rw [h2] at ht; cases ht
  | some t =>
    rw [h1] at ht
    cases h2 : s'.tokens.getLast? with
    | none => rw [h2] at ht; cases ht
    | some t' =>
      rw [h2] at ht
      obtain ⟨sp, tt⟩ := t
      obtain ⟨sp', tt'⟩ := t'
      simp only [tokView, Option.map_some, Option.some.injEq, Prod.mk.injEq] at ht
      obtain ⟨rfl, hc, _⟩ := ht
      cases tt' <;> simp only [hc, h.col, h.indent]

theorem Rel.dash {s s' : SSt} (h : Rel b l s s') {p : Byte → Bool} {c : Byte} {r : Bool} (hp : p 13 = p 10) (h1 : c ≠ 10) (h2 : c ≠ 13) :
    (r && s'.src.peekz 0 == c && p (s'.src.peekz 1)) = (r && s.src.peekz 0 == c && p (s.src.peekz 1)) := by
  rcases h.peek0 with e0 | ⟨_, e, e'⟩
  · rw [e0, h.cls1 hp e0]
  · have n1 : (10 == c) = false := beq_false_of_ne (Ne.symm h1)
    have n2 : (13 == c) = false := beq_false_of_ne (Ne.symm h2)
    rw [e, e']; simp [n1, n2]

theorem out_fetchBlockEntry {s s' : SSt} (h : Rel b l s s') (he : s'.src.peekz 0 = s.src.peekz 0) : Out b l Eq (fetchBlockEntry s) (fetchBlockEntry s') := by
  unfold fetchBlockEntry
  simp only [getMark_bind, gets_bind, h.level]
  have hm := h.mark
  refine Out.failIf_bind hm fun _ => ?_
  simp only [gets_bind, h.allowed]
  refine Out.failIf_bind hm fun _ => ?_
  simp only [gets_bind, anchored_eq h]
  refine Out.failIf_bind hm fun _ => ?_
  rw [h.col]
  generalize s.mark = m at hm
  generalize s'.mark = m' at hm
  refine Out.bindE (out_skipNonBlank h he) fun _ s s' h => Out.bindE (out_rollIndent h hm) fun _ s s' h => Out.bindE (out_skipWsToEol h) fun _ s s' h => ?_
  simp only [gets_bind, getMark_bind, h.dash (p := isBlankOrBreak) (c := b%'-') rfl (by decide) (by decide)]
  refine Out.failIf_bind h.mark fun _ => Out.bindE (out_skipWsToEol h) fun _ s s' h => ?_
  have c1 := h.cls0 (p := fun x => isBreak x || isFlow x) rfl
  simp only [gets_bind, c1]
  refine Out.bindE (out_when h fun _ => out_rollOneColIndent h) fun _ s s' h => Out.bindE (out_removeSimpleKey h) fun _ s s' h => Out.bindE (out_setAllowed h) fun _ s s' h => ?_
  simp only [getMark_bind]
  exact out_push h hm h.mark

theorem out_fetchKeyStart {m m'} {s s' : SSt} (h : Rel b l s s') (hm : MR l m m') : Out b l Eq (fetchKeyStart m s) (fetchKeyStart m' s') := by
  unfold fetchKeyStart
  simp only [gets_bind, h.level]
  refine Out.ite (fun _ => ?_) fun _ => ⟨rfl, { h with flowMapping := rfl }⟩
  simp only [gets_bind, h.allowed]
  rw [hm.1]
  exact Out.failIf_bind hm fun _ => out_rollIndent h hm

theorem bind_src {α β} {m : SM α} {f : α → SM β} (hm : ∀ s, (m s).2.src = s.src) (hf : ∀ a s, (f a s).2.src = s.src) (s : SSt) : ((m >>= f) s).2.src = s.src := by
  simp only [Bind.bind]
  have := hm s
  rcases e : m s with ⟨r, u⟩
  rw [e] at this
  cases r with
  | ok a => exact (hf a u).trans this
  | err e => exact this
  | panic => exact this
  | hang => exact this

theorem failIf_src {c m msg} (s : SSt) : (failIf c m msg s).2.src = s.src := by
  unfold failIf
  split <;> rfl

theorem rollIndent_src {c tt m} (s : SSt) : (rollIndent c none tt m s).2.src = s.src := by
  refine bind_src (fun _ => rfl) (fun fl s => ?_) s
  rw [ite_run]
  split
  · rfl
  · refine bind_src (fun s => ?_) (fun _ s => bind_src (fun _ => rfl) (fun i s => ?_) s) s
    · unfold dropNonBlock
      show SSt.src (match s.indents with
          | x :: xs => if s.indent ≤ c ∧ x.needsBlockEnd = false then { s with indent := x.indent, indents := xs } else s
          | [] => s) = s.src
      split
      · split <;> rfl
      · rfl
    · rw [ite_run]
      split <;> rfl

theorem fetchKeyStart_src {m} (s : SSt) : (fetchKeyStart m s).2.src = s.src := by
  refine bind_src (fun _ => rfl) (fun fl s => ?_) s
  rw [ite_run]
  split
  · exact bind_src (fun _ => rfl) (fun a s => bind_src failIf_src (fun _ s => rollIndent_src s) s) s
  · rfl

theorem out_fetchKey {cfg : Cfg} {s s' : SSt} (h : Rel b l s s') (he : s'.src.peekz 0 = s.src.peekz 0) : Out b l Eq (fetchKey cfg s) (fetchKey cfg s') := by
  unfold fetchKey
  simp only [getMark_bind]
  have hm := h.mark
  refine Out.bindK (out_fetchKeyStart h hm) fetchKeyStart_src fetchKeyStart_src fun _ s1 s1' h e1 e1' => ?_
  refine Out.bindK (out_removeSimpleKey h) removeKey_src removeKey_src fun _ s2 s2' h e2 e2' => ?_
  rw [upd_bind, upd_bind]
  have h : Rel b l { s2 with simpleKeyAllowed := s2.flowLevel == 0 } { s2' with simpleKeyAllowed := s2'.flowLevel == 0 } := { h with allowed := by simp [h.level] }
  refine Out.bindE (out_skipNonBlank h (by show s2'.src.peekz 0 = s2.src.peekz 0; rw [e2, e1, e2', e1', he])) fun _ s s' h => Out.bindE (out_skipYamlWhitespace h) fun _ s s' h => ?_
  have c1 := h.cls0 (p := fun x => x == 9) rfl
  simp only [peekz_bind, getMark_bind, c1]
  exact Out.failIf_bind h.mark fun _ => out_push h hm h.mark

theorem out_skipColon {s s' : SSt} (h : Rel b l s s') (he : s'.src.peekz 0 = s.src.peekz 0) : Out b l Eq (skipColon s) (skipColon s') := by
  unfold skipColon
  refine Out.bindE (out_skipNonBlank h he) fun _ s s' h => ?_
  have c1 := h.cls0 (p := fun x => x = 9) (by simp)
  simp only [peekz_bind, c1]
  refine Out.ite (fun _ => ?_) fun _ => Out.okE h
  refine Out.bindE (out_skipWsToEol h) fun r s s' h => ?_
  have c1 := h.cls0 (p := fun x => !r.2 && (x == 45 || isAlpha x)) rfl
  simp only [getMark_bind, gets_bind, c1]
  exact out_failIf h h.mark

theorem out_valueAfterKey {sk sk' m m' im} {s s' : SSt} (h : Rel b l s s') (hm : MR l m m') (hp : sk'.possible = sk.possible) (hn : sk'.tokenNumber = sk.tokenNumber)
    (hk : sk.possible = true → MR l sk.mark sk'.mark) : Out b l Eq (valueAfterKey sk m im s) (valueAfterKey sk' m' im s') := by
  unfold valueAfterKey
  rw [hp]
  refine Out.ite (fun hc => ?_) fun _ => ?_
  · unfold valueAfterSimpleKey
    have hk := hk hc
    rw [hn]
    refine Out.bindE (out_insertToken h hk) fun _ s s' h => ?_
    refine Out.bindE (out_when h fun _ => ?_) fun _ s s' h => ?_
    · have e : decide (sk'.mark.line < m'.line) = decide (sk.mark.line < m.line) := by
        rw [hk.2, hm.2]; simp
      rw [e]
      exact Out.failIf_bind hm fun _ => out_insertToken h hk
    · rw [hk.1]
      refine Out.bindE (out_rollIndent h hk) fun _ s s' h => Out.bindE (out_rollOneColIndent h) fun _ s s' h => ⟨rfl, { h with allowed := rfl, keys := ?_ }⟩
      have hks := h.keys
      simp only
      revert hks
      generalize s.simpleKeys = ks
      generalize s'.simpleKeys = ks'
      intro hks
      cases hks with
      | nil => exact .nil
      | cons hk hks => exact .cons ⟨rfl, hk.required, hk.number, nofun, nofun, nofun⟩ hks
  · unfold valueAfterComplexKey
    refine Out.bindE (out_when h fun _ => out_push h hm hm) fun _ s s' h => ?_
    simp only [gets_bind, h.level]
    refine Out.bindE (out_when h fun _ => ?_) fun _ s s' h => Out.bindE (out_rollOneColIndent h) fun _ s s' h => ⟨rfl, { h with allowed := by simp [h.level] }⟩
    simp only [gets_bind, h.allowed]
    rw [hm.1]
    exact Out.failIf_bind hm fun _ => out_rollIndent h hm

theorem out_fetchValue {s s' : SSt} (h : Rel b l s s') (he : s'.src.peekz 0 = s.src.peekz 0) : Out b l Eq (fetchValue s) (fetchValue s') := by
  unfold fetchValue
  rw [gets_bind, gets_bind]
  have hk := h.keys
  cases h1 : s.simpleKeys with
  | nil => trivial
  | cons k ks =>
    rw [h1] at hk
    cases h2 : s'.simpleKeys with
    | nil => rw [h2] at hk; cases hk
    | cons k' ks' =>
      rw [h2] at hk
      cases hk with
      | cons hk _ =>
        simp only [getMark_bind, gets_bind, h.implicit, h.flowMapping]
        have hm := h.mark
        generalize (!s.implicitFlowMappingStates.isEmpty && !s.flowMappingStarted) = im
        refine Out.bindK (out_when h fun _ => ⟨rfl, { h with implicit := by simp [h.implicit] }⟩) ?_ ?_ fun _ t t' h e e' => ?_
        · intro s; unfold when; split <;> rfl
        · intro s; unfold when; split <;> rfl
        · refine Out.bindE (out_skipColon h (by rw [e, e', he])) fun _ s s' h => ?_
          exact Out.bindE (out_valueAfterKey h hm hk.possible hk.number hk.mark) fun _ s s' h => out_push h hm hm

theorem out_fetchFlowValue {s s' : SSt} (h : Rel b l s s') (he : s'.src.peekz 0 = s.src.peekz 0) (hl : s.flowLevel > 0) : Out b l Eq (fetchFlowValue s) (fetchFlowValue s') := by
  unfold fetchFlowValue
  have c1 := h.cls1 (p := fun x => x == 91 || x == 123) rfl he
  have e : (s'.mark.pos != s'.adjacentValueAllowedAt) = (s.mark.pos != s.adjacentValueAllowedAt) := by
    rcases h.adjs with h1 | h1
    · omega
    · rw [Bool.eq_iff_iff]; simp; constructor <;> intro hx hy <;> apply hx <;> have := h1 <;> omega
  simp only [peekz_bind, getMark_bind, gets_bind, c1, e]
  exact Out.failIf_bind h.mark fun _ => out_fetchValue h he

theorem out_fetchAnchor {cfg : Cfg} {q} {s s' : SSt} (h : Rel b l s s') (he : s'.src.peekz 0 = s.src.peekz 0) : Out b l Eq (fetchAnchor cfg q s) (fetchAnchor cfg q s') := by
  unfold fetchAnchor
  refine Out.bindK (out_saveSimpleKey h) saveKey_src saveKey_src fun _ s1 s1' h e1 e1' => ?_
  refine Out.bindK (out_setAllowed h) (fun _ => rfl) (fun _ => rfl) fun _ s2 s2' h e2 e2' => ?_
  exact Out.bind (out_scanAnchor h (by rw [e2, e1, e2', e1', he])) fun _ _ s s' _ _ ht h => out_pushTok h ht

theorem out_fetchTag {cfg : Cfg} {s s' : SSt} (h : Rel b l s s') (he : s.src.peekz 0 ≠ 10) : Out b l Eq (fetchTag cfg s) (fetchTag cfg s') := by
  unfold fetchTag
  refine Out.bindK (out_saveSimpleKey h) saveKey_src saveKey_src fun _ s1 s1' h e1 e1' => ?_
  refine Out.bindK (out_setAllowed h) (fun _ => rfl) (fun _ => rfl) fun _ s2 s2' h e2 e2' => ?_
  exact Out.bind (out_scanTag h (by rw [e2, e1]; exact he)) fun _ _ s s' _ _ ht h => out_pushTok h ht

theorem out_fetchBlockScalar {cfg : Cfg} {q} {s s' : SSt} (h : Rel b l s s') (he : s'.src.peekz 0 = s.src.peekz 0) : Out b l Eq (fetchBlockScalar cfg q s) (fetchBlockScalar cfg q s') := by
  unfold fetchBlockScalar
  refine Out.bindK (out_saveSimpleKey h) saveKey_src saveKey_src fun _ s1 s1' h e1 e1' => ?_
  refine Out.bindK (out_setAllowed h) (fun _ => rfl) (fun _ => rfl) fun _ s2 s2' h e2 e2' => ?_
  exact out_scanBlockScalar h (by rw [e2, e1, e2', e1', he])

theorem out_fetchFlowScalar {cfg : Cfg} {q} {s s' : SSt} (h : Rel b l s s') (he : s'.src.peekz 0 = s.src.peekz 0) : Out b l Eq (fetchFlowScalar cfg q s) (fetchFlowScalar cfg q s') := by
  unfold fetchFlowScalar
  refine Out.bindK (out_saveSimpleKey h) saveKey_src saveKey_src fun _ s1 s1' h e1 e1' => ?_
  refine Out.bindK (out_setAllowed h) (fun _ => rfl) (fun _ => rfl) fun _ s2 s2' h e2 e2' => ?_
  refine Out.bind (out_scanFlow h (by rw [e2, e1, e2', e1', he])) fun _ _ s s' _ _ ht h => Out.bindE (out_skipToNextToken h) fun _ s s' h => ?_
  rw [upd_bind, upd_bind]
  exact out_pushTok { h with adj := Nat.le_refl _, adj' := Nat.le_refl _, adjs := .inr ⟨fun _ => rfl, fun _ => rfl⟩ } ht

theorem out_fetchDirective {cfg : Cfg} {s s' : SSt} (h : Rel b l s s') (he : s'.src.peekz 0 = s.src.peekz 0) : Out b l Eq (fetchDirective cfg s) (fetchDirective cfg s') := by
  unfold fetchDirective
  refine Out.bindK (out_unrollIndent h) unroll_src unroll_src fun _ s1 s1' h e1 e1' => ?_
  refine Out.bindK (out_removeSimpleKey h) removeKey_src removeKey_src fun _ s2 s2' h e2 e2' => ?_
  refine Out.bindK (out_setAllowed h) (fun _ => rfl) (fun _ => rfl) fun _ s3 s3' h e3 e3' => ?_
  exact Out.bind (out_scanDirective h (by rw [e3, e2, e1, e3', e2', e1', he])) fun _ _ s s' _ _ ht h => out_pushTok h ht

theorem out_finishDocument {s s' : SSt} (h : Rel b l s s') (hf : Flat b s.src.rest 3) : Out b l Eq (finishDocument s) (finishDocument s') := by
  unfold finishDocument
  refine Out.bindE (out_fetchDocumentIndicator h hf) fun _ s s' h => Out.bindE (out_skipWsToEol h) fun _ s s' h => ?_
  have c1 := h.cls0 (p := fun x => !(isBreakz x || x == 35)) rfl
  simp only [peekz_bind, getMark_bind, c1]
  exact out_failIf h h.mark

theorem out_unexpectedChar {s s' : SSt} (h : Rel b l s s') : Out b l Eq (unexpectedChar s) (unexpectedChar s') := by
  unfold unexpectedChar
  simp only [gets_bind, getMark_bind]
  by_cases hs : s.src.rest.length < 4
  · rw [decide_eq_true hs]; trivial
  · have := conv_length (b := b) (t := s.src.rest)
    rw [← h.rest] at this
    rw [decide_eq_false hs, decide_eq_false (by omega)]
    exact out_fail h.mark

theorem out_fetchMain {cfg : Cfg} {s s' : SSt} (h : Rel b l s s') : Out b l Eq (fetchMain cfg s) (fetchMain cfg s') := by
  unfold fetchMain
  simp only [peekz_bind, gets_bind, h.level]
  rcases h.peek0 with he | ⟨_, h1, h2⟩
  · rw [he]
    have c1 := h.cls1 (p := isBlankOrBreakz) rfl he
    have c2 := h.cls1 (p := isBlankOrBreak) rfl he
    have c3 := h.cls1 (p := isFlow) rfl he
    have c4 : (s.src.peekz 0 = b%':' ∧ s.flowLevel > 0 ∧ (isFlow (s'.src.peekz 1) = true ∨ (s'.mark.pos == s'.adjacentValueAllowedAt) = true)) ↔
        (s.src.peekz 0 = b%':' ∧ s.flowLevel > 0 ∧ (isFlow (s.src.peekz 1) = true ∨ (s.mark.pos == s.adjacentValueAllowedAt) = true)) := by
      rw [c3]
      rcases h.adjs with h1 | h1
      · rw [h1]; simp
      · have : (s'.mark.pos == s'.adjacentValueAllowedAt) = (s.mark.pos == s.adjacentValueAllowedAt) := by
          rw [Bool.eq_iff_iff]; simp; omega
        rw [this]
    simp only [c4, c1, c2]
    refine Out.ite (fun _ => out_fetchFlowStart h he) fun _ => Out.ite (fun _ => out_fetchFlowStart h he) fun _ =>
      Out.ite (fun _ => out_fetchFlowEnd h he) fun _ => Out.ite (fun _ => out_fetchFlowEnd h he) fun _ =>
      Out.ite (fun _ => out_fetchFlowEntry h he) fun _ => Out.ite (fun _ => out_fetchBlockEntry h he) fun _ =>
      Out.ite (fun _ => out_fetchKey h he) fun _ => Out.ite (fun _ => out_fetchValue h he) fun _ =>
      Out.ite (fun hc => out_fetchFlowValue h he hc.2.1) fun _ => Out.ite (fun _ => out_fetchAnchor h he) fun _ =>
      Out.ite (fun _ => out_fetchAnchor h he) fun _ => Out.ite (fun hc => out_fetchTag h (by rw [hc]; decide)) fun _ =>
      Out.ite (fun _ => out_fetchBlockScalar h he) fun _ => Out.ite (fun _ => out_fetchBlockScalar h he) fun _ =>
      Out.ite (fun _ => out_fetchFlowScalar h he) fun _ => Out.ite (fun _ => out_fetchFlowScalar h he) fun _ =>
      Out.ite (fun _ => out_fetchPlain h) fun _ => Out.ite (fun _ => out_fetchPlain h) fun _ =>
      Out.ite (fun _ => out_unexpectedChar h) fun _ => out_fetchPlain h
  · rw [h1, h2]
    simp
    exact out_fetchPlain h

theorem out_fetchAtToken {cfg : Cfg} {s s' : SSt} (h : Rel b l s s') : Out b l Eq (fetchAtToken cfg s) (fetchAtToken cfg s') := by
  unfold fetchAtToken
  have c1 := h.cls0 (p := fun x => x == 37) rfl
  simp only [getMark_bind, gets_bind, c1, h.col, h.docStart, h.docEnd]
  refine Out.ite (fun hc => ?_) fun _ => Out.ite (fun hc => ?_) fun _ => Out.ite (fun hc => ?_) fun _ => ?_
  · simp at hc
    exact out_fetchDirective h (h.eq0 (by rw [hc.2]; decide))
  · simp [nextIsDocumentStart] at hc
    exact out_fetchDocumentIndicator h (h.flat3 (by decide) hc.2.1)
  · simp [nextIsDocumentEnd] at hc
    exact out_finishDocument h (h.flat3 (by decide) hc.2.1)
  · simp only [gets_bind, h.col, h.indent]
    exact Out.failIf_bind h.mark fun _ => out_fetchMain h

theorem out_fetchNextToken {cfg : Cfg} {s s' : SSt} (h : Rel b l s s') : Out b l Eq (fetchNextToken cfg s) (fetchNextToken cfg s') := by
  unfold fetchNextToken
  simp only [gets_bind, h.started]
  refine Out.ite (fun _ => ?_) fun _ => out_fetchStreamStart h
  refine Out.bindE (out_skipToNextToken h) fun _ s s' h => Out.bindE (out_staleSimpleKeys h) fun _ s s' h => ?_
  simp only [getMark_bind, h.col]
  refine Out.bindE (out_unrollIndent h) fun _ s s' h => ?_
  simp only [atEof_bind, h.empty]
  exact Out.ite (fun _ => out_fetchStreamEnd h) fun _ => out_fetchAtToken h

theorem out_fetchMoreTokens {cfg : Cfg} {s s' : SSt} (h : Rel b l s s') : Out b l Eq (fetchMoreTokens cfg s) (fetchMoreTokens cfg s') := by
  unfold fetchMoreTokens
  refine Out.bindE (Out.loopE ?_ h) fun _ s s' h => ⟨rfl, { h with available := rfl }⟩
  intro x s s' h
  unfold fetchMoreBody
  have e : s'.tokens.isEmpty = s.tokens.isEmpty := by
    have := congrArg List.length h.tokens
    simp only [List.length_map] at this
    rw [Bool.eq_iff_iff]; simp only [List.isEmpty_iff_length_eq_zero, this]
  simp only [gets_bind, e]
  refine Out.ite (fun _ => Out.bindE (out_fetchNextToken h) fun _ s s' h => Out.okE h) fun _ => ?_
  refine Out.bindE (out_staleSimpleKeys h) fun _ s s' h => ?_
  simp only [gets_bind]
  rw [h.keys.any (f' := fun k => k.possible && k.tokenNumber == s'.tokensParsed) (f := fun k => k.possible && k.tokenNumber == s.tokensParsed)
    fun k k' hk => by rw [hk.possible, hk.number, h.parsed]]
  exact Out.ite (fun _ => Out.bindE (out_fetchNextToken h) fun _ s s' h => Out.okE h) fun _ => Out.okE h

theorem out_popToken {s s' : SSt} (h : Rel b l s s') : Out b l (TokR l) (popToken s) (popToken s') := by
  unfold popToken
  have ht := h.tokens
  cases h1 : s.tokens with
  | nil =>
    rw [h1] at ht
    cases h2 : s'.tokens with
    | nil => exact ⟨.inl ⟨rfl, rfl⟩, h.mark⟩
    | cons t' ts' => rw [h2] at ht; cases ht
  | cons t ts =>
    rw [h1] at ht
    cases h2 : s'.tokens with
    | nil => rw [h2] at ht; cases ht
    | cons t' ts' =>
      rw [h2] at ht
      simp only [List.map_cons, List.cons.injEq] at ht
      obtain ⟨h3, h4⟩ := ht
      simp only [tokView, Prod.mk.injEq, Nat.add_zero] at h3
      obtain ⟨e1, e2, e3, e4, e5⟩ := h3
      exact ⟨⟨e1, ⟨e2, e3⟩, ⟨e4, e5⟩⟩, { h with tokens := h4, reached := by simp [h.reached, e1], available := rfl, parsed := by simp [h.parsed], produced := by simp [h.produced, e1], ended := by simp [h.ended] }⟩

theorem out_nextToken {cfg : Cfg} {s s' : SSt} (h : Rel b l s s') (hp : s.streamEndProduced = false) : Out b l (TokR l) (nextToken cfg s) (nextToken cfg s') := by
  unfold nextToken
  rw [gets_bind, gets_bind, h.produced, hp]
  simp only [Bool.false_eq_true, if_false]
  rw [gets_bind, gets_bind, h.available]
  exact Out.bindE (out_when h fun _ => out_fetchMoreTokens h) fun _ s s' h => out_popToken h

end Verif.Scanner
