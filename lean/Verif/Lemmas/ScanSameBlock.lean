import Verif.Lemmas.ScanSame
/-!
# Two runs of the scanner side by side: block scalars, anchors, tags and directives
-/
namespace Verif.Scanner
open Verif Verif.CharUtils Verif.Source Verif.Spec

variable {b : Bool} {l : Nat}

/-! ## Block scalars -/

theorem out_blockChomp {s s' : SSt} (h : Rel b l s s') : Out b l Eq (blockChomp s) (blockChomp s') := by
  unfold blockChomp
  simp only [peekz_bind]
  rcases h.peek0 with he | ⟨_, h1, h2⟩
  · rw [he]
    exact Out.ite (fun _ => Out.bindE (out_skipNonBlank h he) fun _ s s' h => Out.okE h) fun _ =>
      Out.ite (fun _ => Out.bindE (out_skipNonBlank h he) fun _ s s' h => Out.okE h) fun _ => Out.okE h
  · rw [h1, h2]
    exact Out.okE h

theorem out_blockIncrement {m m'} {s s' : SSt} (h : Rel b l s s') (hm : MR l m m') : Out b l Eq (blockIncrement m s) (blockIncrement m' s') := by
  unfold blockIncrement
  simp only [peekz_bind]
  rcases h.peek0 with he | ⟨_, h1, h2⟩
  · rw [he]
    exact Out.ite (fun _ => Out.failIf_bind hm fun _ => Out.bindE (out_skipNonBlank h he) fun _ s s' h => Out.okE h) fun _ => Out.okE h
  · rw [h1, h2]
    exact Out.okE h

theorem out_blockHeader {m m'} {s s' : SSt} (h : Rel b l s s') (hm : MR l m m') : Out b l Eq (blockHeader m s) (blockHeader m' s') := by
  unfold blockHeader
  simp only [peekz_bind]
  have c1 := h.cls0 (p := fun c => c = 43 ∨ c = 45) (by simp)
  simp only [c1]
  refine Out.ite (fun _ => ?_) fun _ => ?_
  · exact Out.bindE (out_blockChomp h) fun _ s s' h => Out.bindE (out_blockIncrement h hm) fun _ s s' h => Out.okE h
  · exact Out.bindE (out_blockIncrement h hm) fun _ s s' h => Out.ite (fun _ => Out.okE h) fun _ => Out.bindE (out_blockChomp h) fun _ s s' h => Out.okE h

theorem out_spaces {n x} {s s' : SSt} (h : Rel b l s s') : Out b l Eq (loopM spacesBody n x s) (loopM spacesBody n x s') := by
  refine Out.loopE ?_ h
  intro x s s' h
  unfold spacesBody
  simp only [peekz_bind]
  rcases h.peek0 with he | ⟨_, h1, h2⟩
  · rw [he]
    exact Out.ite (fun _ => Out.bindE (out_skipBlank h he) fun _ s s' h => Out.okE h) fun _ => Out.okE h
  · rw [h1, h2]
    exact Out.okE h

theorem out_firstLine {cfg : Cfg} {n x} {s s' : SSt} (h : Rel b l s s') : Out b l Eq (loopM (firstLineBody cfg) n x s) (loopM (firstLineBody cfg) n x s') := by
  refine Out.loopE ?_ h
  intro x s s' h
  unfold firstLineBody
  refine Out.bindE (out_spaces h) fun _ s s' h => ?_
  simp only [gets_bind, peekz_bind, h.col, h.cls0 (p := isBreak) rfl]
  exact Out.ite (fun _ => Out.bindE (out_readBreak h) fun _ s s' h => Out.okE h) fun _ => Out.okE h

theorem out_skipFirstLineIndent {cfg : Cfg} {x} {s s' : SSt} (h : Rel b l s s') : Out b l Eq (skipFirstLineIndent cfg x s) (skipFirstLineIndent cfg x s') := by
  unfold skipFirstLineIndent
  refine Out.bindE (out_firstLine h) fun _ s s' h => ?_
  simp only [gets_bind, h.indent]
  exact Out.okE h

theorem out_indentSpaces {i n x} {s s' : SSt} (h : Rel b l s s') : Out b l Eq (loopM (indentSpacesBody i) n x s) (loopM (indentSpacesBody i) n x s') := by
  refine Out.loopE ?_ h
  intro x s s' h
  unfold indentSpacesBody
  simp only [peekz_bind, gets_bind, h.col]
  rcases h.peek0 with he | ⟨_, h1, h2⟩
  · rw [he]
    exact Out.ite (fun _ => Out.bindE (out_skipBlank h he) fun _ s s' h => Out.okE h) fun _ => Out.okE h
  · rw [h1, h2]
    simp
    exact Out.okE h

theorem out_blockIndentSpaces {cfg : Cfg} {i} {s s' : SSt} (h : Rel b l s s') : Out b l Eq (blockIndentSpaces cfg i s) (blockIndentSpaces cfg i s') := by
  unfold blockIndentSpaces
  refine Out.ite (fun _ => out_indentSpaces h) fun _ => Out.loopE ?_ h
  intro x s s' h
  unfold deepIndentBody
  refine Out.bindE (out_indentSpaces h) fun _ s s' h => ?_
  have c1 := h.cls0 (p := fun c => c != 32) rfl
  simp only [gets_bind, h.col, h.empty, c1]
  exact Out.ite (fun _ => Out.okE h) fun _ => Out.okE h

theorem out_skipBlockIndent {cfg : Cfg} {i x} {s s' : SSt} (h : Rel b l s s') : Out b l Eq (skipBlockIndent cfg i x s) (skipBlockIndent cfg i x s') := by
  refine Out.loopE ?_ h
  intro x s s' h
  unfold blockIndentBody
  refine Out.bindE (out_blockIndentSpaces h) fun _ s s' h => ?_
  simp only [peekz_bind, h.cls0 (p := isBreak) rfl]
  exact Out.ite (fun _ => Out.bindE (out_readBreak h) fun _ s s' h => Out.okE h) fun _ => Out.okE h

theorem out_content {n x} {s s' : SSt} (h : Rel b l s s') : Out b l Eq (loopM contentBody n x s) (loopM contentBody n x s') := by
  refine Out.loopE ?_ h
  intro x s s' h
  unfold contentBody
  simp only [peekz_bind, atEof_bind, h.empty]
  rcases h.peek0 with he | ⟨_, h1, h2⟩
  · rw [he]
    exact Out.ite (fun _ => Out.bindE (out_skipBlank h he) fun _ s s' h => Out.okE h) fun _ => Out.okE h
  · rw [h1, h2]
    simp [isBreak]
    exact Out.okE h

theorem out_pushNonBreakz {s s' : SSt} (h : Rel b l s s') (he : s.src.bufIsEmpty = true) : Out b l Eq (pushNonBreakz s) (pushNonBreakz s') := by
  unfold pushNonBreakz
  have hr : s.src.rest = [] := by simpa [Src.bufIsEmpty] using he
  have hr' : s'.src.rest = [] := by rw [h.rest, hr, conv_nil]
  obtain ⟨d, h1, h2, _⟩ := h.over
  rw [hr] at h1
  rw [hr'] at h2
  simp only [List.length_nil] at h1 h2
  split
  · trivial
  · rw [if_neg (by omega)]
    refine ⟨by simp [hr, hr'], ?_⟩
    have := h.adv (n := 0) (w := s.leadingWhitespace) h.flat0
    simp only [hr, hr']
    exact { this with leading := h.leading }

theorem out_contentLine {cfg : Cfg} {x} {s s' : SSt} (h : Rel b l s s') : Out b l Eq (contentLine cfg x s) (contentLine cfg x s') := by
  unfold contentLine
  refine Out.bindE (out_content h) fun _ s s' h => ?_
  simp only [atEof_bind, h.empty]
  exact Out.ite (fun he => Out.bindE (out_pushNonBreakz h he) fun _ s s' h => Out.okE h) fun _ => Out.okE h

theorem out_blockLines {cfg : Cfg} {q i n x} {s s' : SSt} (h : Rel b l s s') : Out b l Eq (loopM (blockBody cfg q i) n x s) (loopM (blockBody cfg q i) n x s') := by
  refine Out.loopE ?_ h
  intro x s s' h
  unfold blockBody
  simp only [gets_bind, h.col, h.empty, h.docEnd]
  refine Out.ite (fun _ => ?_) fun _ => Out.okE h
  simp only [peekz_bind, h.cls0 (p := isBlank) rfl]
  refine Out.bindE (out_contentLine h) fun _ s s' h => ?_
  simp only [atEof_bind, h.empty]
  exact Out.ite (fun he => Out.okE h) fun _ => Out.bindE (out_readBreak h) fun _ s s' h => Out.bindE (out_skipBlockIndent h) fun _ s s' h => Out.okE h

theorem out_blockContent {cfg : Cfg} {q c i x} {s s' : SSt} (h : Rel b l s s') : Out b l Eq (blockContent cfg q c i x s) (blockContent cfg q c i x s') := by
  unfold blockContent
  simp only [gets_bind, getMark_bind, h.col, h.indent]
  refine Out.failIf_bind h.mark fun _ => ?_
  have hm := h.mark
  generalize s.mark = m at hm
  generalize s'.mark = m' at hm
  refine Out.bindE (out_blockLines h) fun _ s s' h => ?_
  simp only [gets_bind, getMark_bind, atEof_bind, h.empty, h.col]
  exact out_push h hm h.mark

theorem out_blockFindIndent {cfg : Cfg} {x} {s s' : SSt} (h : Rel b l s s') : Out b l Eq (blockFindIndent cfg x s) (blockFindIndent cfg x s') := by
  unfold blockFindIndent
  simp only [gets_bind, h.indent]
  exact Out.ite (fun _ => out_skipFirstLineIndent h) fun _ => Out.bindE (out_skipBlockIndent h) fun _ s s' h => Out.okE h

theorem out_blockHeaderBreak {s s' : SSt} (h : Rel b l s s') : Out b l Eq (blockHeaderBreak s) (blockHeaderBreak s') := by
  unfold blockHeaderBreak
  simp only [peekz_bind, h.cls0 (p := isBreak) rfl]
  exact Out.ite (fun _ => out_readBreak h) fun _ => Out.okE h

theorem out_scanBlockScalar {cfg : Cfg} {q} {s s' : SSt} (h : Rel b l s s') (he : s'.src.peekz 0 = s.src.peekz 0) : Out b l Eq (scanBlockScalar cfg q s) (scanBlockScalar cfg q s') := by
  unfold scanBlockScalar
  simp only [getMark_bind]
  have hm := h.mark
  generalize s.mark = m at hm
  generalize s'.mark = m' at hm
  refine Out.bindE (out_skipNonBlank h he) fun _ s s' h => ?_
  refine Out.bindE (out_unrollNonBlockIndents h) fun _ s s' h => ?_
  refine Out.bindE (out_blockHeader h hm) fun _ s s' h => ?_
  refine Out.bindE (out_skipWsToEol h) fun _ s s' h => ?_
  have c1 := h.cls0 (p := fun x => !isBreakz x) rfl
  simp only [peekz_bind, c1]
  refine Out.failIf_bind hm fun _ => ?_
  refine Out.bindE (out_blockHeaderBreak h) fun _ s s' h => ?_
  have c1 := h.cls0 (p := fun x => x == 9) rfl
  simp only [peekz_bind, c1]
  refine Out.failIf_bind hm fun _ => ?_
  refine Out.bindE (out_blockFindIndent h) fun _ s s' h => ?_
  simp only [atEof_bind, h.empty]
  refine Out.ite (fun _ => ?_) fun _ => out_blockContent h
  have e : (s'.mark.line == m'.line) = (s.mark.line == m.line) := by
    rw [h.line, hm.2, Bool.eq_iff_iff]; simp
  simp only [getMark_bind, e]
  exact out_push h hm h.mark

/-! ## Anchors and tags -/

theorem out_anchor {n x} {s s' : SSt} (h : Rel b l s s') : Out b l Eq (loopM anchorBody n x s) (loopM anchorBody n x s') := by
  refine Out.loopE ?_ h
  intro x s s' h
  unfold anchorBody
  simp only [peekz_bind]
  rcases h.peek0 with he | ⟨_, h1, h2⟩
  · rw [he]
    exact Out.ite (fun _ => Out.bindE (out_skipNonBlank h he) fun _ s s' h => Out.okE h) fun _ => Out.okE h
  · rw [h1, h2]
    exact Out.okE h

theorem out_scanAnchor {cfg : Cfg} {q} {s s' : SSt} (h : Rel b l s s') (he : s'.src.peekz 0 = s.src.peekz 0) : Out b l (TokR l) (scanAnchor cfg q s) (scanAnchor cfg q s') := by
  unfold scanAnchor
  simp only [getMark_bind]
  have hm := h.mark
  generalize s.mark = m at hm
  generalize s'.mark = m' at hm
  refine Out.bindE (out_skipNonBlank h he) fun _ s s' h => ?_
  refine Out.bindE (out_anchor h) fun _ s s' h => ?_
  refine Out.failIf_bind hm fun _ => ?_
  simp only [getMark_bind]
  exact Out.ok ⟨rfl, hm, h.mark⟩ h

theorem out_uriStep {w c} {s s' : SSt} (h : Rel b l s s') (hf : Flat b s.src.rest 3) : Out b l Eq (uriStep w c s) (uriStep w c s') := by
  unfold uriStep
  exact Out.bindE (out_skipN h hf) fun _ s s' h => Out.ite (fun _ => trivial) fun _ => Out.ite (fun _ => Out.okE h) fun _ => Out.okE h

theorem out_uri {m m' n x} {s s' : SSt} (h : Rel b l s s') (hm : MR l m m') : Out b l Eq (loopM (uriBody m) n x s) (loopM (uriBody m') n x s') := by
  refine Out.loopE ?_ h
  intro x s s' h
  unfold uriBody
  simp only [peekz_bind]
  have bad : ∀ {s : SSt}, (s.src.peekz 0 = 10 ∨ s.src.peekz 1 = 10 ∨ s.src.peekz 2 = 10 ∨ s.src.peekz 0 = 13 ∨ s.src.peekz 1 = 13 ∨ s.src.peekz 2 = 13) →
      (!(s.src.peekz 0 == b%'%' && isAsciiHexdigit (s.src.peekz 1) && isAsciiHexdigit (s.src.peekz 2))) = true := by
    rintro s (h | h | h | h | h | h) <;> rw [h] <;> simp [isAsciiHexdigit, isAsciiDigit]
  have both : ∀ {f f' : Unit → SM (Loop (Nat × Nat) Nat)},
      (!(s.src.peekz 0 == b%'%' && isAsciiHexdigit (s.src.peekz 1) && isAsciiHexdigit (s.src.peekz 2))) = true →
      (!(s'.src.peekz 0 == b%'%' && isAsciiHexdigit (s'.src.peekz 1) && isAsciiHexdigit (s'.src.peekz 2))) = true →
      Out b l Eq ((failIf (!(s.src.peekz 0 == b%'%' && isAsciiHexdigit (s.src.peekz 1) && isAsciiHexdigit (s.src.peekz 2))) m "while parsing a tag, found an invalid escape sequence" >>= f) s)
        ((failIf (!(s'.src.peekz 0 == b%'%' && isAsciiHexdigit (s'.src.peekz 1) && isAsciiHexdigit (s'.src.peekz 2))) m' "while parsing a tag, found an invalid escape sequence" >>= f') s') := by
    intro f f' h1 h2
    rw [h1, h2]
    exact Out.failIf_bind hm nofun
  rcases h.peek0 with e0 | ⟨_, e, e'⟩
  · rcases h.peek1 e0 with e1 | ⟨_, e, e'⟩
    · have hf := h.flatS (h.flat1 e0) e1
      rcases h.peek hf with e2 | ⟨_, e, e'⟩
      · have hf := h.flatS hf e2
        simp only [Nat.reduceAdd] at e2
        rw [e0, e1, e2]
        refine Out.failIf_bind hm fun _ => ?_
        cases asHex (s.src.peekz 1) with
        | none => trivial
        | some hi =>
          cases asHex (s.src.peekz 2) with
          | none => trivial
          | some lo =>
            refine Out.ite (c := x.1 = 0) (fun _ => ?_) fun _ => Out.ite (fun _ => out_uriStep h hf) fun _ => out_fail hm
            cases utf8Width (hi * 16 + lo) with
            | none => exact out_fail hm
            | some w => exact out_uriStep h hf
      · exact both (bad (.inr (.inr (.inl e)))) (bad (.inr (.inr (.inr (.inr (.inr e'))))))
    · exact both (bad (.inr (.inl e))) (bad (.inr (.inr (.inr (.inr (.inl e'))))))
  · exact both (bad (.inl e)) (bad (.inr (.inr (.inr (.inl e')))))

theorem out_scanUriEscapes {cfg : Cfg} {m m'} {s s' : SSt} (h : Rel b l s s') (hm : MR l m m') : Out b l Eq (scanUriEscapes cfg m s) (scanUriEscapes cfg m' s') := by
  unfold scanUriEscapes
  refine Out.bindE (out_uri h hm) fun c s s' h => ?_
  cases Utf8.charFromU32 c with
  | none => exact out_fail hm
  | some ch => exact Out.okE h

theorem out_uriScans {cfg : Cfg} {m m' x} {s s' : SSt} (h : Rel b l s s') (hm : MR l m m') (he : s'.src.peekz 0 = s.src.peekz 0) :
    Out b l Eq (uriScansOrNonBlank cfg x m s) (uriScansOrNonBlank cfg x m' s') := by
  unfold uriScansOrNonBlank
  simp only [gets_bind]
  have hc : s'.src.peekChecked 0 = s.src.peekChecked 0 := by
    unfold Src.peekChecked
    rw [h.rest]
    rcases conv_get h.flat0 with e | ⟨_, e, e'⟩
    · exact e
    · unfold Src.peekz at he
      rw [h.rest, e, e'] at he
      cases he
  rw [hc]
  cases s.src.peekChecked 0 with
  | none => exact Out.bindE (out_skipNonBlank h he) fun _ s s' h => Out.okE h
  | some c => exact Out.ite (fun _ => Out.bindE (out_scanUriEscapes h hm) fun _ s s' h => Out.okE h) fun _ => Out.bindE (out_skipNonBlank h he) fun _ s s' h => Out.okE h

theorem out_uriChars {cfg : Cfg} {m m' n x} {s s' : SSt} (h : Rel b l s s') (hm : MR l m m') : Out b l Eq (loopM (uriCharsBody cfg m) n x s) (loopM (uriCharsBody cfg m') n x s') := by
  refine Out.loopE ?_ h
  intro x s s' h
  unfold uriCharsBody
  simp only [peekz_bind]
  rcases h.peek0 with he | ⟨_, h1, h2⟩
  · rw [he]
    exact Out.ite (fun _ => Out.bindE (out_uriScans h hm he) fun _ s s' h => Out.okE h) fun _ => Out.okE h
  · rw [h1, h2]
    exact Out.okE h

theorem out_scanVerbatimTag {cfg : Cfg} {m m'} {s s' : SSt} (h : Rel b l s s') (hm : MR l m m') (h0 : s.src.peekz 0 ≠ 10) (h1 : s.src.peekz 1 ≠ 10) :
    Out b l Eq (scanVerbatimTag cfg m s) (scanVerbatimTag cfg m' s') := by
  unfold scanVerbatimTag
  refine Out.bind (out_skipNonBlank h (h.eq0 h0)) fun _ _ t t' e _ _ h => ?_
  have e2 : t.src.peekz 0 = s.src.peekz 1 := by
    cases e; simp [Src.peekz, Src.skip]
  refine Out.bindE (out_skipNonBlank h (h.eq0 (by rw [e2]; exact h1))) fun _ s s' h => ?_
  refine Out.bindE (out_uriChars h hm) fun _ s s' h => ?_
  simp only [peekz_bind]
  rcases h.peek0 with he | ⟨_, h1, h2⟩
  · rw [he]
    exact Out.failIf_bind hm fun _ => Out.bindE (out_skipNonBlank h he) fun _ s s' h => Out.okE h
  · rw [h1, h2]
    exact Out.failIf_bind hm nofun

theorem out_scanTagHandle {q m m'} {s s' : SSt} (h : Rel b l s s') (hm : MR l m m') : Out b l Eq (scanTagHandle q m s) (scanTagHandle q m' s') := by
  unfold scanTagHandle
  simp only [peekz_bind]
  rcases h.peek0 with he | ⟨_, h1, h2⟩
  · rw [he]
    refine Out.failIf_bind hm fun _ => Out.bindE (out_skipNonBlank h he) fun _ s s' h => ?_
    refine Out.bindE (out_fetchAlpha h) fun _ s s' h => ?_
    simp only [peekz_bind]
    rcases h.peek0 with he | ⟨_, h1, h2⟩
    · rw [he]
      exact Out.ite (fun _ => Out.bindE (out_skipNonBlank h he) fun _ s s' h => Out.okE h) fun _ => Out.failIf_bind hm fun _ => Out.okE h
    · rw [h1, h2]
      exact Out.failIf_bind hm fun _ => Out.okE h
  · rw [h1, h2]
    exact Out.failIf_bind hm nofun

theorem out_suffix {cfg : Cfg} {m m' n x} {s s' : SSt} (h : Rel b l s s') (hm : MR l m m') : Out b l Eq (loopM (suffixBody cfg m) n x s) (loopM (suffixBody cfg m') n x s') := by
  refine Out.loopE ?_ h
  intro x s s' h
  unfold suffixBody
  simp only [peekz_bind]
  rcases h.peek0 with he | ⟨_, h1, h2⟩
  · rw [he]
    exact Out.ite (fun _ => Out.ite (fun _ => Out.bindE (out_scanUriEscapes h hm) fun _ s s' h => Out.okE h) fun _ => Out.bindE (out_skipNonBlank h he) fun _ s s' h => Out.okE h) fun _ => Out.okE h
  · rw [h1, h2]
    exact Out.okE h

theorem out_scanTagSuffix {cfg : Cfg} {m m' x} {s s' : SSt} (h : Rel b l s s') (hm : MR l m m') : Out b l Eq (scanTagSuffix cfg x m s) (scanTagSuffix cfg x m' s') := by
  unfold scanTagSuffix
  exact Out.bindE (out_suffix h hm) fun _ s s' h => Out.failIf_bind hm fun _ => Out.okE h

theorem out_scanTagParts {cfg : Cfg} {m m'} {s s' : SSt} (h : Rel b l s s') (hm : MR l m m') (h0 : s.src.peekz 0 ≠ 10) : Out b l Eq (scanTagParts cfg m s) (scanTagParts cfg m' s') := by
  unfold scanTagParts
  have c1 : s'.src.nextNextByteIs b%'<' = s.src.nextNextByteIs b%'<' := h.cls1 (p := fun x => x == 60) rfl (h.eq0 h0)
  simp only [gets_bind, c1]
  refine Out.ite (fun hc => ?_) fun _ => ?_
  · refine Out.bindE (out_scanVerbatimTag h hm h0 ?_) fun _ s s' h => Out.okE h
    intro hx
    simp [Src.nextNextByteIs, hx] at hc
  · refine Out.bindE (out_scanTagHandle h hm) fun _ s s' h => ?_
    exact Out.ite (fun _ => Out.bindE (out_scanTagSuffix h hm) fun _ s s' h => Out.okE h) fun _ => Out.bindE (out_scanTagSuffix h hm) fun _ s s' h => Out.okE h

theorem out_scanTag {cfg : Cfg} {s s' : SSt} (h : Rel b l s s') (h0 : s.src.peekz 0 ≠ 10) : Out b l (TokR l) (scanTag cfg s) (scanTag cfg s') := by
  unfold scanTag
  simp only [getMark_bind]
  have hm := h.mark
  generalize s.mark = m at hm
  generalize s'.mark = m' at hm
  refine Out.bindE (out_scanTagParts h hm h0) fun _ s s' h => ?_
  have c1 := h.cls0 (p := fun x => (isBlankOrBreakz x || (decide (s.flowLevel > 0) && isFlow x))) rfl
  simp only [gets_bind, h.level, c1]
  refine Out.failIf_bind hm fun _ => ?_
  simp only [getMark_bind]
  exact Out.ok ⟨rfl, hm, h.mark⟩ h

/-! ## Directives -/

theorem out_scanDirectiveName {s s' : SSt} (h : Rel b l s s') : Out b l Eq (scanDirectiveName s) (scanDirectiveName s') := by
  unfold scanDirectiveName
  simp only [getMark_bind]
  have hm := h.mark
  generalize s.mark = m at hm
  generalize s'.mark = m' at hm
  refine Out.bindE (out_fetchAlpha h) fun _ s s' h => ?_
  refine Out.failIf_bind hm fun _ => ?_
  have c1 := h.cls0 (p := fun x => !isBlankOrBreak x) rfl
  simp only [peekz_bind, c1]
  exact Out.failIf_bind hm fun _ => Out.okE h

theorem out_version {cfg : Cfg} {m m' n x} {s s' : SSt} (h : Rel b l s s') (hm : MR l m m') : Out b l Eq (loopM (versionBody cfg m) n x s) (loopM (versionBody cfg m') n x s') := by
  refine Out.loopE ?_ h
  intro x s s' h
  unfold versionBody
  simp only [peekz_bind]
  rcases h.peek0 with he | ⟨_, h1, h2⟩
  · rw [he]
    exact Out.ite (fun _ => Out.failIf_bind hm fun _ => Out.ite (fun _ => trivial) fun _ => Out.bindE (out_skipNonBlank h he) fun _ s s' h => Out.okE h) fun _ => Out.okE h
  · rw [h1, h2]
    exact Out.okE h

theorem out_scanVersionNumber {cfg : Cfg} {m m'} {s s' : SSt} (h : Rel b l s s') (hm : MR l m m') : Out b l Eq (scanVersionNumber cfg m s) (scanVersionNumber cfg m' s') := by
  unfold scanVersionNumber
  exact Out.bindE (out_version h hm) fun _ s s' h => Out.failIf_bind hm fun _ => Out.okE h

theorem out_scanVersionDirective {cfg : Cfg} {m m'} {s s' : SSt} (h : Rel b l s s') (hm : MR l m m') : Out b l (TokR l) (scanVersionDirective cfg m s) (scanVersionDirective cfg m' s') := by
  unfold scanVersionDirective
  refine Out.bindE (out_skipBlanks h) fun _ s s' h => Out.bindE (out_scanVersionNumber h hm) fun _ s s' h => ?_
  simp only [peekz_bind]
  rcases h.peek0 with he | ⟨_, h1, h2⟩
  · rw [he]
    refine Out.failIf_bind hm fun _ => Out.bindE (out_skipNonBlank h he) fun _ s s' h => Out.bindE (out_scanVersionNumber h hm) fun _ s s' h => ?_
    simp only [getMark_bind]
    exact Out.ok ⟨rfl, hm, h.mark⟩ h
  · rw [h1, h2]
    exact Out.failIf_bind hm nofun

theorem out_scanTagPrefix {cfg : Cfg} {m m'} {s s' : SSt} (h : Rel b l s s') (hm : MR l m m') : Out b l Eq (scanTagPrefix cfg m s) (scanTagPrefix cfg m' s') := by
  unfold scanTagPrefix
  refine Out.bindE ?_ fun _ s s' h => out_uriChars h hm
  unfold scanPrefixStart
  simp only [peekz_bind]
  rcases h.peek0 with he | ⟨_, h1, h2⟩
  · rw [he]
    exact Out.ite (fun _ => Out.bindE (out_skipNonBlank h he) fun _ s s' h => Out.okE h) fun _ => Out.ite (fun _ => out_fail hm) fun _ => out_uriScans h hm he
  · rw [h1, h2]
    exact out_fail hm

theorem out_scanTagDirective {cfg : Cfg} {m m'} {s s' : SSt} (h : Rel b l s s') (hm : MR l m m') : Out b l (TokR l) (scanTagDirective cfg m s) (scanTagDirective cfg m' s') := by
  unfold scanTagDirective
  refine Out.bindE (out_skipBlanks h) fun _ s s' h => Out.bindE (out_scanTagHandle h hm) fun _ s s' h => ?_
  refine Out.failIf_bind hm fun _ => ?_
  refine Out.bindE (out_skipBlanks h) fun _ s s' h => Out.bindE (out_scanTagPrefix h hm) fun _ s s' h => ?_
  refine Out.failIf_bind hm fun _ => ?_
  have c1 := h.cls0 (p := fun x => !isBlankOrBreak x) rfl
  simp only [peekz_bind, c1]
  refine Out.failIf_bind hm fun _ => ?_
  simp only [getMark_bind]
  exact Out.ok ⟨rfl, hm, h.mark⟩ h

theorem out_scanDirective {cfg : Cfg} {s s' : SSt} (h : Rel b l s s') (he : s'.src.peekz 0 = s.src.peekz 0) : Out b l (TokR l) (scanDirective cfg s) (scanDirective cfg s') := by
  unfold scanDirective
  simp only [getMark_bind]
  have hm := h.mark
  generalize s.mark = m at hm
  generalize s'.mark = m' at hm
  refine Out.bindE (out_skipNonBlank h he) fun _ s s' h => Out.bindE (out_scanDirectiveName h) fun _ s s' h => ?_
  refine Out.bind (V := TokR l) ?_ fun t t' s s' _ _ ht h => ?_
  · refine Out.ite (fun _ => out_scanVersionDirective h hm) fun _ => Out.ite (fun _ => out_scanTagDirective h hm) fun _ => ?_
    unfold scanOtherDirective
    refine Out.bindE (out_skipNonBreaks h) fun _ s s' h => ?_
    simp only [getMark_bind]
    exact Out.ok ⟨rfl, hm, h.mark⟩ h
  · refine Out.bindE (out_skipWsToEol h) fun _ s s' h => ?_
    have c1 := h.cls0 (p := fun x => !(isBreak x || x == 35)) rfl
    simp only [peekz_bind, c1]
    exact Out.failIf_bind hm fun _ => Out.bindE (out_skipLinebreak h) fun _ s s' h => Out.ok ht h

end Verif.Scanner
