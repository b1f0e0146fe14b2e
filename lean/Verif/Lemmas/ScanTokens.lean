import Verif.Lemmas.ScanMove
/-!
# The functions that scan one token: anchors, tags, directives
-/
namespace Verif.Scanner
open Verif Verif.CharUtils Verif.Source

/-- the texts a token carries -/
def texts : TokenType → List (List Byte)
  | .comment t => [t]
  | .alias t => [t]
  | .anchor t => [t]
  | .tagDirective h p => [h, p]
  | .tag h t => [h, t]
  | .scalar _ t => [t]
  | _ => []

/-- tokens with content, as opposed to structure -/
def leaf : TokenType → Bool
  | .comment _ | .alias _ | .anchor _ | .tagDirective _ _ | .tag _ _ | .scalar _ _ | .versionDirective _ _ => true
  | _ => false

/-- every text of the token is valid UTF-8 -/
def TextOk (x : Ctx) (tt : TokenType) : Prop := ∀ w ∈ texts tt, VT x w

/-- What scanning a token from `s` to `s'` guarantees about it. -/
structure TokOk (x : Ctx) (s s' : SSt) (t : Token) : Prop where
  start : s.mark.pos ≤ t.span.start.pos
  order : t.span.start.pos ≤ t.span.stop.pos
  stop : t.span.stop.pos ≤ s'.mark.pos
  text : TextOk x t.tt
  kind : leaf t.tt = true
  at1 : At x t.span.start
  at2 : At x t.span.stop

/-- a good reading position, between two characters -/
structure Pt (x : Ctx) (s : SSt) : Prop where
  ok : Ok x s
  v : V x s

/-- the state moved forward or stayed -/
structure Fwd (x : Ctx) (s s' : SSt) : Prop where
  adv : Adv s s'
  v : V x s'

/-- the state moved forward by at least a byte -/
structure Prog (x : Ctx) (s s' : SSt) : Prop where
  adv : Adv s s'
  v : V x s'
  less : s'.src.rest.length < s.src.rest.length

theorem Fwd.trans {x a b c} (h : Fwd x a b) (k : Fwd x b c) : Fwd x a c := ⟨h.adv.trans k.adv, k.v⟩
theorem Prog.fwd {x a b} (h : Prog x a b) : Fwd x a b := ⟨h.adv, h.v⟩
theorem Prog.then {x a b c} (h : Prog x a b) (k : Fwd x b c) : Prog x a c :=
  ⟨h.adv.trans k.adv, k.v, by have := h.less; have := k.adv.len_le; omega⟩
theorem Fwd.then {x a b c} (h : Fwd x a b) (k : Prog x b c) : Prog x a c :=
  ⟨h.adv.trans k.adv, k.v, by have := k.less; have := h.adv.len_le; omega⟩
theorem Pt.refl {x s} (h : Pt x s) : Fwd x s s := ⟨.refl s, h.v⟩
theorem Pt.fwd {x s s'} (h : Pt x s) (k : Fwd x s s') : Pt x s' := ⟨h.ok.adv k.adv, k.v⟩
theorem Pt.prog {x s s'} (h : Pt x s) (k : Prog x s s') : Pt x s' := ⟨h.ok.adv k.adv, k.v⟩
theorem Pt.fuel {x s} (h : Pt x s) : s.src.rest.length < x.cfg.fuel := by have := h.ok.fuel; omega

theorem prog_skip1 {x s s' c} (h : Pt x s) (a : Adv s s') (e : s.src.rest = c :: s'.src.rest) (hc : c < 128) : Prog x s s' :=
  ⟨a, h.v.skip1 e hc, by rw [e]; simp⟩

/-- skipping a known ASCII byte -/
theorem wp_eat {x} {Q : Unit → SSt → Prop} {s c} (h : Pt x s) (e : s.src.peekz 0 = c) (h0 : c ≠ 0) (hc : c ≠ 10) (ha : c < 128)
    (k : ∀ s', Prog x s s' → s.src.rest = c :: s'.src.rest → Q () s') : wp x skipNonBlank Q s := by
  obtain ⟨r, e⟩ := peek_cons e h0
  exact wp_skipNonBlank h.ok e hc (fun s' a _ e3 => k s' (prog_skip1 h a e3 ha) e3)

theorem wp_eatBlank {x} {Q : Unit → SSt → Prop} {s c} (h : Pt x s) (e : s.src.peekz 0 = c) (h0 : c ≠ 0) (hc : c ≠ 10)
    (ha : c < 128) (k : ∀ s', Prog x s s' → Q () s') : wp x skipBlank Q s := by
  obtain ⟨r, e⟩ := peek_cons e h0
  exact wp_skipBlank h.ok e hc (fun s' a _ e3 => k s' (prog_skip1 h a e3 ha))

theorem wp_ws {x tabs ws} {Q : Bool × Bool → SSt → Prop} {s} (h : Pt x s) (k : ∀ r s', Fwd x s s' → Q r s') :
    wp x (skipWsToEol tabs ws) Q s :=
  wp_skipWsToEol h.ok (fun r s' a v _ => k r s' ⟨a, v h.v⟩)

theorem peek_boundary {x str s} (h : VS x str s) (hp : s.src.peekz 0 < 128) : VT x str ∧ V x s :=
  h.stop (peek_ascii (p := (· < 128)) hp (fun _ h => h))

/-! ## Anchors -/

theorem wp_scanAnchor {x al} {Q : Token → SSt → Prop} {s} (h : Pt x s)
    (hc : s.src.peekz 0 = 42 ∨ s.src.peekz 0 = 38)
    (k : ∀ t s', Prog x s s' → TokOk x s s' t → Q t s') : wp x (scanAnchor x.cfg al) Q s := by
  unfold scanAnchor
  sg
  apply wp_bind
  refine wp_eat h rfl (by omega) (by omega) (by omega) ?_
  intro s1 p1 _
  have h1 := h.prog p1
  apply wp_bind
  refine wp_loopM (fun str s2 => Adv s1 s2 ∧ VS x str s2) (fun _ s' => s'.src.rest.length)
    ⟨.refl s1, .start h1.v .nil⟩ ?_ (.inl h1.fuel)
  intro str s2 ⟨a2, v2⟩
  unfold anchorBody
  sg
  refine wp_ite (fun hc => ?_) (fun hc => ?_)
  · have hne : s2.src.peekz 0 ≠ 0 ∧ s2.src.peekz 0 ≠ 10 := by
      simp [isAnchorChar, isYamlNonSpace, isBlank, isBreak] at hc; omega
    obtain ⟨r, e⟩ := peek_cons (s := s2.src) rfl hne.1
    apply wp_bind
    refine wp_skipNonBlank (h1.ok.adv a2) e hne.2 ?_
    intro s3 a3 e3 e4
    sdone
    exact ⟨⟨a2.trans a3, v2.push e4⟩, .inl (by rw [e4]; simp)⟩
  · sdone
    have hp : s2.src.peekz 0 < 128 := by
      simp [isAnchorChar, isYamlNonSpace, isBlank, isBreak, isFlow] at hc
      omega
    apply wp_bind
    refine wp_failIf h.ok.here ?_
    intro _
    sg
    apply wp_pure
    have := p1.adv.pos_le
    have := a2.pos_le
    obtain ⟨t2, v2⟩ := peek_boundary v2 hp
    refine k _ _ (p1.then ⟨a2, v2⟩) ⟨by simp, by simp; omega, by simp, ?_, ?_, h.ok.at, ((h.prog p1).ok.adv a2).at⟩
    · cases al <;> simpa [TextOk, texts] using t2
    · cases al <;> rfl

/-! ## Percent escapes and tags -/

theorem hex_facts {c} (h : isAsciiHexdigit c = true) : (∃ d, asHex c = some d ∧ d < 16) ∧ c < 128 ∧ c ≠ 10 ∧ c ≠ 0 := by
  simp [isAsciiHexdigit] at h
  refine ⟨?_, by omega, by omega, by omega⟩
  unfold asHex
  split
  · exact ⟨_, rfl, by omega⟩
  split
  · exact ⟨_, rfl, by omega⟩
  split
  · exact ⟨_, rfl, by omega⟩
  · omega

theorem utf8Width_pos {b w} (h : utf8Width b = some w) : w ≠ 0 := by
  unfold utf8Width at h
  repeat' split at h
  all_goals simp at h
  all_goals omega

theorem peek2_cons {s : Src} {c d e} (h0 : s.peekz 0 = c) (h1 : s.peekz 1 = d) (h2 : s.peekz 2 = e) (hc : c ≠ 0) (hd : d ≠ 0)
    (he : e ≠ 0) : ∃ r, s.rest = c :: d :: e :: r := by
  obtain ⟨r, e1⟩ := peek_cons h0 hc
  obtain ⟨r1, e2⟩ := peek1_cons e1 h1 hd
  cases r1 with
  | nil => simp [Src.peekz, e2] at h2; omega
  | cons f r2 => simp [Src.peekz, e2] at h2; exact ⟨r2, by rw [e2, h2]⟩

theorem wp_scanUriEscapes {x m} {Q : List Byte → SSt → Prop} {s} (h : Pt x s) (hm : At x m)
    (k : ∀ w s', Prog x s s' → VT x w → Q w s') : wp x (scanUriEscapes x.cfg m) Q s := by
  have he := fun msg => h.ok.err m msg hm
  unfold scanUriEscapes
  apply wp_bind
  refine wp_loopM (fun _ s1 => Fwd x s s1) (fun _ s' => s'.src.rest.length) h.refl ?_ (.inl h.fuel)
  intro wc s1 f1
  have h1 := h.fwd f1
  unfold uriBody
  sg; sg; sg
  apply wp_bind
  refine wp_failIf (he _) ?_
  intro hc
  simp at hc
  obtain ⟨⟨d1, e1, _⟩, b1⟩ := hex_facts hc.1.2
  obtain ⟨⟨d2, e2, _⟩, b2⟩ := hex_facts hc.2
  obtain ⟨r, er⟩ := peek2_cons hc.1.1 rfl rfl (by decide) b1.2.2 b2.2.2
  rw [e1, e2]
  dsimp only
  have hstep : ∀ w c, w ≠ 0 → wp x (uriStep w c)
      (LoopPost x (fun _ s1 => Fwd x s s1) (fun _ s' => s'.src.rest.length)
        (fun a s' => wp x
            (match Utf8.charFromU32 a with
              | some ch => pure (Utf8.encode ch)
              | none => fail m "while parsing a tag, found an invalid UTF-8 codepoint")
            Q s') s1.src.rest.length) s1 := by
    intro w c hw
    unfold uriStep
    apply wp_bind
    refine wp_skipN h1.ok (w := [37, s1.src.peekz 1, s1.src.peekz 2]) (r := r) (by simpa using er) rfl (by simp; omega) ?_
    intro s2 a2 r2
    have p2 : Prog x s1 s2 := ⟨a2, h1.v.skip (w := [37, s1.src.peekz 1, s1.src.peekz 2]) (by rw [er, r2]; rfl)
      (by simp; omega), by rw [er, r2]; simp; omega⟩
    refine wp_ite (fun h0 => absurd h0 hw) (fun _ => ?_)
    refine wp_ite (fun _ => ?_) (fun _ => ?_)
    · sdone
      have p := f1.then p2
      split
      · rename_i ch hch
        apply wp_pure
        exact k _ _ p (fun _ => Utf8.run_encode hch)
      · exact wp_fail (he _)
    · sdone
      exact ⟨f1.trans p2.fwd, .inl p2.less⟩
  refine wp_ite (fun _ => ?_) (fun h0 => ?_)
  · split
    · exact wp_fail (he _)
    · rename_i w hw
      exact hstep _ _ (utf8Width_pos hw)
  · refine wp_ite (fun _ => hstep _ _ h0) (fun _ => wp_fail (he _))

theorem isUriChar_facts {c} (h : isUriChar c = true) : c < 128 ∧ c ≠ 10 ∧ c ≠ 0 := by
  simp [isUriChar, isWordChar, isAsciiAlphanumeric] at h; omega

theorem isTagChar_facts {c} (h : isTagChar c = true) : c < 128 ∧ c ≠ 10 ∧ c ≠ 0 := by
  simp only [isTagChar, Bool.and_eq_true] at h
  exact isUriChar_facts h.1.1

theorem wp_uriScans {x m str} {Q : List Byte → SSt → Prop} {s} (h : Pt x s) (hm : At x m)
    (hc : isUriChar (s.src.peekz 0) = true) (ht : VT x str)
    (k : ∀ w s', Prog x s s' → VT x w → Q w s') : wp x (uriScansOrNonBlank x.cfg str m) Q s := by
  have hf := isUriChar_facts hc
  unfold uriScansOrNonBlank
  sg
  obtain ⟨r, e⟩ := peek_cons (s := s.src) rfl hf.2.2
  simp only [Src.peekChecked, e, List.getElem?_cons_zero]
  refine wp_ite (fun _ => ?_) (fun _ => ?_)
  · apply wp_bind
    refine wp_scanUriEscapes h hm ?_
    intro w s1 p1 t1
    apply wp_pure
    exact k _ _ p1 (ht.app t1)
  · apply wp_bind
    refine wp_eat h rfl hf.2.2 hf.2.1 hf.1 ?_
    intro s1 p1 _
    apply wp_pure
    exact k _ _ p1 (ht.app (.ascii (by simpa using hf.1)))

theorem wp_uriChars {x m str} {Q : List Byte → SSt → Prop} {s} (h : Pt x s) (hm : At x m) (ht : VT x str)
    (k : ∀ w s', Fwd x s s' → VT x w → Q w s') : wp x (loopM (uriCharsBody x.cfg m) x.cfg.fuel str) Q s := by
  refine wp_loopM (fun w s1 => Fwd x s s1 ∧ VT x w) (fun _ s' => s'.src.rest.length) ⟨h.refl, ht⟩ ?_ (.inl h.fuel)
  intro w s1 ⟨f1, t1⟩
  unfold uriCharsBody
  sg
  refine wp_ite (fun hc => ?_) (fun _ => ?_)
  · apply wp_bind
    refine wp_uriScans (h.fwd f1) hm hc t1 ?_
    intro w2 s2 p2 t2
    sdone
    exact ⟨⟨f1.trans p2.fwd, t2⟩, .inl p2.less⟩
  · sdone
    exact k _ _ f1 t1

theorem Pt.at {x s} (h : Pt x s) : At x s.mark := h.ok.at

theorem wp_scanVerbatimTag {x m} {Q : List Byte → SSt → Prop} {s} (h : Pt x s) (hm : At x m)
    (h0 : s.src.peekz 0 = 33) (h1 : s.src.peekz 1 = 60)
    (k : ∀ w s', Prog x s s' → VT x w → Q w s') : wp x (scanVerbatimTag x.cfg m) Q s := by
  have he := fun msg => h.ok.err m msg hm
  obtain ⟨r, e⟩ := peek_cons h0 (by decide)
  obtain ⟨r, e⟩ := peek1_cons e h1 (by decide)
  unfold scanVerbatimTag
  apply wp_bind
  refine wp_eat h h0 (by decide) (by decide) (by decide) ?_
  intro s1 p1 e1
  have e2 : s1.src.peekz 0 = 60 := by
    rw [e] at e1; injection e1 with _ e1; exact peek_of e1.symm
  apply wp_bind
  refine wp_eat (h.prog p1) e2 (by decide) (by decide) (by decide) ?_
  intro s2 p2 _
  have p2 := p1.then p2.fwd
  apply wp_bind
  refine wp_uriChars (h.prog p2) hm .nil ?_
  intro w s3 f3 t3
  have p3 := p2.then f3
  sg
  apply wp_bind
  refine wp_failIf (he _) ?_
  intro hc
  simp at hc
  apply wp_bind
  refine wp_eat (h.prog p3) hc (by decide) (by decide) (by decide) ?_
  intro s4 p4 _
  apply wp_pure
  exact k _ _ (p3.then p4.fwd) t3

theorem wp_scanTagHandle {x d m} {Q : List Byte → SSt → Prop} {s} (h : Pt x s) (hm : At x m)
    (k : ∀ w s', Prog x s s' → (∀ c ∈ w, c < 128) → Q w s') : wp x (scanTagHandle d m) Q s := by
  have he := fun msg => h.ok.err m msg hm
  unfold scanTagHandle
  sg
  apply wp_bind
  refine wp_failIf (he _) ?_
  intro hc
  simp at hc
  apply wp_bind
  refine wp_eat h hc (by decide) (by decide) (by decide) ?_
  intro s1 p1 _
  have h1 := h.prog p1
  apply wp_bind
  refine wp_fetchAlpha h1.ok ?_
  intro w s2 a2 v2 ha
  have p2 := p1.then ⟨a2, v2 h1.v⟩
  sg
  refine wp_ite (fun hc => ?_) (fun _ => ?_)
  · apply wp_bind
    refine wp_eat (h.prog p2) hc (by decide) (by decide) (by decide) ?_
    intro s3 p3 _
    apply wp_pure
    refine k _ _ (p2.then p3.fwd) ?_
    intro c hc
    simp at hc
    rcases hc with rfl | hc | rfl <;> first | exact ha _ ‹_› | decide
  · apply wp_bind
    refine wp_failIf (he _) ?_
    intro _
    apply wp_pure
    refine k _ _ p2 ?_
    intro c hc
    simp at hc
    rcases hc with rfl | hc <;> first | exact ha _ ‹_› | decide

theorem wp_scanTagSuffix {x m hd} {Q : List Byte → SSt → Prop} {s} (h : Pt x s) (hm : At x m) (ha : ∀ c ∈ hd, c < 128)
    (k : ∀ w s', Fwd x s s' → VT x w → Q w s') : wp x (scanTagSuffix x.cfg hd m) Q s := by
  have he := fun msg => h.ok.err m msg hm
  unfold scanTagSuffix
  apply wp_bind
  refine wp_loopM (fun w s1 => Fwd x s s1 ∧ VT x w.2) (fun _ s' => s'.src.rest.length) ⟨h.refl, ?_⟩ ?_ (.inl h.fuel)
  · dsimp only
    split
    · exact .ascii fun c hc => ha c (List.mem_of_mem_drop hc)
    · exact .nil
  · intro w s1 ⟨f1, t1⟩
    unfold suffixBody
    sg
    refine wp_ite (fun hc => ?_) (fun _ => ?_)
    · have hf := isTagChar_facts hc
      refine wp_ite (fun _ => ?_) (fun _ => ?_)
      · apply wp_bind
        refine wp_scanUriEscapes (h.fwd f1) hm ?_
        intro w2 s2 p2 t2
        sdone
        exact ⟨⟨f1.trans p2.fwd, t1.app t2⟩, .inl p2.less⟩
      · apply wp_bind
        refine wp_eat (h.fwd f1) rfl hf.2.2 hf.2.1 hf.1 ?_
        intro s2 p2 _
        sdone
        exact ⟨⟨f1.trans p2.fwd, t1.app (.ascii (by simpa using hf.1))⟩, .inl p2.less⟩
    · sdone
      apply wp_bind
      refine wp_failIf (he _) ?_
      intro _
      apply wp_pure
      exact k _ _ f1 t1

theorem wp_scanTag {x} {Q : Token → SSt → Prop} {s} (h : Pt x s) (hc : s.src.peekz 0 = 33)
    (k : ∀ t s', Prog x s s' → TokOk x s s' t → Q t s') : wp x (scanTag x.cfg) Q s := by
  have hm : At x s.mark := h.at
  unfold scanTag getMark
  sg
  apply wp_bind
  have hparts : wp x (scanTagParts x.cfg s.mark) (fun r s' => Prog x s s' ∧ VT x r.1 ∧ VT x r.2) s := by
    unfold scanTagParts
    sg
    refine wp_ite (fun hv => ?_) (fun _ => ?_)
    · apply wp_bind
      refine wp_scanVerbatimTag h hm hc (by simpa [Src.nextNextByteIs] using hv) ?_
      intro w s1 p1 t1
      exact wp_pure ⟨p1, .nil, t1⟩
    · apply wp_bind
      refine wp_scanTagHandle h hm ?_
      intro w s1 p1 a1
      refine wp_ite (fun _ => ?_) (fun _ => ?_)
      · apply wp_bind
        refine wp_scanTagSuffix (h.prog p1) hm (by simp) ?_
        intro w2 s2 f2 t2
        exact wp_pure ⟨p1.then f2, .ascii a1, t2⟩
      · apply wp_bind
        refine wp_scanTagSuffix (h.prog p1) hm a1 ?_
        intro w2 s2 f2 t2
        refine wp_pure ⟨p1.then f2, ?_⟩
        split
        · exact ⟨.nil, .ascii (by simp)⟩
        · exact ⟨.ascii (by simp), t2⟩
  refine wp_mono hparts ?_
  intro r s1 ⟨p1, t1, t2⟩
  sg
  apply wp_bind
  refine wp_failIf h.ok.here ?_
  intro _
  sg
  apply wp_pure
  refine k _ _ p1 ⟨Nat.le_refl _, p1.adv.pos_le, Nat.le_refl _, ?_, rfl, h.at, (h.prog p1).at⟩
  intro w hw
  simp [texts] at hw
  rcases hw with rfl | rfl
  · exact t1
  · exact t2

/-! ## Directives -/

/-- a percent sign has been read -/
def Percent (x : Ctx) (s : SSt) : Prop := ∃ pre, x.input = pre ++ s.src.rest ∧ 37 ∈ pre

theorem Percent.fwd {x s s'} (h : Percent x s) (f : Fwd x s s') : Percent x s' := by
  obtain ⟨pre, h1, h2⟩ := h
  obtain ⟨w, h3, _⟩ := f.adv.mv.split
  exact ⟨pre ++ w, by rw [h1, h3]; simp, by simp [h2]⟩

theorem wp_scanVersionNumber {x m} {Q : Nat → SSt → Prop} {s} (h : Pt x s) (hm : At x m)
    (hd : Percent x s) (k : ∀ w s', Fwd x s s' → Q w s') : wp x (scanVersionNumber x.cfg m) Q s := by
  obtain ⟨pre, hd1, hd2⟩ := hd
  have he := fun msg => h.ok.err m msg hm
  unfold scanVersionNumber
  apply wp_bind
  refine wp_loopM (fun w s1 => Fwd x s s1 ∧ ∃ ds, x.input = pre ++ ds ++ s1.src.rest ∧ (∀ d ∈ ds, 48 ≤ d ∧ d ≤ 57) ∧
      (ds = [] → w.1 = 0) ∧ (ds.length = 1 → w.1 ≤ 9)) (fun _ s' => s'.src.rest.length)
    ⟨h.refl, [], by simpa using hd1, by simp, by simp, by simp⟩ ?_ (.inl h.fuel)
  intro w s1 ⟨f1, ds, hds, hdig, hw0, hw1⟩
  unfold versionBody
  sg
  refine wp_ite (fun hc => ?_) (fun _ => ?_)
  · simp [isAsciiDigit] at hc
    apply wp_bind
    refine wp_failIf (he _) ?_
    intro _
    refine wp_ite (fun hv => wp_panic ?_) (fun _ => ?_)
    · refine h.ok.version hv.1 ?_
      obtain ⟨r, e⟩ := peek_cons (c := s1.src.peekz 0) rfl (by omega)
      refine ⟨pre, ds ++ [s1.src.peekz 0], r, by rw [hds, e]; simp, hd2, ?_, ?_⟩
      · rcases ds with _ | ⟨d1, _ | ⟨d2, ds⟩⟩
        · have := hw0 rfl; omega
        · have := hw1 rfl; omega
        · simp
      · intro d hm'
        rcases List.mem_append.1 hm' with hm' | hm'
        · exact hdig d hm'
        · simp at hm'; omega
    apply wp_bind
    refine wp_eat (h.fwd f1) rfl (by omega) (by omega) (by omega) ?_
    intro s2 p2 e2
    sdone
    refine ⟨⟨f1.trans p2.fwd, ds ++ [s1.src.peekz 0], by rw [hds, e2]; simp, ?_, by simp, ?_⟩, .inl p2.less⟩
    · intro d hm'
      rcases List.mem_append.1 hm' with hm' | hm'
      · exact hdig d hm'
      · simp at hm'; omega
    · intro hl
      have : ds = [] := by simpa using hl
      have := hw0 this
      simp only [this]
      omega
  · sdone
    apply wp_bind
    refine wp_failIf (he _) ?_
    intro _
    apply wp_pure
    exact k _ _ f1

theorem wp_blanks {x} {Q : Unit → SSt → Prop} {s} (h : Pt x s)
    (k : ∀ s', Fwd x s s' → Q () s') : wp x (skipCounted Src.skipWhileBlank) Q s :=
  wp_skipWhileBlank h.ok (fun s' a v => k s' ⟨a, v h.v⟩)

/-- What the middle part of a directive guarantees: a token that starts at `m`. -/
def DirOk (x : Ctx) (m : Marker) (s : SSt) (t : Token) (s' : SSt) : Prop :=
  Fwd x s s' ∧ t.span.start = m ∧ t.span.stop = s'.mark ∧ TextOk x t.tt ∧ leaf t.tt = true

theorem wp_scanVersionDirective {x m} {s} (h : Pt x s) (hm : At x m)
    (hd : Percent x s) : wp x (scanVersionDirective x.cfg m) (DirOk x m s) s := by
  have he := fun msg => h.ok.err m msg hm
  unfold scanVersionDirective
  apply wp_bind
  refine wp_blanks h ?_
  intro s1 f1
  apply wp_bind
  refine wp_scanVersionNumber (h.fwd f1) hm (hd.fwd f1) ?_
  intro a s2 f2
  have f2 := f1.trans f2
  sg
  apply wp_bind
  refine wp_failIf (he _) ?_
  intro hc
  simp at hc
  apply wp_bind
  refine wp_eat (h.fwd f2) hc (by decide) (by decide) (by decide) ?_
  intro s3 p3 _
  have f3 := f2.trans p3.fwd
  apply wp_bind
  refine wp_scanVersionNumber (h.fwd f3) hm (hd.fwd f3) ?_
  intro b s4 f4
  sg
  exact wp_pure ⟨f3.trans f4, rfl, rfl, by simp [TextOk, texts], rfl⟩

theorem wp_scanTagDirective {x m} {s} (h : Pt x s) (hm : At x m) :
    wp x (scanTagDirective x.cfg m) (DirOk x m s) s := by
  have he := fun msg => h.ok.err m msg hm
  unfold scanTagDirective
  apply wp_bind
  refine wp_blanks h ?_
  intro s1 f1
  apply wp_bind
  refine wp_scanTagHandle (h.fwd f1) hm ?_
  intro w s2 p2 a2
  have f2 := f1.trans p2.fwd
  apply wp_bind
  refine wp_failIf (he _) ?_
  intro _
  apply wp_bind
  refine wp_blanks (h.fwd f2) ?_
  intro s3 f3
  have f3 := f2.trans f3
  apply wp_bind
  have hpre : wp x (scanTagPrefix x.cfg m) (fun w s' => Fwd x s s' ∧ VT x w) s3 := by
    unfold scanTagPrefix
    apply wp_bind
    have hps : wp x (scanPrefixStart x.cfg m) (fun w s' => Fwd x s s' ∧ VT x w) s3 := by
      unfold scanPrefixStart
      sg
      refine wp_ite (fun hc => ?_) (fun _ => ?_)
      · apply wp_bind
        refine wp_eat (h.fwd f3) hc (by decide) (by decide) (by decide) ?_
        intro s4 p4 _
        exact wp_pure ⟨f3.trans p4.fwd, .ascii (by simp)⟩
      · refine wp_ite (fun _ => wp_fail (he _)) (fun hc => ?_)
        simp [isTagChar] at hc
        refine wp_uriScans (h.fwd f3) hm hc.1.1 .nil ?_
        intro w s4 p4 t4
        exact ⟨f3.trans p4.fwd, t4⟩
    refine wp_mono hps ?_
    intro w s4 ⟨f4, t4⟩
    refine wp_uriChars (h.fwd f4) hm t4 ?_
    intro w s5 f5 t5
    exact ⟨f4.trans f5, t5⟩
  refine wp_mono hpre ?_
  intro w s4 ⟨f4, t4⟩
  apply wp_bind
  refine wp_failIf (he _) ?_
  intro _
  sg
  apply wp_bind
  refine wp_failIf (he _) ?_
  intro _
  sg
  refine wp_pure ⟨f4, rfl, rfl, ?_, rfl⟩
  intro w hw
  simp [texts] at hw
  rcases hw with rfl | rfl
  · exact .ascii a2
  · exact t4

theorem wp_scanDirective {x} {Q : Token → SSt → Prop} {s} (h : Pt x s) (hc : s.src.peekz 0 = 37)
    (k : ∀ t s', Prog x s s' → TokOk x s s' t → Q t s') : wp x (scanDirective x.cfg) Q s := by
  have hm : At x s.mark := h.at
  unfold scanDirective getMark
  sg
  apply wp_bind
  refine wp_eat h hc (by decide) (by decide) (by decide) ?_
  intro s1 p1 e1
  have h1 := h.prog p1
  have hd : Percent x s1 := by
    obtain ⟨pre, g1, _⟩ := h.ok.loc
    exact ⟨pre ++ [37], by rw [g1, e1]; simp, by simp⟩
  apply wp_bind
  have hn : wp x scanDirectiveName (fun w s' => Fwd x s1 s') s1 := by
    unfold scanDirectiveName getMark
    sg
    apply wp_bind
    refine wp_fetchAlpha h1.ok ?_
    intro w s2 a2 v2 _
    apply wp_bind
    refine wp_failIf h1.ok.here ?_
    intro _
    sg
    apply wp_bind
    refine wp_failIf h1.ok.here ?_
    intro _
    exact wp_pure ⟨a2, v2 h1.v⟩
  refine wp_mono hn ?_
  intro w s2 f2
  have p2 := p1.then f2
  have h2 := h.prog p2
  apply wp_bind
  have hmid : wp x (if w = bs!"YAML" then scanVersionDirective x.cfg s.mark
     else if w = bs!"TAG" then scanTagDirective x.cfg s.mark
     else scanOtherDirective s.mark) (DirOk x s.mark s2) s2 := by
    refine wp_ite (fun _ => wp_scanVersionDirective h2 hm (hd.fwd f2)) (fun _ => ?_)
    refine wp_ite (fun _ => wp_scanTagDirective h2 hm) (fun _ => ?_)
    unfold scanOtherDirective getMark
    apply wp_bind
    refine wp_skipNonBreakz h2.ok ?_
    intro s3 a3 v3 _ _
    sg
    exact wp_pure ⟨⟨a3, v3 h2.v⟩, rfl, rfl, by intro w hw; simp [texts] at hw; rw [hw]; exact .nil, rfl⟩
  refine wp_mono hmid ?_
  intro t s3 ⟨f3, t1, t2, t3, t4⟩
  have p3 := p2.then f3
  apply wp_bind
  refine wp_ws (h.prog p3) ?_
  intro _ s4 f4
  have p4 := p3.then f4
  sg
  apply wp_bind
  refine wp_failIf h.ok.here ?_
  intro _
  apply wp_bind
  refine wp_skipLinebreak (h.prog p4).ok ?_
  intro s5 a5 _ v5
  apply wp_pure
  have f5 : Fwd x s4 s5 := ⟨a5, v5 p4.v⟩
  have b3 := p3.adv.pos_le
  have b5 := (f4.trans f5).adv.pos_le
  exact k _ _ (p4.then f5) ⟨by rw [t1]; exact Nat.le_refl _, by rw [t1, t2]; exact b3, by rw [t2]; exact b5, t3, t4,
    by rw [t1]; exact h.at, by rw [t2]; exact (h.prog p3).at⟩

end Verif.Scanner
