import Verif.Lemmas.ScanTokens
/-!
# The functions that scan scalars
-/
namespace Verif.Scanner
open Verif Verif.CharUtils Verif.Source

/-- `s` after `unroll_non_block_indents` -/
def nb (s : SSt) : SSt :=
  { s with indents := (unrollNonBlock s.indent s.indents).1, indent := (unrollNonBlock s.indent s.indents).2 }

theorem wp_nb {x} {Q : Unit → SSt → Prop} {s} (k : Q () (nb s)) : wp x unrollNonBlockIndents Q s := wp_upd k

theorem Adv.nb {s s'} (h : Adv s s') : Adv (nb s) (nb s') := by
  obtain ⟨m, h⟩ := h
  refine ⟨m, ⟨h.1, h.2, h.3, ?_, h.5, h.6, h.7, h.8, h.9, h.10, h.11, h.12, h.13, ?_⟩⟩
  · simp only [Scanner.nb, h.indents, h.indent]
  · simp only [Scanner.nb, h.indents, h.indent]

theorem Prog.nb {x s s'} (h : Prog x s s') : Prog x (nb s) (nb s') := ⟨h.adv.nb, h.v, h.less⟩

theorem Pt.nb {x s} (h : Pt x s) : Pt x (nb s) :=
  ⟨⟨h.ok.1, h.ok.2, h.ok.3, h.ok.4, h.ok.5, h.ok.6, h.ok.7, h.ok.8, h.ok.9, h.ok.10⟩, h.v⟩

theorem wp_linebreak {x} {Q : Unit → SSt → Prop} {s} (h : Pt x s)
    (k : ∀ s', Fwd x s s' → (isBreak (s.src.peekz 0) = true → s'.src.rest.length < s.src.rest.length ∨ x.hg) → Q () s') :
    wp x skipLinebreak Q s :=
  wp_skipLinebreak h.ok (fun s' a l v => k s' ⟨a, v h.v⟩ l)

theorem wp_break {x} {Q : List Byte → SSt → Prop} {s l} (h : Pt x s) (hb : isBreak (s.src.peekz 0) = true)
    (k : ∀ s', Fwd x s s' → (s'.src.rest.length < s.src.rest.length ∨ x.hg) → Q (l ++ [10]) s') :
    wp x (readBreak l) Q s :=
  wp_readBreak h.ok hb (fun s' a l v => k s' ⟨a, v h.v⟩ l)

/-- all bytes are ASCII -/
def Ascii (l : List Byte) : Prop := ∀ c ∈ l, c < 128

theorem Ascii.nil : Ascii [] := by simp [Ascii]
theorem Ascii.snoc {l c} (h : Ascii l) (hc : c < 128) : Ascii (l ++ [c]) := by
  intro d hd; simp at hd; rcases hd with hd | rfl
  · exact h d hd
  · exact hc

/-! ## Plain scalars -/

/-- What is known while a plain scalar that starts in `s` is being scanned. -/
structure PlainOk (x : Ctx) (s : SSt) (p : PlainSt) (s1 : SSt) : Prop where
  fwd : Fwd x s s1
  text : VT x p.string
  lead : Ascii p.leadingBreak
  trail : Ascii p.trailingBreaks
  ws : Ascii p.whitespaces
  end1 : s.mark.pos ≤ p.endMark.pos
  end2 : p.endMark.pos ≤ s1.mark.pos
  end3 : At x p.endMark
  some : p.string ≠ [] → s1.src.rest.length < s.src.rest.length

theorem PlainOk.step {x s p p' s1 s2} (h : PlainOk x s p s1) (f : Fwd x s1 s2) (hs : p'.string = p.string)
    (he : p'.endMark = p.endMark) (h1 : Ascii p'.leadingBreak) (h2 : Ascii p'.trailingBreaks) (h3 : Ascii p'.whitespaces) :
    PlainOk x s p' s2 :=
  ⟨h.fwd.trans f, hs ▸ h.text, h1, h2, h3, he ▸ h.end1, he ▸ (Nat.le_trans h.end2 f.adv.pos_le), he ▸ h.end3,
   fun hn => Nat.lt_of_le_of_lt f.adv.len_le (h.some (hs ▸ hn))⟩

theorem plainJoin_facts {x s p s1} (h : PlainOk x s p s1) (lw : Bool) :
    VT x (plainJoin lw p).string ∧ Ascii (plainJoin lw p).leadingBreak ∧ Ascii (plainJoin lw p).trailingBreaks ∧
      Ascii (plainJoin lw p).whitespaces := by
  unfold plainJoin
  repeat' split
  · exact ⟨(h.text.app (.ascii h.lead)).app (.ascii h.trail), .nil, .nil, h.ws⟩
  · exact ⟨h.text.app (.ascii (by simp)), .nil, h.trail, h.ws⟩
  · exact ⟨h.text.app (.ascii h.trail), .nil, .nil, h.ws⟩
  · exact ⟨h.text.app (.ascii h.ws), h.lead, h.trail, .nil⟩

theorem not_plain {s : Src} {f} (h : s.nextCanBePlainScalar f = false) : s.peekz 0 < 128 := by
  simp only [Src.nextCanBePlainScalar] at h
  split at h
  · simp at *; omega
  · split at h
    · simp [isFlow] at *; omega
    · simp at h

theorem wp_plainContent {x s p} {Q : PlainSt → SSt → Prop} {s1} (h : Pt x s) (hp : PlainOk x s p s1)
    (hc : isBlankOrBreakz (s1.src.peekz 0) = false)
    (k : ∀ p' s', PlainOk x s p' s' → s'.src.rest.length < s1.src.rest.length → Q p' s') :
    wp x (plainContent x.cfg p) Q s1 := by
  have hc0 : s1.src.peekz 0 ≠ 0 ∧ s1.src.peekz 0 ≠ 10 := by
    constructor <;> intro hh <;> simp [hh, isBlankOrBreakz, isBlank, isBreak] at hc
  unfold plainContent
  sg
  have hj := plainJoin_facts hp s1.leadingWhitespace
  sg
  obtain ⟨r, e⟩ := peek_cons (s := s1.src) rfl hc0.1
  have h1 := h.fwd hp.fwd
  apply wp_bind
  refine wp_skipNonBlank h1.ok e hc0.2 ?_
  intro s2 a2 _ e2
  apply wp_bind
  refine wp_loopM (fun str s3 => Adv s1 s3 ∧ VS x str s3 ∧ s3.src.rest.length < s1.src.rest.length)
    (fun _ s' => s'.src.rest.length) ⟨a2, (VS.start hp.fwd.v hj.1).push e2, by rw [e2]; simp⟩ ?_
    (.inl (by have := h1.fuel; have := a2.len_le; omega))
  intro str s3 ⟨a3, v3, l3⟩
  unfold plainRunBody
  sg; sg
  refine wp_ite (fun hb => ?_) (fun hb => ?_)
  · sdone
    have hpk : s3.src.peekz 0 < 128 := by
      simp only [Bool.or_eq_true, Bool.not_eq_true'] at hb
      rcases hb with hb | hb
      · rw [isBlankOrBreakz_iff] at hb; omega
      · exact not_plain hb
    obtain ⟨t3, v3⟩ := peek_boundary v3 hpk
    unfold getMark
    sg
    apply wp_pure
    have := hp.fwd.adv.pos_le
    have := a3.pos_le
    exact k _ _ ⟨hp.fwd.trans ⟨a3, v3⟩, t3, hj.2.1, hj.2.2.1, hj.2.2.2, by simp; omega, by simp, (h1.ok.adv a3).at,
      fun _ => by have := hp.fwd.adv.len_le; omega⟩ l3
  · simp only [Bool.or_eq_true, not_or, Bool.not_eq_true] at hb
    have hc0 : s3.src.peekz 0 ≠ 0 ∧ s3.src.peekz 0 ≠ 10 := by
      constructor <;> intro hh <;> simp [hh, isBlankOrBreakz, isBlank, isBreak] at hb
    obtain ⟨r, e⟩ := peek_cons (s := s3.src) rfl hc0.1
    apply wp_bind
    refine wp_skipNonBlank (h1.ok.adv a3) e hc0.2 ?_
    intro s4 a4 _ e4
    sdone
    have : s4.src.rest.length < s3.src.rest.length := by rw [e4]; simp
    exact ⟨⟨a3.trans a4, v3.push e4, by omega⟩, .inl this⟩

theorem Fwd.lw {x s s' b} (h : Fwd x s s') : Fwd x s { s' with leadingWhitespace := b } :=
  ⟨h.adv.trans (adv_lw s' b), h.v.eq rfl⟩

theorem wp_plainBlanks {x s p ind m} {Q : PlainSt → SSt → Prop} {s1} (h : Pt x s) (hm : At x m) (hp : PlainOk x s p s1)
    (hb : isBlankOrBreak (s1.src.peekz 0) = true)
    (k : ∀ p' s', PlainOk x s p' s' → (s'.src.rest.length < s1.src.rest.length ∨ x.hg) → Q p' s') :
    wp x (loopM (plainBlankBody ind m) x.cfg.fuel p) Q s1 := by
  have h1 := h.fwd hp.fwd
  refine wp_loopM (fun p' s2 => PlainOk x s p' s2 ∧ (s2.src = s1.src ∨ s2.src.rest.length < s1.src.rest.length ∨ x.hg))
    (fun _ s' => s'.src.rest.length) ⟨hp, .inl rfl⟩ ?_ (.inl h1.fuel)
  intro p2 s2 ⟨o2, l2⟩
  have h2 := h.fwd o2.fwd
  have key : ∀ s3, Fwd x s2 s3 → (s3.src.rest.length < s2.src.rest.length ∨ x.hg) →
      s3.src.rest.length < s1.src.rest.length ∨ x.hg := by
    intro s3 f3 l3
    rcases l3 with l3 | l3
    · rcases l2 with l2 | l2 | l2
      · rw [l2] at l3; exact .inl l3
      · exact .inl (by omega)
      · exact .inr l2
    · exact .inr l3
  unfold plainBlankBody getMark
  sg; sg; sg
  refine wp_ite (fun hc => ?_) (fun hc => ?_)
  · sdone
    refine k _ _ o2 ?_
    rcases l2 with l2 | l2
    · rw [l2] at hc; rw [hc] at hb; simp at hb
    · exact l2
  refine wp_ite (fun hbl => ?_) (fun hbl => ?_)
  · rw [isBlank_iff] at hbl
    have hbd : s2.src.peekz 0 ≠ 0 ∧ s2.src.peekz 0 ≠ 10 ∧ s2.src.peekz 0 < 128 := by omega
    refine wp_ite (fun _ => ?_) (fun _ => ?_)
    · apply wp_bind
      refine wp_eatBlank h2 rfl hbd.1 hbd.2.1 hbd.2.2 ?_
      intro s3 p3
      sdone
      exact ⟨⟨o2.step p3.fwd rfl rfl o2.lead o2.trail (o2.ws.snoc hbd.2.2), .inr (key _ p3.fwd (.inl p3.less))⟩, .inl p3.less⟩
    · refine wp_ite (fun hc => ?_) (fun _ => ?_)
      · apply wp_bind
        refine wp_skipWsToEol h2.ok ?_
        intro r s3 a3 v3 l3
        have l3 := l3 hc.2 rfl
        have f3 : Fwd x s2 s3 := ⟨a3, v3 h2.v⟩
        sg
        apply wp_bind
        refine wp_failIf (h.ok.err _ _ hm) ?_
        intro _
        sdone
        exact ⟨⟨o2.step f3 rfl rfl o2.lead o2.trail o2.ws, .inr (key _ f3 (.inl l3))⟩, .inl l3⟩
      · apply wp_bind
        refine wp_eatBlank h2 rfl hbd.1 hbd.2.1 hbd.2.2 ?_
        intro s3 p3
        sdone
        exact ⟨⟨o2.step p3.fwd rfl rfl o2.lead o2.trail o2.ws, .inr (key _ p3.fwd (.inl p3.less))⟩, .inl p3.less⟩
  · have hbr : isBreak (s2.src.peekz 0) = true := by
      rw [isBreak_iff]
      rw [isBlank_iff] at hbl
      rw [Bool.not_eq_false, isBlankOrBreak_iff] at hc
      omega
    refine wp_ite (fun _ => ?_) (fun _ => ?_)
    · apply wp_bind
      refine wp_linebreak h2 ?_
      intro s3 f3 l3
      sdone
      exact ⟨⟨o2.step f3 rfl rfl o2.lead (o2.trail.snoc (by decide)) o2.ws, .inr (key _ f3 (l3 hbr))⟩, l3 hbr⟩
    · apply wp_bind
      refine wp_linebreak h2 ?_
      intro s3 f3 l3
      apply wp_bind
      apply wp_upd
      sdone
      exact ⟨⟨o2.step f3.lw rfl rfl (o2.lead.snoc (by decide)) o2.trail .nil, .inr (key _ f3 (l3 hbr))⟩, l3 hbr⟩

theorem wp_plainAfter {x s p ind m} {Q : Loop PlainSt PlainSt → SSt → Prop} {s1} (h : Pt x s) (hm : At x m)
    (hp : PlainOk x s p s1) (kd : ∀ p' s', PlainOk x s p' s' → Q (.done p') s')
    (kn : ∀ p' s', PlainOk x s p' s' → (s'.src.rest.length < s1.src.rest.length ∨ x.hg) → Q (.next p') s') :
    wp x (plainAfter x.cfg ind m p) Q s1 := by
  unfold plainAfter
  sg
  refine wp_ite (fun hc => ?_) (fun _ => wp_pure (kd _ _ hp))
  apply wp_bind
  refine wp_plainBlanks h hm hp ?_ ?_
  · rw [Bool.or_eq_true, isBlank_iff, isBreak_iff] at hc
    rw [isBlankOrBreak_iff]; omega
  intro p2 s2 o2 l2
  sg
  exact wp_ite (fun _ => wp_pure (kd _ _ o2)) (fun _ => wp_pure (kn _ _ o2 l2))

theorem wp_scanPlainScalar {x} {Q : Token → SSt → Prop} {s} (h : Pt x s)
    (k : ∀ t s', Prog x (nb s) s' → TokOk x (nb s) s' t → Q t s') : wp x (scanPlainScalar x.cfg) Q s := by
  unfold scanPlainScalar getMark
  apply wp_bind
  apply wp_nb
  have h := h.nb
  revert h k
  generalize nb s = s
  intro k h
  have hm := h.at
  sg; sg; sg
  apply wp_bind
  refine wp_failIf h.ok.here ?_
  intro _
  apply wp_bind
  refine wp_loopM (fun p s1 => PlainOk x s p s1) (fun _ s' => s'.src.rest.length)
    ⟨h.refl, .nil, .nil, .nil, .nil, Nat.le_refl _, Nat.le_refl _, h.at, by simp⟩ ?_ (.inl h.fuel)
  intro p s1 o1
  have hend : ∀ p s1, PlainOk x s p s1 → wp x (do
      let lw ← gets (·.leadingWhitespace)
      when lw (setAllowed true)
      failIf p.string.isEmpty s.mark "unexpected end of plain scalar"
      pure ⟨⟨s.mark, p.endMark⟩, .scalar .plain p.string⟩) Q s1 := by
    intro p s1 o1
    sg
    apply wp_bind
    refine wp_whenAllowed ?_
    intro s2 a2 e2 e3
    apply wp_bind
    refine wp_failIf h.ok.here ?_
    intro hs
    apply wp_pure
    refine k _ _ ⟨o1.fwd.adv.trans a2, o1.fwd.v.eq e2, ?_⟩ ⟨Nat.le_refl _, o1.end1, by rw [e3]; exact o1.end2, ?_, rfl, h.at, o1.end3⟩
    · rw [e2]; exact o1.some (by simpa using hs)
    · simpa [TextOk, texts] using o1.text
  unfold plainBody getMark
  sg
  refine wp_ite (fun _ => ?_) (fun _ => ?_)
  · sdone; exact hend _ _ o1
  sg; sg
  apply wp_bind
  refine wp_failIf (h.fwd o1.fwd).ok.here ?_
  intro _
  sg
  refine wp_ite (fun hc => ?_) (fun _ => ?_)
  · apply wp_bind
    simp only [Bool.and_eq_true, Bool.not_eq_true'] at hc
    refine wp_plainContent h o1 hc.1 ?_
    intro p2 s2 o2 l2
    refine wp_plainAfter h hm o2 ?_ ?_
    · intro p3 s3 o3; simp only [LoopPost]; exact hend _ _ o3
    · intro p3 s3 o3 l3; simp only [LoopPost]
      exact ⟨o3, l3.imp (by omega) id⟩
  · refine wp_plainAfter h hm o1 ?_ ?_
    · intro p3 s3 o3; simp only [LoopPost]; exact hend _ _ o3
    · intro p3 s3 o3 l3; simp only [LoopPost]; exact ⟨o3, l3⟩

/-! ## Quoted scalars -/

theorem hexValue_ne_none (src : Src) (n i v) : hexValue src n i v ≠ none := by
  induction n generalizing i v with
  | zero => simp [hexValue]
  | succ n ih =>
    simp only [hexValue]
    split
    · rename_i hc
      obtain ⟨⟨d, hd, _⟩, _⟩ := hex_facts hc
      rw [hd]; exact ih _ _
    · simp

theorem hexValue_some {src : Src} {n i v r} (h : hexValue src n i v = some (some r)) :
    ∃ w t, src.rest.drop i = w ++ t ∧ w.length = n ∧ ∀ c ∈ w, isAsciiHexdigit c = true := by
  induction n generalizing i v with
  | zero => exact ⟨[], _, rfl, rfl, by simp⟩
  | succ n ih =>
    simp only [hexValue] at h
    split at h
    · rename_i hc
      obtain ⟨⟨d, hd, _⟩, _, _, h0⟩ := hex_facts hc
      rw [hd] at h
      obtain ⟨w, t, e1, e2, e3⟩ := ih h
      have hi : i < src.rest.length := by
        rcases Nat.lt_or_ge i src.rest.length with hi | hi
        · exact hi
        · exfalso; apply h0; simp [Src.peekz, List.getElem?_eq_none hi]
      have hpk : src.peekz i = src.rest[i] := by simp [Src.peekz, hi]
      refine ⟨src.peekz i :: w, t, ?_, by simp [e2], ?_⟩
      · rw [List.drop_eq_getElem_cons hi, e1, hpk]; rfl
      · intro c hc'
        rcases List.mem_cons.1 hc' with rfl | hc'
        · exact hc
        · exact e3 c hc'
    · simp at h

theorem prog_ascii {x s s' w r} (h : Pt x s) (a : Adv s s') (e : s.src.rest = w ++ r) (e' : s'.src.rest = r)
    (hw : ∀ c ∈ w, c < 128) (hn : w ≠ []) : Prog x s s' := by
  refine ⟨a, h.v.skip (w := w) (by rw [e, e']) hw, ?_⟩
  rw [e, e']
  have : 0 < w.length := List.length_pos_iff.2 hn
  simp; omega

theorem wp_hexEscape {x n m c} {Q : Nat → SSt → Prop} {s} (h : Pt x s) (hm : At x m) (h0 : s.src.peekz 0 = 92)
    (h1 : s.src.peekz 1 = c) (hc : c ≠ 0 ∧ c ≠ 10 ∧ c < 128)
    (k : ∀ ch s', Prog x s s' → VT x (Utf8.encode ch) → Q ch s') : wp x (hexEscape n m) Q s := by
  obtain ⟨r, e⟩ := peek_cons h0 (by decide)
  obtain ⟨r, e⟩ := peek1_cons e h1 hc.1
  unfold hexEscape
  apply wp_bind
  refine wp_skipN h.ok (w := [92, c]) (r := r) (by simpa using e) rfl (by simp; omega) ?_
  intro s1 a1 e1
  have p1 : Prog x s s1 := prog_ascii h a1 (w := [92, c]) (by simpa using e) e1 (by simp; omega) (by simp)
  have hp1 := h.prog p1
  sg
  split
  · rename_i hv; exact absurd hv (hexValue_ne_none _ _ _ _)
  · exact wp_fail (h.ok.err _ _ hm)
  · rename_i v hv
    split
    · exact wp_fail (h.ok.err _ _ hm)
    · rename_i ch hch
      obtain ⟨w, t, e2, e3, e4⟩ := hexValue_some hv
      simp at e2
      apply wp_bind
      refine wp_skipN hp1.ok e2 e3 ?_ ?_
      · intro hw; have := hex_facts (e4 _ hw); omega
      intro s2 a2 e5
      have f2 : Fwd x s1 s2 := ⟨a2, hp1.v.skip (w := w) (by rw [e2, e5]) fun c hc => (hex_facts (e4 c hc)).2.1⟩
      apply wp_pure
      exact k _ _ (p1.then f2) (fun _ => Utf8.run_encode hch)

theorem ite_some {c : Prop} [Decidable c] {a v : Nat} {o} (h : (if c then some a else o) = some v) : (c ∧ a = v) ∨ o = some v := by
  by_cases hc : c
  · rw [if_pos hc] at h; injection h with h; exact .inl ⟨hc, h⟩
  · rw [if_neg hc] at h; exact .inr h

theorem simpleEscape_facts {c v} (h : simpleEscape c = some v) :
    (c ≠ 0 ∧ c ≠ 10 ∧ c < 128) ∧ Utf8.charFromU32 v = some v := by
  unfold simpleEscape at h
  iterate 17
    rcases ite_some h with ⟨hc, hv⟩ | h
    · subst hv; exact ⟨by omega, by decide⟩
  cases h

theorem wp_resolveEscape {x m} {Q : Nat → SSt → Prop} {s} (h : Pt x s) (hm : At x m) (h0 : s.src.peekz 0 = 92)
    (k : ∀ ch s', Prog x s s' → VT x (Utf8.encode ch) → Q ch s') : wp x (resolveEscape m) Q s := by
  unfold resolveEscape
  sg
  split
  · rename_i ch hch
    obtain ⟨hf, hv⟩ := simpleEscape_facts hch
    obtain ⟨r, e⟩ := peek_cons h0 (by decide)
    obtain ⟨r, e⟩ := peek1_cons e rfl hf.1
    apply wp_bind
    refine wp_skipN h.ok (w := [92, s.src.peekz 1]) (r := r) (by simpa using e) rfl (by simp; omega) ?_
    intro s1 a1 e1
    apply wp_pure
    exact k _ _ (prog_ascii h a1 (w := [92, s.src.peekz 1]) (by simpa using e) e1 (by simp; omega) (by simp))
      (fun _ => Utf8.run_encode hv)
  · refine wp_ite (fun hc => wp_hexEscape h hm h0 hc (by decide) k) (fun _ => ?_)
    refine wp_ite (fun hc => wp_hexEscape h hm h0 hc (by decide) k) (fun _ => ?_)
    refine wp_ite (fun hc => wp_hexEscape h hm h0 hc (by decide) k) (fun _ => ?_)
    exact wp_fail (h.ok.err _ _ hm)

theorem wp_flowChars {x single m str} {Q : List Byte × Bool → SSt → Prop} {s} (h : Pt x s) (hm : At x m) (ht : VT x str)
    (k : ∀ r s', Fwd x s s' → VT x r.1 → (s'.src.rest.length < s.src.rest.length ∨ (s'.src = s.src ∧
      (isBlankOrBreakz (s.src.peekz 0) = true ∨ (s.src.peekz 0 = 39 ∧ single = true) ∨ (s.src.peekz 0 = 34 ∧ single = false)))) →
      Q r s') :
    wp x (loopM (flowCharsBody single m) x.cfg.fuel str) Q s := by
  refine wp_loopM (fun str s1 => Adv s s1 ∧ VS x str s1 ∧ (s1.src = s.src ∨ s1.src.rest.length < s.src.rest.length))
    (fun _ s' => s'.src.rest.length) ⟨.refl s, .start h.v ht, .inl rfl⟩ ?_ (.inl h.fuel)
  intro str s1 ⟨a1, v1, l1⟩
  have h1 : V x s1 → Pt x s1 := fun v => ⟨h.ok.adv a1, v⟩
  have key : ∀ s2 : SSt, s2.src.rest.length < s1.src.rest.length → s2.src.rest.length < s.src.rest.length := by
    intro s2 l2; have := a1.len_le; omega
  unfold flowCharsBody
  sg; sg
  refine wp_ite (fun hc => ?_) (fun hnb => ?_)
  · sdone
    have hpk : s1.src.peekz 0 < 128 := by rw [isBlankOrBreakz_iff] at hc; omega
    obtain ⟨t, v⟩ := peek_boundary v1 hpk
    refine k _ _ ⟨a1, v⟩ t ?_
    rcases l1 with l1 | l1
    · exact .inr ⟨l1, .inl (l1 ▸ hc)⟩
    · exact .inl l1
  have hne : s1.src.peekz 0 ≠ 0 ∧ s1.src.peekz 0 ≠ 10 := by
    constructor <;> intro hh <;> simp [hh, isBlankOrBreakz, isBlank, isBreak] at hnb
  obtain ⟨rr, er⟩ := peek_cons (s := s1.src) rfl hne.1
  refine wp_ite (fun hc => ?_) (fun _ => ?_)
  · obtain ⟨r, e⟩ := peek1_cons er hc.2.1 (by decide)
    rw [hc.1] at e
    have hpk : s1.src.peekz 0 < 128 := by omega
    obtain ⟨t, v⟩ := peek_boundary v1 hpk
    apply wp_bind
    refine wp_skipN (h1 v).ok (w := [39, 39]) (r := r) (by simpa using e) rfl (by simp) ?_
    intro s2 a2 e2
    have p2 := prog_ascii (h1 v) a2 (w := [39, 39]) (by simpa using e) e2 (by simp) (by simp)
    sdone
    exact ⟨⟨a1.trans a2, .start p2.v (t.app (.ascii (by simp))), .inr (key _ p2.less)⟩, .inl p2.less⟩
  refine wp_ite (fun hc => ?_) (fun _ => ?_)
  · sdone
    have hpk : s1.src.peekz 0 < 128 := by omega
    obtain ⟨t, v⟩ := peek_boundary v1 hpk
    refine k _ _ ⟨a1, v⟩ t ?_
    rcases l1 with l1 | l1
    · exact .inr ⟨l1, .inr (.inl (l1 ▸ hc))⟩
    · exact .inl l1
  refine wp_ite (fun hc => ?_) (fun _ => ?_)
  · sdone
    have hpk : s1.src.peekz 0 < 128 := by omega
    obtain ⟨t, v⟩ := peek_boundary v1 hpk
    refine k _ _ ⟨a1, v⟩ t ?_
    rcases l1 with l1 | l1
    · exact .inr ⟨l1, .inr (.inr (l1 ▸ hc))⟩
    · exact .inl l1
  refine wp_ite (fun hc => ?_) (fun _ => ?_)
  · have hpk : s1.src.peekz 0 < 128 := by omega
    obtain ⟨t, v⟩ := peek_boundary v1 hpk
    apply wp_bind
    refine wp_eat (h1 v) hc.1 (by decide) (by decide) (by decide) ?_
    intro s2 p2 _
    apply wp_bind
    refine wp_linebreak ((h1 v).prog p2) ?_
    intro s3 f3 _
    sdone
    have p3 := p2.then f3
    exact k _ _ ⟨a1.trans p3.adv, p3.v⟩ t (.inl (key _ p3.less))
  refine wp_ite (fun hc => ?_) (fun _ => ?_)
  · have hpk : s1.src.peekz 0 < 128 := by omega
    obtain ⟨t, v⟩ := peek_boundary v1 hpk
    apply wp_bind
    refine wp_resolveEscape (h1 v) hm hc.1 ?_
    intro ch s2 p2 t2
    sdone
    exact ⟨⟨a1.trans p2.adv, .start p2.v (t.app t2), .inr (key _ p2.less)⟩, .inl p2.less⟩
  · apply wp_bind
    refine wp_skipNonBlank (h.ok.adv a1) er hne.2 ?_
    intro s2 a2 _ e2
    sdone
    have l2 : s2.src.rest.length < s1.src.rest.length := by rw [e2]; simp
    exact ⟨⟨a1.trans a2, v1.push e2, .inr (key _ l2)⟩, .inl l2⟩

/-- What is known while a quoted scalar that starts in `s` is being scanned. -/
structure FlowOk (x : Ctx) (s : SSt) (p : FlowSt) (s1 : SSt) : Prop where
  fwd : Fwd x s s1
  text : VT x p.string
  lead : Ascii p.leadingBreak
  trail : Ascii p.trailingBreaks
  ws : Ascii p.whitespaces

theorem flowJoin_ok {x s p s1} (h : FlowOk x s p s1) : FlowOk x s (flowJoin p) s1 := by
  unfold flowJoin
  repeat' split
  · exact ⟨h.fwd, (h.text.app (.ascii h.lead)).app (.ascii h.trail), .nil, .nil, h.ws⟩
  · exact ⟨h.fwd, h.text.app (.ascii (by simp)), .nil, h.trail, h.ws⟩
  · exact ⟨h.fwd, h.text.app (.ascii h.trail), .nil, .nil, h.ws⟩
  · exact ⟨h.fwd, h.text.app (.ascii h.ws), h.lead, h.trail, .nil⟩

theorem wp_flowBlanks {x s p} {Q : FlowSt → SSt → Prop} {s1} (h : Pt x s) (hp : FlowOk x s p s1)
    (k : ∀ p' s', FlowOk x s p' s' → Fwd x s1 s' → ((isBlank (s1.src.peekz 0) = true ∨ isBreak (s1.src.peekz 0) = true) →
      s'.src.rest.length < s1.src.rest.length ∨ x.hg) → Q p' s') :
    wp x (loopM flowBlankBody x.cfg.fuel p) Q s1 := by
  have h1 := h.fwd hp.fwd
  refine wp_loopM (fun p' s2 => FlowOk x s p' s2 ∧ Fwd x s1 s2 ∧
      (s2.src = s1.src ∨ s2.src.rest.length < s1.src.rest.length ∨ x.hg))
    (fun _ s' => s'.src.rest.length) ⟨hp, h1.refl, .inl rfl⟩ ?_ (.inl h1.fuel)
  intro p2 s2 ⟨o2, f2, l2⟩
  have h2 := h.fwd o2.fwd
  have key : ∀ s3 : SSt, (s3.src.rest.length < s2.src.rest.length ∨ x.hg) →
      s3.src.rest.length < s1.src.rest.length ∨ x.hg := by
    intro s3 l3
    exact l3.imp (by have := f2.adv.len_le; omega) id
  unfold flowBlankBody
  sg
  refine wp_ite (fun hbl => ?_) (fun hbl => ?_)
  · have hbl := isBlank_iff.1 hbl
    have hbd : s2.src.peekz 0 ≠ 0 ∧ s2.src.peekz 0 ≠ 10 ∧ s2.src.peekz 0 < 128 := by omega
    refine wp_ite (fun _ => ?_) (fun _ => ?_)
    · unfold getMark
      sg; sg
      apply wp_bind
      refine wp_failIf h2.ok.here ?_
      intro _
      apply wp_bind
      refine wp_eatBlank h2 rfl hbd.1 hbd.2.1 hbd.2.2 ?_
      intro s3 p3
      sdone
      exact ⟨⟨⟨o2.fwd.trans p3.fwd, o2.text, o2.lead, o2.trail, o2.ws⟩, f2.trans p3.fwd, .inr (key _ (.inl p3.less))⟩, .inl p3.less⟩
    · apply wp_bind
      refine wp_eatBlank h2 rfl hbd.1 hbd.2.1 hbd.2.2 ?_
      intro s3 p3
      sdone
      exact ⟨⟨⟨o2.fwd.trans p3.fwd, o2.text, o2.lead, o2.trail, o2.ws.snoc hbd.2.2⟩, f2.trans p3.fwd,
        .inr (key _ (.inl p3.less))⟩, .inl p3.less⟩
  refine wp_ite (fun hbr => ?_) (fun hbr => ?_)
  · refine wp_ite (fun _ => ?_) (fun _ => ?_)
    · apply wp_bind
      refine wp_break h2 hbr ?_
      intro s3 f3 l3
      sdone
      exact ⟨⟨⟨o2.fwd.trans f3, o2.text, o2.lead, o2.trail.snoc (by decide), o2.ws⟩, f2.trans f3, .inr (key _ l3)⟩, l3⟩
    · apply wp_bind
      refine wp_break h2 hbr ?_
      intro s3 f3 l3
      sdone
      exact ⟨⟨⟨o2.fwd.trans f3, o2.text, o2.lead.snoc (by decide), o2.trail, .nil⟩, f2.trans f3, .inr (key _ l3)⟩, l3⟩
  · sdone
    refine k _ _ o2 f2 ?_
    intro hb
    rcases l2 with l2 | l2
    · rw [l2] at hbl hbr; rcases hb with hb | hb
      · exact absurd hb hbl
      · exact absurd hb hbr
    · exact l2

/-- a NUL met after the opening quote -/
theorem quotedNul {x s s' t} (h : Pt x s) (hc : s.src.peekz 0 = 39 ∨ s.src.peekz 0 = 34) (p : Prog x s s')
    (hr : s'.src.rest = 0 :: t) : Spec.QuotedNul x.input := by
  obtain ⟨pre, h1, _, _⟩ := h.ok.loc
  obtain ⟨w, h2, _⟩ := p.adv.mv.split
  have hl := p.less
  cases w with
  | nil => rw [h2] at hl; simp at hl
  | cons d w =>
    have h3 : s.src.rest = d :: (w ++ s'.src.rest) := h2
    rw [peek_of h3] at hc
    refine ⟨pre ++ d :: w, t, by rw [h1, h2, hr]; simp, ?_⟩
    rcases hc with rfl | rfl
    · right; simp
    · left; simp

theorem wp_scanFlowScalar {x single} {Q : Token → SSt → Prop} {s} (h : Pt x s) (hc : s.src.peekz 0 = 39 ∨ s.src.peekz 0 = 34)
    (k : ∀ t s', Prog x s s' → TokOk x s s' t → Q t s') : wp x (scanFlowScalar x.cfg single) Q s := by
  unfold scanFlowScalar getMark
  have hm := h.at
  sg
  apply wp_bind
  refine wp_eat h rfl (by omega) (by omega) (by omega) ?_
  intro s1 p1 _
  have h1 := h.prog p1
  apply wp_bind
  refine wp_loopM (fun p s2 => FlowOk x s1 p s2) (fun _ s' => s'.src.rest.length)
    ⟨h1.refl, .nil, .nil, .nil, .nil⟩ ?_ (.inl h1.fuel)
  intro p s2 o2
  have h2 := h1.fwd o2.fwd
  unfold flowBody
  sg
  apply wp_bind
  refine wp_failIf h.ok.here ?_
  intro _
  unfold atEof
  sg
  apply wp_bind
  refine wp_failIf h.ok.here ?_
  intro hne
  sg
  apply wp_bind
  refine wp_failIf h.ok.here ?_
  intro _
  apply wp_bind
  refine wp_flowChars h2 hm o2.text ?_
  intro r s3 f3 t3 l3
  have o3 : FlowOk x s1 { p with string := r.1, leadingBlanks := r.2 } s3 :=
    ⟨o2.fwd.trans f3, t3, o2.lead, o2.trail, o2.ws⟩
  sg
  refine wp_ite (fun hq => ?_) (fun hq => ?_)
  · sdone
    apply wp_bind
    refine wp_eat (h1.fwd o3.fwd) rfl (by omega) (by omega) (by omega) ?_
    intro s4 p4 _
    have p4 := (p1.then o3.fwd).then p4.fwd
    apply wp_bind
    refine wp_ws (h.prog p4) ?_
    intro _ s5 f5
    have p5 := p4.then f5
    sg; sg
    apply wp_bind
    refine wp_failIf (h.prog p5).ok.here ?_
    intro _
    apply wp_pure
    exact k _ _ p5 ⟨Nat.le_refl _, p5.adv.pos_le, Nat.le_refl _, by simpa [TextOk, texts] using t3, rfl, h.at, (h.prog p5).at⟩
  · apply wp_bind
    refine wp_flowBlanks h1 o3 ?_
    intro p4 s4 o4 f4 l4
    sdone
    refine ⟨flowJoin_ok o4, ?_⟩
    have := f4.adv.len_le
    rcases l3 with l3 | ⟨e3, l3⟩
    · left; omega
    · rw [e3] at l4 hq
      rcases l3 with l3 | l3
      · rw [isBlankOrBreakz_iff] at l3
        rw [isBlank_iff, isBreak_iff] at l4
        rcases l3 with l3 | l3
        · right
          cases hr : s2.src.rest with
          | nil => simp [Src.bufIsEmpty, hr] at hne
          | cons d t =>
            rw [peek_of hr] at l3
            subst l3
            exact h.ok.nul (quotedNul h hc (p1.then o2.fwd) hr)
        · exact l4 (by omega)
      · exact absurd l3 (by simpa using hq)

end Verif.Scanner
