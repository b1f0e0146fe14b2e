import Verif.Lemmas.ScanScalars
/-!
# Block scalars
-/
namespace Verif.Scanner
open Verif Verif.CharUtils Verif.Source

theorem wp_blockHeader {x m} {Q : Chomp × Nat → SSt → Prop} {s} (h : Pt x s) (hm : At x m)
    (k : ∀ r s', Fwd x s s' → r.2 ≤ 9 → Q r s') : wp x (blockHeader m) Q s := by
  have hch : ∀ s1 (Q : Chomp → SSt → Prop), Fwd x s s1 → (∀ r s2, Fwd x s s2 → Q r s2) → wp x blockChomp Q s1 := by
    intro s1 Q f1 k
    unfold blockChomp
    sg
    refine wp_ite (fun hc => ?_) (fun _ => ?_)
    · apply wp_bind
      refine wp_eat (h.fwd f1) hc (by decide) (by decide) (by decide) ?_
      intro s2 p2 _
      exact wp_pure (k _ _ (f1.trans p2.fwd))
    refine wp_ite (fun hc => ?_) (fun _ => ?_)
    · apply wp_bind
      refine wp_eat (h.fwd f1) hc (by decide) (by decide) (by decide) ?_
      intro s2 p2 _
      exact wp_pure (k _ _ (f1.trans p2.fwd))
    · exact wp_pure (k _ _ f1)
  have hin : ∀ s1 (Q : Nat → SSt → Prop), Fwd x s s1 → (∀ r s2, Fwd x s s2 → r ≤ 9 → Q r s2) → wp x (blockIncrement m) Q s1 := by
    intro s1 Q f1 k
    unfold blockIncrement
    sg
    refine wp_ite (fun hc => ?_) (fun _ => wp_pure (k _ _ f1 (by omega)))
    simp [isAsciiDigit] at hc
    apply wp_bind
    refine wp_failIf (h.ok.err _ _ hm) ?_
    intro _
    apply wp_bind
    refine wp_eat (h.fwd f1) rfl (by omega) (by omega) (by omega) ?_
    intro s2 p2 _
    exact wp_pure (k _ _ (f1.trans p2.fwd) (by omega))
  unfold blockHeader
  sg
  refine wp_ite (fun _ => ?_) (fun _ => ?_)
  · apply wp_bind
    refine hch _ _ h.refl ?_
    intro r s1 f1
    apply wp_bind
    refine hin _ _ f1 ?_
    intro r2 s2 f2 b2
    exact wp_pure (k _ _ f2 b2)
  · apply wp_bind
    refine hin _ _ h.refl ?_
    intro r s1 f1 b1
    refine wp_ite (fun _ => wp_pure (k _ _ f1 (by simp))) (fun _ => ?_)
    apply wp_bind
    refine hch _ _ f1 ?_
    intro r2 s2 f2
    exact wp_pure (k _ _ f2 b1)

theorem wp_spaces {x} {Q : Unit → SSt → Prop} {s} (h : Pt x s) (k : ∀ s', Fwd x s s' → Q () s') :
    wp x (loopM spacesBody x.cfg.fuel ()) Q s := by
  refine wp_loopM (fun _ s1 => Fwd x s s1) (fun _ s' => s'.src.rest.length) h.refl ?_ (.inl h.fuel)
  intro _ s1 f1
  unfold spacesBody
  sg
  refine wp_ite (fun hc => ?_) (fun _ => ?_)
  · apply wp_bind
    refine wp_eatBlank (h.fwd f1) hc (by decide) (by decide) (by decide) ?_
    intro s2 p2
    sdone
    exact ⟨f1.trans p2.fwd, .inl p2.less⟩
  · sdone; exact k _ f1

theorem wp_indentSpaces {x i} {Q : Unit → SSt → Prop} {s} (h : Pt x s) (k : ∀ s', Fwd x s s' → Q () s') :
    wp x (loopM (indentSpacesBody i) x.cfg.fuel ()) Q s := by
  refine wp_loopM (fun _ s1 => Fwd x s s1) (fun _ s' => s'.src.rest.length) h.refl ?_ (.inl h.fuel)
  intro _ s1 f1
  unfold indentSpacesBody
  sg; sg
  refine wp_ite (fun hc => ?_) (fun _ => ?_)
  · apply wp_bind
    refine wp_eatBlank (h.fwd f1) hc.2 (by decide) (by decide) (by decide) ?_
    intro s2 p2
    sdone
    exact ⟨f1.trans p2.fwd, .inl p2.less⟩
  · sdone; exact k _ f1

theorem wp_skipFirstLineIndent {x br} {Q : Nat × List Byte → SSt → Prop} {s} (h : Pt x s) (hlg : x.lg → x.hg) (hi : s.indent ≤ 111 ∨ x.hg)
    (hb : Ascii br) (k : ∀ r s', Fwd x s s' → (r.1 ≤ 112 ∨ x.hg) → Ascii r.2 → Q r s') :
    wp x (skipFirstLineIndent x.cfg br) Q s := by
  unfold skipFirstLineIndent
  apply wp_bind
  refine wp_loopM (fun r s1 => Fwd x s s1 ∧ (r.1 ≤ 110 ∨ x.hg) ∧ Ascii r.2) (fun _ s' => s'.src.rest.length)
    ⟨h.refl, .inl (by simp), hb⟩ ?_ (.inl h.fuel)
  intro r s1 ⟨f1, b1, c1⟩
  unfold firstLineBody
  apply wp_bind
  refine wp_spaces (h.fwd f1) ?_
  intro s2 f2
  have f2 := f1.trans f2
  have l2 := f2.adv.len_le
  sg; sg
  have b2 : (if s2.mark.col > r.1 then s2.mark.col else r.1) ≤ 110 ∨ x.hg := by
    split
    · exact (h.fwd f2).ok.col.imp id hlg
    · exact b1
  refine wp_ite (fun hc => ?_) (fun _ => ?_)
  · apply wp_bind
    refine wp_break (h.fwd f2) hc ?_
    intro s3 f3 l3
    sdone
    refine ⟨⟨f2.trans f3, b2, c1.snoc (by decide)⟩, l3.imp ?_ id⟩
    intro l3
    have := ‹Fwd x s1 s2›.adv.len_le
    omega
  · sdone
    sg
    apply wp_pure
    have hin : s2.indent = s.indent := f2.adv.same.indent
    refine k _ _ f2 ?_ c1
    rcases b2 with b2 | b2
    · rcases hi with hi | hi
      · left
        rw [hin]
        dsimp only at b2 ⊢
        split <;> omega
      · exact .inr hi
    · exact .inr b2

theorem wp_skipBlockIndent {x i br} {Q : List Byte → SSt → Prop} {s} (h : Pt x s) (hi : i ≤ 125 ∨ x.hg)
    (hb : Ascii br) (k : ∀ r s', Fwd x s s' → Ascii r → Q r s') :
    wp x (skipBlockIndent x.cfg i br) Q s := by
  unfold skipBlockIndent
  refine wp_loopM (fun r s1 => Fwd x s s1 ∧ Ascii r) (fun _ s' => s'.src.rest.length)
    ⟨h.refl, hb⟩ ?_ (.inl h.fuel)
  intro r s1 ⟨f1, c1⟩
  have h1 := h.fwd f1
  have hdeep : 126 ≤ i → wp x (loopM (deepIndentBody x.cfg i) x.cfg.fuel ()) (fun _ s2 => Fwd x s1 s2) s1 := by
    intro h126
    have hg : x.hg := hi.resolve_left (by omega)
    refine wp_loopM (fun r s2 => Fwd x s1 s2) (fun _ s' => s'.src.rest.length) h1.refl ?_ (.inr hg)
    intro _ s2 f2
    unfold deepIndentBody
    apply wp_bind
    refine wp_indentSpaces (h1.fwd f2) ?_
    intro s3 f3
    sg
    refine wp_ite (fun _ => ?_) (fun _ => ?_)
    · sdone; exact f2.trans f3
    · sdone; exact ⟨f2.trans f3, .inr hg⟩
  have hsp : wp x (blockIndentSpaces x.cfg i) (fun _ s2 => Fwd x s1 s2) s1 := by
    unfold blockIndentSpaces
    refine wp_ite (fun _ => ?_) (fun hc => hdeep (by simp [bufMaxLen] at hc; omega))
    exact wp_indentSpaces h1 (fun _ f => f)
  unfold blockIndentBody
  apply wp_bind
  refine wp_mono hsp ?_
  intro _ s2 f2
  have l2 := f2.adv.len_le
  have f2 := f1.trans f2
  sg
  refine wp_ite (fun hc => ?_) (fun _ => ?_)
  · apply wp_bind
    refine wp_break (h.fwd f2) hc ?_
    intro s3 f3 l3
    sdone
    exact ⟨⟨f2.trans f3, c1.snoc (by decide)⟩, l3.imp (by omega) id⟩
  · sdone
    exact k _ _ f2 c1

theorem wp_contentLine {x str} {Q : List Byte → SSt → Prop} {s} (h : Pt x s) (ht : VT x str)
    (k : ∀ r s', Fwd x s s' → VT x r → (s'.src.bufIsEmpty = true ∨ isBreak (s'.src.peekz 0) = true) → Q r s') :
    wp x (contentLine x.cfg str) Q s := by
  unfold contentLine
  apply wp_bind
  refine wp_loopM (fun str s1 => Adv s s1 ∧ VS x str s1) (fun _ s' => s'.src.rest.length)
    ⟨.refl s, .start h.v ht⟩ ?_ (.inl h.fuel)
  intro str s1 ⟨a1, v1⟩
  unfold contentBody atEof
  sg; sg
  refine wp_ite (fun hc => ?_) (fun hc => ?_)
  · simp only [Bool.and_eq_true, Bool.not_eq_true'] at hc
    obtain ⟨c, r, e⟩ : ∃ c r, s1.src.rest = c :: r := by
      cases hr : s1.src.rest with
      | nil => simp [Src.bufIsEmpty, hr] at hc
      | cons c r => exact ⟨c, r, rfl⟩
    rw [peek_of e] at hc ⊢
    apply wp_bind
    refine wp_skipBlank (h.ok.adv a1) e (by intro h10; simp [h10, isBreak] at hc) ?_
    intro s2 a2 _ e2
    sdone
    exact ⟨⟨a1.trans a2, v1.push e2⟩, .inl (by rw [e2]; simp)⟩
  · sdone
    have hend : s1.src.bufIsEmpty = true ∨ isBreak (s1.src.peekz 0) = true := by
      cases h1 : s1.src.bufIsEmpty
      · right; simpa [h1] using hc
      · exact .inl rfl
    obtain ⟨t, v⟩ := v1.stop (by
      intro c r e
      rcases hend with hb | hb
      · simp [Src.bufIsEmpty, e] at hb
      · rw [peek_of e, isBreak_iff] at hb; omega)
    sg
    refine wp_ite (fun he => ?_) (fun _ => wp_pure (k _ _ ⟨a1, v⟩ t hend))
    have hr : s1.src.rest = [] := by simpa [Src.bufIsEmpty] using he
    apply wp_bind
    unfold pushNonBreakz
    apply wp_of
    have hpos : ¬ s1.src.pos > s1.src.len := by
      have := (h.ok.adv a1).pos; have := (h.ok.adv a1).len; omega
    simp only [if_neg hpos]
    have hs : { s1 with src := s1.src.skip ((s1.src.rest.findIdx? isBreak).getD 0),
                        mark := { s1.mark with pos := s1.mark.pos + ((s1.src.rest.findIdx? isBreak).getD 0),
                                               col := s1.mark.col + ((s1.src.rest.findIdx? isBreak).getD 0) } } = s1 := by
      rw [hr]
      simp [Src.skip, hr]
      rw [← hr]
    rw [hs]
    apply wp_pure
    exact k _ _ ⟨a1, v⟩ (by simpa [hr] using t) hend

/-- What is known while the lines of a block scalar are being scanned. -/
structure BlockOk (x : Ctx) (s : SSt) (p : BlockSt) (s1 : SSt) : Prop where
  fwd : Fwd x s s1
  text : VT x p.string
  lead : Ascii p.leadingBreak
  trail : Ascii p.trailingBreaks

theorem blockJoin_facts {x s p s1} (h : BlockOk x s p s1) (l t : Bool) :
    VT x (blockJoin l t p).string ∧ (blockJoin l t p).leadingBreak = [] ∧ (blockJoin l t p).trailingBreaks = [] := by
  unfold blockJoin
  split
  · refine ⟨(h.text.app (.ascii h.trail)).app ?_, rfl, rfl⟩
    split
    · exact .ascii (by simp)
    · exact .nil
  · exact ⟨(h.text.app (.ascii h.lead)).app (.ascii h.trail), rfl, rfl⟩

theorem blockChompTail_ok {x s p s1} (h : BlockOk x s p s1) (ch e g) : VT x (blockChompTail ch e g p) := by
  unfold blockChompTail
  refine (h.text.app ?_).app ?_
  · split
    · exact .nil
    · refine VT.app (.ascii h.lead) ?_
      split
      · exact .ascii (by simp)
      · exact .nil
  · split
    · exact .ascii h.trail
    · exact .nil

/-- the result of scanning a block scalar from `s`: the token is appended to the queue -/
def BlockPost (x : Ctx) (s : SSt) (s' : SSt) : Prop :=
  ∃ s2 t, Prog x (nb s) s2 ∧ TokOk x (nb s) s2 t ∧ s' = { s2 with tokens := s2.tokens ++ [t] }

theorem wp_blockContent {x lit ch i tr} {Q : Unit → SSt → Prop} {s} (h : Pt x s) (hi : i ≤ 125 ∨ x.hg) (ha : Ascii tr)
    (k : ∀ t s', Fwd x s s' → TokOk x s s' t → Q () { s' with tokens := s'.tokens ++ [t] }) :
    wp x (blockContent x.cfg lit ch i tr) Q s := by
  unfold blockContent getMark
  sg; sg
  apply wp_bind
  refine wp_failIf h.ok.here ?_
  intro _
  apply wp_bind
  refine wp_loopM (fun p s1 => BlockOk x s p s1) (fun _ s' => s'.src.rest.length)
    ⟨h.refl, .nil, .nil, ha⟩ ?_ (.inl h.fuel)
  intro p s1 o1
  have hend : ∀ p s1, BlockOk x s p s1 → wp x (do
      let eof ← atEof
      let greater ← gets fun s => decide (s.mark.col > max i 1)
      let m' ← gets (·.mark)
      push ⟨s.mark, m'⟩ (.scalar (if lit then .literal else .folded) (blockChompTail ch eof greater p))) Q s1 := by
    intro p s1 o1
    unfold atEof
    sg; sg; sg
    apply wp_upd
    refine k _ _ o1.fwd ⟨Nat.le_refl _, o1.fwd.adv.pos_le, Nat.le_refl _, ?_, rfl, h.at, (h.fwd o1.fwd).at⟩
    simpa [TextOk, texts] using blockChompTail_ok o1 _ _ _
  unfold blockBody
  sg
  refine wp_ite (fun _ => ?_) (fun _ => ?_)
  · sg
    have hj := blockJoin_facts o1 lit (isBlank (s1.src.peekz 0))
    have h1 := h.fwd o1.fwd
    apply wp_bind
    refine wp_contentLine h1 hj.1 ?_
    intro r s2 f2 t2 e2
    have f12 := f2.adv.len_le
    have f2 := o1.fwd.trans f2
    unfold atEof
    sg
    refine wp_ite (fun _ => ?_) (fun hne => ?_)
    · sdone
      exact hend _ _ ⟨f2, t2, by rw [hj.2.1]; exact .nil, by rw [hj.2.2]; exact .nil⟩
    · apply wp_bind
      refine wp_break (h.fwd f2) (e2.resolve_left hne) ?_
      intro s3 f3 l3
      have f3 := f2.trans f3
      apply wp_bind
      refine wp_skipBlockIndent (h.fwd f3) hi (by rw [hj.2.2]; exact .nil) ?_
      intro tb s4 f4 c4
      have := f4.adv.len_le
      sdone
      exact ⟨⟨f3.trans f4, t2, by rw [hj.2.1]; exact Ascii.nil.snoc (by decide), c4⟩, l3.imp (by omega) id⟩
  · sdone; exact hend _ _ o1

theorem TokOk.later {x a b s' t} (h : TokOk x b s' t) (hp : a.mark.pos ≤ b.mark.pos) : TokOk x a s' t :=
  ⟨Nat.le_trans hp h.start, h.order, h.stop, h.text, h.kind, h.at1, h.at2⟩

theorem blockIndicator {x s} (h : Pt x s) (hc : s.src.peekz 0 = 124 ∨ s.src.peekz 0 = 62) : Spec.HasBlockIndicator x.input := by
  obtain ⟨pre, h1, _, _⟩ := h.ok.loc
  cases hr : s.src.rest with
  | nil => simp [Src.peekz, hr] at hc
  | cons d t =>
    rw [peek_of hr] at hc
    rw [h1, hr]
    rcases hc with rfl | rfl
    · left; simp
    · right; simp

theorem wp_scanBlockScalar {x lit} {Q : Unit → SSt → Prop} {s} (h : Pt x s) (hc : s.src.peekz 0 = 124 ∨ s.src.peekz 0 = 62)
    (hi : (nb s).indent ≤ 111 ∨ x.lg) (k : ∀ s', BlockPost x s s' → Q () s') : wp x (scanBlockScalar x.cfg lit) Q s := by
  have hlg : x.lg → x.hg := fun hl => h.ok.bar hl (blockIndicator h hc)
  replace hi : (nb s).indent ≤ 111 ∨ x.hg := hi.imp id hlg
  have hm := h.at
  unfold scanBlockScalar getMark
  sg
  apply wp_bind
  refine wp_eat h rfl (by omega) (by omega) (by omega) ?_
  intro s1 p1 _
  apply wp_bind
  apply wp_nb
  have p1 := p1.nb
  have hN := h.nb
  have e0 : s.mark = (nb s).mark := rfl
  rw [e0] at hm ⊢
  unfold BlockPost at k
  clear h
  revert hi k p1 hN hm
  generalize nb s = s
  generalize nb s1 = s1
  intro k hi hm p1 h
  have h1 := h.prog p1
  apply wp_bind
  refine wp_blockHeader h1 hm ?_
  intro hd s2 f2 b2
  have p2 := p1.then f2
  apply wp_bind
  refine wp_ws (h.prog p2) ?_
  intro _ s3 f3
  have p3 := p2.then f3
  sg
  apply wp_bind
  refine wp_failIf h.ok.here ?_
  intro _
  apply wp_bind
  have hbr : wp x blockHeaderBreak (fun r s4 => Prog x s s4 ∧ Ascii r) s3 := by
    unfold blockHeaderBreak
    sg
    refine wp_ite (fun hb => ?_) (fun _ => wp_pure ⟨p3, .nil⟩)
    refine wp_break (h.prog p3) hb ?_
    intro s4 f4 _
    exact ⟨p3.then f4, Ascii.nil.snoc (by decide)⟩
  refine wp_mono hbr ?_
  intro cb s4 ⟨p4, c4⟩
  sg
  apply wp_bind
  refine wp_failIf h.ok.here ?_
  intro _
  apply wp_bind
  have h4 := h.prog p4
  have hi4 : s4.indent ≤ 111 ∨ x.hg := by rw [p4.adv.same.indent]; exact hi
  have hfi : wp x (blockFindIndent x.cfg hd.2) (fun r s5 => Prog x s s5 ∧ (r.1 ≤ 125 ∨ x.hg) ∧ Ascii r.2) s4 := by
    unfold blockFindIndent
    sg
    refine wp_ite (fun _ => ?_) (fun _ => ?_)
    · refine wp_skipFirstLineIndent h4 hlg hi4 .nil ?_
      intro r s5 f5 b5 c5
      exact ⟨p4.then f5, b5.imp (by omega) id, c5⟩
    · have hb : (if hd.2 > 0 then (if s4.indent ≥ 1 then s4.indent + hd.2 else hd.2) else 0) ≤ 125 ∨ x.hg := by
        refine hi4.imp ?_ id
        intro hi4
        split
        · split <;> omega
        · omega
      apply wp_bind
      refine wp_skipBlockIndent h4 hb .nil ?_
      intro r s5 f5 c5
      exact wp_pure ⟨p4.then f5, hb, c5⟩
  refine wp_mono hfi ?_
  intro r s5 ⟨p5, b5, c5⟩
  unfold atEof
  sg
  refine wp_ite (fun _ => ?_) (fun _ => ?_)
  · sg
    apply wp_upd
    refine k _ ⟨s5, _, p5, ?_, rfl⟩
    refine ⟨Nat.le_refl _, p5.adv.pos_le, Nat.le_refl _, ?_, rfl, h.at, (h.prog p5).at⟩
    intro w hw
    simp [texts] at hw
    rw [hw]
    unfold blockEmpty
    split
    · exact .nil
    · split
      · exact .nil
      · exact .ascii c4
    · split
      · exact .nil
      · split
        · exact .ascii c4
        · exact .ascii c5
  · refine wp_blockContent (h.prog p5) b5 c5 ?_
    intro t s6 f6 t6
    exact k _ ⟨s6, t, p5.then f6, t6.later p5.adv.pos_le, rfl⟩

end Verif.Scanner
