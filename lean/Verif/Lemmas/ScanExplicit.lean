import Verif.Lemmas.ScanEntriesL
/-!
# Scanning `?` and the `:` that begins a line
-/
namespace Verif.Scanner
open Verif Verif.CharUtils Verif.Source Verif.Emitter

/-! ## The white space after `?` -/

theorem yspace_step {s : SSt} {r b} (hs : s.src.rest = 32 :: r) : skipYamlWhitespaceBody b s = (.ok (.next false), gap s [32]) := by
  have h0 : s.src.peekz 0 = 32 := peekz_cons hs
  unfold skipYamlWhitespaceBody skipBlank
  ev [h0]
  simp [gap, gapMark]

theorem ynewline_step {s : SSt} {r b} (hs : s.src.rest = 10 :: r) (hf : s.flowLevel = 0) : skipYamlWhitespaceBody b s = (.ok (.next false), gap s [10]) := by
  have h0 : s.src.peekz 0 = 10 := peekz_cons hs
  unfold skipYamlWhitespaceBody skipLinebreak setAllowed
  ev [h0]
  simp [hf, gap, gapMark]
  rfl

theorem ycomment_step {s : SSt} {k r b} (h : CommentText k) (hr : r = [] ∨ ∃ r', r = 10 :: r') (hs : s.src.rest = 35 :: (k ++ r)) :
    skipYamlWhitespaceBody b s = (.ok (.next b), gap s (35 :: k)) := by
  have h0 : s.src.peekz 0 = 35 := peekz_cons hs
  unfold skipYamlWhitespaceBody
  ev [h0]
  simp only [show ¬ ((35 : Nat) = 32) by decide, show ¬ ((35 : Nat) = 10) by decide, show ¬ ((35 : Nat) = 13) by decide, or_self, if_false]
  rw [bind_run (skipComment_run h hr hs)]
  rfl

theorem ydone_step {s : SSt} {q b} (hs : s.src.rest = q) (hq : TokenHead q) : skipYamlWhitespaceBody b s = (.ok (.done b), s) := by
  have h0 : s.src.peekz 0 ≠ 32 ∧ s.src.peekz 0 ≠ 10 ∧ s.src.peekz 0 ≠ 13 ∧ s.src.peekz 0 ≠ 35 := by
    rw [peekz_head hs]
    cases q with
    | nil => simp
    | cons c q => have := hq c rfl; simp; omega
  unfold skipYamlWhitespaceBody
  ev [h0]
  simp

theorem gap_nil (s : SSt) : gap s [] = s := by
  rcases s with ⟨src⟩
  rcases src with ⟨⟩
  simp [gap, gapMark, Src.skip]

theorem ylay_run {w q} (h : Lay w q) : ∀ {k s b}, TokenHead q → s.src.rest = w ++ q → w.length < k → s.flowLevel = 0 →
    (b = false ∨ w.head? = some 32 ∨ w.head? = some 10) → loopM skipYamlWhitespaceBody k b s = (.ok false, gap s w) := by
  induction h with
  | nil =>
    intro k s b hq hr hk hf hb
    obtain ⟨k, rfl⟩ : ∃ j, k = j + 1 := ⟨k - 1, by omega⟩
    rw [loop_done (ydone_step hr hq), gap_nil]
    rcases hb with rfl | hb | hb
    · rfl
    · cases hb
    · cases hb
  | @space w q _ ih =>
    intro k s b hq hr hk hf _
    obtain ⟨k, rfl⟩ : ∃ j, k = j + 1 := ⟨k - 1, by omega⟩
    rw [loop_next (yspace_step hr), ih hq (gap_rest (a := [32]) hr) (by simpa using hk) hf (.inl rfl), gap_gap]
    rfl
  | @newline w q _ ih =>
    intro k s b hq hr hk hf _
    obtain ⟨k, rfl⟩ : ∃ j, k = j + 1 := ⟨k - 1, by omega⟩
    rw [loop_next (ynewline_step hr hf), ih hq (gap_rest (a := [10]) hr) (by simpa using hk) hf (.inl rfl), gap_gap]
    rfl
  | @comment k w q hk _ ih =>
    intro j s b hq hr hj hf _
    obtain ⟨j, rfl⟩ : ∃ i, j = i + 2 := ⟨j - 2, by simp at hj; omega⟩
    have hr' : s.src.rest = 35 :: (k ++ 10 :: (w ++ q)) := by rw [hr]; simp
    have h1 : (gap s (35 :: k)).src.rest = 10 :: (w ++ q) := gap_rest (a := 35 :: k) hr'
    rw [loop_next (ycomment_step hk (.inr ⟨_, rfl⟩) hr'), loop_next (ynewline_step h1 hf), ih hq (gap_rest (a := [10]) h1) (by simp at hj; omega) hf (.inl rfl), gap_gap, gap_gap]
    simp
  | @last k hk =>
    intro j s b hq hr hj hf hb
    obtain rfl : b = false := by
      rcases hb with rfl | hb | hb
      · rfl
      · cases hb
      · cases hb
    obtain ⟨j, rfl⟩ : ∃ i, j = i + 2 := ⟨j - 2, by simp at hj; omega⟩
    have hr' : s.src.rest = 35 :: (k ++ []) := by rw [hr]; simp
    rw [loop_next (ycomment_step hk (.inl rfl) hr'), loop_done (ydone_step (gap_rest (a := 35 :: k) hr') hq)]

/-! ## Indicators that begin an item, a key or a value -/

/-- The indicator `c0` at the beginning of an item or an entry is read as `tok`. `e`: it may be the last character. -/
def LeadG (tt : TokenType) (c0 : Byte) (tok : TokenType) (e : Bool) : Prop :=
  ∀ {cfg s out I i i0 I0 w q c c' b}, Here cfg s out I i (c0 :: (w ++ q)) c true → Opens I i i0 I0 c tt b →
    Lay w q → TokenHead q → BlankNext w q → (w = [] → e = true) → (q ≠ [] → ∀ m : Marker, m.col = c + 1 → (gapMark m w).col = c') →
    (c0 :: (w ++ q)).length < cfg.fuel →
    ∃ I1 i1, BCtx I1 i1 c (⟨i0, true⟩ :: I0) ∧ ∀ I' i' n, unroll (lowCol q c') i1 I1 = some (I', i', n) →
      Goes cfg s (c0 :: (w ++ q)).length (out ++ b ++ [tok] ++ List.replicate n .blockEnd) I' i' q c' true

theorem dash_lead : LeadG .blockSequenceStart 45 .blockEntry true := fun h ho hw hq hh _ hcol hf => item_lay h ho hw hq hh hcol hf

theorem other_notMark {c r} (h1 : c ≠ 37) (h2 : c ≠ 45) (h3 : c ≠ 46) : NotMarkL (c :: r) :=
  ⟨by simpa using h1, fun x r' hx e => by simp at e; omega⟩

/-- `?` -/
theorem question_lead : LeadG .blockMappingStart 63 .key false := by
  intro cfg s out I i i0 I0 w q c c' b h ho hw hq hh hne hcol hf
  have hw0 : w ≠ [] := fun hx => by cases hne hx
  have hh' : w.head? = some 32 ∨ w.head? = some 10 := hh.resolve_left fun hx => hw0 hx.1
  obtain ⟨s2, hp, e⟩ := fetch_hereL h (by simp) (fun _ => other_notMark (by decide) (by decide) (by decide))
  obtain ⟨k, hk, hkp⟩ := hp.keyless
  have h0 : s2.src.peekz 0 = 63 := peekz_cons hp.rest
  have h1 : isBlankOrBreakz (s2.src.peekz 1) = true := by
    rcases hh.next with h | ⟨x, r', h, rfl | rfl⟩ <;> simp [Src.peekz, hp.rest, h, isBlankOrBreakz, isBlank, isBreak]
  have em : fetchMain cfg s2 = fetchKey cfg s2 := by
    unfold fetchMain
    ev [h0, h1]
    simp
  obtain ⟨l, hroll, hlt'⟩ := roll_open (s := s2) (m := s2.mark) (tt := .blockMappingStart) hp.calm.level hp.indents hp.indent ho
  generalize hB : ({ s2 with indents := ⟨i0, true⟩ :: I0, indent := c, tokens := s2.tokens ++ l } : SSt) = B at hroll
  have b1 : B.simpleKeys = [k] := by rw [← hB]; exact hk
  have b2 : B.simpleKeyAllowed = true := by rw [← hB]; exact hp.al
  have b3 : B.flowLevel = 0 := by rw [← hB]; exact hp.calm.level
  have b4 : B.mark = s2.mark := by rw [← hB]
  have b5 : B.src = s2.src := by rw [← hB]
  have hup : ({ B with simpleKeyAllowed := B.flowLevel == 0 } : SSt) = B := by
    rw [b3]
    rcases B with ⟨⟩
    simp_all
  have hst : fetchKeyStart s2.mark s2 = (.ok (), B) := by
    unfold fetchKeyStart
    have hal : s2.simpleKeyAllowed = true := hp.al
    ev [hp.calm.level, hal, Bool.not_true]
    rw [← hp.col] at hroll
    exact hroll
  have hrest : (on B 1).src.rest = w ++ q := on_rest (w := [63]) (by rw [b5, hp.rest]; rfl) rfl
  have hws : skipYamlWhitespace cfg (on B 1) = (.ok (), gap (on B 1) w) := by
    unfold skipYamlWhitespace
    rw [bind_run (ylay_run hw hq hrest (by simp at hf; omega) b3 (.inr hh')), getMark_bind]
    rfl
  generalize hG : gap (on B 1) w = G at hws
  have g1 : G.src.rest = q := by rw [← hG]; exact gap_rest hrest
  have g2 : G.mark = gapMark ⟨s2.mark.pos + 1, s2.mark.col + 1, s2.mark.line⟩ w := by rw [← hG, ← b4]; rfl
  have g3 : (G.src.peekz 0 == 9) = false := by
    rw [peekz_head g1]
    cases q with
    | nil => rfl
    | cons x q => have := hq x rfl; simp; omega
  have g4 : G.tokens = s2.tokens ++ l := by rw [← hG, ← hB]; rfl
  have efin : fetchMain cfg s2 = (.ok (), { G with tokens := G.tokens ++ [⟨⟨s2.mark, G.mark⟩, .key⟩] }) := by
    rw [em]
    unfold fetchKey push
    rw [getMark_bind, bind_run hst, bind_run (remove_run b1 hkp)]
    ev [hup]
    rw [bind_run (skipNonBlank_on _), bind_run hws]
    ev [g3]
    rfl
  refine ⟨⟨i0, true⟩ :: I0, c, .inl ⟨rfl, rfl⟩, fun I' i' n hu => Goes.one (e.trans efin) ?_ (by simp; omega)⟩
  generalize hC : ({ G with tokens := G.tokens ++ [⟨⟨s2.mark, G.mark⟩, .key⟩] } : SSt) = C
  have htC : types C = out ++ b ++ [.key] := by
    rw [← hC]; simp [types, g4, hlt']; rw [← hp.toks]; rfl
  have c1 : C.simpleKeyAllowed = true := by
    rw [← hC, ← hG]; show ((on B 1).simpleKeyAllowed || _) = true; rw [show (on B 1).simpleKeyAllowed = true from b2]; rfl
  have := here_lay (cfg := cfg) (s := C) (w := []) (q := q) (c := c') (k := k) (I := I') (i := i') (n := n) .nil
    (by rw [← hC]; exact g1) hq (by simp at hf ⊢; omega)
    (by
      rw [← hC, ← hG]
      refine ⟨b3, ?_, ?_, ?_, (Fit.skip (a := (on B 1).src) (Fit.skip (a := B.src) ?_ (by rw [b5, hp.rest]; simp)) (by rw [hrest]; simp))⟩
      · rw [← hB]; exact hp.calm.impl
      · rw [← hB]; exact hp.calm.parsed
      · rw [← hB]; exact hp.calm.started
      · rw [b5]; exact hp.calm.fit)
    (fun hq0 => by
      rw [← hC]
      show (gapMark G.mark []).col = c'
      rw [g2]
      exact hcol hq0 _ (by show s2.mark.col + 1 = c + 1; rw [hp.col]))
    (by rw [← hC, ← hG, ← hB]; exact hu) (by rw [← hC, ← hG]; exact b1) (fun hx => by rw [hkp] at hx; cases hx)
    (NP.last htC rfl)
  rw [htC, c1] at this
  simpa using this

/-- `:` after an explicit key -/
theorem colon_lead : LeadG .blockMappingStart 58 .value true := by
  intro cfg s out I i i0 I0 w q c c' b h ho hw hq hh _ hcol hf
  obtain ⟨s2, hp, e⟩ := fetch_hereL h (by simp) (fun _ => other_notMark (by decide) (by decide) (by decide))
  obtain ⟨k, hk, hkp⟩ := hp.keyless
  have himp : (!s2.implicitFlowMappingStates.isEmpty && !s2.flowMappingStarted) = false := by rw [hp.calm.impl]; rfl
  obtain ⟨l, hroll, hlt'⟩ := roll_open (s := on s2 1) (m := s2.mark) (tt := .blockMappingStart) hp.calm.level hp.indents hp.indent ho
  generalize hB : ({ on s2 1 with indents := ⟨i0, true⟩ :: I0, indent := c, tokens := s2.tokens ++ l } : SSt) = B
  have hroll' : rollIndent s2.mark.col none .blockMappingStart s2.mark (on s2 1) = (.ok (), B) := by
    rw [hp.col, hroll, ← hB]; rfl
  obtain ⟨I1, i1, hone, hctx⟩ := BCtx.roll (s := B) (i0 := c) (I0 := ⟨i0, true⟩ :: I0) (by rw [← hB]; exact .inl ⟨rfl, rfl⟩)
  have b3 : B.flowLevel = 0 := by rw [← hB]; exact hp.calm.level
  have b4 : B.tokens = s2.tokens ++ l := by rw [← hB]
  have efin : fetchMain cfg s2 = (.ok (), { B with indents := I1, indent := i1, simpleKeyAllowed := true, tokens := B.tokens ++ [⟨Span.empty s2.mark, .value⟩] }) := by
    rw [fetchMain_colonL hp.rest hh.next]
    unfold fetchValue valueAfterKey valueAfterComplexKey push
    rw [gets_bind, hk]
    show (do
      let start ← getMark
      _) s2 = _
    have hal : (on s2 1).simpleKeyAllowed = true := hp.al
    have hfl : (on s2 1).flowLevel = 0 := hp.calm.level
    ev [himp, hkp]
    rw [bind_run (skipColon_lay hp.rest hh.next)]
    have hz : ((0 : Nat) == 0) = true := rfl
    ev [hfl, hz, hal, Bool.not_true]
    rw [bind_run hroll', bind_run hone]
    ev [b3]
    rfl
  refine ⟨I1, i1, hctx, fun I' i' n hu => Goes.one (e.trans efin) ?_ (by simp; omega)⟩
  generalize hC : ({ B with indents := I1, indent := i1, simpleKeyAllowed := true, tokens := B.tokens ++ [⟨Span.empty s2.mark, .value⟩] } : SSt) = C
  have htC : types C = out ++ b ++ [.value] := by
    rw [← hC]; simp [types, b4, hlt']; rw [← hp.toks]; rfl
  have hrC : C.src.rest = w ++ q := by rw [← hC, ← hB]; exact on_rest (w := [58]) (by rw [hp.rest]; rfl) rfl
  have := here_lay (cfg := cfg) (s := C) (w := w) (q := q) (c := c') (k := k) (I := I') (i := i') (n := n)
    hw hrC hq (by simp at hf ⊢; omega)
    (by rw [← hC, ← hB]; exact ⟨hp.calm.level, hp.calm.impl, hp.calm.parsed, hp.calm.started, hp.calm.fit.skip (n := 1) (by simp [hp.rest])⟩)
    (fun hq0 => by rw [← hC, ← hB]; refine hcol hq0 _ ?_; simp [on, hp.col])
    (by rw [← hC]; exact hu) (by rw [← hC, ← hB]; exact hk) (fun hx => by rw [hkp] at hx; cases hx)
    (NP.last htC rfl)
  have hal' : C.simpleKeyAllowed = true := by rw [← hC]
  rw [htC, hal'] at this
  simpa using this

end Verif.Scanner
