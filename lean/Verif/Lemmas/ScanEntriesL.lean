import Verif.Lemmas.ScanLeaf
import Verif.Lemmas.ScanNode
/-!
# Scanning block collections with any layout
-/
namespace Verif.Scanner
open Verif Verif.CharUtils Verif.Source Verif.Emitter

/-- What follows a node: spaces, comments and line ends, and then the end of the text, or something at column `c'`, not deeper than the
surrounding collection, or, outside all collections, `---`. -/
def EndL (w q : List Byte) (c' i0 : Nat) : Prop :=
  Lay w q ∧ w.head? ≠ some 35 ∧ TokenHead q ∧ (q = [] ∨
    (w.contains 10 = true ∧ (∀ m, (gapMark m w).col = c') ∧ 1 ≤ c' ∧ (c' ≤ i0 ∨ (c' = 1 ∧ i0 = 0 ∧ DocMark q)) ∧ q ≠ []))

theorem EndL.after {w q c' i0} (h : EndL w q c' i0) : AfterL w q i0 := by
  obtain ⟨h1, h2, h3, h4⟩ := h
  refine ⟨h1, h3, h2, ?_⟩
  rcases h4 with h4 | ⟨h4, h5, h6, h7, h8⟩
  · exact .inl h4
  · refine .inr (.inr ⟨h4, ?_⟩)
    rcases h7 with h7 | ⟨rfl, rfl, hd⟩
    · exact .inl fun m => by rw [h5]; exact h7
    · exact .inr ⟨h5, rfl, hd⟩

theorem EndL.head {w q c' i0} (h : EndL w q c' i0) : TokenHead q := h.2.2.1

theorem EndL.low {w q c' i0} (h : EndL w q c' i0) : lowCol q c' ≤ i0 := by
  rcases h.2.2.2 with rfl | ⟨h4, h5, h6, h7, h8⟩
  · simp [lowCol]
  · rcases h7 with h7 | ⟨rfl, rfl, hd⟩
    · exact Nat.le_trans lowCol_le h7
    · simp [lowCol, hd]

theorem EndL.col {w q c' i0} (h : EndL w q c' i0) (hq : q ≠ []) (m : Marker) : (gapMark m w).col = c' ∧ m.line < (gapMark m w).line ∧ w.contains 10 = true := by
  rcases h.2.2.2 with rfl | ⟨h4, h5, h6, h7, h8⟩
  · exact absurd rfl hq
  · exact ⟨h5 m, gapMark_lt m w h4, h4⟩

theorem EndL.deeper {w q c' i0 c} (h : EndL w q c' i0) (hc : i0 < c) : EndL w q c' c := by
  obtain ⟨h1, h2, h3, h4⟩ := h
  refine ⟨h1, h2, h3, ?_⟩
  rcases h4 with h4 | ⟨h4, h5, h6, h7, h8⟩
  · exact .inl h4
  · exact .inr ⟨h4, h5, h6, .inl (by omega), h8⟩

/-- what may follow `-` and `:` -/
def BlankNext (w q : List Byte) : Prop := (w = [] ∧ q = []) ∨ w.head? = some 32 ∨ w.head? = some 10

theorem EndL.blank {w q c' i0} (h : EndL w q c' i0) : BlankNext w q := by
  obtain ⟨h1, h2, h3, h4⟩ := h
  cases h1 with
  | nil =>
    rcases h4 with rfl | ⟨h4, -⟩
    · exact .inl ⟨rfl, rfl⟩
    · simp at h4
  | space _ => exact .inr (.inl rfl)
  | newline _ => exact .inr (.inr rfl)
  | comment _ _ => simp at h2
  | last _ => simp at h2

theorem BlankNext.next {w q} (h : BlankNext w q) : w ++ q = [] ∨ ∃ b r, w ++ q = b :: r ∧ (b = 32 ∨ b = 10) := by
  rcases h with ⟨rfl, rfl⟩ | h | h
  · exact .inl rfl
  · cases w with
    | nil => cases h
    | cons b w => simp at h; subst h; exact .inr ⟨_, _, rfl, .inl rfl⟩
  · cases w with
    | nil => cases h
    | cons b w => simp at h; subst h; exact .inr ⟨_, _, rfl, .inr rfl⟩

theorem unroll_closeL {w q c' i0 I0 c I' i' n} (he : EndL w q c' i0) (hc : i0 < c) (hu : unroll (lowCol q c') i0 I0 = some (I', i', n)) :
    unroll (lowCol q c') c (⟨i0, true⟩ :: I0) = some (I', i', n + 1) := by
  have := he.low
  rw [unroll_step (by omega), hu]
  rfl

/-- a scalar that is not a key -/
theorem leaf_goes {cfg s out I i i0 I0 t tok w q c c' al I' i' n} (h : Here cfg s out I i (t ++ (w ++ q)) c al) (ht : LeafText t tok)
    (hx : BCtx I i i0 I0) (hb : BlockTop I0) (hi : i0 < c) (he : EndL w q c' i0) (hf : (t ++ (w ++ q)).length < cfg.fuel)
    (hu : unroll (lowCol q c') i0 I0 = some (I', i', n)) :
    Goes cfg s (t ++ (w ++ q)).length (out ++ [tok] ++ List.replicate n .blockEnd) I' i' q c' true := by
  obtain ⟨s2, hp, e⟩ := fetch_hereL h (by simp [ht.ne]) (fun _ => ht.notMark he.after.pend)
  obtain ⟨s3, w1, w2, e3, hw, r⟩ := leaf_read hp ht hx hb (by omega) (by omega) he.after hf
  have hlen : 0 < t.length := by rw [List.length_pos_iff]; exact ht.ne
  refine Goes.one (e.trans e3) ?_ (by simp; omega)
  obtain ⟨k, hk, hkp⟩ := hp.keys
  obtain ⟨sp, htk⟩ := r.toks
  have hty : types s3 = out ++ [tok] := by simp [types, htk]; exact hp.toks
  have hmk : gapMark s3.mark w2 = gapMark ⟨s2.mark.pos + t.length, s2.mark.col + t.length, s2.mark.line⟩ w := by
    rw [r.mark, hw, gapMark_append]
  have hsv : ∃ k', savedKeys s2 = [k'] ∧ (k'.possible = true → k'.required = false ∧ (q ≠ [] → k'.mark.line < (gapMark s3.mark w2).line)) := by
    have hline : q ≠ [] → s2.mark.line < (gapMark s3.mark w2).line := fun hq => by
      rw [hmk]
      exact (he.col hq ⟨s2.mark.pos + t.length, s2.mark.col + t.length, s2.mark.line⟩).2.1
    unfold savedKeys
    split
    · refine ⟨keyHere s2, by simp [hk], fun _ => ⟨BCtx.notRequired (by rw [hp.indents, hp.indent]; exact hx) hp.col hi, hline⟩⟩
    · exact ⟨k, hk, fun hx => ⟨(hkp hx).1, fun hq => Nat.lt_of_le_of_lt (hkp hx).2.2 (hline hq)⟩⟩
  obtain ⟨k', hk', hkp'⟩ := hsv
  have := here_lay (cfg := cfg) (s := s3) (w := w2) (q := q) (c := c') (k := k') r.lay r.rest he.head (by rw [hw] at hf; simp at hf; omega) r.calm
    (fun hq => by rw [hmk]; exact (he.col hq _).1) ((r.ctx.unroll he.low).trans hu) (by rw [r.keys, hk']) (fun hx => ⟨(hkp' hx).1, fun hq => .inl ((hkp' hx).2 hq)⟩)
    (NP.last hty ht.np)
  rw [hty] at this
  by_cases hq : q = []
  · subst hq
    exact this.nil _
  · have hc10 := (he.col hq s2.mark).2.2
    rw [hw] at hc10
    rw [r.al, show (w1.contains 10 || w2.contains 10) = true by simpa using hc10] at this
    exact this

theorem lay_len {w w' e : List Byte} (h : w = e ++ w') : w'.length ≤ w.length := by subst h; simp

theorem dash_notMark {w q} (h : BlankNext w q) : NotMarkL (45 :: (w ++ q)) := by
  refine ⟨by simp, fun x r hx heq => ?_⟩
  rcases h.next with h | ⟨b, r', h, hb⟩
  · rw [h] at heq; simp at heq
  · rw [h] at heq; simp at heq; omega

/-- an item of a block sequence -/
theorem item_lay {cfg s out I i i0 I0 w q c c' b} (h : Here cfg s out I i (45 :: (w ++ q)) c true) (ho : Opens I i i0 I0 c .blockSequenceStart b)
    (hw : Lay w q) (hq : TokenHead q) (hh : BlankNext w q) (hcol : q ≠ [] → ∀ m : Marker, m.col = c + 1 → (gapMark m w).col = c')
    (hf : (45 :: (w ++ q)).length < cfg.fuel) :
    ∃ I1 i1, BCtx I1 i1 c (⟨i0, true⟩ :: I0) ∧ ∀ I' i' n, unroll (lowCol q c') i1 I1 = some (I', i', n) →
      Goes cfg s (45 :: (w ++ q)).length (out ++ b ++ [.blockEntry] ++ List.replicate n .blockEnd) I' i' q c' true := by
  obtain ⟨s2, hp, e⟩ := fetch_hereL h (by simp) (fun _ => dash_notMark hh)
  obtain ⟨k, hk, hkp⟩ := hp.keyless
  have h0 : s2.src.peekz 0 = 45 := peekz_cons hp.rest
  have h1 : isBlankOrBreakz (s2.src.peekz 1) = true := by
    rcases hh.next with h | ⟨x, r', h, rfl | rfl⟩ <;> simp [Src.peekz, hp.rest, h, isBlankOrBreakz, isBlank, isBreak]
  have em : fetchMain cfg s2 = fetchBlockEntry s2 := by
    unfold fetchMain
    ev [h0, h1]
    simp
  have hfl : decide (s2.flowLevel > 0) = false := by simp [hp.calm.level]
  have hanch : anchoredEntry s2 = false := by
    unfold anchoredEntry
    cases hl : s2.tokens.getLast? with
    | none => rfl
    | some t =>
      have hnp := hp.np _ hl
      obtain ⟨sp, tt⟩ := t
      have : isProp tt = true → (s2.mark.col == 1 && sp.start.col == 1 && decide (s2.indent > 0)) = false := by
        intro hpr
        rw [hp.col, hp.indent]
        by_cases h1 : sp.start.col = 1
        case neg => simp [h1]
        rcases hnp hpr h1 with h | h
        · simp [h]
        · simp [h]
      cases tt <;> first | rfl | exact this rfl
  obtain ⟨l, hroll, hlt'⟩ := roll_open (s := on s2 1) (m := s2.mark) (tt := .blockSequenceStart) hp.calm.level hp.indents hp.indent ho
  generalize hB : ({ on s2 1 with indents := ⟨i0, true⟩ :: I0, indent := c, tokens := s2.tokens ++ l } : SSt) = B
  have hroll' : rollIndent s2.mark.col none .blockSequenceStart s2.mark (on s2 1) = (.ok (), B) := by
    rw [hp.col, hroll, ← hB]; rfl
  have b1 : B.src = s2.src.skip 1 := by rw [← hB]; rfl
  have b2 : B.mark = ⟨s2.mark.pos + 1, s2.mark.col + 1, s2.mark.line⟩ := by rw [← hB]; rfl
  have b3 : B.simpleKeys = [k] := by rw [← hB]; exact hk
  have hrB : B.src.rest = w ++ q := by rw [b1]; simp [Src.skip, hp.rest]
  have h35 : ∀ b : Bool, w.head? = some 35 → b = true := by
    intro b hx
    rcases hh with ⟨rfl, -⟩ | hh | hh
    · cases hx
    · rw [hx] at hh; simp at hh
    · rw [hx] at hh; simp at hh
  obtain ⟨e1, w1, r1, hw1, he1, hs1, hh1, hl1, -⟩ := skipWs_lay (st := true) (b := false) hw hq (h35 _) hrB
  have hrB1 : (pass B e1 B.leadingWhitespace).src.rest = w1 ++ q := pass_rest (a := e1) (by rw [hrB, hw1]; simp)
  obtain ⟨e2, w2, r2, hw2, he2, hs2, hh2, hl2, -⟩ := skipWs_lay (st := false) (b := r1) hl1 hq (by intro hx; rcases hh1 with rfl | ⟨_, rfl⟩ <;> simp at hx) hrB1
  have hs2' : skipWsToEol false r1 (pass B e1 B.leadingWhitespace) = (.ok (false, r2), pass B (e1 ++ e2) B.leadingWhitespace) := by
    rw [hs2, pass_pass]; rfl
  have hrB2 : (pass B (e1 ++ e2) B.leadingWhitespace).src.rest = w2 ++ q := pass_rest (a := e1 ++ e2) (by rw [hrB, hw1, hw2]; simp)
  generalize hD : pass B (e1 ++ e2) B.leadingWhitespace = D at hs2' hrB2
  have d1 : D.indents = ⟨i0, true⟩ :: I0 := by rw [← hD, ← hB]; rfl
  have d2 : D.indent = c := by rw [← hD, ← hB]; rfl
  have d3 : D.simpleKeys = [k] := by rw [← hD]; exact b3
  have d4 : D.mark = gapMark B.mark (e1 ++ e2) := by rw [← hD]; rfl
  have d5 : D.tokens = s2.tokens ++ l := by rw [← hD, ← hB]; rfl
  have hctxD : BCtx D.indents D.indent c (⟨i0, true⟩ :: I0) := .inl ⟨d1, d2⟩
  have hone : ∀ x : Bool, ∃ I' i', when x rollOneColIndent D = (.ok (), { D with indents := I', indent := i' }) ∧ BCtx I' i' c (⟨i0, true⟩ :: I0) := by
    intro x
    cases x
    · exact ⟨_, _, rfl, hctxD⟩
    · exact BCtx.roll hctxD
  unfold fetchBlockEntry setAllowed push at em
  obtain ⟨I1, i1, hr', hctx⟩ := hone (isBreak (D.src.peekz 0) || isFlow (D.src.peekz 0))
  have er : removeSimpleKey { D with indents := I1, indent := i1 } = (.ok (), { D with indents := I1, indent := i1 }) :=
    remove_run d3 hkp
  have hal : s2.simpleKeyAllowed = true := hp.al
  have efin : fetchMain cfg s2 = (.ok (), { D with indents := I1, indent := i1, simpleKeyAllowed := true, tokens := D.tokens ++ [⟨⟨s2.mark, D.mark⟩, .blockEntry⟩] }) := by
    rw [em]
    ev [hfl, hal, hanch, Bool.not_true]
    rw [bind_run (skipNonBlank_on _), bind_run hroll', bind_run hs1]
    ev [Bool.false_and]
    rw [bind_run hs2']
    ev []
    rw [bind_run hr', bind_run er]
    ev []
    rfl
  refine ⟨I1, i1, hctx, fun I' i' n hu => Goes.one (e.trans efin) ?_ (by simp; omega)⟩
  have hty : D.tokens.map (·.tt) = out ++ b := by
    rw [d5]; simp [hlt']; rw [← hp.toks]; rfl
  generalize hC : ({ D with indents := I1, indent := i1, simpleKeyAllowed := true, tokens := D.tokens ++ [⟨⟨s2.mark, D.mark⟩, .blockEntry⟩] } : SSt) = C
  have htC : types C = out ++ b ++ [.blockEntry] := by
    rw [← hC]; simp [types, hty]
  have hCm : gapMark C.mark w2 = gapMark B.mark w := by
    have : C.mark = gapMark B.mark (e1 ++ e2) := by rw [← hC]; exact d4
    rw [this, ← gapMark_append, hw1, hw2, List.append_assoc]
  have := here_lay (cfg := cfg) (s := C) (w := w2) (q := q) (c := c') (k := k) (I := I') (i := i') (n := n)
    hl2 (by rw [← hC]; exact hrB2) hq
    (by have h1 := lay_len hw1; have h2 := lay_len hw2; simp at hf; omega)
    (by
      rw [← hC, ← hD, ← hB]
      exact ⟨hp.calm.level, hp.calm.impl, hp.calm.parsed, hp.calm.started,
        (hp.calm.fit.skip (n := 1) (by rw [hp.rest]; simp)).skip (by show (e1 ++ e2).length ≤ _; rw [show (s2.src.skip 1).rest = w ++ q by rw [← b1]; exact hrB, hw1, hw2]; simp)⟩)
    (fun hq0 => by rw [hCm]; exact hcol hq0 _ (by rw [b2]; show s2.mark.col + 1 = c + 1; rw [hp.col]))
    (by rw [← hC]; exact hu) (by rw [← hC]; exact d3) (fun hx => by rw [hkp] at hx; cases hx)
    (NP.last htC rfl)
  have hal' : C.simpleKeyAllowed = true := by rw [← hC]
  rw [htC, hal'] at this
  simpa using this

/-! ## Simple keys -/

theorem skipColon_lay {s : SSt} {r} (h : s.src.rest = 58 :: r) (hr : r = [] ∨ ∃ b r', r = b :: r' ∧ (b = 32 ∨ b = 10)) : skipColon s = (.ok (), on s 1) := by
  unfold skipColon
  have h0 : (on s 1).src.peekz 0 ≠ 9 := by
    rcases hr with rfl | ⟨b, r', rfl, rfl | rfl⟩ <;> simp [on, Src.skip, Src.peekz, h]
  rw [bind_run (skipNonBlank_on _)]
  ev [h0]

theorem fetchMain_colonL {cfg : Cfg} {s : SSt} {r} (h : s.src.rest = 58 :: r) (hr : r = [] ∨ ∃ b r', r = b :: r' ∧ (b = 32 ∨ b = 10)) : fetchMain cfg s = fetchValue s := by
  have h0 : s.src.peekz 0 = 58 := peekz_cons h
  have h1 : isBlankOrBreakz (s.src.peekz 1) = true := by
    rcases hr with rfl | ⟨b, r', rfl, rfl | rfl⟩ <;> simp [Src.peekz, h, isBlankOrBreakz, isBlank, isBreak]
  unfold fetchMain
  ev [h0, h1]
  simp

/-- a fetch in the middle of a line, after spaces -/
theorem fetch_inlineL {cfg : Cfg} {s s' : SSt} (hskip : skipToNextToken cfg s' = (.ok (), s)) (hst' : s'.streamStartProduced = true) {q} (hq0 : q ≠ []) (hr : s.src.rest = q)
    (hl : s.flowLevel = 0) (hk : ∀ k ∈ s.simpleKeys, isStale s k = false)
    (hc : s.mark.col ≠ 1) (hi : s.indent ≤ s.mark.col) : fetchNextToken cfg s' = fetchMain cfg s := by
  unfold fetchNextToken
  rw [gets_bind, if_pos hst', bind_run hskip]
  have hs : staleSimpleKeys s = (.ok (), s) := by
    rw [stale_run (fun k' h' hx => by rw [hk k' h'] at hx; cases hx)]
    have : s.simpleKeys.map (fun k => if isStale s k then { k with possible := false } else k) = s.simpleKeys := by
      rw [List.map_congr_left (g := id) (fun k h' => by rw [hk k h']; rfl), List.map_id]
    rw [this]
  rw [bind_run hs, getMark_bind]
  have hu : unrollIndent s.mark.col s = (.ok (), s) := by
    unfold unrollIndent
    rw [if_neg (by omega), unroll_ok hi]
    simp
  rw [bind_run hu, atEof_bind]
  have he : s.src.bufIsEmpty = false := by simp [Src.bufIsEmpty, hr, hq0]
  have hl' : decide (s.mark.col < s.indent) = false := by simp; omega
  have hc' : (s.mark.col == 1) = false := by simpa using hc
  unfold fetchAtToken
  ev [he, hl', hc', Bool.false_and]

/-- `Goes`, and no key is possible any more -/
def GoesK (cfg : Cfg) (s : SSt) (b : Nat) (out : List TokenType) (I : List Indent) (i : Nat) (rest : List Byte) (c : Nat) (al : Bool) : Prop :=
  ∃ m s', Fetches cfg m s s' ∧ Here cfg s' out I i rest c al ∧ m + rest.length ≤ b ∧ ∀ k ∈ s'.simpleKeys, k.possible = false

theorem GoesK.goes {cfg s b out I i rest c al} (h : GoesK cfg s b out I i rest c al) : Goes cfg s b out I i rest c al := by
  obtain ⟨m, s', h1, h2, h3, -⟩ := h
  exact ⟨m, s', h1, h2, h3⟩

/-- a simple key and the `:` after it -/
theorem pair_layK {cfg s out I i i0 I0 t tok sp w q c c' b} (h : Here cfg s out I i (t ++ (sp ++ (58 :: (w ++ q)))) c true) (ht : LeafText t tok)
    (hsp : ∀ x ∈ sp, x = 32) (hlen : t.length + sp.length ≤ 1024) (hc1 : 1 ≤ c) (ho : Opens I i i0 I0 c .blockMappingStart b)
    (hw : Lay w q) (hq : TokenHead q) (hh : BlankNext w q)
    (hcol : q ≠ [] → ∀ m : Marker, m.col = c + t.length + sp.length + 1 → (gapMark m w).col = c')
    (hf : (t ++ (sp ++ (58 :: (w ++ q)))).length < cfg.fuel) :
    ∃ I1 i1, BCtx I1 i1 c (⟨i0, true⟩ :: I0) ∧ ∀ I' i' n, unroll (lowCol q c') i1 I1 = some (I', i', n) →
      GoesK cfg s (t ++ (sp ++ (58 :: (w ++ q)))).length (out ++ b ++ [.key, tok, .value] ++ List.replicate n .blockEnd) I' i' q c' (w.contains 10) := by
  have hpos : 0 < t.length := by rw [List.length_pos_iff]; exact ht.ne
  have hsp10 : sp.contains 10 = false := contains_false.2 fun x hx => by rw [hsp x hx]; decide
  have hla : ∀ {sp' : List Byte} {q}, (∀ x ∈ sp', x = 32) → Lay sp' q := by
    intro sp' q hs
    have := Lay.append (a := sp') (w := []) (q := q) .nil (fun b hb => .inl (hs b hb))
    simpa using this
  have ha : ∀ j, AfterL sp (58 :: (w ++ q)) j := fun j => by
    refine ⟨hla hsp, by simp [TokenHead], ?_, .inr (.inl ⟨hsp10, _, rfl, hh.next⟩)⟩
    cases sp with
    | nil => simp
    | cons x sp => have := hsp x List.mem_cons_self; simp [this]
  obtain ⟨s2, hp, e⟩ := fetch_hereL h (by simp) (fun _ => ht.notMark (ha 0).pend)
  obtain ⟨j0, J0, hx, hbt, hj, hcase⟩ : ∃ j0 J0, BCtx I i j0 J0 ∧ BlockTop J0 ∧ j0 ≤ c ∧
      ((BlockTop I0 ∧ i0 < c ∧ j0 = i0 ∧ J0 = I0 ∧ b = [.blockMappingStart]) ∨ (j0 = c ∧ J0 = ⟨i0, true⟩ :: I0 ∧ b = [])) := by
    rcases ho with ⟨h1, h2, h3, h4⟩ | ⟨h1, h2, h3⟩
    · exact ⟨i0, I0, h1, h2, by omega, .inl ⟨h2, h3, rfl, rfl, h4⟩⟩
    · exact ⟨c, _, .inl ⟨h1, h2⟩, .inr ⟨_, _, rfl⟩, by omega, .inr ⟨rfl, rfl, h3⟩⟩
  obtain ⟨s3', w1, w2, e3, hws, r'⟩ := leaf_read (w := sp) (q := 58 :: (w ++ q)) hp ht hx hbt hj hc1 (ha _) hf
  have hw2 : ∀ x ∈ w2, x = 32 := fun x hx => hsp x (by rw [hws]; simp [hx])
  have hskip : skipToNextToken cfg s3' = (.ok (), gap s3' w2) :=
    lay_run r'.lay (by simp [TokenHead]) r'.rest (by have := lay_len hws; simp at hf; omega) r'.calm.level
  have hw210 : w2.contains 10 = false := contains_false.2 fun x hx => by rw [hw2 x hx]; decide
  have hw110 : w1.contains 10 = false := contains_false.2 fun x hx => by rw [hsp x (by rw [hws]; simp [hx])]; decide
  generalize hs3 : gap s3' w2 = s3 at hskip
  have hr3' : s3.src.rest = 58 :: (w ++ q) := by rw [← hs3]; exact gap_rest r'.rest
  have hk3 : s3.simpleKeys = [keyHere s2] := by
    obtain ⟨k, hk, -⟩ := hp.keys
    rw [← hs3]; show s3'.simpleKeys = _; rw [r'.keys]; simp [savedKeys, hp.al, hk]
  have hm3 : s3.mark = ⟨s2.mark.pos + t.length + sp.length, s2.mark.col + t.length + sp.length, s2.mark.line⟩ := by
    rw [← hs3]; show gapMark s3'.mark w2 = _
    rw [r'.mark, ← gapMark_append, ← hws, gapMark_flat _ _ (contains_false.1 hsp10)]
  have hctx3 : BCtx s3.indents s3.indent j0 J0 := by rw [← hs3]; exact r'.ctx
  have hcalm3 : Calm s3 := by
    rw [← hs3]
    exact ⟨r'.calm.level, r'.calm.impl, r'.calm.parsed, r'.calm.started, r'.calm.fit.skip (by rw [r'.rest]; simp)⟩
  have hi3 : s3.indent ≤ j0 + 1 := by rcases hctx3 with ⟨-, h⟩ | ⟨-, h⟩ <;> omega
  have einl := fetch_inlineL (cfg := cfg) (q := 58 :: (w ++ q)) hskip r'.calm.started (by simp) hr3' hcalm3.level
    (by
      intro k hk
      rw [hk3, List.mem_singleton] at hk
      subst hk
      simp [isStale, keyHere, hm3]
      omega)
    (by rw [hm3]; show s2.mark.col + t.length + sp.length ≠ 1; rw [hp.col]; omega)
    (by rw [hm3]; show s3.indent ≤ s2.mark.col + t.length + sp.length; rw [hp.col]; omega)
  obtain ⟨spn, ht3'⟩ := r'.toks
  have ht3 : s3.tokens = s2.tokens ++ [⟨spn, tok⟩] := by rw [← hs3]; exact ht3'
  generalize hn : s2.tokens.length = n at *
  have hnum : (keyHere s2).tokenNumber = n := by simp [keyHere, hp.calm.parsed, hn]
  have hposs : (keyHere s2).possible = true := rfl
  have himp : (!s3.implicitFlowMappingStates.isEmpty && !s3.flowMappingStarted) = false := by rw [hcalm3.impl]; rfl
  generalize hA : ({ on s3 1 with tokens := s2.tokens ++ [⟨Span.empty s2.mark, .key⟩, ⟨spn, tok⟩] } : SSt) = A
  have hins : insertToken n (Span.empty (keyHere s2).mark) .key (on s3 1) = (.ok (), A) := by
    have hp' : (on s3 1).tokensParsed = 0 := hcalm3.parsed
    have ht' : (on s3 1).tokens = s2.tokens ++ [⟨spn, tok⟩] := ht3
    rw [← hA]
    unfold insertToken
    rw [hp', ht', if_neg (by simp; omega)]
    simp [← hn, keyHere]
    exact hp'.symm
  obtain ⟨I', i', l, hroll, hctx, hl⟩ := roll_key (s := A) (m := (keyHere s2).mark) (n := n) (by rw [← hA]; exact hcalm3.level) (by rw [← hA]; exact hcalm3.parsed)
    (by rw [← hA]; simp; omega) (by rw [← hA]; exact hctx3) hcase
  have hcolk : (keyHere s2).mark.col = c := hp.col
  generalize hB : ({ A with indents := I', indent := i', tokens := A.tokens.take n ++ (l ++ A.tokens.drop n) } : SSt) = B at hroll
  obtain ⟨I'', i'', hone, hctx'⟩ := BCtx.roll (s := B) (i0 := c) (I0 := ⟨i0, true⟩ :: I0) (by rw [← hB]; exact hctx)
  have hkB : B.simpleKeys = [keyHere s2] := by rw [← hB, ← hA]; exact hk3
  have htB : B.tokens.map (·.tt) = out ++ b ++ [.key, tok] := by
    rw [← hB, ← hA]
    have h1 : s2.tokens.map (·.tt) = out := hp.toks
    simp [← hn, h1, hl]
  have efin : fetchMain cfg s3 = (.ok (), { B with indents := I'', indent := i'', simpleKeys := [{ keyHere s2 with possible := false }], simpleKeyAllowed := false, tokens := B.tokens ++ [⟨Span.empty s3.mark, .value⟩] }) := by
    rw [fetchMain_colonL hr3' hh.next]
    unfold fetchValue valueAfterKey valueAfterSimpleKey push
    rw [gets_bind, hk3]
    show (do
      let start ← getMark
      _) s3 = _
    ev [himp, hposs]
    rw [← hnum] at hins hroll
    rw [← hcolk] at hroll
    rw [bind_run (skipColon_lay hr3' hh.next), bind_run hins]
    rw [bind_run hroll, bind_run hone]
    ev [hkB]
    rfl
  refine ⟨I'', i'', hctx', fun I3 i3 n3 hu => ⟨2, _, .step (e.trans e3) (.step (einl.trans efin) .refl), ?_, by simp; omega, fun k hk => by simp at hk; rw [hk]⟩⟩
  generalize hC : ({ B with indents := I'', indent := i'', simpleKeys := [{ keyHere s2 with possible := false }], simpleKeyAllowed := false, tokens := B.tokens ++ [⟨Span.empty s3.mark, .value⟩] } : SSt) = C
  have htC : types C = out ++ b ++ [.key, tok, .value] := by
    rw [← hC]; simp [types, htB]
  have hrC : C.src.rest = w ++ q := by rw [← hC, ← hB, ← hA]; exact on_rest (w := [58]) (by rw [hr3']; rfl) rfl
  have := here_lay (cfg := cfg) (s := C) (w := w) (q := q) (c := c') (k := { keyHere s2 with possible := false }) (I := I3) (i := i3) (n := n3)
    hw hrC hq (by simp at hf ⊢; omega)
    (by rw [← hC, ← hB, ← hA]; exact ⟨hcalm3.level, hcalm3.impl, hcalm3.parsed, hcalm3.started, hcalm3.fit.skip (n := 1) (by simp [hr3'])⟩)
    (fun hq0 => by rw [← hC, ← hB, ← hA]; refine hcol hq0 _ ?_; simp [on, hm3, hp.col])
    (by rw [← hC]; exact hu) (by rw [← hC]) (fun hx => by cases hx)
    (NP.last (htC.trans (show out ++ b ++ [.key, tok, .value] = out ++ b ++ [.key, tok] ++ [.value] by simp)) rfl)
  have hal' : C.simpleKeyAllowed = false := by rw [← hC]
  rw [htC, hal'] at this
  simpa using this

theorem pair_lay {cfg s out I i i0 I0 t tok sp w q c c' b} (h : Here cfg s out I i (t ++ (sp ++ (58 :: (w ++ q)))) c true) (ht : LeafText t tok)
    (hsp : ∀ x ∈ sp, x = 32) (hlen : t.length + sp.length ≤ 1024) (hc1 : 1 ≤ c) (ho : Opens I i i0 I0 c .blockMappingStart b)
    (hw : Lay w q) (hq : TokenHead q) (hh : BlankNext w q)
    (hcol : q ≠ [] → ∀ m : Marker, m.col = c + t.length + sp.length + 1 → (gapMark m w).col = c')
    (hf : (t ++ (sp ++ (58 :: (w ++ q)))).length < cfg.fuel) :
    ∃ I1 i1, BCtx I1 i1 c (⟨i0, true⟩ :: I0) ∧ ∀ I' i' n, unroll (lowCol q c') i1 I1 = some (I', i', n) →
      Goes cfg s (t ++ (sp ++ (58 :: (w ++ q)))).length (out ++ b ++ [.key, tok, .value] ++ List.replicate n .blockEnd) I' i' q c' (w.contains 10) := by
  obtain ⟨I1, i1, h1, h2⟩ := pair_layK h ht hsp hlen hc1 ho hw hq hh hcol hf
  exact ⟨I1, i1, h1, fun I' i' n hu => (h2 I' i' n hu).goes⟩

end Verif.Scanner
