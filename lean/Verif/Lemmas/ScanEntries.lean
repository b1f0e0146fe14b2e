import Verif.Lemmas.ScanBlocks
/-!
# Scanning the entries of block collections
-/
namespace Verif.Scanner
open Verif Verif.CharUtils Verif.Source Verif.Emitter

/-! ## Empty collections -/

theorem skip_nil {cfg : Cfg} {q} {s : SSt} (hq : TokenHead q) (hr : s.src.rest = q) (hf : 0 < cfg.fuel) : skipToNextToken cfg s = (.ok (), s) := by
  unfold skipToNextToken
  obtain ⟨k, hk⟩ : ∃ j, cfg.fuel = j + 1 := ⟨cfg.fuel - 1, by omega⟩
  rw [hk]
  have h0 := peekz_head hr
  have : s.src.peekz 0 ≠ 9 ∧ s.src.peekz 0 ≠ 32 ∧ s.src.peekz 0 ≠ 10 ∧ s.src.peekz 0 ≠ 13 ∧ s.src.peekz 0 ≠ 35 := by
    rw [h0]
    cases q with
    | nil => simp
    | cons c q => have := hq c rfl; simp [this]
  rw [loop_done (b := ()) (s1 := s) (by unfold skipToNextTokenBody; ev [this, false_and, or_self])]

/-- the two empty collections and their tokens -/
inductive EmptyText : List Byte → TokenType → TokenType → Prop
  | seq : EmptyText bs!"[]" .flowSequenceStart .flowSequenceEnd
  | map : EmptyText bs!"{}" .flowMappingStart .flowMappingEnd

/-- the second fetch of an empty collection -/
theorem flowEnd_fetch {cfg : Cfg} {s : SSt} {b tt r k k'} (hb : b = 93 ∧ tt = TokenType.flowSequenceEnd ∨ b = 125 ∧ tt = TokenType.flowMappingEnd)
    (hr : s.src.rest = b :: r) (hf : 0 < cfg.fuel) (hst : s.streamStartProduced = true) (hl : s.flowLevel = 1)
    (hk : s.simpleKeys = [k, k']) (hkp : k.possible = false) (hc : s.mark.col ≠ 1) (hi : s.indent ≤ s.mark.col) :
    fetchNextToken cfg s = fetchFlowEnd tt s := by
  have hq : TokenHead (b :: r) := by
    intro c hc'
    simp at hc'
    rcases hb with ⟨rfl, -⟩ | ⟨rfl, -⟩ <;> subst hc' <;> decide
  unfold fetchNextToken
  rw [gets_bind, if_pos hst, bind_run (skip_nil hq hr hf)]
  have hs : staleSimpleKeys s = (.ok (), s) := by
    rw [stale_run (fun k' _ hx => by simp [isStale, hl] at hx)]
    have : ∀ k, isStale s k = false := fun k => by simp [isStale, hl]
    rw [hk]
    simp [this, ← hk]
  rw [bind_run hs, getMark_bind]
  have hu : unrollIndent s.mark.col s = (.ok (), s) := by
    unfold unrollIndent
    rw [if_pos (by omega)]
  rw [bind_run hu, atEof_bind]
  have he : s.src.bufIsEmpty = false := by simp [Src.bufIsEmpty, hr]
  have hl' : decide (s.mark.col < s.indent) = false := by simp; omega
  have hc' : (s.mark.col == 1) = false := by simpa using hc
  unfold fetchAtToken
  ev [he, hl', hc', Bool.false_and]
  have h0 : s.src.peekz 0 = b := peekz_cons hr
  unfold fetchMain
  rcases hb with ⟨rfl, rfl⟩ | ⟨rfl, rfl⟩ <;> ev [h0] <;> simp

theorem empty_goes {cfg s out I i i0 I0 t a b w q c c' al I' i' n} (h : Here cfg s out I i (t ++ (w ++ q)) c al) (ht : EmptyText t a b)
    (hx : BCtx I i i0 I0) (hi : i0 < c) (he : End w q c' i0) (hf : (t ++ (w ++ q)).length < cfg.fuel)
    (hu : unroll (lowCol q c') i0 I0 = some (I', i', n)) :
    Goes cfg s (t ++ (w ++ q)).length (out ++ [a, b] ++ List.replicate n .blockEnd) I' i' q c' true := by
  obtain ⟨x, y, rfl, hxa, hyb⟩ : ∃ x y, t = [x, y] ∧ (x = 91 ∧ a = .flowSequenceStart ∨ x = 123 ∧ a = .flowMappingStart) ∧
      (y = 93 ∧ b = .flowSequenceEnd ∧ a ≠ .flowMappingStart ∨ y = 125 ∧ b = .flowMappingEnd ∧ a = .flowMappingStart) := by
    cases ht
    · exact ⟨_, _, rfl, .inl ⟨rfl, rfl⟩, .inl ⟨rfl, rfl, by simp⟩⟩
    · exact ⟨_, _, rfl, .inr ⟨rfl, rfl⟩, .inr ⟨rfl, rfl, rfl⟩⟩
  have hmark : NotMarker c ([x, y] ++ (w ++ q)) := by
    intro _
    refine ⟨x, _, rfl, ?_⟩
    rcases hxa with ⟨rfl, -⟩ | ⟨rfl, -⟩ <;> simp
  obtain ⟨s2, hp, e⟩ := fetch_here h (by simp) hmark
  have h0 : s2.src.peekz 0 = x := peekz_cons hp.rest
  have hy9 : y ≠ 32 ∧ y ≠ 9 ∧ y ≠ 35 := by rcases hyb with ⟨rfl, -⟩ | ⟨rfl, -⟩ <;> decide
  obtain ⟨s3, J, j, sp, e3, hJ, hr3, hI3, hi3, ht3, hm3, hk3, hl3, hp3, hs3, him3, hsk3⟩ := flowStart_run (s := s2) (q := [x, y] ++ (w ++ q)) (tt := a)
    (i0 := i0) (I0 := I0) hp.rest (by simp) (by rw [hp.indents, hp.indent]; exact hx)
    (by intro c hc; simp at hc; subst hc; exact hy9)
  have em : fetchMain cfg s2 = fetchFlowStart a s2 := by
    unfold fetchMain
    rcases hxa with ⟨rfl, rfl⟩ | ⟨rfl, rfl⟩ <;> ev [h0] <;> simp
  have hsv : ∃ k', savedKeys s2 = [k'] ∧ (k'.possible = true → k'.required = false ∧ k'.mark.line ≤ s2.mark.line) := by
    obtain ⟨k, hk, hkp⟩ := hp.keys
    unfold savedKeys
    split
    · exact ⟨keyHere s2, by simp [hk], fun _ => ⟨BCtx.notRequired (by rw [hp.indents, hp.indent]; exact hx) hp.col hi, Nat.le_refl _⟩⟩
    · exact ⟨k, hk, fun hx => ⟨(hkp hx).1, (hkp hx).2.2⟩⟩
  obtain ⟨k', hk', hkp'⟩ := hsv
  have hj : j ≤ i0 + 1 := by rcases hJ with ⟨-, rfl⟩ | ⟨-, rfl⟩ <;> omega
  have hcol3 : s3.mark.col = c + 1 := by rw [hm3]; simp [on, hp.col]
  have hwq : ∀ d, (w ++ q).head? = some d → d ≠ 32 ∧ d ≠ 9 ∧ d ≠ 35 := by
    intro d hd
    rcases he with ⟨rfl, rfl⟩ | ⟨rfl, -⟩
    · simp at hd
    · simp at hd; subst hd; decide
  have e4 := flowEnd_fetch (cfg := cfg) (s := s3) (b := y) (tt := b) (r := w ++ q) (k := SimpleKey.new ⟨0, 0, 0⟩) (k' := k')
    (by rcases hyb with ⟨h1, h2, -⟩ | ⟨h1, h2, -⟩; exact .inl ⟨h1, h2⟩; exact .inr ⟨h1, h2⟩)
    (by rw [hr3]; rfl) (by omega) (by rw [hs3]; exact hp.calm.started) (by rw [hl3, hp.calm.level]) (by rw [hk3, hk']) rfl
    (by omega) (by omega)
  obtain ⟨s4, sp', e5, hr4, hI4, hi4, ht4, hm4, hk4, ha4, hl4, hp4, hs4, him4, hsk4⟩ := flowEnd_run (s := s3) (q := y :: (w ++ q)) (tt := b)
    (k := SimpleKey.new ⟨0, 0, 0⟩) (k' := k') (by rw [hr3]; rfl) (by rw [hk3, hk']) rfl (by rw [hl3, hp.calm.level])
    (by simpa using hwq)
    (by rw [him3, hp.calm.impl]; rcases hyb with ⟨-, rfl, h⟩ | ⟨-, rfl, rfl⟩; simp [h]; simp)
  refine Goes.two ((e.trans em).trans e3) (e4.trans e5) ?_ (by simp; omega)
  have hty : types s4 = out ++ [a, b] := by
    simp [types, ht4, ht3]; exact hp.toks
  have hmark4 : s4.mark = ⟨s2.mark.pos + 2, s2.mark.col + 2, s2.mark.line⟩ := by
    rw [hm4]; simp [on, hm3]
  have hb' : isProp b = false := by rcases hyb with ⟨-, rfl, -⟩ | ⟨-, rfl, -⟩ <;> rfl
  have hnp : NP s4.tokens c' i' := NP.last (hty.trans (show out ++ [a, b] = out ++ [a] ++ [b] by simp)) hb'
  have := here_gap (cfg := cfg) (s := s4) (w := w) (q := q) (c := c') (k := k') he.bytes (by rw [hr4]; rfl) he.head
    (by simp at hf; omega) ⟨hl4, him4, by rw [hp4, hp3]; exact hp.calm.parsed, by rw [hs4, hs3]; exact hp.calm.started, by rw [hsk4]; refine Fit.skip (by rw [hsk3]; exact hp.calm.fit.skip (by simp [hp.rest])) (by simp [hr3])⟩
    (fun hq => (he.col hq _).1) (by rw [hi4, hI4, hI3, hi3]; exact (hJ.unroll he.low).trans hu) hk4
    (fun hx => ⟨(hkp' hx).1, fun hq => .inl (by
      have := (he.col hq s4.mark).2.1
      have h2 := (hkp' hx).2
      rw [hmark4] at this ⊢; exact Nat.lt_of_le_of_lt h2 this)⟩) hnp
  rw [hty] at this
  by_cases hq : q = []
  · subst hq
    exact this.nil _
  · rw [ha4, (he.col hq s4.mark).2.2] at this
    exact this

/-! ## Indicators -/

/-- before a value: one space, or a line feed and indentation; the indicator is at column `c`, the value at `c'` -/
def VGap (w : List Byte) (c c' : Nat) : Prop := (w = [32] ∧ c' = c + 2) ∨ (w = 10 :: List.replicate (c' - 1) 32 ∧ c < c')

/-- the first or a later entry of a block collection at column `c` -/
def Opens (I : List Indent) (i i0 : Nat) (I0 : List Indent) (c : Nat) (tt : TokenType) (b : List TokenType) : Prop :=
  (BCtx I i i0 I0 ∧ BlockTop I0 ∧ i0 < c ∧ b = [tt]) ∨ (I = ⟨i0, true⟩ :: I0 ∧ i = c ∧ b = [])

theorem roll_open {s : SSt} {tt m c I i i0 I0 b} (hl : s.flowLevel = 0) (h1 : s.indents = I) (h2 : s.indent = i) (h : Opens I i i0 I0 c tt b) :
    ∃ l, rollIndent c none tt m s = (.ok (), { s with indents := ⟨i0, true⟩ :: I0, indent := c, tokens := s.tokens ++ l }) ∧ l.map (·.tt) = b := by
  unfold rollIndent
  rcases h with ⟨hx, hb, hc, rfl⟩ | ⟨rfl, rfl, rfl⟩
  · refine ⟨[⟨Span.empty m, tt⟩], ?_, rfl⟩
    rw [gets_bind, if_neg (by omega), bind_run (hx.open s hb h1 h2 c hc)]
    unfold pushBlock push
    ev []
    rw [if_pos hc]
    rfl
  · refine ⟨[], ?_, rfl⟩
    rw [gets_bind, if_neg (by omega)]
    have : dropNonBlock i s = (.ok (), s) := by
      simp [dropNonBlock, upd, h1]
    rw [bind_run this]
    unfold pushBlock
    ev []
    rw [if_neg (by omega)]
    rcases s with ⟨⟩
    simp_all

theorem remove_run {s : SSt} {k} (hk : s.simpleKeys = [k]) (hp : k.possible = false) : removeSimpleKey s = (.ok (), s) := by
  unfold removeSimpleKey
  simp only [hk]
  rw [if_neg (by simp [hp])]
  rcases s with ⟨⟩
  rcases k with ⟨⟩
  simp_all

theorem skipWs_one {s : SSt} {q n} (h : s.src.rest.drop n = 32 :: q) (hq : TokenHead q) :
    skipWsToEol true false (on s n) = (.ok (false, true), on s (n + 1)) := by
  unfold skipWsToEol Src.skipWsToEol
  have : wsToEol true (on s n).src.rest false false = (1, .ok (false, true)) := by
    simp only [on, Src.skip, h]
    cases q with
    | nil => simp [wsToEol]
    | cons c q => have := hq c rfl; simp [wsToEol, this]
  simp only [this]
  simp [on, Src.skip, Nat.add_assoc]

theorem TokenHead.ws {q} (hq : TokenHead q) : ∀ c, q.head? = some c → c ≠ 32 ∧ c ≠ 9 ∧ c ≠ 35 := by
  intro c hc
  have := hq c hc
  simp [this]

/-- what is left of the gap after the space was skipped -/
def left : List Byte → List Byte
  | [32] => []
  | w => w

theorem VGap.cases {w c c'} (h : VGap w c c') : c < c' ∧ ((w = [32] ∧ c' = c + 2 ∧ left w = []) ∨ (w = 10 :: List.replicate (c' - 1) 32 ∧ left w = w ∧ 1 ≤ c')) := by
  rcases h with ⟨rfl, rfl⟩ | ⟨rfl, h⟩
  · exact ⟨by omega, .inl ⟨rfl, rfl, rfl⟩⟩
  · exact ⟨h, .inr ⟨rfl, rfl, by omega⟩⟩

theorem Pos.keyless {s out I i rest c} (h : Pos s out I i rest c true) : ∃ k, s.simpleKeys = [k] ∧ k.possible = false := by
  obtain ⟨k, hk, hkp⟩ := h.keys
  refine ⟨k, hk, ?_⟩
  cases hx : k.possible with
  | false => rfl
  | true => cases (hkp hx).2.1

/-- an item of a block sequence -/
theorem item_goes {cfg s out I i i0 I0 w q c c' b} (h : Here cfg s out I i (45 :: (w ++ q)) c true) (ho : Opens I i i0 I0 c .blockSequenceStart b)
    (hv : VGap w c c') (hq : TokenHead q) (hq0 : q ≠ []) (hqm : ¬ DocMark q) (hf : (45 :: (w ++ q)).length < cfg.fuel) :
    ∃ I' i', BCtx I' i' c (⟨i0, true⟩ :: I0) ∧ Goes cfg s (45 :: (w ++ q)).length (out ++ b ++ [.blockEntry]) I' i' q c' true := by
  obtain ⟨hlt, hv⟩ := hv.cases
  have hmark : NotMarker c (45 :: (w ++ q)) := by
    intro _
    refine ⟨45, _, rfl, by decide, by decide, fun _ => ?_⟩
    rcases hv with ⟨rfl, -⟩ | ⟨rfl, -⟩ <;> exact ⟨_, _, rfl, by decide⟩
  obtain ⟨s2, hp, e⟩ := fetch_here h (by simp) hmark
  obtain ⟨k, hk, hkp⟩ := hp.keyless
  have h0 : s2.src.peekz 0 = 45 := peekz_cons hp.rest
  have h1 : isBlankOrBreakz (s2.src.peekz 1) = true := by
    rcases hv with ⟨rfl, -⟩ | ⟨rfl, -⟩ <;> simp [Src.peekz, hp.rest, isBlankOrBreakz, isBlank, isBreak]
  have em : fetchMain cfg s2 = fetchBlockEntry s2 := by
    unfold fetchMain
    ev [h0, h1]
    simp
  have hfl : decide (s2.flowLevel > 0) = false := by simp [hp.calm.level]
  have hanch : anchoredEntry s2 = false := by
    unfold anchoredEntry
    cases hl : s2.tokens.getLast? with
    | none => rfl
    | some t =>
      have hnp := hp.np _ hl
      obtain ⟨sp, tt⟩ := t
      have : isProp tt = true → (s2.mark.col == 1 && sp.start.col == 1 && decide (s2.indent > 0)) = false := by
        intro hpr
        rw [hp.col, hp.indent]
        by_cases h1 : sp.start.col = 1
        case neg => simp [h1]
        rcases hnp hpr h1 with h | h
        · simp [h]
        · simp [h]
      cases tt <;> first | rfl | exact this rfl
  obtain ⟨l, hroll, hlt'⟩ := roll_open (s := on s2 1) (m := s2.mark) (tt := .blockSequenceStart) hp.calm.level hp.indents hp.indent ho
  generalize hB : ({ s2 with indents := ⟨i0, true⟩ :: I0, indent := c, tokens := s2.tokens ++ l } : SSt) = B
  have hroll' : rollIndent s2.mark.col none .blockSequenceStart s2.mark (on s2 1) = (.ok (), on B 1) := by
    rw [hp.col, hroll, ← hB]; rfl
  have b1 : B.src = s2.src := by rw [← hB]
  have b2 : B.mark = s2.mark := by rw [← hB]
  have b3 : B.simpleKeys = [k] := by rw [← hB]; exact hk
  have hws : ∃ d r, 1 ≤ d ∧ d ≤ 2 ∧ skipWsToEol true false (on B 1) = (.ok (false, r), on B d) ∧ skipWsToEol false r (on B d) = (.ok (false, r), on B d) ∧
      (on B d).src.rest = left w ++ q ∧ (gapMark (on B d).mark (left w)).col = c' := by
    rcases hv with ⟨rfl, hc', hl⟩ | ⟨hw, hl, h1'⟩
    · have e2 : (on B 2).src.rest = q := on_rest (w := [45, 32]) (by rw [b1, hp.rest]; rfl) rfl
      refine ⟨2, true, by omega, by omega, skipWs_one (by rw [b1, hp.rest]; rfl) hq, skipWs_none e2 hq.ws, e2, ?_⟩
      simp [left, gapMark, on, b2, hp.col, hc']
    · have e1 : (on B 1).src.rest = w ++ q := on_rest (w := [45]) (by rw [b1, hp.rest]; rfl) rfl
      have hh : ∀ d, (w ++ q).head? = some d → d ≠ 32 ∧ d ≠ 9 ∧ d ≠ 35 := by
        intro d hd; rw [hw] at hd; simp at hd; subst hd; decide
      refine ⟨1, false, by omega, by omega, skipWs_none e1 hh, skipWs_none e1 hh, by rw [hl]; exact e1, ?_⟩
      rw [hl, hw, gapMark_line]
      show 1 + (c' - 1) = c'
      omega
  obtain ⟨d, r, hd1, hd2, hw1, hw2, hrest, hcol⟩ := hws
  have hctxB : BCtx (on B d).indents (on B d).indent c (⟨i0, true⟩ :: I0) := .inl ⟨by rw [← hB]; rfl, by rw [← hB]; rfl⟩
  have hone : ∀ x : Bool, ∃ I' i', when x rollOneColIndent (on B d) = (.ok (), { on B d with indents := I', indent := i' }) ∧ BCtx I' i' c (⟨i0, true⟩ :: I0) := by
    intro x
    cases x
    · exact ⟨_, _, rfl, hctxB⟩
    · exact BCtx.roll hctxB
  unfold fetchBlockEntry setAllowed push at em
  obtain ⟨I', i', hr', hctx⟩ := hone (isBreak ((on B d).src.peekz 0) || isFlow ((on B d).src.peekz 0))
  have er : removeSimpleKey { on B d with indents := I', indent := i' } = (.ok (), { on B d with indents := I', indent := i' }) :=
    remove_run b3 hkp
  have hal : s2.simpleKeyAllowed = true := hp.al
  have efin : fetchMain cfg s2 = (.ok (), { on B d with indents := I', indent := i', simpleKeyAllowed := true, tokens := B.tokens ++ [⟨⟨s2.mark, (on B d).mark⟩, .blockEntry⟩] }) := by
    rw [em]
    ev [hfl, hal, hanch, Bool.not_true]
    rw [bind_run (skipNonBlank_on _), bind_run hroll', bind_run hw1]
    ev [Bool.false_and]
    rw [bind_run hw2]
    ev []
    rw [bind_run hr', bind_run er]
    ev []
    rfl
  refine ⟨I', i', hctx, Goes.one (e.trans efin) ?_ (by simp; omega)⟩
  have hi' : i' ≤ c' := by rcases hctx with ⟨-, rfl⟩ | ⟨-, rfl⟩ <;> omega
  have hty : B.tokens.map (·.tt) = out ++ b := by
    rw [← hB]; simp [hlt']; rw [← hp.toks]; rfl
  generalize hC : ({ on B d with indents := I', indent := i', simpleKeyAllowed := true, tokens := B.tokens ++ [⟨⟨s2.mark, (on B d).mark⟩, .blockEntry⟩] } : SSt) = C
  have htC : types C = out ++ b ++ [.blockEntry] := by
    rw [← hC]; simp [types, hty]
  have := here_gap (cfg := cfg) (s := C) (w := left w) (q := q) (c := c') (k := k) (I := I') (i := i') (n := 0)
    (by rcases hv with ⟨-, -, hl⟩ | ⟨hw, hl, -⟩
        · simp [hl]
        · rw [hl, hw]; intro b hb
          rcases List.mem_cons.1 hb with rfl | hb
          · exact .inr rfl
          · exact .inl (List.eq_of_mem_replicate hb))
    (by rw [← hC]; exact hrest) hq
    (by
      have : (left w).length ≤ w.length := by
        rcases hv with ⟨-, -, hl⟩ | ⟨-, hl, -⟩ <;> simp [hl]
      simp at hf; omega)
    (by rw [← hC, ← hB]; exact ⟨hp.calm.level, hp.calm.impl, hp.calm.parsed, hp.calm.started, hp.calm.fit.skip (by have : 0 < q.length := List.length_pos_iff.2 hq0; rw [hp.rest]; simp; omega)⟩)
    (fun _ => by rw [← hC]; exact hcol)
    (by rw [lowCol_eq hq0 hqm, ← hC]; exact unroll_ok hi') (by rw [← hC]; exact b3) (fun hx => by rw [hkp] at hx; cases hx)
    (NP.last htC rfl)
  have hal' : C.simpleKeyAllowed = true := by rw [← hC]
  rw [htC, hal'] at this
  simpa using this

theorem yamlWs_run {q} (hq : TokenHead q) : ∀ {w k s need}, (∀ b ∈ w, b = 32 ∨ b = 10) → s.src.rest = w ++ q → w.length < k → s.flowLevel = 0 →
    loopM skipYamlWhitespaceBody k need s = (.ok (need && w.isEmpty), gap s w) := by
  intro w
  induction w with
  | nil =>
    intro k s need _ hr hk _
    obtain ⟨k, rfl⟩ : ∃ j, k = j + 1 := ⟨k - 1, by omega⟩
    have h0 := peekz_head hr
    have : s.src.peekz 0 ≠ 32 ∧ s.src.peekz 0 ≠ 10 ∧ s.src.peekz 0 ≠ 13 ∧ s.src.peekz 0 ≠ 35 := by
      rw [h0]
      cases q with
      | nil => simp
      | cons c q => have := hq c rfl; simp [this]
    rw [loop_done (b := need) (s1 := s) (by unfold skipYamlWhitespaceBody; ev [this, false_and, or_self])]
    simp [gap, gapMark, Src.skip]
  | cons c w ih =>
    intro k s need hw hr hk hf
    obtain ⟨k, rfl⟩ : ∃ j, k = j + 1 := ⟨k - 1, by omega⟩
    have h0 : s.src.peekz 0 = c := peekz_cons hr
    have hw' : ∀ b ∈ w, b = 32 ∨ b = 10 := fun b hb => hw b (List.mem_cons_of_mem _ hb)
    simp only [List.length_cons] at hk
    rcases hw c (List.mem_cons_self) with rfl | rfl
    · have hb : skipYamlWhitespaceBody need s = (.ok (.next false), { s with src := s.src.skip 1, mark := { s.mark with pos := s.mark.pos + 1, col := s.mark.col + 1 } }) := by
        unfold skipYamlWhitespaceBody skipBlank
        ev [h0]
      refine (loop_next hb).trans ((ih hw' ?_ (by omega) ?_).trans ?_)
      · simp [Src.skip, hr]
      · exact hf
      simp [gap, gapMark, Src.skip, Nat.add_comm, Nat.add_left_comm]
    · have hb : skipYamlWhitespaceBody need s = (.ok (.next false), { s with src := s.src.skip 1, mark := ⟨s.mark.pos + 1, 1, s.mark.line + 1⟩, leadingWhitespace := true, simpleKeyAllowed := true }) := by
        unfold skipYamlWhitespaceBody skipLinebreak setAllowed
        ev [h0]
        simp [hf]
        rfl
      refine (loop_next hb).trans ((ih hw' ?_ (by omega) ?_).trans ?_)
      · simp [Src.skip, hr]
      · exact hf
      simp [gap, gapMark, Src.skip, Nat.add_comm, Nat.add_left_comm]

theorem VGap.bytes {w c c'} (h : VGap w c c') : ∀ b ∈ w, b = 32 ∨ b = 10 := by
  rcases h with ⟨rfl, rfl⟩ | ⟨rfl, h⟩
  · simp
  · intro b hb
    rcases List.mem_cons.1 hb with rfl | hb
    · exact .inr rfl
    · exact .inl (List.eq_of_mem_replicate hb)

theorem VGap.col {w c c'} {m : Marker} (h : VGap w c c') (hm : m.col = c + 1) : (gapMark m w).col = c' := by
  rcases h with ⟨rfl, rfl⟩ | ⟨rfl, h⟩
  · simp [gapMark, hm]
  · rw [gapMark_line]; show 1 + (c' - 1) = c'; omega

theorem VGap.ne {w c c'} (h : VGap w c c') : w.isEmpty = false := by
  rcases h with ⟨rfl, rfl⟩ | ⟨rfl, h⟩ <;> rfl

theorem VGap.blank {w c c'} {q : List Byte} (h : VGap w c c') : ∃ b r, w ++ q = b :: r ∧ (b = 32 ∨ b = 10) := by
  rcases h with ⟨rfl, rfl⟩ | ⟨rfl, h⟩
  · exact ⟨_, _, rfl, .inl rfl⟩
  · exact ⟨_, _, rfl, .inr rfl⟩

/-- `? ` before a key of a block mapping -/
theorem key_goes {cfg s out I i i0 I0 w q c c' b} (h : Here cfg s out I i (63 :: (w ++ q)) c true) (ho : Opens I i i0 I0 c .blockMappingStart b)
    (hv : VGap w c c') (hq : TokenHead q) (hq0 : q ≠ []) (hqm : ¬ DocMark q) (hf : (63 :: (w ++ q)).length < cfg.fuel) :
    ∃ I' i', BCtx I' i' c (⟨i0, true⟩ :: I0) ∧ Goes cfg s (63 :: (w ++ q)).length (out ++ b ++ [.key]) I' i' q c' true := by
  have hlt := hv.cases.1
  have hmark : NotMarker c (63 :: (w ++ q)) := fun _ => ⟨63, _, rfl, by decide, by decide, by simp⟩
  obtain ⟨s2, hp, e⟩ := fetch_here h (by simp) hmark
  obtain ⟨k, hk, hkp⟩ := hp.keyless
  have h0 : s2.src.peekz 0 = 63 := peekz_cons hp.rest
  obtain ⟨bb, rr, hwq, hbb⟩ := hv.blank (q := q)
  have h1 : isBlankOrBreakz (s2.src.peekz 1) = true := by
    rcases hbb with rfl | rfl <;> simp [Src.peekz, hp.rest, hwq, isBlankOrBreakz, isBlank, isBreak]
  have em : fetchMain cfg s2 = fetchKey cfg s2 := by
    unfold fetchMain
    ev [h0, h1]
    simp
  obtain ⟨l, hroll, hlt'⟩ := roll_open (s := s2) (m := s2.mark) (tt := .blockMappingStart) hp.calm.level hp.indents hp.indent ho
  generalize hB : ({ s2 with indents := ⟨i0, true⟩ :: I0, indent := c, tokens := s2.tokens ++ l } : SSt) = B
  rw [hB] at hroll
  have b1 : B.src = s2.src := by rw [← hB]
  have b2 : B.mark = s2.mark := by rw [← hB]
  have b3 : B.simpleKeys = [k] := by rw [← hB]; exact hk
  have b4 : B.flowLevel = 0 := by rw [← hB]; exact hp.calm.level
  have hal : s2.simpleKeyAllowed = true := hp.al
  have hrB : (on B 1).src.rest = w ++ q := on_rest (w := [63]) (by rw [b1, hp.rest]; rfl) rfl
  generalize hD : ({ on B 1 with simpleKeyAllowed := true } : SSt) = D
  have hskip : skipYamlWhitespace cfg D = (.ok (), gap D w) := by
    unfold skipYamlWhitespace
    rw [bind_run (yamlWs_run hq hv.bytes (by rw [← hD]; exact hrB) (by simp at hf; omega) (by rw [← hD]; exact b4))]
    rw [hv.ne]
    rfl
  have hgr : (gap D w).src.rest = q := by
    simp [gap, Src.skip]; rw [← hD]; show (on B 1).src.rest.drop _ = q; rw [hrB]; simp
  have htab : ((gap D w).src.peekz 0 == 9) = false := by
    rw [peekz_head hgr]
    cases q with
    | nil => exact absurd rfl hq0
    | cons x q => have := hq x rfl; simp [this]
  have eks : fetchKeyStart s2.mark s2 = (.ok (), B) := by
    unfold fetchKeyStart
    rw [gets_bind, if_pos hp.calm.level, gets_bind, hal, hp.col]
    exact hroll
  have efin : fetchMain cfg s2 = (.ok (), { gap D w with tokens := (gap D w).tokens ++ [⟨⟨s2.mark, (gap D w).mark⟩, .key⟩] }) := by
    rw [em]
    unfold fetchKey push
    rw [getMark_bind, bind_run eks, bind_run (remove_run b3 hkp), upd_bind, b4]
    rw [bind_run (skipNonBlank_on _)]
    have : on { B with simpleKeyAllowed := (0 : Nat) == 0 } 1 = D := by rw [← hD]; rfl
    rw [show (on { B with simpleKeyAllowed := (0 : Nat) == 0, flowLevel := 0 } 1) = D from by rw [← hD]; simp [on, b4], bind_run hskip]
    ev [htab]
    rfl
  generalize hC : ({ gap D w with tokens := (gap D w).tokens ++ [⟨⟨s2.mark, (gap D w).mark⟩, .key⟩] } : SSt) = C at efin
  have hty : B.tokens.map (·.tt) = out ++ b := by
    rw [← hB]; simp [hlt']; rw [← hp.toks]; rfl
  have htC : types C = out ++ b ++ [.key] := by
    have : C.tokens = B.tokens ++ [⟨⟨s2.mark, (gap D w).mark⟩, .key⟩] := by rw [← hC, ← hD]; rfl
    simp [types, this, hty]
  have hcol : (gap D w).mark.col = c' := by
    show (gapMark D.mark w).col = c'
    refine hv.col ?_
    rw [← hD]; simp [on, b2, hp.col]
  refine ⟨⟨i0, true⟩ :: I0, c, .inl ⟨rfl, rfl⟩, Goes.one (e.trans efin) ?_ (by simp; omega)⟩
  have := here_gap (cfg := cfg) (s := C) (w := []) (q := q) (c := c') (k := k) (I := ⟨i0, true⟩ :: I0) (i := c) (n := 0)
    (by simp) (by rw [← hC]; exact hgr) hq (by simp at hf ⊢; omega)
    (by rw [← hC, ← hD, ← hB]; exact ⟨hp.calm.level, hp.calm.impl, hp.calm.parsed, hp.calm.started, (hp.calm.fit.skip (n := 1) (by simp [hp.rest])).skip (by simp [Src.skip, hp.rest])⟩)
    (fun _ => by rw [← hC]; exact hcol)
    (by rw [lowCol_eq hq0 hqm, ← hC, ← hD, ← hB]; exact unroll_ok (by show c ≤ c'; omega)) (by rw [← hC, ← hD]; exact b3) (fun hx => by rw [hkp] at hx; cases hx)
    (NP.last htC rfl)
  have hal' : C.simpleKeyAllowed = true := by rw [← hC, ← hD]; simp [gap]
  rw [htC, hal'] at this
  simpa using this

theorem skipColon_run {s : SSt} {b r} (h : s.src.rest = 58 :: b :: r) (hb : b = 32 ∨ b = 10) : skipColon s = (.ok (), on s 1) := by
  unfold skipColon
  have h0 : (on s 1).src.peekz 0 = b := by simp [on, Src.skip, Src.peekz, h]
  rw [bind_run (skipNonBlank_on _)]
  ev [h0]
  rcases hb with rfl | rfl <;> simp

theorem fetchMain_colon {cfg : Cfg} {s : SSt} {b r} (h : s.src.rest = 58 :: b :: r) (hb : b = 32 ∨ b = 10) : fetchMain cfg s = fetchValue s := by
  have h0 : s.src.peekz 0 = 58 := peekz_cons h
  have h1 : isBlankOrBreakz (s.src.peekz 1) = true := by
    rcases hb with rfl | rfl <;> simp [Src.peekz, h, isBlankOrBreakz, isBlank, isBreak]
  unfold fetchMain
  ev [h0, h1]
  simp

/-- `: ` before the value of a key that was given with `?` -/
theorem colon_goes {cfg s out i0 I0 w q c c'} (h : Here cfg s out (⟨i0, true⟩ :: I0) c (58 :: (w ++ q)) c true)
    (hv : VGap w c c') (hq : TokenHead q) (hq0 : q ≠ []) (hqm : ¬ DocMark q) (hf : (58 :: (w ++ q)).length < cfg.fuel) :
    ∃ I' i', BCtx I' i' c (⟨i0, true⟩ :: I0) ∧ Goes cfg s (58 :: (w ++ q)).length (out ++ [.value]) I' i' q c' true := by
  have hlt := hv.cases.1
  have hmark : NotMarker c (58 :: (w ++ q)) := fun _ => ⟨58, _, rfl, by decide, by decide, by simp⟩
  obtain ⟨s2, hp, e⟩ := fetch_here h (by simp) hmark
  obtain ⟨k, hk, hkp⟩ := hp.keyless
  obtain ⟨bb, rr, hwq, hbb⟩ := hv.blank (q := q)
  have hr2 : s2.src.rest = 58 :: bb :: rr := by rw [hp.rest, hwq]
  have em := fetchMain_colon (cfg := cfg) hr2 hbb
  have hal : s2.simpleKeyAllowed = true := hp.al
  obtain ⟨l, hroll, hl⟩ := roll_open (s := on s2 1) (m := s2.mark) (tt := .blockMappingStart) (b := []) (i0 := i0) (I0 := I0) (c := c)
    hp.calm.level hp.indents hp.indent (.inr ⟨rfl, rfl, rfl⟩)
  obtain rfl : l = [] := by simpa using hl
  have hroll' : rollIndent s2.mark.col none .blockMappingStart s2.mark (on s2 1) = (.ok (), on s2 1) := by
    rw [hp.col, hroll, ← hp.indents]
    have := hp.indent
    subst this
    simp [on]
  have hctx : BCtx (on s2 1).indents (on s2 1).indent c (⟨i0, true⟩ :: I0) := .inl ⟨hp.indents, hp.indent⟩
  obtain ⟨I', i', hone, hctx'⟩ := BCtx.roll hctx
  have himp : (!s2.implicitFlowMappingStates.isEmpty && !s2.flowMappingStarted) = false := by rw [hp.calm.impl]; rfl
  have efin : fetchMain cfg s2 = (.ok (), { on s2 1 with indents := I', indent := i', simpleKeyAllowed := true, tokens := s2.tokens ++ [⟨Span.empty s2.mark, .value⟩] }) := by
    rw [em]
    unfold fetchValue valueAfterKey valueAfterComplexKey push
    rw [gets_bind, hk]
    show (do
      let start ← getMark
      _) s2 = _
    ev [himp, hkp]
    rw [bind_run (skipColon_run hr2 hbb)]
    have hl0 : (on s2 1).flowLevel = 0 := hp.calm.level
    have hal1 : (on s2 1).simpleKeyAllowed = true := hal
    ev [hl0, hal1, Bool.not_true, beq_self_eq_true]
    rw [bind_run hroll', bind_run hone]
    ev [hl0]
    rfl
  refine ⟨I', i', hctx', Goes.one (e.trans efin) ?_ (by simp; omega)⟩
  generalize hC : ({ on s2 1 with indents := I', indent := i', simpleKeyAllowed := true, tokens := s2.tokens ++ [⟨Span.empty s2.mark, .value⟩] } : SSt) = C
  have hi' : i' ≤ c' := by rcases hctx' with ⟨-, rfl⟩ | ⟨-, rfl⟩ <;> omega
  have htC : types C = out ++ [.value] := by
    rw [← hC]; simp [types]; exact hp.toks
  have hrC : C.src.rest = w ++ q := by rw [← hC]; exact on_rest (w := [58]) (by rw [hp.rest]; rfl) rfl
  have := here_gap (cfg := cfg) (s := C) (w := w) (q := q) (c := c') (k := k) (I := I') (i := i') (n := 0)
    hv.bytes hrC hq (by simp at hf ⊢; omega)
    (by rw [← hC]; exact ⟨hp.calm.level, hp.calm.impl, hp.calm.parsed, hp.calm.started, hp.calm.fit.skip (n := 1) (by simp [hp.rest])⟩)
    (fun _ => by rw [← hC]; refine hv.col ?_; simp [on, hp.col])
    (by rw [lowCol_eq hq0 hqm, ← hC]; exact unroll_ok hi') (by rw [← hC]; exact hk) (fun hx => by rw [hkp] at hx; cases hx)
    (NP.last htC rfl)
  have hal' : C.simpleKeyAllowed = true := by rw [← hC]
  rw [htC, hal'] at this
  simpa using this

/-! ## Simple keys -/

/-- a fetch in the middle of a line -/
theorem fetch_inline {cfg : Cfg} {s : SSt} {q} (hq : TokenHead q) (hq0 : q ≠ []) (hr : s.src.rest = q) (hf : 0 < cfg.fuel)
    (hst : s.streamStartProduced = true) (hl : s.flowLevel = 0) (hk : ∀ k ∈ s.simpleKeys, isStale s k = false)
    (hc : s.mark.col ≠ 1) (hi : s.indent ≤ s.mark.col) : fetchNextToken cfg s = fetchMain cfg s := by
  unfold fetchNextToken
  rw [gets_bind, if_pos hst, bind_run (skip_nil hq hr hf)]
  have hs : staleSimpleKeys s = (.ok (), s) := by
    rw [stale_run (fun k' h' hx => by rw [hk k' h'] at hx; cases hx)]
    have : s.simpleKeys.map (fun k => if isStale s k then { k with possible := false } else k) = s.simpleKeys := by
      rw [List.map_congr_left (g := id) (fun k h' => by rw [hk k h']; rfl), List.map_id]
    rw [this]
  rw [bind_run hs, getMark_bind]
  have hu : unrollIndent s.mark.col s = (.ok (), s) := by
    unfold unrollIndent
    rw [if_neg (by omega), unroll_ok hi]
    simp
  rw [bind_run hu, atEof_bind]
  have he : s.src.bufIsEmpty = false := by simp [Src.bufIsEmpty, hr, hq0]
  have hl' : decide (s.mark.col < s.indent) = false := by simp; omega
  have hc' : (s.mark.col == 1) = false := by simpa using hc
  unfold fetchAtToken
  ev [he, hl', hc', Bool.false_and]

/-- `roll_indent` when the `:` after a simple key was found -/
theorem roll_key {s : SSt} {m n c i0 I0 j0 J0 b} (hl : s.flowLevel = 0) (hp : s.tokensParsed = 0) (hn : n ≤ s.tokens.length)
    (hx : BCtx s.indents s.indent j0 J0)
    (h : (BlockTop I0 ∧ i0 < c ∧ j0 = i0 ∧ J0 = I0 ∧ b = [.blockMappingStart]) ∨ (j0 = c ∧ J0 = ⟨i0, true⟩ :: I0 ∧ b = [])) :
    ∃ I' i' l, rollIndent c (some n) .blockMappingStart m s = (.ok (), { s with indents := I', indent := i', tokens := s.tokens.take n ++ (l ++ s.tokens.drop n) }) ∧
      BCtx I' i' c (⟨i0, true⟩ :: I0) ∧ l.map (·.tt) = b := by
  unfold rollIndent
  rcases h with ⟨hb, hc, rfl, rfl, rfl⟩ | ⟨rfl, rfl, rfl⟩
  · refine ⟨⟨j0, true⟩ :: J0, c, [⟨Span.empty m, .blockMappingStart⟩], ?_, .inl ⟨rfl, rfl⟩, rfl⟩
    rw [gets_bind, if_neg (by omega), bind_run (hx.open s hb rfl rfl c hc)]
    unfold pushBlock
    ev []
    rw [if_pos hc]
    ev [insertToken, hp]
    rw [if_neg (by simp; omega)]
    simp
  · refine ⟨s.indents, s.indent, [], ?_, hx, rfl⟩
    rw [gets_bind, if_neg (by omega)]
    have hle : j0 ≤ s.indent := by rcases hx with ⟨-, h⟩ | ⟨-, h⟩ <;> omega
    have : dropNonBlock j0 s = (.ok (), s) := by
      rcases hx with ⟨h1, h2⟩ | ⟨h1, h2⟩
      · simp [dropNonBlock, upd, h1]
      · simp only [dropNonBlock, upd, h1]
        rw [if_neg (by omega)]
    rw [bind_run this]
    unfold pushBlock
    ev []
    rw [if_neg (by omega)]
    simp

/-- before the value of a simple key at column `c` that takes `n` bytes -/
def KGap (w : List Byte) (c n c' : Nat) : Prop := (w = [32] ∧ c' = c + n + 2) ∨ (w = 10 :: List.replicate (c' - 1) 32 ∧ c < c')

theorem KGap.bytes {w c n c'} (h : KGap w c n c') : ∀ b ∈ w, b = 32 ∨ b = 10 := by
  rcases h with ⟨rfl, rfl⟩ | ⟨rfl, h⟩
  · simp
  · intro b hb
    rcases List.mem_cons.1 hb with rfl | hb
    · exact .inr rfl
    · exact .inl (List.eq_of_mem_replicate hb)

theorem KGap.col {w c n c'} {m : Marker} (h : KGap w c n c') (hm : m.col = c + n + 1) : (gapMark m w).col = c' := by
  rcases h with ⟨rfl, rfl⟩ | ⟨rfl, h⟩
  · simp [gapMark, hm]
  · rw [gapMark_line]; show 1 + (c' - 1) = c'; omega

theorem KGap.blank {w c n c'} {q : List Byte} (h : KGap w c n c') : ∃ b r, w ++ q = b :: r ∧ (b = 32 ∨ b = 10) := by
  rcases h with ⟨rfl, rfl⟩ | ⟨rfl, h⟩
  · exact ⟨_, _, rfl, .inl rfl⟩
  · exact ⟨_, _, rfl, .inr rfl⟩

/-- a simple key and the `:` after it -/
theorem pair_goes {cfg s out I i i0 I0 t tok w q c c' b} (h : Here cfg s out I i (t ++ (58 :: (w ++ q))) c true) (ht : ScalarText t tok)
    (hlen : t.length ≤ 1024) (hc1 : 1 ≤ c) (ho : Opens I i i0 I0 c .blockMappingStart b)
    (hv : KGap w c t.length c') (hq : TokenHead q) (hq0 : q ≠ []) (hqm : ¬ DocMark q) (hf : (t ++ (58 :: (w ++ q))).length < cfg.fuel) :
    ∃ I' i', BCtx I' i' c (⟨i0, true⟩ :: I0) ∧
      Goes cfg s (t ++ (58 :: (w ++ q))).length (out ++ b ++ [.key, tok, .value]) I' i' q c' (w.contains 10) := by
  have hpos : 0 < t.length := by rw [List.length_pos_iff]; exact ht.ne
  obtain ⟨s2, hp, e⟩ := fetch_here h (by simp [ht.ne]) ht.marker
  obtain ⟨bb, rr, hwq, hbb⟩ := hv.blank (q := q)
  obtain ⟨j0, J0, hx, hbt, hj, hcase⟩ : ∃ j0 J0, BCtx I i j0 J0 ∧ BlockTop J0 ∧ j0 ≤ c ∧
      ((BlockTop I0 ∧ i0 < c ∧ j0 = i0 ∧ J0 = I0 ∧ b = [.blockMappingStart]) ∨ (j0 = c ∧ J0 = ⟨i0, true⟩ :: I0 ∧ b = [])) := by
    rcases ho with ⟨h1, h2, h3, h4⟩ | ⟨h1, h2, h3⟩
    · exact ⟨i0, I0, h1, h2, by omega, .inl ⟨h2, h3, rfl, rfl, h4⟩⟩
    · exact ⟨c, _, .inl ⟨h1, h2⟩, .inr ⟨_, _, rfl⟩, by omega, .inr ⟨rfl, rfl, h3⟩⟩
  obtain ⟨s3, e3, r⟩ := scalar_read (w := []) (q := 58 :: (w ++ q)) hp ht hx hbt hj hc1 (.inl ⟨rfl, .inr ⟨bb, rr, by rw [hwq], hbb⟩⟩) hf
  have hk3 : s3.simpleKeys = [keyHere s2] := by
    obtain ⟨k, hk, -⟩ := hp.keys
    rw [r.keys]; simp [savedKeys, hp.al, hk]
  have hm3 : s3.mark = ⟨s2.mark.pos + t.length, s2.mark.col + t.length, s2.mark.line⟩ := r.mark
  have hi3 : s3.indent ≤ j0 + 1 := by rcases r.ctx with ⟨-, h⟩ | ⟨-, h⟩ <;> omega
  have hr3 : s3.src.rest = 58 :: bb :: rr := by rw [r.rest, hwq]
  have einl := fetch_inline (cfg := cfg) (q := 58 :: (w ++ q)) (by simp [TokenHead]) (by simp) r.rest (by omega) r.calm.started r.calm.level
    (by
      intro k hk
      rw [hk3, List.mem_singleton] at hk
      subst hk
      simp [isStale, keyHere, hm3]
      omega)
    (by rw [hm3]; show s2.mark.col + t.length ≠ 1; rw [hp.col]; omega)
    (by rw [hm3]; show s3.indent ≤ s2.mark.col + t.length; rw [hp.col]; omega)
  obtain ⟨sp, ht3⟩ := r.toks
  generalize hn : s2.tokens.length = n at *
  have hnum : (keyHere s2).tokenNumber = n := by simp [keyHere, hp.calm.parsed, hn]
  have hposs : (keyHere s2).possible = true := rfl
  have himp : (!s3.implicitFlowMappingStates.isEmpty && !s3.flowMappingStarted) = false := by rw [r.calm.impl]; rfl
  generalize hA : ({ on s3 1 with tokens := s2.tokens ++ [⟨Span.empty s2.mark, .key⟩, ⟨sp, tok⟩] } : SSt) = A
  have hins : insertToken n (Span.empty (keyHere s2).mark) .key (on s3 1) = (.ok (), A) := by
    have hp' : (on s3 1).tokensParsed = 0 := r.calm.parsed
    have ht' : (on s3 1).tokens = s2.tokens ++ [⟨sp, tok⟩] := ht3
    rw [← hA]
    unfold insertToken
    rw [hp', ht', if_neg (by simp; omega)]
    simp [← hn, keyHere]
    exact hp'.symm
  obtain ⟨I', i', l, hroll, hctx, hl⟩ := roll_key (s := A) (m := (keyHere s2).mark) (n := n) (by rw [← hA]; exact r.calm.level) (by rw [← hA]; exact r.calm.parsed)
    (by rw [← hA]; simp; omega) (by rw [← hA]; exact r.ctx) hcase
  have hcolk : (keyHere s2).mark.col = c := hp.col
  generalize hB : ({ A with indents := I', indent := i', tokens := A.tokens.take n ++ (l ++ A.tokens.drop n) } : SSt) = B at hroll
  obtain ⟨I'', i'', hone, hctx'⟩ := BCtx.roll (s := B) (i0 := c) (I0 := ⟨i0, true⟩ :: I0) (by rw [← hB]; exact hctx)
  have hkB : B.simpleKeys = [keyHere s2] := by rw [← hB, ← hA]; exact hk3
  have htB : B.tokens.map (·.tt) = out ++ b ++ [.key, tok] := by
    rw [← hB, ← hA]
    have h1 : s2.tokens.map (·.tt) = out := hp.toks
    simp [← hn, h1, hl]
  have efin : fetchMain cfg s3 = (.ok (), { B with indents := I'', indent := i'', simpleKeys := [{ keyHere s2 with possible := false }], simpleKeyAllowed := false, tokens := B.tokens ++ [⟨Span.empty s3.mark, .value⟩] }) := by
    rw [fetchMain_colon hr3 hbb]
    unfold fetchValue valueAfterKey valueAfterSimpleKey push
    rw [gets_bind, hk3]
    show (do
      let start ← getMark
      _) s3 = _
    ev [himp, hposs]
    rw [← hnum] at hins hroll
    rw [← hcolk] at hroll
    rw [bind_run (skipColon_run hr3 hbb), bind_run hins]
    rw [bind_run hroll, bind_run hone]
    ev [hkB]
    rfl
  refine ⟨I'', i'', hctx', Goes.two (e.trans e3) (einl.trans efin) ?_ (by simp; omega)⟩
  generalize hC : ({ B with indents := I'', indent := i'', simpleKeys := [{ keyHere s2 with possible := false }], simpleKeyAllowed := false, tokens := B.tokens ++ [⟨Span.empty s3.mark, .value⟩] } : SSt) = C
  have hi' : i'' ≤ c' := by
    have : c < c' := by rcases hv with ⟨-, h⟩ | ⟨-, h⟩ <;> omega
    rcases hctx' with ⟨-, rfl⟩ | ⟨-, rfl⟩ <;> omega
  have htC : types C = out ++ b ++ [.key, tok, .value] := by
    rw [← hC]; simp [types, htB]
  have hrC : C.src.rest = w ++ q := by rw [← hC, ← hB, ← hA]; exact on_rest (w := [58]) (by rw [r.rest]; rfl) rfl
  have := here_gap (cfg := cfg) (s := C) (w := w) (q := q) (c := c') (k := { keyHere s2 with possible := false }) (I := I'') (i := i'') (n := 0)
    hv.bytes hrC hq (by simp at hf ⊢; omega)
    (by rw [← hC, ← hB, ← hA]; exact ⟨r.calm.level, r.calm.impl, r.calm.parsed, r.calm.started, r.calm.fit.skip (n := 1) (by simp [r.rest])⟩)
    (fun _ => by rw [← hC, ← hB, ← hA]; refine hv.col ?_; simp [on, hm3, hp.col])
    (by rw [lowCol_eq hq0 hqm, ← hC]; exact unroll_ok hi') (by rw [← hC]) (fun hx => by cases hx)
    (NP.last (htC.trans (show out ++ b ++ [.key, tok, .value] = out ++ b ++ [.key, tok] ++ [.value] by simp)) rfl)
  have hal' : C.simpleKeyAllowed = false := by rw [← hC]
  rw [htC, hal'] at this
  simpa using this

end Verif.Scanner
