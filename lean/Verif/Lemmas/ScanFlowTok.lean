import Verif.Lemmas.ScanFlow
import Verif.Lemmas.ScanJsonFlow
/-!
# Tokens of flow collections inside of block collections
-/
namespace Verif.Scanner
open Verif Verif.CharUtils Verif.Source Verif.Emitter Verif.Spec

/-- a text after which the column is still right of `i0` -/
def Deep (i0 : Nat) (t : List Byte) : Prop := ∀ m : Marker, i0 < m.col → i0 < (gapMark m t).col

theorem Deep.append {i0 a b} (ha : Deep i0 a) (hb : Deep i0 b) : Deep i0 (a ++ b) := by
  intro m h
  rw [gapMark_append]
  exact hb _ (ha _ h)

theorem deep_flat {i0 a} (h : ∀ b ∈ a, b ≠ 10) : Deep i0 a := by
  intro m hm
  rw [gapMark_flat _ _ h]
  show i0 < m.col + _
  omega

/-- a gap in a flow collection, before `q` -/
structure GapF (i0 : Nat) (w q : List Byte) : Prop where
  lay : Lay w q
  first : w.head? ≠ some 35
  deep : Deep i0 w

/-- Between tokens of a flow collection, `n + 1` of them deep, inside of block collections. -/
structure FlB (cfg : Cfg) (s : SSt) (out : List TokenType) (k : SimpleKey) (ks : List SimpleKey) (n : Nat) (M : List ImplicitMappingState) (i0 : Nat) (I0 : List Indent)
    (L : Nat) (rest : List Byte) : Prop where
  rest : ∃ w, Lay w rest ∧ s.src.rest = w ++ rest ∧ i0 < (gapMark s.mark w).col
  fuel : s.src.rest.length < cfg.fuel
  ctx : BCtx s.indents s.indent i0 I0
  toks : types s = out
  keys : s.simpleKeys = k :: ks
  req : ∀ x ∈ k :: ks, x.possible = true → x.required = false
  level : s.flowLevel = n + 1
  impl : s.implicitFlowMappingStates = M
  poss : ∀ x ∈ M, x = .possible
  parsed : s.tokensParsed = 0
  started : s.streamStartProduced = true
  fit : Fit s.src
  line : L ≤ s.mark.line

theorem flb_fetch {cfg s out k ks n M i0 I0 L rest} (h : FlB cfg s out k ks n M i0 I0 L rest) (hr : rest ≠ []) (hh : TokenHead rest) (hm : NotMarkL rest) :
    ∃ s2, fetchNextToken cfg s = fetchMain cfg s2 ∧ FlB cfg s2 out k ks n M i0 I0 L rest ∧ s2.src.rest = rest ∧ i0 < s2.mark.col ∧
      s2.simpleKeyAllowed = s.simpleKeyAllowed ∧ s2.flowMappingStarted = s.flowMappingStarted ∧ s2.adjacentValueAllowedAt = s.adjacentValueAllowedAt ∧
      (s.src.rest = rest → s2 = s) := by
  obtain ⟨w, hw, hrest, hcol⟩ := h.rest
  have hfu := h.fuel
  have hl := h.level
  have e1 : loopM skipToNextTokenBody cfg.fuel () s = (.ok (), gapF s w) := lay_runF hw hh hrest (by rw [hrest] at hfu; simp at hfu; omega) (by omega)
  have r2 : (gapF s w).src.rest = rest := gapF_rest hrest
  have hid : s.src.rest = rest → gapF s w = s := fun hx => by
    rw [hrest] at hx
    have : w = [] := by simpa using hx
    rw [this, gapF_nil]
  have f2 : Fit (gapF s w).src := h.fit.skip (by simp [hrest])
  have l2 : L ≤ (gapF s w).mark.line := Nat.le_trans h.line (gapMark_le _ _)
  have hFl : FlB cfg (gapF s w) out k ks n M i0 I0 L rest :=
    ⟨⟨[], .nil, r2, hcol⟩, by rw [r2]; rw [hrest] at hfu; simp at hfu; omega, h.ctx, h.toks, h.keys, h.req, h.level, h.impl, h.poss, h.parsed, h.started, f2, l2⟩
  refine ⟨gapF s w, ?_, hFl, r2, hcol, rfl, rfl, rfl, hid⟩
  have hcol2 : i0 < (gapF s w).mark.col := hcol
  generalize gapF s w = s2 at *
  unfold fetchNextToken
  rw [gets_bind, if_pos h.started]
  rw [show skipToNextToken cfg = loopM skipToNextTokenBody cfg.fuel () from rfl, bind_run e1]
  have hst : staleSimpleKeys s2 = (.ok (), s2) := by
    have hns : ∀ x, isStale s2 x = false := fun x => by simp [isStale, hFl.level]
    rw [stale_run (fun k' _ hx => by rw [hns] at hx; cases hx)]
    have : (s2.simpleKeys.map fun k => if isStale s2 k then { k with possible := false } else k) = s2.simpleKeys := by
      conv => rhs; rw [← List.map_id s2.simpleKeys]
      refine List.map_congr_left fun x _ => ?_
      rw [hns]; rfl
    rw [this]
  rw [bind_run hst, getMark_bind]
  have hun : unrollIndent s2.mark.col s2 = (.ok (), s2) := by
    unfold unrollIndent
    rw [if_pos (by rw [hFl.level]; omega)]
  rw [bind_run hun]
  have he : s2.src.bufIsEmpty = false := by simp [Src.bufIsEmpty, r2, hr]
  rw [atEof_bind, he]
  have key : (s2.mark.col == 1 && s2.src.peekz 0 == b%'%') = false ∧ (s2.mark.col == 1 && nextIsDocumentStart s2) = false ∧
      (s2.mark.col == 1 && nextIsDocumentEnd s2) = false := by
    refine ⟨?_, ?_, ?_⟩
    · have : s2.src.peekz 0 ≠ 37 := by
        rw [peekz_head r2]
        cases rest with
        | nil => exact absurd rfl hr
        | cons a r => have := hm.1; simpa using this
      simp [this]
    · simp only [nextIsDocumentStart]
      rw [hm.three r2 (.inl rfl)]; simp
    · simp only [nextIsDocumentEnd]
      rw [hm.three r2 (.inr rfl)]; simp
  have hlow : decide (s2.mark.col < s2.indent) = false := by
    have : s2.indent ≤ i0 + 1 := by rcases hFl.ctx with ⟨-, h⟩ | ⟨-, h⟩ <;> omega
    simp; omega
  unfold fetchAtToken
  ev [key, hlow]

/-- the key saved here, or the one that was there -/
theorem flb_keys {cfg s out k ks n M i0 I0 L rest} (h : FlB cfg s out k ks n M i0 I0 L rest) : ∃ k', savedKeys s = k' :: ks ∧ (k'.possible = true → k'.required = false) ∧
    (s.simpleKeyAllowed = true → k'.possible = true ∧ k'.tokenNumber = out.length) ∧ (s.simpleKeyAllowed = false → s.simpleKeys = k' :: ks) := by
  unfold savedKeys
  split
  · rename_i hx
    refine ⟨keyHere s, by simp [h.keys], fun _ => by simp [keyHere, h.level], fun _ => ⟨rfl, ?_⟩, fun hy => by rw [hx] at hy; cases hy⟩
    simp only [keyHere, h.parsed]
    rw [← h.toks]
    simp [types]
  · rename_i hx
    exact ⟨k, h.keys, h.req k (by simp), fun hy => absurd hy hx, fun _ => h.keys⟩

/-! ## Brackets, commas and colons -/

theorem flowOpen_run {cfg : Cfg} {s : SSt} {c tt w q i0 I0} (hc : (c = 91 ∧ tt = TokenType.flowSequenceStart) ∨ (c = 123 ∧ tt = .flowMappingStart))
    (hr : s.src.rest = c :: (w ++ q)) (hg : GapF i0 w q) (hq : TokenHead q) (hx : BCtx s.indents s.indent i0 I0) :
    ∃ sp e w' I i, w = e ++ w' ∧ Lay w' q ∧ BCtx I i i0 I0 ∧ fetchMain cfg s = (.ok (), { pass s (c :: e) false with
      indents := I, indent := i, tokens := s.tokens ++ [⟨sp, tt⟩], simpleKeys := SimpleKey.new ⟨0, 0, 0⟩ :: savedKeys s, flowLevel := s.flowLevel + 1,
      simpleKeyAllowed := true, flowMappingStarted := s.flowMappingStarted || c == 123,
      implicitFlowMappingStates := if c = 91 then .possible :: s.implicitFlowMappingStates else s.implicitFlowMappingStates }) := by
  have hc10 : c ≠ 10 := by rcases hc with ⟨rfl, -⟩ | ⟨rfl, -⟩ <;> decide
  have hm : fetchMain cfg s = fetchFlowStart tt s := by
    have h0 : s.src.peekz 0 = c := peekz_cons hr
    unfold fetchMain
    rcases hc with ⟨rfl, rfl⟩ | ⟨rfl, rfl⟩ <;> (ev [h0]; try simp)
  rw [hm]
  unfold fetchFlowStart setAllowed increaseFlowLevel
  rw [bind_run (save_run s)]
  obtain ⟨I, i, hro, hx'⟩ := BCtx.roll (s := { s with simpleKeys := savedKeys s }) (i0 := i0) (I0 := I0) hx
  rw [bind_run hro]
  ev []
  rw [bind_run (skipNonBlank_pass (b := c) hc10)]
  generalize hS : pass ({ s with simpleKeys := SimpleKey.new ⟨0, 0, 0⟩ :: savedKeys s, flowLevel := s.flowLevel + 1, simpleKeyAllowed := true, indents := I, indent := i } : SSt) [c] false = S
  have hn : noteFlowStart tt S = (.ok (), { S with flowMappingStarted := S.flowMappingStarted || c == 123, implicitFlowMappingStates := if c = 91 then .possible :: S.implicitFlowMappingStates else S.implicitFlowMappingStates }) := by
    rcases hc with ⟨rfl, rfl⟩ | ⟨rfl, rfl⟩
    · simp [noteFlowStart, upd]
    · simp [noteFlowStart, upd]
  rw [bind_run hn]
  have hSr : S.src.rest = w ++ q := by rw [← hS]; exact pass_rest (a := [c]) hr
  generalize hT : ({ S with flowMappingStarted := S.flowMappingStarted || c == 123, implicitFlowMappingStates := if c = 91 then .possible :: S.implicitFlowMappingStates else S.implicitFlowMappingStates } : SSt) = T
  have hTr : T.src.rest = w ++ q := by rw [← hT]; exact hSr
  obtain ⟨e, w', r, rfl, h1, h2, h3, h4, -⟩ := skipWs_lay (st := true) (b := false) hg.lay hq (fun hx => absurd hx hg.first) hTr
  rw [bind_run h2]
  ev []
  unfold push
  refine ⟨⟨s.mark, (pass T e T.leadingWhitespace).mark⟩, e, w', I, i, rfl, h4, hx', ?_⟩
  rw [show (c :: e) = [c] ++ e from rfl, ← pass_pass _ _ _ false, ← hT, ← hS]
  rfl

theorem allPossible_end {s : SSt} {m} (h : ∀ x ∈ s.implicitFlowMappingStates, x = .possible) : endImplicitMapping m s = (.ok (), s) := calm_end h

theorem flowClose_run {cfg : Cfg} {s : SSt} {c tt w q k k1 ks n} (hc : (c = 93 ∧ tt = TokenType.flowSequenceEnd) ∨ (c = 125 ∧ tt = .flowMappingEnd))
    (hr : s.src.rest = c :: (w ++ q)) (hlay : Lay w q) (hfirst : w.head? ≠ some 35) (hq : TokenHead q) (hk : s.simpleKeys = k :: k1 :: ks)
    (hreq : k.possible = true → k.required = false) (hl : s.flowLevel = n + 1) (hp : ∀ x ∈ s.implicitFlowMappingStates, x = .possible) :
    ∃ sp e w', w = e ++ w' ∧ Lay w' q ∧ (w' = [] ∨ ∃ w'', w' = 10 :: w'') ∧ (∀ x ∈ e, x ≠ 10) ∧ fetchMain cfg s = (.ok (), { pass s (c :: e) false with
      tokens := s.tokens ++ [⟨sp, tt⟩], simpleKeys := k1 :: ks, flowLevel := n, simpleKeyAllowed := false,
      implicitFlowMappingStates := if c = 93 then s.implicitFlowMappingStates.tail else s.implicitFlowMappingStates,
      adjacentValueAllowedAt := if n > 0 then (gapMark s.mark (c :: e)).pos else s.adjacentValueAllowedAt }) := by
  have hc10 : c ≠ 10 := by rcases hc with ⟨rfl, -⟩ | ⟨rfl, -⟩ <;> decide
  have hm : fetchMain cfg s = fetchFlowEnd tt s := by
    have h0 : s.src.peekz 0 = c := peekz_cons hr
    unfold fetchMain
    rcases hc with ⟨rfl, rfl⟩ | ⟨rfl, rfl⟩ <;> (ev [h0]; simp)
  rw [hm]
  unfold fetchFlowEnd setAllowed
  have e1 : removeSimpleKey s = (.ok (), { s with simpleKeys := { k with possible := false } :: k1 :: ks }) := by
    simp [removeSimpleKey, hk]
    intro hx
    simp [hreq hx]
  rw [bind_run e1]
  have e2 : decreaseFlowLevel ({ s with simpleKeys := { k with possible := false } :: k1 :: ks } : SSt) = (.ok (), { s with flowLevel := n, simpleKeys := k1 :: ks }) := by
    simp [decreaseFlowLevel, hl]
  rw [bind_run e2]
  ev []
  have en : (when (tt == .flowSequenceEnd) do
      endImplicitMapping s.mark
      upd fun s => { s with implicitFlowMappingStates := s.implicitFlowMappingStates.tail } : SM Unit) ({ s with flowLevel := n, simpleKeys := k1 :: ks, simpleKeyAllowed := false } : SSt) =
      (.ok (), { s with flowLevel := n, simpleKeys := k1 :: ks, simpleKeyAllowed := false, implicitFlowMappingStates := if c = 93 then s.implicitFlowMappingStates.tail else s.implicitFlowMappingStates }) := by
    rcases hc with ⟨rfl, rfl⟩ | ⟨rfl, rfl⟩
    · rw [show (TokenType.flowSequenceEnd == .flowSequenceEnd) = true by decide]
      show (endImplicitMapping s.mark >>= fun _ => _) _ = _
      rw [bind_run (allPossible_end (s := { s with flowLevel := n, simpleKeys := k1 :: ks, simpleKeyAllowed := false }) hp)]
      rfl
    · rfl
  rw [bind_run en, bind_run (skipNonBlank_pass (b := c) hc10)]
  generalize hS : pass ({ s with flowLevel := n, simpleKeys := k1 :: ks, simpleKeyAllowed := false, implicitFlowMappingStates := if c = 93 then s.implicitFlowMappingStates.tail else s.implicitFlowMappingStates } : SSt) [c] false = S
  have hSr : S.src.rest = w ++ q := by rw [← hS]; exact pass_rest (a := [c]) hr
  obtain ⟨e, w', r, rfl, h1, h2, h3, h4, -⟩ := skipWs_lay (st := true) (b := false) hlay hq (fun hx => absurd hx hfirst) hSr
  rw [bind_run h2]
  have hu : (upd (fun s : SSt => if s.flowLevel > 0 then { s with adjacentValueAllowedAt := s.mark.pos } else s) : SM Unit) (pass S e S.leadingWhitespace) =
      (.ok (), { pass S e S.leadingWhitespace with adjacentValueAllowedAt := if n > 0 then (gapMark s.mark (c :: e)).pos else s.adjacentValueAllowedAt }) := by
    have a1 : (pass S e S.leadingWhitespace).flowLevel = n := by rw [← hS]; rfl
    have a2 : (pass S e S.leadingWhitespace).mark = gapMark s.mark (c :: e) := by
      rw [← hS]
      show gapMark (gapMark s.mark [c]) e = _
      rw [← gapMark_append]; rfl
    have a3 : (pass S e S.leadingWhitespace).adjacentValueAllowedAt = s.adjacentValueAllowedAt := by rw [← hS]; rfl
    generalize pass S e S.leadingWhitespace = P at *
    unfold upd
    by_cases hn : n > 0
    · simp only [if_pos hn, a1, ← a2]
    · simp only [if_neg hn, a1, ← a3]
      simp only [← a1]
  rw [bind_run hu]
  ev []
  unfold push
  refine ⟨⟨s.mark, (pass S e S.leadingWhitespace).mark⟩, e, w', rfl, h4, h3, h1, ?_⟩
  rw [show (c :: e) = [c] ++ e from rfl, ← pass_pass _ _ _ false, ← hS]
  rfl

theorem flowEntry_run {cfg : Cfg} {s : SSt} {w q k ks} (hr : s.src.rest = 44 :: (w ++ q)) (hlay : Lay w q) (hfirst : w.head? ≠ some 35) (hq : TokenHead q)
    (hk : s.simpleKeys = k :: ks) (hreq : k.possible = true → k.required = false) (hp : ∀ x ∈ s.implicitFlowMappingStates, x = .possible) :
    ∃ sp e w', w = e ++ w' ∧ Lay w' q ∧ fetchMain cfg s = (.ok (), { pass s (44 :: e) false with
      tokens := s.tokens ++ [⟨sp, .flowEntry⟩], simpleKeys := { k with possible := false } :: ks, simpleKeyAllowed := true }) := by
  have hm : fetchMain cfg s = fetchFlowEntry s := by
    have h0 : s.src.peekz 0 = 44 := peekz_cons hr
    unfold fetchMain
    ev [h0]; simp
  rw [hm]
  unfold fetchFlowEntry setAllowed
  have e1 : removeSimpleKey s = (.ok (), { s with simpleKeys := { k with possible := false } :: ks }) := by
    simp [removeSimpleKey, hk]
    intro hx
    simp [hreq hx]
  rw [bind_run e1]
  ev []
  rw [bind_run (allPossible_end (s := { s with simpleKeys := { k with possible := false } :: ks, simpleKeyAllowed := true }) hp),
    bind_run (skipNonBlank_pass (b := 44) (by decide))]
  generalize hS : pass ({ s with simpleKeys := { k with possible := false } :: ks, simpleKeyAllowed := true } : SSt) [44] false = S
  have hSr : S.src.rest = w ++ q := by rw [← hS]; exact pass_rest (a := [44]) hr
  obtain ⟨e, w', r, rfl, h1, h2, h3, h4, -⟩ := skipWs_lay (st := true) (b := false) hlay hq (fun hx => absurd hx hfirst) hSr
  rw [bind_run h2]
  ev []
  unfold push
  refine ⟨⟨s.mark, (pass S e S.leadingWhitespace).mark⟩, e, w', rfl, h4, ?_⟩
  rw [show (44 :: e) = [44] ++ e from rfl, ← pass_pass _ _ _ false, ← hS]
  rfl

theorem flowColon_run {cfg : Cfg} {s : SSt} {r k ks n} (hr : s.src.rest = 58 :: r) (hnext : (∃ c r', r = c :: r' ∧ (c = 32 ∨ c = 10 ∨ c = 44 ∨ c = 125 ∨ c = 93)) ∨
      (r.head? ≠ some 9 ∧ s.adjacentValueAllowedAt = s.mark.pos))
    (hl : s.flowLevel = n + 1) (hfm : s.flowMappingStarted = true) (hk : s.simpleKeys = k :: ks) (hp : k.possible = true) (hpar : s.tokensParsed = 0)
    (htok : k.tokenNumber ≤ s.tokens.length) :
    ∃ sp sp', fetchMain cfg s = (.ok (), { pass s [58] false with
      tokens := s.tokens.take k.tokenNumber ++ ⟨sp, .key⟩ :: s.tokens.drop k.tokenNumber ++ [⟨sp', .value⟩], simpleKeys := { k with possible := false } :: ks,
      simpleKeyAllowed := false }) := by
  have h0 : s.src.peekz 0 = 58 := peekz_cons hr
  have h1 : s.src.peekz 1 = r.headD 0 := by simp only [Src.peekz, hr]; cases r <;> rfl
  have h9 : r.headD 0 ≠ 9 := by
    rcases hnext with ⟨c, r', rfl, hc⟩ | ⟨hx, -⟩
    · show c ≠ 9; omega
    · cases r with
      | nil => decide
      | cons c r => simpa using hx
  have hmain : fetchMain cfg s = fetchValue s := by
    have hv : (s.mark.pos = s.adjacentValueAllowedAt ∨ isBlankOrBreakz (r.headD 0) = true ∨ (r.headD 0 ≠ 91 ∧ r.headD 0 ≠ 123 ∧ isFlow (r.headD 0) = true)) := by
      rcases hnext with ⟨c, r', rfl, hc⟩ | ⟨-, hx⟩
      · show _ ∨ isBlankOrBreakz c = true ∨ (c ≠ 91 ∧ c ≠ 123 ∧ isFlow c = true)
        rcases hc with rfl | rfl | rfl | rfl | rfl <;> simp (decide := true)
      · exact .inl hx.symm
    generalize r.headD 0 = d at h1 h9 hv
    have hfv : (s.mark.pos = s.adjacentValueAllowedAt ∨ (d ≠ 91 ∧ d ≠ 123)) → fetchFlowValue s = fetchValue s := by
      intro hx
      have : (s.mark.pos != s.adjacentValueAllowedAt && (d == b%'[' || d == b%'{')) = false := by
        rcases hx with hx | ⟨h2, h3⟩
        · simp [hx]
        · simp [h2, h3]
      unfold fetchFlowValue
      ev [h1, this]
    unfold fetchMain
    ev [h0, h1]
    by_cases hb : isBlankOrBreakz d = true
    · simp only [hb]; simp
    · simp only [hb]
      rcases hv with hv | hv | ⟨h2, h3, h4⟩
      · have hl0 : s.flowLevel > 0 := by omega
        simp [hl0, hv, hfv (.inl hv)]
      · exact absurd hv hb
      · have hl0 : s.flowLevel > 0 := by omega
        simp [hl0, h4, hfv (.inr ⟨h2, h3⟩)]
  rw [hmain]
  unfold fetchValue
  have himp : (!s.implicitFlowMappingStates.isEmpty && !s.flowMappingStarted) = false := by simp [hfm]
  ev [hk, himp]
  have hcolon : skipColon s = (.ok (), pass s [58] false) := by
    unfold skipColon
    rw [bind_run (skipNonBlank_pass (b := 58) (by decide))]
    have : (pass s [58] false).src.peekz 0 ≠ 9 := by
      rw [peekz_head (pass_rest (a := [58]) hr)]; exact h9
    ev [this]
  rw [bind_run hcolon]
  generalize hB : pass s [58] false = B
  have b2 : B.tokensParsed = 0 := by rw [← hB]; exact hpar
  have b3 : B.tokens = s.tokens := by rw [← hB]; rfl
  have b4 : B.flowLevel = n + 1 := by rw [← hB]; exact hl
  have b6 : B.simpleKeys = k :: ks := by rw [← hB]; exact hk
  have ev1 : valueAfterKey k s.mark false B = (.ok (), { B with
      tokens := s.tokens.take k.tokenNumber ++ ⟨Span.empty k.mark, .key⟩ :: s.tokens.drop k.tokenNumber
      simpleKeys := { k with possible := false } :: ks
      simpleKeyAllowed := false }) := by
    unfold valueAfterKey valueAfterSimpleKey
    rw [if_pos hp]
    have ei : insertToken k.tokenNumber (Span.empty k.mark) .key B = (.ok (), { B with tokens := s.tokens.take k.tokenNumber ++ ⟨Span.empty k.mark, .key⟩ :: s.tokens.drop k.tokenNumber }) := by
      unfold insertToken
      rw [b2, b3, if_neg (by omega)]
      rfl
    rw [bind_run ei]
    unfold rollIndent rollOneColIndent
    ev []
    simp [b4, b6]
    cases B.indents <;> simp [upd]
  rw [bind_run ev1]
  unfold push
  exact ⟨Span.empty k.mark, _, rfl⟩
/-! ## Scalars -/

theorem pflow_deep {i0 t v} (h : PFlow (i0 + 1) t v) : Deep i0 t := by
  induction h with
  | one h => exact deep_flat (word_flat h)
  | space h _ ih =>
    refine (deep_flat (word_flat h)).append ((deep_flat fun b hb => ?_).append ih)
    rw [List.eq_of_mem_replicate hb]; decide
  | line h hg hn _ _ ih =>
    refine (deep_flat (word_flat h)).append (Deep.append (fun m _ => ?_) ih)
    rw [fold_col hg]; omega

theorem qflow_deep {single i0 t v} (h : QFlow single (i0 + 1) t v) : Deep i0 t := by
  induction h with
  | stop h => exact deep_flat h.flat
  | gap h _ _ ih =>
    refine (deep_flat h.flat).append ((deep_flat fun b hb => ?_).append ih)
    rw [List.eq_of_mem_replicate hb]; decide
  | line h hg hn _ _ _ ih =>
    refine (deep_flat h.flat).append (Deep.append (fun m _ => ?_) ih)
    rw [fold_col hg]; omega
  | @esc w u j n ls m v _ h hb hn _ _ _ ih =>
    refine (deep_flat h.flat).append ?_
    rw [show (92 :: 10 :: (ls ++ (List.replicate n 32 ++ m))) = ([92] ++ (10 :: (ls ++ List.replicate n 32))) ++ m by simp]
    refine Deep.append (fun mk _ => ?_) ih
    rw [gapMark_append]
    have : Block.Fold j n (10 :: (ls ++ List.replicate n 32)) := ⟨0, ls, hb, rfl⟩
    rw [fold_col this]; omega

/-- what comes after a node -/
def EndsF (q : List Byte) : Prop := ∃ c r, q = c :: r ∧ (c = 44 ∨ c = 93 ∨ c = 125 ∨ c = 58)

theorem EndsF.head {q} (h : EndsF q) : TokenHead q := by
  obtain ⟨c, r, rfl, h⟩ := h
  intro d hd
  simp at hd
  omega

/-- `s'`: after the tokens `toks` of a node that began in `s`. `near`: directly at the next token, which may be `:` -/
structure Post (cfg : Cfg) (s s' : SSt) (out toks : List TokenType) (ks : List SimpleKey) (n : Nat) (M : List ImplicitMappingState) (i0 : Nat) (I0 : List Indent)
    (L : Nat) (q : List Byte) (near : Prop) : Prop where
  fl : ∃ k', FlB cfg s' (out ++ toks) k' ks n M i0 I0 L q ∧ (s.simpleKeyAllowed = true → k'.possible = true ∧ k'.tokenNumber = out.length) ∧
    (s.simpleKeyAllowed = false → s.simpleKeys = k' :: ks)
  started : s.flowMappingStarted = true → s'.flowMappingStarted = true
  near : near → s'.src.rest = q ∧ s'.adjacentValueAllowedAt = s'.mark.pos

theorem flowQuoted_run {cfg s out k ks n M i0 I0 L single m v g q} {qt : Byte} (h : FlB cfg s out k ks n M i0 I0 L ((qt :: (m ++ [qt])) ++ (g ++ q)))
    (hr : s.src.rest = (qt :: (m ++ [qt])) ++ (g ++ q)) (hcol : i0 < s.mark.col) (hqt : qt = if single then 39 else 34) (hm : QFlow single (i0 + 1) m v)
    (hg : GapF i0 g q) (hq : EndsF q) :
    ∃ s', fetchMain cfg s = (.ok (), s') ∧ Post cfg s s' out [.scalar (if single then .singleQuote else .doubleQuote) v] ks n M i0 I0 L q True := by
  have h0 : s.src.peekz 0 = qt := peekz_cons hr
  have hfm : fetchMain cfg s = fetchFlowScalar cfg single s := by
    unfold fetchMain
    ev [h0]
    cases single <;> simp at hqt <;> subst hqt <;> simp
  have hq10 : qt ≠ 10 := by rw [hqt]; split <;> decide
  obtain ⟨k', hk', hreq', hal'⟩ := flb_keys h
  have hfu := h.fuel
  rw [hr] at hfu
  rw [hfm]
  unfold fetchFlowScalar setAllowed
  rw [bind_run (save_run s)]
  ev []
  generalize hA : ({ s with simpleKeys := savedKeys s, simpleKeyAllowed := false } : SSt) = sC
  have c1 : sC.flowLevel = n + 1 := by rw [← hA]; exact h.level
  have c2 : sC.mark = s.mark := by rw [← hA]
  have c3 : sC.src = s.src := by rw [← hA]
  have c4 : sC.indent = s.indent := by rw [← hA]
  have c5 : sC.indents = s.indents := by rw [← hA]
  have c6 : sC.tokens = s.tokens := by rw [← hA]
  have c7 : sC.simpleKeys = k' :: ks := by rw [← hA]; exact hk'
  have c9 : sC.implicitFlowMappingStates = M := by rw [← hA]; exact h.impl
  have c10 : sC.tokensParsed = 0 := by rw [← hA]; exact h.parsed
  have c11 : sC.streamStartProduced = true := by rw [← hA]; exact h.started
  have c12 : sC.flowMappingStarted = s.flowMappingStarted := by rw [← hA]
  have hrest : sC.src.rest = qt :: (m ++ qt :: (g ++ q)) := by rw [c3, hr]; simp
  simp only [List.length_append, List.length_cons, List.length_nil] at hfu
  have h39 : single = true → (g ++ q).head? ≠ some 39 := by
    intro _ hx
    obtain ⟨c, r, rfl, hc⟩ := hq
    cases g with
    | nil => simp at hx; omega
    | cons d g =>
      simp at hx
      subst hx
      have := hg.lay
      cases this
  have hcolq : (pass sC [qt] false).mark.col = s.mark.col + 1 := by simp [pass, gapMark, hq10, c2]
  have hii : s.indent ≤ i0 + 1 := by rcases h.ctx with ⟨-, h⟩ | ⟨-, h⟩ <;> omega
  obtain ⟨l, p', hb, hps⟩ := qflow_run (cfg := cfg) (start := sC.mark) h39 hqt hm (k := cfg.fuel) (s := pass sC [qt] false) (str := []) (lb := false)
    (pass_rest (a := [qt]) hrest) (by omega) (by omega) (by omega)
    (by rw [hcolq]; show sC.indent ≤ _; rw [c4]; omega) (by show sC.indent ≤ _; rw [c4]; exact hii) (fun hx => by omega)
  have e3 : p'.string = v := by simpa using hps
  -- the closing quotation mark
  have e2 : skipNonBlank (pass (pass sC [qt] false) m l) = (.ok (), pass sC (qt :: (m ++ [qt])) false) := by
    rw [skipNonBlank_pass (b := qt) hq10, pass_pass, pass_pass]
    simp
  have e4 : (pass sC (qt :: (m ++ [qt])) false).src.rest = g ++ q := pass_rest (by simpa using hrest)
  obtain ⟨e, w', r, hge, h1, h2, h3, h4, -⟩ := skipWs_lay (st := true) (b := false) hg.lay hq.head (fun hx => absurd hx hg.first) e4
  have e5 : pass (pass sC (qt :: (m ++ [qt])) false) e (pass sC (qt :: (m ++ [qt])) false).leadingWhitespace = pass sC (qt :: (m ++ qt :: e)) false := by
    rw [pass_pass]
    simp [pass]
  rw [e5] at h2
  have e6 : (pass sC (qt :: (m ++ qt :: e)) false).src.rest = w' ++ q := pass_rest (by rw [hrest, hge]; simp)
  have hok : flowTrailingOk (pass sC (qt :: (m ++ qt :: e)) false) sC.mark = true := by
    have hl : (pass sC (qt :: (m ++ qt :: e)) false).flowLevel = n + 1 := c1
    unfold flowTrailingOk
    rcases h3 with rfl | ⟨w'', rfl⟩
    · obtain ⟨c, r, rfl, hc⟩ := hq
      have : (pass sC (qt :: (m ++ qt :: e)) false).src.peekz 0 = c := by simp [Src.peekz, e6]
      rw [this, hl]
      rcases hc with rfl | rfl | rfl | rfl <;> simp
    · have : (pass sC (qt :: (m ++ qt :: e)) false).src.peekz 0 = 10 := by simp [Src.peekz, e6]
      simp [this, isBreakz]
  have hscan : scanFlowScalar cfg single sC = (.ok ⟨⟨sC.mark, (pass sC (qt :: (m ++ qt :: e)) false).mark⟩, .scalar (if single then .singleQuote else .doubleQuote) v⟩,
      pass sC (qt :: (m ++ qt :: e)) false) := by
    unfold scanFlowScalar
    ev []
    rw [bind_run (skipNonBlank_pass hq10), bind_run hb, bind_run e2, bind_run h2]
    ev [hok, Bool.not_true, e3]
  rw [bind_run hscan]
  generalize hS : pass sC (qt :: (m ++ qt :: e)) false = S at *
  have s2 : S.flowLevel = n + 1 := by rw [← hS]; exact c1
  have s9 : S.mark = gapMark s.mark ((qt :: (m ++ [qt])) ++ e) := by
    rw [← hS]
    show gapMark sC.mark (qt :: (m ++ qt :: e)) = _
    rw [c2]
    simp
  have hw' : w'.length < cfg.fuel := by
    have := congrArg List.length hge
    simp at this; omega
  have hgp : skipToNextToken cfg S = (.ok (), gapF S w') := lay_runF h4 hq.head e6 hw' (by omega)
  rw [bind_run hgp]
  ev []
  unfold pushTok push
  have hmk : gapMark S.mark w' = gapMark (gapMark s.mark (qt :: (m ++ [qt]))) g := by
    rw [s9, hge, gapMark_append, gapMark_append]
  have hdeep : i0 < (gapMark S.mark w').col := by
    rw [hmk]
    refine hg.deep _ (Deep.append (a := [qt]) (b := m ++ [qt]) (deep_flat (by simp [hq10])) ((qflow_deep hm).append (deep_flat (by simp [hq10]))) _ hcol)
  refine ⟨_, rfl, ⟨k', ⟨⟨[], .nil, gapF_rest e6, hdeep⟩, ?_, ?_, ?_, ?_, ?_, s2, ?_, h.poss, ?_, ?_, ?_, ?_⟩, hal'⟩, ?_, fun _ => ⟨gapF_rest e6, rfl⟩⟩
  · show (gapF S w').src.rest.length < _
    rw [gapF_rest e6]; omega
  · show BCtx S.indents S.indent i0 I0
    rw [← hS]
    show BCtx sC.indents sC.indent i0 I0
    rw [c4, c5]; exact h.ctx
  · have : S.tokens = s.tokens := by rw [← hS]; exact c6
    rw [← h.toks]
    simp [types, gapF, gap, this]
  · show S.simpleKeys = _
    rw [← hS]; exact c7
  · intro x hx
    rcases List.mem_cons.1 hx with rfl | hx
    · exact hreq'
    · exact h.req x (by simp [hx])
  · show S.implicitFlowMappingStates = _
    rw [← hS]; exact c9
  · show S.tokensParsed = _
    rw [← hS]; exact c10
  · show S.streamStartProduced = _
    rw [← hS]; exact c11
  · show Fit (S.src.skip w'.length)
    refine Fit.skip ?_ (by simp [e6])
    rw [← hS]
    exact Fit.skip (by rw [c3]; exact h.fit) (by simp [hrest, hge])
  · show L ≤ (gapMark S.mark w').line
    rw [hmk]
    exact Nat.le_trans h.line (Nat.le_trans (gapMark_le _ _) (gapMark_le _ _))
  · intro hx
    show S.flowMappingStarted = true
    rw [← hS]
    show sC.flowMappingStarted = true
    rw [c12, hx]

/-- a plain scalar begins here -/
theorem fetchMain_plainF {cfg} {s : SSt} {t post} (h : s.src.rest = t ++ post) (ht : PFirst t) (h58 : t.head? ≠ some 58) : fetchMain cfg s = fetchPlainScalar cfg s := by
  obtain ⟨⟨c, r, rfl, hc, hd⟩, -⟩ := ht
  have h0 : s.src.peekz 0 = c := peekz_cons (by rw [h]; rfl)
  have h1 : c = 45 ∨ c = 58 ∨ c = 63 → isBlankOrBreakz (s.src.peekz 1) = false ∧ isBlankOrBreak (s.src.peekz 1) = false := by
    intro hx
    obtain ⟨d, r', rfl, hw⟩ := hd hx
    have : s.src.peekz 1 = d := by simp [Src.peekz, h]
    rw [this]
    refine ⟨hw.blank, ?_⟩
    obtain ⟨h1, h2, h3, h4, h5⟩ := hw
    simp [isBlankOrBreak, h2, h3, h4, h5]
  simp at hc h58
  unfold fetchMain
  ev [h0, hc]
  by_cases h45 : c = 45
  · simp [h45, h1 (.inl h45)]
  · by_cases h63 : c = 63
    · simp [h63, h1 (.inr (.inr h63))]
    · simp [h45, h58, h63]

theorem flowPlain_run {cfg s out k ks n M i0 I0 L t v g q} (h : FlB cfg s out k ks n M i0 I0 L (t ++ (g ++ q))) (hb : BlockTop I0)
    (hr : s.src.rest = t ++ (g ++ q)) (hcol : i0 < s.mark.col) (ht : PFlow (i0 + 1) t v) (hp : PFirst t) (h58 : t.head? ≠ some 58) (hfl : ∀ b ∈ t, isFlow b = false)
    (hda : NoDash t) (hg : GapF i0 g q) (hq : StopF q) :
    ∃ s', fetchMain cfg s = (.ok (), s') ∧ Post cfg s s' out [.scalar .plain v] ks n M i0 I0 L q False := by
  obtain ⟨k', hk', hreq', hal'⟩ := flb_keys h
  have hfu := h.fuel
  rw [hr] at hfu
  rw [fetchMain_plainF hr hp h58]
  unfold fetchPlainScalar setAllowed
  rw [bind_run (save_run s)]
  ev []
  generalize hA : ({ s with simpleKeys := savedKeys s, simpleKeyAllowed := false } : SSt) = sA
  unfold scanPlainScalar
  have hnb : unrollNonBlockIndents sA = (.ok (), { sA with indents := I0, indent := i0 }) := by
    have e1 : sA.indents = s.indents := by rw [← hA]
    have e2 : sA.indent = s.indent := by rw [← hA]
    simp only [unrollNonBlockIndents, upd, e1, e2, h.ctx.nonBlock hb]
  rw [bind_assoc_run, bind_run hnb]
  generalize hC : ({ sA with indents := I0, indent := i0 } : SSt) = sC
  have c1 : sC.flowLevel = n + 1 := by rw [← hC, ← hA]; exact h.level
  have c2 : sC.mark = s.mark := by rw [← hC, ← hA]
  have c3 : sC.src = s.src := by rw [← hC, ← hA]
  have c4 : sC.indent = i0 := by rw [← hC]
  have c5 : sC.indents = I0 := by rw [← hC]
  have c6 : sC.tokens = s.tokens := by rw [← hC, ← hA]
  have c7 : sC.simpleKeys = k' :: ks := by rw [← hC, ← hA]; exact hk'
  have c9 : sC.implicitFlowMappingStates = M := by rw [← hC, ← hA]; exact h.impl
  have c10 : sC.tokensParsed = 0 := by rw [← hC, ← hA]; exact h.parsed
  have c11 : sC.streamStartProduced = true := by rw [← hC, ← hA]; exact h.started
  have c12 : sC.flowMappingStarted = s.flowMappingStarted := by rw [← hC, ← hA]
  have hbad : (decide (sC.flowLevel > 0) && decide (sC.mark.col < sC.indent + 1)) = false := by
    rw [Bool.and_eq_false_iff]; right
    rw [c2, c4]; simp; omega
  ev [hbad]
  simp only [List.length_append] at hfu
  have hrest : sC.src.rest = t ++ (g ++ q) := by rw [c3, hr]
  obtain ⟨a, b, hw, hlb, hF⟩ := plainAfter_flow hg.lay hg.first hq
  have hpe : PEndF (g ++ q) := by
    obtain ⟨y, q', hqy, hy⟩ := hq.head
    have hl := hg.lay
    have hf := hg.first
    cases g with
    | nil => exact hq.pend
    | cons x g =>
      cases hl with
      | space _ => exact .inl ⟨_, rfl⟩
      | newline _ => exact .inr (.inl ⟨_, rfl⟩)
      | comment _ _ => exact absurd rfl hf
      | last _ => exact absurd rfl hf
  obtain ⟨p', e1, e2⟩ := pflow_runF (F := fun x => pass x a (a.contains 10)) (cfg := cfg) (ind := sC.indent + 1) (start := sC.mark)
    (post := g ++ q) hpe (fun {s' p} hr hl hf' => hF hr hl hf' (by omega)) ht
    (k := cfg.fuel) (s := sC) (p := ⟨[], [], [], [], sC.mark⟩) (str := []) (m := sC.mark) hrest (by omega) (by omega) (by omega) hfl hda
    (by cases sC.leadingWhitespace <;> rfl) (fun _ => hp.mark)
  rw [bind_run e1]
  have e3 : p'.string = v := by simpa using e2
  have h2 : p'.string.isEmpty = false := by rw [e3]; simpa using ht.ne
  generalize hS : pass (pass sC t false) a (a.contains 10) = S
  have hr1 : (pass sC t false).src.rest = a ++ (b ++ q) := by rw [pass_rest hrest, hw]; simp
  have hS0 : S.src.rest = b ++ q := by rw [← hS]; exact pass_rest hr1
  have hS2 : S.mark = gapMark s.mark (t ++ a) := by rw [← hS]; simp [pass, c2, gapMark_append]
  have hS6 : S.simpleKeyAllowed = false := by rw [← hS, ← hC, ← hA]; rfl
  have hwhen : ∀ x, when x (setAllowed true) S = (.ok (), { S with simpleKeyAllowed := x }) := by
    intro x
    cases x with
    | true => rw [when_true]; rfl
    | false =>
      rw [when_false, pure_run, ← hS6]
  rw [gets_bind, bind_run (hwhen _)]
  clear hwhen
  ev [h2]
  unfold pushTok push
  have hmk : gapMark S.mark b = gapMark (gapMark s.mark t) g := by
    rw [hS2, hw, gapMark_append, gapMark_append]
  refine ⟨_, rfl, ⟨k', ⟨⟨b, hlb, hS0, ?_⟩, ?_, ?_, ?_, ?_, ?_, ?_, ?_, h.poss, ?_, ?_, ?_, ?_⟩, hal'⟩, ?_, fun hx => hx.elim⟩
  · show i0 < (gapMark S.mark b).col
    rw [hmk]
    exact hg.deep _ (pflow_deep ht _ hcol)
  · show S.src.rest.length < _
    have := congrArg List.length hw
    rw [hS0]; simp at this ⊢; omega
  · show BCtx S.indents S.indent i0 I0
    rw [← hS]
    exact .inl ⟨c5, c4⟩
  · have : S.tokens = s.tokens := by rw [← hS]; exact c6
    rw [← h.toks]
    simp [types, this, e3]
  · show S.simpleKeys = _
    rw [← hS]; exact c7
  · intro x hx
    rcases List.mem_cons.1 hx with rfl | hx
    · exact hreq'
    · exact h.req x (by simp [hx])
  · show S.flowLevel = _
    rw [← hS]; exact c1
  · show S.implicitFlowMappingStates = _
    rw [← hS]; exact c9
  · show S.tokensParsed = _
    rw [← hS]; exact c10
  · show S.streamStartProduced = _
    rw [← hS]; exact c11
  · show Fit S.src
    rw [← hS]
    exact ((show Fit sC.src by rw [c3]; exact h.fit).skip (n := t.length) (by simp [hrest])).skip (by show a.length ≤ (pass sC t false).src.rest.length; simp [hr1])
  · show L ≤ S.mark.line
    rw [hS2]
    exact Nat.le_trans h.line (gapMark_le _ _)
  · intro hx
    show S.flowMappingStarted = true
    rw [← hS]
    show sC.flowMappingStarted = true
    rw [c12, hx]

end Verif.Scanner
