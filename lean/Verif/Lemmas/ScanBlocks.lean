import Verif.Lemmas.ScanPlain
import Verif.Lemmas.ScanFetches
/-!
# Scanning block collections without properties
-/
namespace Verif.Scanner
open Verif Verif.CharUtils Verif.Source Verif.Emitter

/-- the types of the tokens in the queue -/
def types (s : SSt) : List TokenType := s.tokens.map (·.tt)

/-- neither anchor nor tag -/
def isProp : TokenType → Bool
  | .anchor _ => true
  | .tag _ _ => true
  | _ => false

/-- the position in the source is the number of bytes read -/
def Fit (s : Src) : Prop := s.pos + s.rest.length = s.len

theorem Fit.skip {a : Src} (h : Fit a) {n} (hn : n ≤ a.rest.length) : Fit (a.skip n) := by
  unfold Fit at *
  simp [Src.skip]
  omega

/-- outside flow collections, after the start of the stream, nothing taken -/
structure Calm (s : SSt) : Prop where
  level : s.flowLevel = 0
  impl : s.implicitFlowMappingStates = []
  parsed : s.tokensParsed = 0
  started : s.streamStartProduced = true
  fit : Fit s.src

/-- a node property at the start of a line is not followed by a nested block entry in the first column -/
def NP (ts : List Token) (c i : Nat) : Prop := ∀ t, ts.getLast? = some t → isProp t.tt = true → t.span.start.col = 1 → c ≠ 1 ∨ i = 0

theorem NP.last {s : SSt} {a : List TokenType} {t c i} (hty : types s = a ++ [t]) (h : isProp t = false) : NP s.tokens c i := by
  intro u hu hp
  have : (types s).getLast? = some u.tt := by rw [types, List.getLast?_map, hu]; rfl
  rw [hty, List.getLast?_concat] at this
  simp at this
  rw [← this, h] at hp
  cases hp

theorem NP.closed {ts : List Token} {c i} (h : NP ts c i) (sp : Span) (n : Nat) : NP (ts ++ List.replicate n ⟨sp, .blockEnd⟩) c i := by
  cases n with
  | zero => simpa using h
  | succ n =>
    intro u hu hp
    rw [List.replicate_succ', ← List.append_assoc, List.getLast?_concat] at hu
    simp at hu; subst hu; cases hp

/-- at a token, everything settled -/
structure Pos (s : SSt) (out : List TokenType) (I : List Indent) (i : Nat) (rest : List Byte) (c : Nat) (al : Bool) : Prop where
  rest : s.src.rest = rest
  col : s.mark.col = c
  indents : s.indents = I
  indent : s.indent = i
  toks : types s = out
  keys : ∃ k, s.simpleKeys = [k] ∧ (k.possible = true → k.required = false ∧ al = false ∧ k.mark.line ≤ s.mark.line)
  al : s.simpleKeyAllowed = al
  calm : Calm s
  np : NP s.tokens c i
  low : i ≤ c

/-- The column down to which collections end before `q`, which is at column `c`: all of them at the end of the text and at `---`. -/
def lowCol (q : List Byte) (c : Nat) : Nat := if q = [] ∨ (c = 1 ∧ DocMark q) then 0 else c

theorem lowCol_nil {c} : lowCol [] c = 0 := by simp [lowCol]

theorem lowCol_eq {q c} (h : q ≠ []) (hm : ¬ DocMark q) : lowCol q c = c := by simp [lowCol, h, hm]

theorem lowCol_le {q c} : lowCol q c ≤ c := by
  unfold lowCol
  split <;> omega

/-- before a token -/
def Here (cfg : Cfg) (s : SSt) (out : List TokenType) (I : List Indent) (i : Nat) (rest : List Byte) (c : Nat) (al : Bool) : Prop :=
  ∃ s1 n k, skipToNextToken cfg s = (.ok (), s1) ∧ s1.src.rest = rest ∧ (rest ≠ [] → s1.mark.col = c ∧ s1.simpleKeyAllowed = al) ∧
    unroll (lowCol rest c) s1.indent s1.indents = some (I, i, n) ∧ out = types s1 ++ List.replicate n .blockEnd ∧
    s1.simpleKeys = [k] ∧ (k.possible = true → k.required = false ∧ (rest ≠ [] → k.mark.line < s1.mark.line ∨ (al = false ∧ k.mark.line ≤ s1.mark.line))) ∧ Calm s1 ∧
    NP s1.tokens c i ∧ s.streamStartProduced = true

theorem Here.nil {cfg s out I i c al} (h : Here cfg s out I i [] c al) (al' : Bool) : Here cfg s out I i [] c al' := by
  obtain ⟨s1, n, k, h1, h2, -, h4, h5, h6, h7, h8⟩ := h
  exact ⟨s1, n, k, h1, h2, fun hx => absurd rfl hx, h4, h5, h6, fun hx => ⟨(h7 hx).1, fun hx => absurd rfl hx⟩, h8⟩

theorem unroll_low {c i I I' i' n} (h : unroll c i I = some (I', i', n)) : i' ≤ c := by
  induction I generalizing i n with
  | nil =>
    unfold unroll at h
    split at h
    · cases h
    · simp only [Option.some.injEq, Prod.mk.injEq] at h; omega
  | cons x xs ih =>
    unfold unroll at h
    split at h
    · cases hu : unroll c x.indent xs with
      | none => simp [hu] at h
      | some r =>
        obtain ⟨a, b, d⟩ := r
        simp only [hu, Option.map_some, Option.some.injEq, Prod.mk.injEq] at h
        obtain ⟨rfl, rfl, -⟩ := h
        exact ih hu
    · simp only [Option.some.injEq, Prod.mk.injEq] at h; omega

theorem unroll_ok {c i I} (h : i ≤ c) : unroll c i I = some (I, i, 0) := by
  cases I <;> simp [unroll] <;> omega

theorem unroll_step {c i x xs} (h : c < i) : unroll c i (x :: xs) =
    (unroll c x.indent xs).map fun r => (r.1, r.2.1, r.2.2 + if x.needsBlockEnd then 1 else 0) := by
  rw [unroll, if_pos h]

theorem types_push {s : SSt} {l : List Token} : types { s with tokens := s.tokens ++ l } = types s ++ l.map (·.tt) := by
  simp [types]

/-- not something `fetch_next_token` treats specially at the start of a line -/
def NotMarker (c : Nat) (rest : List Byte) : Prop := c = 1 → ∃ a r, rest = a :: r ∧ a ≠ 37 ∧ a ≠ 46 ∧ (a = 45 → ∃ b r', r = b :: r' ∧ b ≠ 45)

theorem NotMarker.low {c q} (h : NotMarker c q) (hq : q ≠ []) : lowCol q c = c := by
  unfold lowCol
  rw [if_neg]
  rintro (hx | ⟨h1, hx⟩)
  · exact hq hx
  · obtain ⟨a, r, rfl, -, h7, h2⟩ := h h1
    obtain ⟨x, r', h6, h3, -⟩ := hx.cons
    cases h3
    rcases h6 with rfl | rfl
    · obtain ⟨b, r', h4, h5⟩ := h2 rfl
      cases h4
      exact h5 rfl
    · contradiction

/-- after dealing with stale keys and indentation -/
def settled (s : SSt) (k : SimpleKey) (I : List Indent) (i n : Nat) : SSt :=
  { s with simpleKeys := [k], indents := I, indent := i, tokens := s.tokens ++ List.replicate n ⟨Span.empty s.mark, .blockEnd⟩ }

theorem fetch_here {cfg s out I i rest c al} (h : Here cfg s out I i rest c al) (hr : rest ≠ []) (hm : NotMarker c rest) :
    ∃ s2, Pos s2 out I i rest c al ∧ fetchNextToken cfg s = fetchMain cfg s2 := by
  obtain ⟨s1, n, k, h1, hrest, hcol, hu, rfl, hk, hkp, hc, hnp, hst⟩ := h
  obtain ⟨hcol, hal⟩ := hcol hr
  rw [hm.low hr] at hu
  have hlow := unroll_low hu
  have hs : ∃ s1', staleSimpleKeys s1 = (.ok (), s1') ∧ (∃ k', s1' = { s1 with simpleKeys := [k'] } ∧
      (k'.possible = true → k'.required = false ∧ al = false ∧ k'.mark.line ≤ s1.mark.line)) := by
    refine ⟨_, stale_run fun k' hk' hx => ?_, if isStale s1 k then { k with possible := false } else k, ?_, ?_⟩
    · rw [hk, List.mem_singleton] at hk'
      subst hk'
      simp only [isStale, Bool.and_eq_true] at hx
      exact (hkp hx.1.1).1
    · simp [hk]
    · intro hp
      by_cases hst : isStale s1 k = true
      · simp [hst] at hp
      · rw [if_neg hst] at hp ⊢
        obtain ⟨h1, h2⟩ := hkp hp
        rcases h2 hr with h2 | h2
        · exact absurd (by simp [isStale, hp, hc.level, h2]) hst
        · exact ⟨h1, h2⟩
  obtain ⟨s1', hs, k', rfl, hk'⟩ := hs
  refine ⟨settled s1 k' I i n, ?_, ?_⟩
  · refine ⟨hrest, hcol, rfl, rfl, by simp [types, settled], ⟨k', rfl, hk'⟩, hal, ⟨hc.level, hc.impl, hc.parsed, hc.started, hc.fit⟩, hnp.closed _ _, hlow⟩
  · unfold fetchNextToken
    rw [gets_bind, if_pos hst, bind_run h1, bind_run hs]
    have hun : unrollIndent s1.mark.col { s1 with simpleKeys := [k'] } = (.ok (), settled s1 k' I i n) := by
      unfold unrollIndent
      rw [if_neg (by simp [hc.level])]
      simp only [hcol, hu]
      rfl
    rw [getMark_bind, bind_run hun]
    generalize hs2 : settled s1 k' I i n = s2
    have r2 : s2.src.rest = rest := by rw [← hs2]; exact hrest
    have c2 : s2.mark.col = c := by rw [← hs2]; exact hcol
    have i2 : s2.indent = i := by rw [← hs2]; rfl
    have he : s2.src.bufIsEmpty = false := by simp [Src.bufIsEmpty, r2, hr]
    rw [atEof_bind, he]
    have key : (s2.mark.col == 1 && s2.src.peekz 0 == b%'%') = false ∧ (s2.mark.col == 1 && nextIsDocumentStart s2) = false ∧
        (s2.mark.col == 1 && nextIsDocumentEnd s2) = false := by
      by_cases h1 : c = 1
      · obtain ⟨a, r, rfl, ha, hb, hd⟩ := hm h1
        have h0 : s2.src.peekz 0 = a := peekz_cons r2
        refine ⟨by simp [h0, ha], ?_, ?_⟩
        · by_cases h45 : a = 45
          · obtain ⟨b, r', rfl, hb2⟩ := hd h45
            have h1 : s2.src.peekz 1 = b := by simp [Src.peekz, r2]
            simp [nextIsDocumentStart, Src.nextIsThree, h0, h1, hb2]
          · simp [nextIsDocumentStart, Src.nextIsThree, h0, h45]
        · simp [nextIsDocumentEnd, Src.nextIsThree, h0, hb]
      · have : (s2.mark.col == 1) = false := by rw [c2]; simpa using h1
        simp [this]
    have hl : decide (s2.mark.col < s2.indent) = false := by rw [c2, i2]; simp; omega
    unfold fetchAtToken
    ev [key, hl]

/-- after a token that was followed by a gap -/
theorem here_gap {cfg : Cfg} {s : SSt} {w q I i n k c} (hw : ∀ b ∈ w, b = 32 ∨ b = 10) (hr : s.src.rest = w ++ q) (hq : TokenHead q)
    (hf : w.length < cfg.fuel) (hc : Calm s) (hcol : q ≠ [] → (gapMark s.mark w).col = c)
    (hu : unroll (lowCol q c) s.indent s.indents = some (I, i, n))
    (hk : s.simpleKeys = [k]) (hkp : k.possible = true → k.required = false ∧ (q ≠ [] → k.mark.line < (gapMark s.mark w).line ∨
      ((s.simpleKeyAllowed || w.contains 10) = false ∧ k.mark.line ≤ (gapMark s.mark w).line)))
    (hnp : NP s.tokens c i) :
    Here cfg s (types s ++ List.replicate n .blockEnd) I i q c (s.simpleKeyAllowed || w.contains 10) := by
  refine ⟨gap s w, n, k, gap_run hq hw hr hf hc.level, ?_, fun hx => ⟨hcol hx, rfl⟩, hu, rfl, hk, hkp, ⟨hc.level, hc.impl, hc.parsed, hc.started, hc.fit.skip (by simp [hr])⟩, hnp, hc.started⟩
  simp [gap, Src.skip, hr]

/-- the indentation of the surrounding block collection, possibly with a non-block indent on top -/
def BCtx (I : List Indent) (i : Nat) (i0 : Nat) (I0 : List Indent) : Prop := (I = I0 ∧ i = i0) ∨ (I = ⟨i0, false⟩ :: I0 ∧ i = i0 + 1)

/-- outside of block collections, or directly inside one -/
def BlockTop (I0 : List Indent) : Prop := I0 = [] ∨ ∃ j l, I0 = ⟨j, true⟩ :: l

theorem BCtx.unroll {I i i0 I0 c} (h : BCtx I i i0 I0) (hc : c ≤ i0) : unroll c i I = unroll c i0 I0 := by
  rcases h with ⟨rfl, rfl⟩ | ⟨rfl, rfl⟩
  · rfl
  · rw [unroll_step (by omega)]
    cases Verif.Scanner.unroll c i0 I0 <;> simp

theorem BCtx.nonBlock {I i i0 I0} (h : BCtx I i i0 I0) (hb : BlockTop I0) : unrollNonBlock i I = (I0, i0) := by
  have base : unrollNonBlock i0 I0 = (I0, i0) := by
    rcases hb with rfl | ⟨j, l, rfl⟩ <;> simp [unrollNonBlock]
  rcases h with ⟨rfl, rfl⟩ | ⟨rfl, rfl⟩
  · exact base
  · simp [unrollNonBlock, base]

/-- `roll_one_col_indent` outside flow collections -/
theorem BCtx.roll {s : SSt} {i0 I0} (h : BCtx s.indents s.indent i0 I0) : ∃ I i, rollOneColIndent s = (.ok (), { s with indents := I, indent := i }) ∧ BCtx I i i0 I0 := by
  have same : rollOneColIndent s = (.ok (), s) → _ := fun e => (⟨s.indents, s.indent, e, h⟩ :
    ∃ I i, rollOneColIndent s = (.ok (), { s with indents := I, indent := i }) ∧ BCtx I i i0 I0)
  rcases h with ⟨h1, h2⟩ | ⟨h1, h2⟩
  · cases I0 with
    | nil => exact same (by simp [rollOneColIndent, upd, h1])
    | cons x xs =>
      by_cases hx : s.flowLevel = 0 ∧ x.needsBlockEnd = true
      · refine ⟨⟨i0, false⟩ :: x :: xs, i0 + 1, ?_, .inr ⟨rfl, rfl⟩⟩
        simp [rollOneColIndent, upd, h1, hx, h2]
      · exact same (by simp only [rollOneColIndent, upd, h1, if_neg hx])
  · exact same (by simp [rollOneColIndent, upd, h1])

/-- `roll_indent` for a new collection at column `c` -/
theorem BCtx.open {I i i0 I0} (s : SSt) (h : BCtx I i i0 I0) (hb : BlockTop I0) (h1 : s.indents = I) (h2 : s.indent = i) (c : Nat) (hc : i0 < c) :
    dropNonBlock c s = (.ok (), { s with indents := I0, indent := i0 }) := by
  rcases h with ⟨rfl, rfl⟩ | ⟨rfl, rfl⟩
  · rcases hb with hb | ⟨j, l, hb⟩
    · simp [dropNonBlock, upd, h1, hb, ← h2]
      rw [hb] at h1
      simp [← h1]
    · simp only [dropNonBlock, upd, h1, hb]
      simp [← h1, ← h2, ← hb]
  · simp only [dropNonBlock, upd, h1, h2]
    rw [if_pos (by simp; omega)]

/-- a number of fetches from `s`, where `b` bytes were left -/
def Goes (cfg : Cfg) (s : SSt) (b : Nat) (out : List TokenType) (I : List Indent) (i : Nat) (rest : List Byte) (c : Nat) (al : Bool) : Prop :=
  ∃ m s', Fetches cfg m s s' ∧ Here cfg s' out I i rest c al ∧ m + rest.length ≤ b

theorem Goes.one {cfg s s' b out I i rest c al} (h : fetchNextToken cfg s = (.ok (), s')) (h' : Here cfg s' out I i rest c al) (hb : rest.length < b) :
    Goes cfg s b out I i rest c al := ⟨1, s', .step h .refl, h', by omega⟩

theorem Goes.two {cfg s s1 s' b out I i rest c al} (h : fetchNextToken cfg s = (.ok (), s1)) (h1 : fetchNextToken cfg s1 = (.ok (), s'))
    (h' : Here cfg s' out I i rest c al) (hb : rest.length + 1 < b) :
    Goes cfg s b out I i rest c al := ⟨2, s', .step h (.step h1 .refl), h', by omega⟩

theorem Goes.then {cfg s b out I i rest c al out' I' i' rest' c' al'} (h : Goes cfg s b out I i rest c al)
    (h' : ∀ s', Here cfg s' out I i rest c al → Goes cfg s' rest.length out' I' i' rest' c' al') : Goes cfg s b out' I' i' rest' c' al' := by
  obtain ⟨m, s1, f, h1, hb⟩ := h
  obtain ⟨m', s2, f', h2, hb'⟩ := h' s1 h1
  exact ⟨m' + m, s2, f.trans f', h2, by omega⟩

/-! ## Scalars -/

/-- the first byte of a plain scalar is not taken for something else -/
def PlainFirst (t : List Byte) : Prop := ∃ c r, t = c :: r ∧ c ∉ bs!"[]{},*&!|>'\"%@`:?." ∧ (c = 45 → ∃ d r', r = d :: r' ∧ WordByte d ∧ d ≠ 45)

/-- A text on one line that is read as a scalar token: words, or what the emitter writes between quotation marks. -/
inductive ScalarText : List Byte → TokenType → Prop
  | plain {t} : Words t → PlainFirst t → ScalarText t (.scalar .plain t)
  | quoted {v m} : escapeLoop v = some m → ScalarText (34 :: (m ++ [34])) (.scalar .doubleQuote v)

/-- the keys after `save_simple_key` -/
def savedKeys (s : SSt) : List SimpleKey := if s.simpleKeyAllowed then keyHere s :: s.simpleKeys.tail else s.simpleKeys

theorem save_run (s : SSt) : saveSimpleKey s = (.ok (), { s with simpleKeys := savedKeys s }) := by
  unfold saveSimpleKey savedKeys upd
  by_cases h : s.simpleKeyAllowed = true
  · simp only [if_pos h]
  · simp only [if_neg h]

/-- `s3`: the scalar token was read in `s`, `len` bytes long, and then the gap `w`, leaving `q` -/
structure Read (s s3 : SSt) (tok : TokenType) (len : Nat) (w q : List Byte) (i0 : Nat) (I0 : List Indent) : Prop where
  rest : s3.src.rest = q
  mark : s3.mark = gapMark { s.mark with pos := s.mark.pos + len, col := s.mark.col + len } w
  ctx : BCtx s3.indents s3.indent i0 I0
  toks : ∃ sp, s3.tokens = s.tokens ++ [⟨sp, tok⟩]
  al : s3.simpleKeyAllowed = w.contains 10
  keys : s3.simpleKeys = savedKeys s
  calm : Calm s3

/-- What follows a scalar: the end, a line feed and indentation that ends it, or `:`. -/
def After (w q : List Byte) (i0 : Nat) : Prop :=
  (w = [] ∧ (q = [] ∨ ∃ b r, q = 58 :: b :: r ∧ (b = 32 ∨ b = 10))) ∨ (∃ n, w = 10 :: List.replicate n 32 ∧ (n + 1 ≤ i0 ∨ (n = 0 ∧ i0 = 0 ∧ DocMark q)) ∧ TokenHead q)

theorem gapMark_spaces (m : Marker) (n : Nat) : gapMark m (List.replicate n 32) = { m with pos := m.pos + n, col := m.col + n } := by
  induction n generalizing m with
  | zero => rfl
  | succ n ih =>
    rw [List.replicate_succ, gapMark, if_neg (by decide), ih]
    simp [Nat.add_comm, Nat.add_left_comm]

theorem gapMark_line (m : Marker) (n : Nat) : gapMark m (10 :: List.replicate n 32) = ⟨m.pos + 1 + n, 1 + n, m.line + 1⟩ := by
  rw [gapMark, if_pos rfl, gapMark_spaces]

theorem fetchMain_plain {cfg} {s : SSt} {t post} (h : s.src.rest = t ++ post) (ht : PlainFirst t) (hf : s.flowLevel = 0) :
    fetchMain cfg s = fetchPlainScalar cfg s := by
  obtain ⟨c, r, rfl, hc, hd⟩ := ht
  have h0 : s.src.peekz 0 = c := peekz_cons (by rw [h]; rfl)
  have h1 : c = 45 → isBlankOrBreakz (s.src.peekz 1) = false := by
    intro hx
    obtain ⟨d, r', rfl, hw, -⟩ := hd hx
    have : s.src.peekz 1 = d := by simp [Src.peekz, h]
    rw [this]; exact wordByte_blank hw
  simp at hc
  unfold fetchMain
  ev [h0, hc]
  by_cases h45 : c = 45
  · have := h1 h45
    have h2 : isBlankOrBreak (s.src.peekz 1) = false := by
      simp only [isBlankOrBreakz, isBlank, isBreak, isBlankOrBreak, Bool.or_eq_false_iff] at this ⊢
      simp [this]
    simp [h45, this, h2]
  · simp [h45]

theorem plain_read {cfg s out I i c al t w q i0 I0} (h : Pos s out I i (t ++ (w ++ q)) c al) (ht : Words t) (hp : PlainFirst t)
    (hx : BCtx I i i0 I0) (hb : BlockTop I0) (hi : i0 ≤ c) (h1 : 1 ≤ c) (ha : After w q i0) (hf : (t ++ (w ++ q)).length < cfg.fuel) :
    ∃ s3, fetchMain cfg s = (.ok (), s3) ∧ Read s s3 (.scalar .plain t) t.length w q i0 I0 := by
  rw [fetchMain_plain h.rest hp h.calm.level]
  unfold fetchPlainScalar setAllowed
  rw [bind_run (save_run s)]
  ev []
  generalize hA : ({ s with simpleKeys := savedKeys s, simpleKeyAllowed := false } : SSt) = sA
  unfold scanPlainScalar
  have hnb : unrollNonBlockIndents sA = (.ok (), { sA with indents := I0, indent := i0 }) := by
    have e1 : sA.indents = I := by rw [← hA]; exact h.indents
    have e2 : sA.indent = i := by rw [← hA]; exact h.indent
    simp only [unrollNonBlockIndents, upd, e1, e2, hx.nonBlock hb]
  rw [bind_assoc_run, bind_run hnb]
  generalize hC : ({ sA with indents := I0, indent := i0 } : SSt) = sC
  have c1 : sC.flowLevel = 0 := by rw [← hC, ← hA]; exact h.calm.level
  have c2 : sC.mark = s.mark := by rw [← hC, ← hA]
  have c3 : sC.src = s.src := by rw [← hC, ← hA]
  have c4 : sC.indent = i0 := by rw [← hC]
  have c5 : sC.indents = I0 := by rw [← hC]
  have c6 : sC.tokens = s.tokens := by rw [← hC, ← hA]
  have c7 : sC.simpleKeys = savedKeys s := by rw [← hC, ← hA]
  have c8 : sC.simpleKeyAllowed = false := by rw [← hC, ← hA]
  have c9 : Calm sC := ⟨c1, by rw [← hC, ← hA]; exact h.calm.impl, by rw [← hC, ← hA]; exact h.calm.parsed, by rw [← hC, ← hA]; exact h.calm.started, by rw [c3]; exact h.calm.fit⟩
  have hbad : (decide (sC.flowLevel > 0) && decide (sC.mark.col < sC.indent + 1)) = false := by simp [c1]
  ev [hbad]
  have hdoc : sC.src.nextIsDocumentIndicator = false := by
    obtain ⟨a, r, rfl, ha', hd⟩ := hp
    have h0 : sC.src.peekz 0 = a := by rw [c3]; exact peekz_cons (by rw [h.rest]; rfl)
    simp at ha'
    by_cases h45 : a = 45
    · obtain ⟨d, r', rfl, -, hd2⟩ := hd h45
      have h1 : sC.src.peekz 1 = d := by rw [c3]; simp [Src.peekz, h.rest]
      simp [Src.nextIsDocumentIndicator, Src.nextIsThree, h0, h1, ha', hd2]
    · simp [Src.nextIsDocumentIndicator, Src.nextIsThree, h0, ha', h45]
  obtain ⟨c', t', htt, -⟩ := ht.cons
  have hne : t ≠ [] := by rw [htt]; simp
  have hlen : t.length < cfg.fuel := by simp at hf; omega
  have hrest : sC.src.rest = t ++ (w ++ q) := by rw [c3, h.rest]
  rcases ha with ⟨rfl, ha⟩ | ⟨n, rfl, hn, hq⟩
  · have hwe : WordEnd ([] ++ q) := by
      rcases ha with rfl | ⟨b, r, rfl, hb⟩
      · exact .inl rfl
      · exact .inr (.inr (.inr ⟨_, rfl, b, r, rfl, hb⟩))
    obtain ⟨p', e1, e2⟩ := words_run (F := id) (cfg := cfg) (ind := sC.indent + 1) (start := sC.mark) hwe
      (by rcases ha with rfl | ⟨b, r, rfl, hb⟩ <;> simp)
      (fun {s' p} hr _ _ => ⟨p, .inl <| plainAfter_stop (by rcases ha with rfl | ⟨b, r, rfl, hb⟩; exact .inl hr; exact .inr ⟨_, hr⟩), rfl⟩) ht
      (k := cfg.fuel) (s := sC) (str := []) (ws := []) (m := sC.mark) hrest hlen (by omega) c1 (by rw [c2, c4, h.col]; omega)
      (fun _ => ⟨rfl, hdoc⟩)
    rw [bind_run e1]
    have h1 : (id (on sC t.length)).leadingWhitespace = false := rfl
    have h2 : p'.string.isEmpty = false := by rw [e2]; simpa using hne
    ev [h1, h2]
    unfold pushTok push
    refine ⟨_, rfl, ?_⟩
    have e3 : p'.string = t := by simpa using e2
    constructor
    · exact on_rest hrest rfl
    · simp [upd, on, gapMark, c2]
    · exact .inl ⟨c5, c4⟩
    · exact ⟨⟨sC.mark, p'.endMark⟩, by simp [upd, on, c6, e3]⟩
    · exact c8
    · exact c7
    · exact ⟨c9.level, c9.impl, c9.parsed, c9.started, c9.fit.skip (by simp [hrest])⟩
  · obtain ⟨p', e1, e2⟩ := words_run (F := fun x => foldGap x n) (cfg := cfg) (ind := sC.indent + 1) (start := sC.mark)
      (post := 10 :: List.replicate n 32 ++ q) (.inr (.inr (.inl ⟨_, rfl⟩))) (by simp)
      (fun {s' p} hr hl hf' => by
        rcases hn with hn | ⟨rfl, rfl, hd⟩
        · obtain ⟨p', e1, e2⟩ := plainAfter_fold (cfg := cfg) (ind := sC.indent + 1) (start := sC.mark) hq hr hl hf' (by simp at hf; omega) (by rw [c4]; omega) (p := p)
          exact ⟨p', .inl e1, e2⟩
        · obtain ⟨p', e1, e2⟩ := plainAfter_mark (cfg := cfg) (start := sC.mark) hd hr hl hf' (by simp at hf; omega) (p := p)
          rw [c4]
          exact ⟨p', .inr e1, e2⟩) ht
      (k := cfg.fuel) (s := sC) (str := []) (ws := []) (m := sC.mark) hrest hlen (by omega) c1 (by rw [c2, c4, h.col]; omega)
      (fun _ => ⟨rfl, hdoc⟩)
    rw [bind_run e1]
    have h1 : (foldGap (on sC t.length) n).leadingWhitespace = true := rfl
    have h2 : p'.string.isEmpty = false := by rw [e2]; simpa using hne
    ev [h1, h2]
    unfold pushTok push
    refine ⟨_, rfl, ?_⟩
    have e3 : p'.string = t := by simpa using e2
    have hr2 : (on sC t.length).src.rest = 10 :: (List.replicate n 32 ++ q) := on_rest hrest rfl
    constructor
    · show ((on sC t.length).src.skip (n + 1)).rest = q
      simp [Src.skip, hr2]
    · rw [gapMark_line]; simp [upd, on, foldGap, c2]
    · exact .inl ⟨c5, c4⟩
    · exact ⟨⟨sC.mark, p'.endMark⟩, by simp [upd, on, c6, e3, foldGap]⟩
    · rfl
    · exact c7
    · exact ⟨c9.level, c9.impl, c9.parsed, c9.started, (c9.fit.skip (n := t.length) (by simp [hrest])).skip (by show n + 1 ≤ (on sC t.length).src.rest.length; simp [hr2])⟩

theorem on_contains {n : Nat} : (List.replicate n 32).contains 10 = false := by
  simp [List.contains_iff_mem, List.mem_replicate]

theorem quoted_read {cfg s out I i c al v m w q i0 I0} (h : Pos s out I i ((34 :: (m ++ [34])) ++ (w ++ q)) c al) (hm : escapeLoop v = some m)
    (hx : BCtx I i i0 I0) (hi : i0 ≤ c) (h1 : 1 ≤ c) (ha : After w q i0) (hf : ((34 :: (m ++ [34])) ++ (w ++ q)).length < cfg.fuel) :
    ∃ s3, fetchMain cfg s = (.ok (), s3) ∧ Read s s3 (.scalar .doubleQuote v) (34 :: (m ++ [34])).length w q i0 I0 := by
  have h0 : s.src.peekz 0 = 34 := peekz_cons h.rest
  have hfm : fetchMain cfg s = fetchFlowScalar cfg false s := by
    unfold fetchMain
    ev [h0]
    simp
  rw [hfm]
  unfold fetchFlowScalar setAllowed
  rw [bind_run (save_run s)]
  ev []
  generalize hA : ({ s with simpleKeys := savedKeys s, simpleKeyAllowed := false } : SSt) = sC
  have c1 : sC.flowLevel = 0 := by rw [← hA]; exact h.calm.level
  have c2 : sC.mark = s.mark := by rw [← hA]
  have c3 : sC.src = s.src := by rw [← hA]
  have c4 : sC.indent = i := by rw [← hA]; exact h.indent
  have c5 : sC.indents = I := by rw [← hA]; exact h.indents
  have c6 : sC.tokens = s.tokens := by rw [← hA]
  have c7 : sC.simpleKeys = savedKeys s := by rw [← hA]
  have c8 : sC.simpleKeyAllowed = false := by rw [← hA]
  have c9 : Calm sC := ⟨c1, by rw [← hA]; exact h.calm.impl, by rw [← hA]; exact h.calm.parsed, by rw [← hA]; exact h.calm.started, by rw [c3]; exact h.calm.fit⟩
  have hrest : sC.src.rest = 34 :: (m ++ 34 :: (w ++ q)) := by rw [c3, h.rest]; simp
  have hle : i ≤ i0 + 1 := by rcases hx with ⟨-, rfl⟩ | ⟨-, rfl⟩ <;> omega
  simp only [List.length_append, List.length_cons, List.length_nil] at hf
  have hws : wsToEol true (w ++ q) false false = (0, .ok (false, false)) := by
    rcases ha with ⟨rfl, rfl | ⟨b, r, rfl, -⟩⟩ | ⟨n, rfl, -⟩ <;> simp [wsToEol]
  have hmf : Spec.MayFollow (decide (0 < sC.flowLevel)) (w ++ q) := by
    refine ⟨0, w ++ q, rfl, ?_⟩
    rcases ha with ⟨rfl, rfl | ⟨b, r, rfl, -⟩⟩ | ⟨n, rfl, -⟩
    · exact .inl rfl
    · exact .inr ⟨_, _, rfl, by simp⟩
    · exact .inr ⟨_, _, rfl, by simp⟩
  have hscan : scanFlowScalar cfg false sC = (.ok ⟨⟨sC.mark, (on sC (m.length + 2)).mark⟩, .scalar .doubleQuote v⟩, on sC (m.length + 2)) :=
    scanFlowScalar_exact hm hrest (by omega) (by rw [c2, h.col]; omega) (by rw [c4, c2, h.col]; exact h.low) hmf hws
  rw [bind_run hscan]
  have hr2 : (on sC (m.length + 2)).src.rest = w ++ q := on_rest (w := 34 :: (m ++ [34])) (by rw [hrest]; simp) (by simp)
  have hw : (∀ b ∈ w, b = 32 ∨ b = 10) ∧ TokenHead q := by
    rcases ha with ⟨rfl, rfl | ⟨b, r, rfl, -⟩⟩ | ⟨n, rfl, -, hq⟩
    · exact ⟨by simp, by simp [TokenHead]⟩
    · exact ⟨by simp, by simp [TokenHead]⟩
    · refine ⟨fun b hb => ?_, hq⟩
      rcases List.mem_cons.1 hb with rfl | hb
      · exact .inr rfl
      · exact .inl (List.eq_of_mem_replicate hb)
  have hg := gap_run hw.2 (k := cfg.fuel) (s := on sC (m.length + 2)) hw.1 hr2 (by omega) c1
  have hg' : skipToNextToken cfg (on sC (m.length + 2)) = (.ok (), gap (on sC (m.length + 2)) w) := hg
  rw [bind_run hg']
  ev []
  unfold pushTok push
  refine ⟨_, rfl, ?_⟩
  constructor
  · show ((on sC (m.length + 2)).src.skip w.length).rest = q
    simp [Src.skip, hr2]
  · simp [upd, on, gap, c2]
  · show BCtx sC.indents sC.indent i0 I0
    rw [c4, c5]; exact hx
  · exact ⟨_, by simp [upd, on, gap, c6]; rfl⟩
  · simp [upd, on, gap, c8]
  · exact c7
  · exact ⟨c9.level, c9.impl, c9.parsed, c9.started, (c9.fit.skip (n := m.length + 2) (by simp [hrest])).skip (by show w.length ≤ (on sC (m.length + 2)).src.rest.length; simp [hr2])⟩

theorem scalar_read {cfg s out I i c al t tok w q i0 I0} (h : Pos s out I i (t ++ (w ++ q)) c al) (ht : ScalarText t tok)
    (hx : BCtx I i i0 I0) (hb : BlockTop I0) (hi : i0 ≤ c) (h1 : 1 ≤ c) (ha : After w q i0) (hf : (t ++ (w ++ q)).length < cfg.fuel) :
    ∃ s3, fetchMain cfg s = (.ok (), s3) ∧ Read s s3 tok t.length w q i0 I0 := by
  cases ht with
  | plain hw h2 => exact plain_read h hw h2 hx hb hi h1 ha hf
  | quoted hm => exact quoted_read h hm hx hi h1 ha hf

/-- What follows a node: the end of the text, or a line feed and the indentation `c' - 1`, not deeper than the surrounding collection,
or, outside all collections, a line feed and `---`. -/
def End (w q : List Byte) (c' i0 : Nat) : Prop :=
  (w = [] ∧ q = []) ∨ (w = 10 :: List.replicate (c' - 1) 32 ∧ 1 ≤ c' ∧ (c' ≤ i0 ∨ (c' = 1 ∧ i0 = 0 ∧ DocMark q)) ∧ TokenHead q ∧ q ≠ [])

theorem End.after {w q c' i0} (h : End w q c' i0) : After w q i0 := by
  rcases h with ⟨rfl, rfl⟩ | ⟨rfl, h1, h2, h3, -⟩
  · exact .inl ⟨rfl, .inl rfl⟩
  · refine .inr ⟨c' - 1, rfl, ?_, h3⟩
    rcases h2 with h2 | ⟨rfl, rfl, hd⟩
    · exact .inl (by omega)
    · exact .inr ⟨rfl, rfl, hd⟩

theorem End.head {w q c' i0} (h : End w q c' i0) : TokenHead q := by
  rcases h with ⟨rfl, rfl⟩ | ⟨rfl, h1, h2, h3, -⟩
  · simp [TokenHead]
  · exact h3

theorem End.low {w q c' i0} (h : End w q c' i0) : lowCol q c' ≤ i0 := by
  rcases h with ⟨rfl, rfl⟩ | ⟨rfl, h1, h2, h3, h4⟩
  · simp [lowCol]
  · rcases h2 with h2 | ⟨rfl, rfl, hd⟩
    · exact Nat.le_trans lowCol_le h2
    · simp [lowCol, hd]

theorem End.col {w q c' i0} (h : End w q c' i0) (hq : q ≠ []) (m : Marker) : (gapMark m w).col = c' ∧ m.line < (gapMark m w).line ∧ w.contains 10 = true := by
  rcases h with ⟨rfl, rfl⟩ | ⟨rfl, h1, h2, h3, h4⟩
  · exact absurd rfl hq
  · rw [gapMark_line]; simp; omega

theorem End.bytes {w q c' i0} (h : End w q c' i0) : ∀ b ∈ w, b = 32 ∨ b = 10 := by
  rcases h with ⟨rfl, rfl⟩ | ⟨rfl, h1, h2, h3, h4⟩
  · simp
  · intro b hb
    rcases List.mem_cons.1 hb with rfl | hb
    · exact .inr rfl
    · exact .inl (List.eq_of_mem_replicate hb)

theorem BCtx.notRequired {s : SSt} {i0 I0 c} (h : BCtx s.indents s.indent i0 I0) (hc : s.mark.col = c) (hi : i0 < c) : (keyHere s).required = false := by
  rcases h with ⟨-, h2⟩ | ⟨h1, -⟩
  · have : (s.indent == s.mark.col) = false := by rw [h2, hc]; simp; omega
    simp [keyHere, this]
  · simp [keyHere, h1]

theorem words_marker {t c post} (h : PlainFirst t) : NotMarker c (t ++ post) := by
  obtain ⟨a, r, rfl, h1, h2⟩ := h
  intro _
  simp at h1
  refine ⟨a, r ++ post, rfl, h1.2.2.2.2.2.2.2.2.2.2.2.2.1, by omega, fun hx => ?_⟩
  obtain ⟨d, r', rfl, -, hd⟩ := h2 hx
  exact ⟨d, r' ++ post, rfl, hd⟩

theorem ScalarText.marker {t tok c post} (h : ScalarText t tok) : NotMarker c (t ++ post) := by
  cases h with
  | plain _ h => exact words_marker h
  | quoted _ => exact fun _ => ⟨34, _, rfl, by decide, by decide, by simp⟩

theorem ScalarText.ne {t tok} (h : ScalarText t tok) : t ≠ [] := by
  cases h with
  | plain h _ => obtain ⟨c, t', rfl, -⟩ := h.cons; simp
  | quoted _ => simp

theorem ScalarText.np {t tok} (h : ScalarText t tok) : isProp tok = false := by
  cases h <;> rfl

/-- a scalar that is not a key -/
theorem scalar_goes {cfg s out I i i0 I0 t tok w q c c' al I' i' n} (h : Here cfg s out I i (t ++ (w ++ q)) c al) (ht : ScalarText t tok)
    (hx : BCtx I i i0 I0) (hb : BlockTop I0) (hi : i0 < c) (he : End w q c' i0) (hf : (t ++ (w ++ q)).length < cfg.fuel)
    (hu : unroll (lowCol q c') i0 I0 = some (I', i', n)) :
    Goes cfg s (t ++ (w ++ q)).length (out ++ [tok] ++ List.replicate n .blockEnd) I' i' q c' true := by
  obtain ⟨s2, hp, e⟩ := fetch_here h (by simp [ht.ne]) ht.marker
  obtain ⟨s3, e3, r⟩ := scalar_read hp ht hx hb (by omega) (by omega) he.after hf
  have hlen : 0 < t.length := by rw [List.length_pos_iff]; exact ht.ne
  refine Goes.one (e.trans e3) ?_ (by simp; omega)
  obtain ⟨k, hk, hkp⟩ := hp.keys
  obtain ⟨sp, htk⟩ := r.toks
  have hty : types s3 = out ++ [tok] := by simp [types, htk]; exact hp.toks
  have hsv : ∃ k', savedKeys s2 = [k'] ∧ (k'.possible = true → k'.required = false ∧ (q ≠ [] → k'.mark.line < s3.mark.line)) := by
    have hline : q ≠ [] → s2.mark.line < s3.mark.line := fun hq => by
      rw [r.mark]
      exact (he.col hq ⟨s2.mark.pos + t.length, s2.mark.col + t.length, s2.mark.line⟩).2.1
    unfold savedKeys
    split
    · refine ⟨keyHere s2, by simp [hk], fun _ => ⟨BCtx.notRequired (by rw [hp.indents, hp.indent]; exact hx) hp.col hi, hline⟩⟩
    · exact ⟨k, hk, fun hx => ⟨(hkp hx).1, fun hq => Nat.lt_of_le_of_lt (hkp hx).2.2 (hline hq)⟩⟩
  obtain ⟨k', hk', hkp'⟩ := hsv
  have := here_gap (cfg := cfg) (s := s3) (w := []) (q := q) (c := c') (k := k') (by simp) r.rest he.head (by simp; omega) r.calm
    (fun hq => by rw [r.mark]; exact (he.col hq _).1) ((r.ctx.unroll he.low).trans hu) (by rw [r.keys, hk']) (fun hx => ⟨(hkp' hx).1, fun hq => .inl ((hkp' hx).2 hq)⟩)
    (NP.last hty ht.np)
  rw [hty] at this
  by_cases hq : q = []
  · subst hq
    exact this.nil _
  · rw [r.al, (he.col hq s2.mark).2.2] at this
    exact this

/-! ## Empty collections -/

theorem wsToEol_zero {st b c r} (h : c ≠ 32 ∧ c ≠ 9 ∧ c ≠ 35) : wsToEol st (c :: r) false b = (0, .ok (false, b)) := by
  simp [wsToEol, h]

theorem skipWs_none {s : SSt} {st b q} (h : s.src.rest = q) (hq : ∀ c, q.head? = some c → c ≠ 32 ∧ c ≠ 9 ∧ c ≠ 35) :
    skipWsToEol st b s = (.ok (false, b), s) := by
  unfold skipWsToEol Src.skipWsToEol
  have : wsToEol st s.src.rest false b = (0, .ok (false, b)) := by
    rw [h]
    cases q with
    | nil => rfl
    | cons c q => exact wsToEol_zero (hq c rfl)
  simp [this, Src.skip]

theorem flowStart_run {s : SSt} {q tt i0 I0} (hr : s.src.rest = q) (hq : 2 ≤ q.length) (hx : BCtx s.indents s.indent i0 I0)
    (hq : ∀ c, (q.drop 1).head? = some c → c ≠ 32 ∧ c ≠ 9 ∧ c ≠ 35) :
    ∃ s3 I i sp, fetchFlowStart tt s = (.ok (), s3) ∧ BCtx I i i0 I0 ∧ s3.src.rest = q.drop 1 ∧ s3.indents = I ∧ s3.indent = i ∧
      s3.tokens = s.tokens ++ [⟨sp, tt⟩] ∧ s3.mark = (on s 1).mark ∧ s3.simpleKeys = SimpleKey.new ⟨0, 0, 0⟩ :: savedKeys s ∧
      s3.flowLevel = s.flowLevel + 1 ∧ s3.tokensParsed = s.tokensParsed ∧ s3.streamStartProduced = s.streamStartProduced ∧
      s3.implicitFlowMappingStates = (if tt = .flowMappingStart then s.implicitFlowMappingStates else .possible :: s.implicitFlowMappingStates) ∧ s3.src = s.src.skip 1 := by
  unfold fetchFlowStart increaseFlowLevel setAllowed
  rw [bind_run (save_run s)]
  obtain ⟨I, i, hroll, hx'⟩ := BCtx.roll (s := { s with simpleKeys := savedKeys s }) hx
  rw [bind_run hroll]
  ev []
  rw [bind_run (skipNonBlank_on _)]
  unfold noteFlowStart
  by_cases ht : tt = .flowMappingStart
  · rw [if_pos ht, if_pos ht]
    ev []
    rw [bind_run (skipWs_none (q := q.drop 1) (by simp [on, Src.skip, hr]) hq)]
    refine ⟨_, I, i, _, rfl, hx', ?_, rfl, rfl, rfl, rfl, rfl, rfl, rfl, rfl, rfl, rfl⟩
    simp [on, Src.skip, hr]
  · rw [if_neg ht, if_neg ht]
    ev []
    rw [bind_run (skipWs_none (q := q.drop 1) (by simp [on, Src.skip, hr]) hq)]
    refine ⟨_, I, i, _, rfl, hx', ?_, rfl, rfl, rfl, rfl, rfl, rfl, rfl, rfl, rfl, rfl⟩
    simp [on, Src.skip, hr]

theorem flowEnd_run {s : SSt} {q tt k k'} (hr : s.src.rest = q) (hk : s.simpleKeys = [k, k']) (hkp : k.possible = false)
    (hl : s.flowLevel = 1) (hq : ∀ c, (q.drop 1).head? = some c → c ≠ 32 ∧ c ≠ 9 ∧ c ≠ 35)
    (hi : s.implicitFlowMappingStates = (if tt = .flowSequenceEnd then [.possible] else [])) :
    ∃ s3 sp, fetchFlowEnd tt s = (.ok (), s3) ∧ s3.src.rest = q.drop 1 ∧ s3.indents = s.indents ∧ s3.indent = s.indent ∧
      s3.tokens = s.tokens ++ [⟨sp, tt⟩] ∧ s3.mark = (on s 1).mark ∧ s3.simpleKeys = [k'] ∧ s3.simpleKeyAllowed = false ∧
      s3.flowLevel = 0 ∧ s3.tokensParsed = s.tokensParsed ∧ s3.streamStartProduced = s.streamStartProduced ∧
      s3.implicitFlowMappingStates = [] ∧ s3.src = s.src.skip 1 := by
  unfold fetchFlowEnd setAllowed
  have h1 : removeSimpleKey s = (.ok (), s) := by
    unfold removeSimpleKey
    simp only [hk]
    rw [if_neg (by simp [hkp])]
    rcases s with ⟨⟩
    rcases k with ⟨⟩
    simp_all
  have h2 : decreaseFlowLevel s = (.ok (), { s with flowLevel := 0, simpleKeys := [k'] }) := by
    unfold decreaseFlowLevel
    simp [hl, hk]
  rw [bind_run h1, bind_run h2]
  ev []
  by_cases ht : tt = .flowSequenceEnd
  · subst ht
    rw [if_pos rfl] at hi
    unfold endImplicitMapping
    have : (TokenType.flowSequenceEnd == TokenType.flowSequenceEnd) = true := rfl
    ev [this, hi, List.tail]
    rw [bind_run (skipNonBlank_on _), bind_run (skipWs_none (q := q.drop 1) (by simp [on, Src.skip, hr]) hq)]
    ev []
    refine ⟨_, _, rfl, ?_, rfl, rfl, rfl, rfl, rfl, rfl, rfl, rfl, rfl, rfl, rfl⟩
    simp [on, Src.skip, hr]
  · rw [if_neg ht] at hi
    have : (tt == TokenType.flowSequenceEnd) = false := by simpa using ht
    ev [this]
    rw [bind_run (skipNonBlank_on _), bind_run (skipWs_none (q := q.drop 1) (by simp [on, Src.skip, hr]) hq)]
    ev []
    refine ⟨_, _, rfl, ?_, rfl, rfl, rfl, rfl, rfl, rfl, rfl, rfl, rfl, hi, rfl⟩
    simp [on, Src.skip, hr]


end Verif.Scanner
