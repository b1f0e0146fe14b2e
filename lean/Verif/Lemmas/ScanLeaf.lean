import Verif.Lemmas.ScanQLines
/-!
# Scalars on one line inside block collections, before any gap
-/
namespace Verif.Scanner
open Verif Verif.CharUtils Verif.Source Verif.Emitter

/-! ## Gaps -/

theorem contains_false {w : List Byte} : w.contains 10 = false ↔ ∀ b ∈ w, b ≠ 10 := by
  rw [← Bool.not_eq_true, List.contains_iff_mem]
  exact ⟨fun h b hb hx => h (hx ▸ hb), fun h hx => h 10 hx rfl⟩

theorem gapMark_le (m : Marker) (w : List Byte) : m.line ≤ (gapMark m w).line := by
  induction w generalizing m with
  | nil => exact Nat.le_refl _
  | cons b w ih =>
    rw [gapMark]
    split
    · have := ih ⟨m.pos + 1, 1, m.line + 1⟩
      simp only at this
      omega
    · exact ih ⟨m.pos + 1, m.col + 1, m.line⟩

theorem gapMark_lt (m : Marker) (w : List Byte) (h : w.contains 10 = true) : m.line < (gapMark m w).line := by
  induction w generalizing m with
  | nil => simp at h
  | cons b w ih =>
    rw [gapMark]
    split
    · exact gapMark_le ⟨m.pos + 1, 1, m.line + 1⟩ w
    · rename_i hb
      exact ih ⟨m.pos + 1, m.col + 1, m.line⟩ (by simpa [Ne.symm hb, eq_comm] using h)

/-- the column at the end of a gap with a line feed does not depend on where it began -/
theorem gapMark_endCol (m m' : Marker) (w : List Byte) (h : w.contains 10 = true) : (gapMark m w).col = (gapMark m' w).col := by
  have aux : ∀ (w : List Byte) (m m' : Marker), m.col = m'.col → (gapMark m w).col = (gapMark m' w).col := by
    intro w
    induction w with
    | nil => exact fun _ _ h => h
    | cons b w ih =>
      intro m m' h
      rw [gapMark, gapMark]
      split
      · exact ih _ _ rfl
      · exact ih _ _ (by simp [h])
  induction w generalizing m m' with
  | nil => simp at h
  | cons b w ih =>
    rw [gapMark, gapMark]
    split
    · exact aux _ _ _ rfl
    · rename_i hb
      exact ih _ _ (by simpa [Ne.symm hb, eq_comm] using h)

/-- the rest of the line after a token -/
theorem eol_lay {w q st} (h : Lay w q) : TokenHead q → ∀ b, (w.head? = some 35 → b = true) →
    ∃ e w' r, w = e ++ w' ∧ (∀ x ∈ e, x ≠ 10) ∧ wsToEol st (w ++ q) false b = (e.length, .ok (false, r)) ∧ (w' = [] ∨ ∃ w'', w' = 10 :: w'') ∧ Lay w' q ∧
      (r = true ↔ (b = true ∨ w.head? = some 32)) := by
  induction h with
  | @nil q =>
    intro hq b _
    refine ⟨[], [], b, rfl, by simp, ?_, .inl rfl, .nil, by simp⟩
    cases q with
    | nil => rfl
    | cons c q => exact wsToEol_zero (hq.ws c rfl)
  | @space w q _ ih =>
    intro hq b _
    obtain ⟨e, w', r, rfl, h1, h2, h3, h4, h5⟩ := ih hq true (fun _ => rfl)
    refine ⟨32 :: e, w', r, rfl, ?_, ?_, h3, h4, ?_⟩
    · intro x hx
      rcases List.mem_cons.1 hx with rfl | hx
      · decide
      · exact h1 x hx
    · rw [List.cons_append, wsToEol, if_pos rfl, h2]; rfl
    · simpa using h5
  | @newline w q h _ =>
    intro hq b _
    exact ⟨[], 10 :: w, b, rfl, by simp, wsToEol_zero (by decide), .inr ⟨_, rfl⟩, .newline h, by simp⟩
  | @comment k w q hk h _ =>
    intro hq b hb
    obtain rfl := hb rfl
    refine ⟨35 :: k, 10 :: w, true, rfl, comment_flat hk, ?_, .inr ⟨_, rfl⟩, .newline h, by simp⟩
    have := takeWhile_comment hk (r := 10 :: (w ++ q)) (.inr ⟨_, rfl⟩)
    rw [List.takeWhile_cons, if_pos (by decide)] at this
    simp [wsToEol, List.cons.inj this]
  | @last k hk =>
    intro hq b hb
    obtain rfl := hb rfl
    refine ⟨35 :: k, [], true, by simp, comment_flat hk, ?_, .inl rfl, .nil, by simp⟩
    have := takeWhile_comment hk (r := []) (.inl rfl)
    rw [List.append_nil, List.takeWhile_cons, if_pos (by decide)] at this
    simp [wsToEol, List.cons.inj this]

theorem skipWs_lay {s : SSt} {st b w q} (h : Lay w q) (hq : TokenHead q) (hb : w.head? = some 35 → b = true) (hr : s.src.rest = w ++ q) :
    ∃ e w' r, w = e ++ w' ∧ (∀ x ∈ e, x ≠ 10) ∧ skipWsToEol st b s = (.ok (false, r), pass s e s.leadingWhitespace) ∧ (w' = [] ∨ ∃ w'', w' = 10 :: w'') ∧ Lay w' q ∧
      (r = true ↔ (b = true ∨ w.head? = some 32)) := by
  obtain ⟨e, w', r, rfl, h1, h2, h3, h4, h5⟩ := eol_lay (st := st) h hq b hb
  refine ⟨e, w', r, rfl, h1, ?_, h3, h4, h5⟩
  unfold skipWsToEol Src.skipWsToEol
  simp only [hr, h2]
  simp [pass, gapMark_flat _ _ h1]

/-! ## Fetching -/

/-- not a document marker or a directive -/
def NotMarkL (rest : List Byte) : Prop := rest.head? ≠ some 37 ∧ ∀ x r, (x = 45 ∨ x = 46) → rest = x :: x :: x :: r → ∃ d r', r = d :: r' ∧ isBlankOrBreakz d = false

theorem NotMarkL.three {s : SSt} {rest x} (h : NotMarkL rest) (hr : s.src.rest = rest) (hx : x = 45 ∨ x = 46) : (s.src.nextIsThree x && isBlankOrBreakz (s.src.peekz 3)) = false := by
  rw [Bool.eq_false_iff]
  intro hy
  rw [Bool.and_eq_true] at hy
  obtain ⟨h1, h2⟩ := hy
  match rest, h with
  | [], _ => simp [Src.nextIsThree, Src.peekz, hr] at h1; omega
  | [a], _ => simp [Src.nextIsThree, Src.peekz, hr] at h1; omega
  | [a, b], _ => simp [Src.nextIsThree, Src.peekz, hr] at h1; omega
  | a :: b :: c :: r, h =>
    simp [Src.nextIsThree, Src.peekz, hr] at h1
    obtain ⟨⟨rfl, rfl⟩, rfl⟩ := h1
    obtain ⟨d, r', rfl, hd⟩ := h.2 _ r hx rfl
    simp [Src.peekz, hr, hd] at h2

theorem NotMarkL.low {c q} (h : c = 1 → NotMarkL q) (hq : q ≠ []) : lowCol q c = c := by
  unfold lowCol
  rw [if_neg]
  rintro (hx | ⟨h1, hx⟩)
  · exact hq hx
  · obtain ⟨x, r', h6, rfl, h7⟩ := hx.cons
    obtain ⟨d, r'', rfl, h5⟩ := (h h1).2 x _ h6 rfl
    rw [List.headD_cons, h5] at h7
    cases h7

theorem fetch_hereK {cfg s out I i rest c al} (h : Here cfg s out I i rest c al) (hr : rest ≠ []) (hm : c = 1 → NotMarkL rest) :
    ∃ s1 s2, Pos s2 out I i rest c al ∧ fetchNextToken cfg s = fetchMain cfg s2 ∧ skipToNextToken cfg s = (.ok (), s1) ∧ (∃ l, out = types s1 ++ l) ∧
      ((∀ k ∈ s1.simpleKeys, k.possible = false) → ∀ k ∈ s2.simpleKeys, k.possible = false) := by
  obtain ⟨s1, n, k, h1, hrest, hcol, hu, rfl, hk, hkp, hc, hnp, hst⟩ := h
  obtain ⟨hcol, hal⟩ := hcol hr
  rw [NotMarkL.low hm hr] at hu
  have hlow := unroll_low hu
  have hs : ∃ s1', staleSimpleKeys s1 = (.ok (), s1') ∧ (∃ k', s1' = { s1 with simpleKeys := [k'] } ∧
      (k'.possible = true → k'.required = false ∧ al = false ∧ k'.mark.line ≤ s1.mark.line) ∧ (k.possible = false → k'.possible = false)) := by
    refine ⟨_, stale_run fun k' hk' hx => ?_, if isStale s1 k then { k with possible := false } else k, ?_, ?_, fun hx => by split <;> simp [hx]⟩
    · rw [hk, List.mem_singleton] at hk'
      subst hk'
      simp only [isStale, Bool.and_eq_true] at hx
      exact (hkp hx.1.1).1
    · simp [hk]
    · intro hp
      by_cases hst : isStale s1 k = true
      · simp [hst] at hp
      · rw [if_neg hst] at hp ⊢
        obtain ⟨h1, h2⟩ := hkp hp
        rcases h2 hr with h2 | h2
        · exact absurd (by simp [isStale, hp, hc.level, h2]) hst
        · exact ⟨h1, h2⟩
  obtain ⟨s1', hs, k', rfl, hk', hk2⟩ := hs
  refine ⟨s1, settled s1 k' I i n, ?_, ?_, h1, ⟨_, rfl⟩, fun hx x hm => ?_⟩
  case refine_3 =>
    have : x = k' := by simpa [settled] using hm
    subst this
    exact hk2 (hx k (by rw [hk]; simp))
  · refine ⟨hrest, hcol, rfl, rfl, by simp [types, settled], ⟨k', rfl, hk'⟩, hal, ⟨hc.level, hc.impl, hc.parsed, hc.started, hc.fit⟩, hnp.closed _ _, hlow⟩
  · unfold fetchNextToken
    rw [gets_bind, if_pos hst, bind_run h1, bind_run hs]
    have hun : unrollIndent s1.mark.col { s1 with simpleKeys := [k'] } = (.ok (), settled s1 k' I i n) := by
      unfold unrollIndent
      rw [if_neg (by simp [hc.level])]
      simp only [hcol, hu]
      rfl
    rw [getMark_bind, bind_run hun]
    generalize hs2 : settled s1 k' I i n = s2
    have r2 : s2.src.rest = rest := by rw [← hs2]; exact hrest
    have c2 : s2.mark.col = c := by rw [← hs2]; exact hcol
    have i2 : s2.indent = i := by rw [← hs2]; rfl
    have he : s2.src.bufIsEmpty = false := by simp [Src.bufIsEmpty, r2, hr]
    rw [atEof_bind, he]
    have key : (s2.mark.col == 1 && s2.src.peekz 0 == b%'%') = false ∧ (s2.mark.col == 1 && nextIsDocumentStart s2) = false ∧
        (s2.mark.col == 1 && nextIsDocumentEnd s2) = false := by
      by_cases h1 : c = 1
      · have hm := hm h1
        refine ⟨?_, ?_, ?_⟩
        · have : s2.src.peekz 0 ≠ 37 := by
            rw [peekz_head r2]
            cases rest with
            | nil => exact absurd rfl hr
            | cons a r => intro hx; exact hm.1 (by simpa using hx)
          simp [this]
        · rw [nextIsDocumentStart, hm.three r2 (.inl rfl), Bool.and_false]
        · rw [nextIsDocumentEnd, hm.three r2 (.inr rfl), Bool.and_false]
      · have : (s2.mark.col == 1) = false := by rw [c2]; simpa using h1
        simp [this]
    have hl : decide (s2.mark.col < s2.indent) = false := by rw [c2, i2]; simp; omega
    unfold fetchAtToken
    ev [key, hl]

theorem fetch_hereL {cfg s out I i rest c al} (h : Here cfg s out I i rest c al) (hr : rest ≠ []) (hm : c = 1 → NotMarkL rest) :
    ∃ s2, Pos s2 out I i rest c al ∧ fetchNextToken cfg s = fetchMain cfg s2 := by
  obtain ⟨_, s2, h1, h2, -⟩ := fetch_hereK h hr hm
  exact ⟨s2, h1, h2⟩

/-! ## Plain scalars -/

/-- the first bytes of a plain scalar are not taken for something else -/
structure PFirst (t : List Byte) : Prop where
  first : ∃ c r, t = c :: r ∧ c ∉ bs!"[]{},*&!|>'\"%@`" ∧ (c = 45 ∨ c = 58 ∨ c = 63 → ∃ d r', r = d :: r' ∧ PByte d)
  mark : ∀ x r, (x = 45 ∨ x = 46) → t = x :: x :: x :: r → ∃ d r', r = d :: r' ∧ PByte d

theorem PEnd.byte {c r} (h : PEnd (c :: r)) : c = 32 ∨ c = 10 ∨ c = 58 := by
  rcases h with h | ⟨r', h⟩ | ⟨r', h⟩ | ⟨r', h, -⟩ <;> cases h <;> simp

theorem PFirst.notMark {t r} (h : PFirst t) (hr : PEnd r) : NotMarkL (t ++ r) := by
  obtain ⟨⟨c, t', rfl, h1, -⟩, h3⟩ := h
  refine ⟨?_, ?_⟩
  · simp at h1 ⊢; omega
  · intro x r' hx heq
    match t' with
    | [] =>
      simp only [List.cons_append, List.nil_append, List.cons.injEq] at heq
      obtain ⟨rfl, rfl⟩ := heq
      have := hr.byte
      omega
    | [a] =>
      simp only [List.cons_append, List.nil_append, List.cons.injEq] at heq
      obtain ⟨rfl, rfl, rfl⟩ := heq
      have := hr.byte
      omega
    | a :: b :: t3 =>
      simp only [List.cons_append, List.cons.injEq] at heq
      obtain ⟨rfl, rfl, rfl, rfl⟩ := heq
      obtain ⟨d, r', rfl, hd⟩ := h3 _ _ hx rfl
      exact ⟨d, _, rfl, hd.blank⟩

theorem fetchMain_plainL {cfg} {s : SSt} {t post} (h : s.src.rest = t ++ post) (ht : PFirst t) (hf : s.flowLevel = 0) :
    fetchMain cfg s = fetchPlainScalar cfg s := by
  obtain ⟨⟨c, r, rfl, hc, hd⟩, -⟩ := ht
  have h0 : s.src.peekz 0 = c := peekz_cons (by rw [h]; rfl)
  have h1 : c = 45 ∨ c = 58 ∨ c = 63 → isBlankOrBreakz (s.src.peekz 1) = false ∧ isBlankOrBreak (s.src.peekz 1) = false := by
    intro hx
    obtain ⟨d, r', rfl, hw⟩ := hd hx
    have : s.src.peekz 1 = d := by simp [Src.peekz, h]
    rw [this]
    refine ⟨hw.blank, ?_⟩
    obtain ⟨h1, h2, h3, h4, h5⟩ := hw
    simp [isBlankOrBreak, h2, h3, h4, h5]
  simp at hc
  unfold fetchMain
  ev [h0, hc]
  by_cases h45 : c = 45
  · simp [h45, h1 (.inl h45)]
  · by_cases h58 : c = 58
    · simp [h58, h1 (.inr (.inl h58)), hf]
    · by_cases h63 : c = 63
      · simp [h63, h1 (.inr (.inr h63)), hf]
      · simp [h45, h58, h63]

/-- what follows a scalar: the end of the text, `:`, a line at or before column `i0`, or, outside all collections, the line `---` -/
structure AfterL (w q : List Byte) (i0 : Nat) : Prop where
  lay : Lay w q
  head : TokenHead q
  first : w.head? ≠ some 35
  stop : q = [] ∨ (w.contains 10 = false ∧ ∃ r, q = 58 :: r ∧ (r = [] ∨ ∃ b r', r = b :: r' ∧ (b = 32 ∨ b = 10))) ∨
    (w.contains 10 = true ∧ ((∀ m, (gapMark m w).col ≤ i0) ∨ ((∀ m, (gapMark m w).col = 1) ∧ i0 = 0 ∧ DocMark q)))

theorem AfterL.pend {w q i0} (h : AfterL w q i0) : PEnd (w ++ q) := by
  cases h.lay with
  | nil =>
    rcases h.stop with rfl | ⟨-, r, rfl, hr⟩ | ⟨hx, -⟩
    · exact .inl rfl
    · exact .inr (.inr (.inr ⟨_, rfl, hr⟩))
    · simp at hx
  | space _ => exact .inr (.inl ⟨_, rfl⟩)
  | newline _ => exact .inr (.inr (.inl ⟨_, rfl⟩))
  | comment _ _ => exact absurd rfl h.first
  | last _ => exact absurd rfl h.first

/-- the end of a plain scalar -/
theorem plainAfter_lay {w q i0} (h : AfterL w q i0) : ∃ a b, w = a ++ b ∧ Lay b q ∧ ∀ {cfg : Cfg} {start} {s : SSt} {p : PlainSt}, s.src.rest = w ++ q → s.leadingWhitespace = false → s.flowLevel = 0 →
    w.length < cfg.fuel → ∃ p', (plainAfter cfg (i0 + 1) start p s = (.ok (.done p'), pass s a (a.contains 10)) ∨
      (plainAfter cfg (i0 + 1) start p s = (.ok (.next p'), pass s a (a.contains 10)) ∧
        plainBody cfg (i0 + 1) start p' (pass s a (a.contains 10)) = (.ok (.done p'), pass s a (a.contains 10)))) ∧ p'.string = p.string := by
  obtain ⟨a, b, hw, ha, hb, hbc⟩ := h.lay.split
  refine ⟨a, b, hw, hb, fun {cfg start s p} hr hl hf hk => ?_⟩
  by_cases ha0 : a = []
  · subst ha0
    have hb0 : b = [] := by
      rcases hbc with hb | ⟨b', rfl⟩
      · exact hb
      · exact absurd (by rw [hw]; rfl) h.first
    subst hb0
    obtain rfl : w = [] := hw
    refine ⟨p, .inl ?_, rfl⟩
    rw [List.contains_nil, ← hl, pass_nil]
    refine plainAfter_stop ?_
    rcases h.stop with rfl | ⟨-, r, rfl, -⟩ | ⟨hx, -⟩
    · exact .inl hr
    · exact .inr ⟨r, hr⟩
    · simp at hx
  · obtain ⟨x, a', rfl⟩ : ∃ x a', a = x :: a' := by cases a with | nil => exact absurd rfl ha0 | cons x a' => exact ⟨x, a', rfl⟩
    have hr' : s.src.rest = (x :: a') ++ (b ++ q) := by rw [hr, hw]; simp
    have h0 : s.src.peekz 0 = x := peekz_cons hr'
    have hx : (isBlank x || isBreak x) = true := by rcases ha x List.mem_cons_self with rfl | rfl <;> rfl
    have hhead : ∀ c, (b ++ q).head? = some c → c ≠ 32 ∧ c ≠ 9 ∧ c ≠ 10 ∧ c ≠ 13 := by
      intro c hc
      rcases hbc with rfl | ⟨b', rfl⟩
      · have := h.head c hc; simp [this]
      · simp at hc; subst hc; decide
    obtain ⟨p', e1, e2⟩ := pblanks_run (ind := i0 + 1) (start := start) hhead (k := cfg.fuel) (s := s) (p := p) ha hr' (by rw [hw] at hk; simp at hk ⊢; omega)
    rw [hl, Bool.false_or] at e1
    refine ⟨p', ?_, e2⟩
    generalize hS : pass s (x :: a') ((x :: a').contains 10) = S at *
    have hSr : S.src.rest = b ++ q := by rw [← hS]; exact pass_rest hr'
    have hSl : S.leadingWhitespace = (x :: a').contains 10 := by rw [← hS]; rfl
    have hSf : S.flowLevel = 0 := by rw [← hS]; exact hf
    have hpa : plainAfter cfg (i0 + 1) start p s = (.ok (if (S.flowLevel == 0 && decide (S.mark.col < i0 + 1)) then .done p' else .next p'), S) := by
      unfold plainAfter
      ev [h0, hx]
      rw [bind_run e1, gets_bind]
      cases (S.flowLevel == 0 && decide (S.mark.col < i0 + 1)) <;> rfl
    rw [hpa]
    by_cases hout : (S.flowLevel == 0 && decide (S.mark.col < i0 + 1)) = true
    · rw [if_pos hout]; exact .inl rfl
    · rw [if_neg hout]
      refine .inr ⟨rfl, ?_⟩
      unfold plainBody
      rcases hbc with rfl | ⟨b', rfl⟩
      · rw [List.nil_append] at hSr
        rw [List.append_nil] at hw
        rcases h.stop with rfl | ⟨-, r, rfl, hcln⟩ | ⟨h10, hcol⟩
        · have h1 : ((S.leadingWhitespace && S.src.nextIsDocumentIndicator) || S.src.peekz 0 == b%'#') = false := by
            simp [Src.nextIsDocumentIndicator, Src.nextIsThree, Src.peekz, hSr]
          have h2 : (decide (S.flowLevel > 0) && S.src.peekz 0 == b%'-' && isFlow (S.src.peekz 1)) = false := by simp [hSf]
          have h3 : (!isBlankOrBreakz (S.src.peekz 0) && S.src.nextCanBePlainScalar (decide (S.flowLevel > 0))) = false := by
            simp [Src.peekz, hSr, isBlankOrBreakz]
          ev [h1, h2, h3]
          exact plainAfter_stop (.inl hSr)
        · have h1 : ((S.leadingWhitespace && S.src.nextIsDocumentIndicator) || S.src.peekz 0 == b%'#') = false := by
            simp [Src.nextIsDocumentIndicator, Src.nextIsThree, Src.peekz, hSr]
          have h2 : (decide (S.flowLevel > 0) && S.src.peekz 0 == b%'-' && isFlow (S.src.peekz 1)) = false := by simp [hSf]
          have h3 : (!isBlankOrBreakz (S.src.peekz 0) && S.src.nextCanBePlainScalar (decide (S.flowLevel > 0))) = false := by
            have h0 : S.src.peekz 0 = 58 := by simp [Src.peekz, hSr]
            have h1 : isBlankOrBreakz (S.src.peekz 1) = true := by
              rcases hcln with rfl | ⟨b, r'', rfl, rfl | rfl⟩ <;> simp [Src.peekz, hSr, isBlankOrBreakz, isBlank, isBreak]
            simp [Src.nextCanBePlainScalar, h0, h1]
          ev [h1, h2, h3]
          exact plainAfter_stop (.inr ⟨_, hSr⟩)
        · have hmark : S.mark = gapMark s.mark w := by rw [← hS, hw]; rfl
          rcases hcol with hcol | ⟨hcol, rfl, hd⟩
          · exact absurd (by simp [hSf, hmark]; have := hcol s.mark; omega) hout
          · have h2 : (S.leadingWhitespace && S.src.nextIsDocumentIndicator) = true := by
              rw [hSl, ← hw, h10, hd.indicator hSr]
              rfl
            ev [h2, Bool.true_or]
      · have h1 : ((S.leadingWhitespace && S.src.nextIsDocumentIndicator) || S.src.peekz 0 == b%'#') = true := by
          simp [Src.peekz, hSr]
        ev [h1]
/-- `s3`: the scalar token was read in `s`, `len` bytes long, and then the part `w1` of the gap; the part `w2` and `q` are left -/
structure ReadL (s s3 : SSt) (tok : TokenType) (len : Nat) (w1 w2 q : List Byte) (i0 : Nat) (I0 : List Indent) : Prop where
  rest : s3.src.rest = w2 ++ q
  lay : Lay w2 q
  mark : s3.mark = gapMark { s.mark with pos := s.mark.pos + len, col := s.mark.col + len } w1
  ctx : BCtx s3.indents s3.indent i0 I0
  toks : ∃ sp, s3.tokens = s.tokens ++ [⟨sp, tok⟩]
  al : s3.simpleKeyAllowed = w1.contains 10
  keys : s3.simpleKeys = savedKeys s
  calm : Calm s3

theorem plain_lay {cfg s out I i c al t w q i0 I0} (h : Pos s out I i (t ++ (w ++ q)) c al) (ht : PWords t) (hp : PFirst t)
    (hx : BCtx I i i0 I0) (hb : BlockTop I0) (hi : i0 ≤ c) (ha : AfterL w q i0) (hf : (t ++ (w ++ q)).length < cfg.fuel) :
    ∃ s3 w1 w2, fetchMain cfg s = (.ok (), s3) ∧ w = w1 ++ w2 ∧ ReadL s s3 (.scalar .plain t) t.length w1 w2 q i0 I0 := by
  rw [fetchMain_plainL h.rest hp h.calm.level]
  unfold fetchPlainScalar setAllowed
  rw [bind_run (save_run s)]
  ev []
  generalize hA : ({ s with simpleKeys := savedKeys s, simpleKeyAllowed := false } : SSt) = sA
  unfold scanPlainScalar
  have hnb : unrollNonBlockIndents sA = (.ok (), { sA with indents := I0, indent := i0 }) := by
    have e1 : sA.indents = I := by rw [← hA]; exact h.indents
    have e2 : sA.indent = i := by rw [← hA]; exact h.indent
    simp only [unrollNonBlockIndents, upd, e1, e2, hx.nonBlock hb]
  rw [bind_assoc_run, bind_run hnb]
  generalize hC : ({ sA with indents := I0, indent := i0 } : SSt) = sC
  have c1 : sC.flowLevel = 0 := by rw [← hC, ← hA]; exact h.calm.level
  have c2 : sC.mark = s.mark := by rw [← hC, ← hA]
  have c3 : sC.src = s.src := by rw [← hC, ← hA]
  have c4 : sC.indent = i0 := by rw [← hC]
  have c5 : sC.indents = I0 := by rw [← hC]
  have c6 : sC.tokens = s.tokens := by rw [← hC, ← hA]
  have c7 : sC.simpleKeys = savedKeys s := by rw [← hC, ← hA]
  have c8 : sC.simpleKeyAllowed = false := by rw [← hC, ← hA]
  have c9 : Calm sC := ⟨c1, by rw [← hC, ← hA]; exact h.calm.impl, by rw [← hC, ← hA]; exact h.calm.parsed, by rw [← hC, ← hA]; exact h.calm.started, by rw [c3]; exact h.calm.fit⟩
  have hbad : (decide (sC.flowLevel > 0) && decide (sC.mark.col < sC.indent + 1)) = false := by simp [c1]
  ev [hbad]
  have hdoc : sC.src.nextIsDocumentIndicator = false := by
    have h1 := (hp.notMark ha.pend).three (s := sC) (x := 45) (by rw [c3, h.rest]) (.inl rfl)
    have h2 := (hp.notMark ha.pend).three (s := sC) (x := 46) (by rw [c3, h.rest]) (.inr rfl)
    unfold Src.nextIsDocumentIndicator
    rw [Bool.and_or_distrib_right, h1, h2]; rfl
  obtain ⟨c', t', htt, -⟩ := ht.cons
  have hne : t ≠ [] := by rw [htt]; simp
  have hlen : t.length < cfg.fuel := by simp at hf; omega
  have hrest : sC.src.rest = t ++ (w ++ q) := by rw [c3, h.rest]
  obtain ⟨a, b, hw, hlb, hF⟩ := plainAfter_lay ha
  obtain ⟨p', e1, e2⟩ := pwords_run (F := fun x => pass x a (a.contains 10)) (cfg := cfg) (ind := sC.indent + 1) (start := sC.mark)
    (post := w ++ q) ha.pend (fun {s' p} hr hl hf' => by rw [c4]; exact hF hr hl hf' (by simp at hf; omega)) ht
    (k := cfg.fuel) (s := sC) (str := []) (ws := []) (m := sC.mark) hrest hlen (by omega) c1 (by rw [c2, c4, h.col]; omega)
    (fun _ => ⟨rfl, hdoc⟩)
  rw [bind_run e1]
  have h2 : p'.string.isEmpty = false := by rw [e2]; simpa using hne
  have e3 : p'.string = t := by simpa using e2
  generalize hS : pass (on sC t.length) a (a.contains 10) = S
  have hr1 : (on sC t.length).src.rest = a ++ (b ++ q) := by rw [on_rest hrest rfl, hw]; simp
  have hS0 : S.src.rest = b ++ q := by rw [← hS]; exact pass_rest hr1
  have hS1 : S.leadingWhitespace = a.contains 10 := by rw [← hS]; rfl
  have hS2 : S.mark = gapMark { s.mark with pos := s.mark.pos + t.length, col := s.mark.col + t.length } a := by rw [← hS]; simp [pass, on, c2]
  have hS3 : S.indents = I0 ∧ S.indent = i0 := by rw [← hS]; exact ⟨c5, c4⟩
  have hS4 : S.tokens = s.tokens := by rw [← hS]; exact c6
  have hS5 : S.simpleKeys = savedKeys s := by rw [← hS]; exact c7
  have hS6 : S.simpleKeyAllowed = false := by rw [← hS]; exact c8
  have hS7 : Calm S := by
    rw [← hS]
    exact ⟨c9.level, c9.impl, c9.parsed, c9.started, (c9.fit.skip (n := t.length) (by simp [hrest])).skip (by show a.length ≤ (on sC t.length).src.rest.length; simp [hr1])⟩
  have hwhen : ∀ x, when x (setAllowed true) S = (.ok (), { S with simpleKeyAllowed := x }) := by
    intro x
    cases x with
    | true => rw [when_true]; rfl
    | false =>
      rw [when_false, pure_run, ← hS6]
  rw [gets_bind, bind_run (hwhen _)]
  clear hwhen
  ev [h2]
  unfold pushTok push
  refine ⟨_, a, b, rfl, hw, ?_⟩
  exact ⟨hS0, hlb, hS2, .inl hS3, ⟨⟨sC.mark, p'.endMark⟩, by simp [upd, hS4, e3]⟩, hS1, hS5, ⟨hS7.level, hS7.impl, hS7.parsed, hS7.started, hS7.fit⟩⟩

/-! ## Quoted scalars -/

/-- the end of a quoted scalar, after its closing quotation mark -/
theorem scanFlow_lay {cfg : Cfg} {s : SSt} {single m w q i0 l} {p' : FlowSt} {qt : Byte} (hqt : qt ≠ 10)
    (hbody : loopM (flowBody cfg single s.mark) cfg.fuel ⟨[], [], [], [], false⟩ (pass s [qt] false) = (.ok p', pass (pass s [qt] false) m l))
    (hm : ∀ b ∈ m, b ≠ 10) (hr : s.src.rest = qt :: (m ++ qt :: (w ++ q))) (ha : AfterL w q i0) (hl : s.flowLevel = 0) :
    ∃ sp e w', w = e ++ w' ∧ Lay w' q ∧ (∀ x ∈ e, x ≠ 10) ∧
      scanFlowScalar cfg single s = (.ok ⟨sp, .scalar (if single then .singleQuote else .doubleQuote) p'.string⟩, pass s (qt :: (m ++ qt :: e)) false) := by
  have e2 : skipNonBlank (pass (pass s [qt] false) m l) = (.ok (), pass s (qt :: (m ++ [qt])) false) := by
    rw [skipNonBlank_pass (b := qt) hqt, pass_pass, pass_pass]
    simp
  have e3 : (pass s (qt :: (m ++ [qt])) false).src.rest = w ++ q := pass_rest (by simpa using hr)
  obtain ⟨e, w', r, rfl, h1, h2, h3, h4, -⟩ := skipWs_lay (st := true) (b := false) ha.lay ha.head (fun hx => absurd hx ha.first) e3
  refine ⟨⟨s.mark, (pass s (qt :: (m ++ qt :: e)) false).mark⟩, e, w', rfl, h4, h1, ?_⟩
  have e4 : pass (pass s (qt :: (m ++ [qt])) false) e (pass s (qt :: (m ++ [qt])) false).leadingWhitespace = pass s (qt :: (m ++ qt :: e)) false := by
    rw [pass_pass]
    simp [pass]
  rw [e4] at h2
  unfold scanFlowScalar
  ev []
  rw [bind_run (skipNonBlank_pass hqt), bind_run hbody, bind_run e2, bind_run h2]
  have e5 : (pass s (qt :: (m ++ qt :: e)) false).src.rest = w' ++ q := pass_rest (by simpa using hr)
  have hline : (pass s (qt :: (m ++ qt :: e)) false).mark.line = s.mark.line := by
    show (gapMark s.mark (qt :: (m ++ qt :: e))).line = _
    rw [gapMark_flat]
    intro b hb
    simp only [List.mem_cons, List.mem_append] at hb
    rcases hb with rfl | hb | rfl | hb
    · exact hqt
    · exact hm b hb
    · exact hqt
    · exact h1 b hb
  have hok : flowTrailingOk (pass s (qt :: (m ++ qt :: e)) false) s.mark = true := by
    unfold flowTrailingOk
    have hfl : (pass s (qt :: (m ++ qt :: e)) false).flowLevel = 0 := hl
    rcases h3 with rfl | ⟨w'', rfl⟩
    · rcases ha.stop with rfl | ⟨-, r, rfl, -⟩ | ⟨h10, -⟩
      · have : (pass s (qt :: (m ++ qt :: e)) false).src.peekz 0 = 0 := by simp [Src.peekz, e5]
        simp [this, isBreakz]
      · have : (pass s (qt :: (m ++ qt :: e)) false).src.peekz 0 = 58 := by simp [Src.peekz, e5]
        simp [this, hfl, hline]
      · rw [List.append_nil, contains_false.2 h1] at h10
        cases h10
    · have : (pass s (qt :: (m ++ qt :: e)) false).src.peekz 0 = 10 := by simp [Src.peekz, e5]
      simp [this, isBreakz, isBreak]
  ev [hok, Bool.not_true]

/-- the fetch of a quoted scalar -/
theorem quoted_lay {cfg s out I i c al single m v w q i0 I0} {qt : Byte} (h : Pos s out I i ((qt :: (m ++ [qt])) ++ (w ++ q)) c al) (hqt : qt = if single then 39 else 34)
    (hm : ∀ b ∈ m, b ≠ 10) (hx : BCtx I i i0 I0) (ha : AfterL w q i0) (hf : ((qt :: (m ++ [qt])) ++ (w ++ q)).length < cfg.fuel)
    (hbody : ∀ s' : SSt, s'.mark = s.mark → s'.src = s.src → s'.indent = s.indent → ∃ l p',
      loopM (flowBody cfg single s'.mark) cfg.fuel ⟨[], [], [], [], false⟩ (pass s' [qt] false) = (.ok p', pass (pass s' [qt] false) m l) ∧ p'.string = v) :
    ∃ s3 w1 w2, fetchMain cfg s = (.ok (), s3) ∧ w = w1 ++ w2 ∧
      ReadL s s3 (.scalar (if single then .singleQuote else .doubleQuote) v) (qt :: (m ++ [qt])).length w1 w2 q i0 I0 := by
  have h0 : s.src.peekz 0 = qt := peekz_cons h.rest
  have hfm : fetchMain cfg s = fetchFlowScalar cfg single s := by
    unfold fetchMain
    ev [h0]
    cases single <;> simp at hqt <;> subst hqt <;> simp
  have hq10 : qt ≠ 10 := by rw [hqt]; split <;> decide
  rw [hfm]
  unfold fetchFlowScalar setAllowed
  rw [bind_run (save_run s)]
  ev []
  generalize hA : ({ s with simpleKeys := savedKeys s, simpleKeyAllowed := false } : SSt) = sC
  have c1 : sC.flowLevel = 0 := by rw [← hA]; exact h.calm.level
  have c2 : sC.mark = s.mark := by rw [← hA]
  have c3 : sC.src = s.src := by rw [← hA]
  have c4 : sC.indent = i := by rw [← hA]; exact h.indent
  have c5 : sC.indents = I := by rw [← hA]; exact h.indents
  have c6 : sC.tokens = s.tokens := by rw [← hA]
  have c7 : sC.simpleKeys = savedKeys s := by rw [← hA]
  have c8 : sC.simpleKeyAllowed = false := by rw [← hA]
  have c9 : Calm sC := ⟨c1, by rw [← hA]; exact h.calm.impl, by rw [← hA]; exact h.calm.parsed, by rw [← hA]; exact h.calm.started, by rw [c3]; exact h.calm.fit⟩
  have hrest : sC.src.rest = qt :: (m ++ qt :: (w ++ q)) := by rw [c3, h.rest]; simp
  obtain ⟨l, p', hb, hps⟩ := hbody sC c2 c3 (by rw [c4, h.indent])
  obtain ⟨sp, e, w', rfl, hlay, he, hscan⟩ := scanFlow_lay hq10 hb hm hrest ha c1
  rw [bind_run hscan]
  simp only [List.length_append, List.length_cons, List.length_nil] at hf
  generalize hS : pass sC (qt :: (m ++ qt :: e)) false = S
  have s1 : S.src.rest = w' ++ q := by rw [← hS]; exact pass_rest (by simpa using hrest)
  have s2 : S.flowLevel = 0 := by rw [← hS]; exact c1
  have s3 : S.indent = i := by rw [← hS]; exact c4
  have s4 : S.indents = I := by rw [← hS]; exact c5
  have s5 : S.tokens = s.tokens := by rw [← hS]; exact c6
  have s6 : S.simpleKeys = savedKeys s := by rw [← hS]; exact c7
  have s7 : S.simpleKeyAllowed = false := by rw [← hS]; exact c8
  have s8 : Calm S := by
    rw [← hS]
    exact ⟨c9.level, c9.impl, c9.parsed, c9.started, c9.fit.skip (by simp [hrest])⟩
  have s9 : S.mark = gapMark { s.mark with pos := s.mark.pos + (qt :: (m ++ [qt])).length, col := s.mark.col + (qt :: (m ++ [qt])).length } e := by
    rw [← hS]
    show gapMark sC.mark (qt :: (m ++ qt :: e)) = _
    rw [c2, show qt :: (m ++ qt :: e) = (qt :: (m ++ [qt])) ++ e by simp, gapMark_append, gapMark_flat (qt :: (m ++ [qt]))]
    intro b hb
    simp only [List.mem_cons, List.mem_append, List.not_mem_nil, or_false] at hb
    rcases hb with rfl | hb | rfl
    · exact hq10
    · exact hm b hb
    · exact hq10
  have hg : skipToNextToken cfg S = (.ok (), gap S w') := lay_run hlay ha.head s1 (by omega) s2
  rw [bind_run hg]
  ev []
  unfold pushTok push
  refine ⟨_, e ++ w', [], rfl, by simp, ?_⟩
  refine ⟨gap_rest s1, .nil, ?_, ?_, ⟨sp, by simp [gap, s5, hps]⟩, ?_, s6, ⟨s8.level, s8.impl, s8.parsed, s8.started, ?_⟩⟩
  · show gapMark S.mark w' = _
    rw [gapMark_append, s9]
  · show BCtx S.indents S.indent i0 I0
    rw [s3, s4]; exact hx
  · show (S.simpleKeyAllowed || w'.contains 10) = _
    have := contains_false.2 he
    rw [s7]
    simp at this ⊢
    simp [this]
  · show Fit (S.src.skip w'.length)
    exact s8.fit.skip (by simp [s1])

/-! ## All of them -/

/-- a text on one line that is read as a scalar token -/
inductive LeafText : List Byte → TokenType → Prop
  | plain {t} : PWords t → PFirst t → LeafText t (.scalar .plain t)
  | double {m v} : QFlow false 0 m v → (∀ b ∈ m, b ≠ 10) → LeafText (34 :: (m ++ [34])) (.scalar .doubleQuote v)
  | single {m v} : QFlow true 0 m v → (∀ b ∈ m, b ≠ 10) → LeafText (39 :: (m ++ [39])) (.scalar .singleQuote v)

theorem LeafText.ne {t tok} (h : LeafText t tok) : t ≠ [] := by
  cases h with
  | plain h _ => obtain ⟨c, t', rfl, -⟩ := h.cons; simp
  | double _ _ => simp
  | single _ _ => simp

theorem LeafText.np {t tok} (h : LeafText t tok) : isProp tok = false := by
  cases h <;> rfl

theorem LeafText.notMark {t tok r} (h : LeafText t tok) (hr : PEnd r) : NotMarkL (t ++ r) := by
  cases h with
  | plain _ h => exact h.notMark hr
  | double _ _ =>
    refine ⟨by simp, fun x r hx h => ?_⟩
    simp only [List.cons_append, List.cons.injEq] at h
    omega
  | single _ _ =>
    refine ⟨by simp, fun x r hx h => ?_⟩
    simp only [List.cons_append, List.cons.injEq] at h
    omega

theorem LeafText.head {t tok r} (h : LeafText t tok) : TokenHead (t ++ r) := by
  cases h with
  | plain h _ =>
    obtain ⟨c, t', rfl, ⟨h1, h2, h3, h4, h5⟩, h6⟩ := h.cons
    intro d hd
    simp at hd
    subst hd
    simp [h1, h2, h3, h4, h5, h6]
  | double _ _ => intro d hd; simp at hd; subst hd; decide
  | single _ _ => intro d hd; simp at hd; subst hd; decide

theorem quoted_line {cfg s out I i c al single m v w q i0 I0} {qt : Byte} (h : Pos s out I i ((qt :: (m ++ [qt])) ++ (w ++ q)) c al) (hqt : qt = if single then 39 else 34)
    (hm : QFlow single 0 m v) (hn : ∀ b ∈ m, b ≠ 10) (hx : BCtx I i i0 I0) (h1 : 1 ≤ c) (ha : AfterL w q i0) (hf : ((qt :: (m ++ [qt])) ++ (w ++ q)).length < cfg.fuel) :
    ∃ s3 w1 w2, fetchMain cfg s = (.ok (), s3) ∧ w = w1 ++ w2 ∧
      ReadL s s3 (.scalar (if single then .singleQuote else .doubleQuote) v) (qt :: (m ++ [qt])).length w1 w2 q i0 I0 := by
  refine quoted_lay h hqt hn hx ha hf (fun s' e1 e2 e3 => ?_)
  have hq10 : qt ≠ 10 := by rw [hqt]; split <;> decide
  have hcol : (pass s' [qt] false).mark.col = c + 1 := by simp [pass, gapMark, hq10, e1, h.col]
  have h39 : single = true → (w ++ q).head? ≠ some 39 := by
    intro _ hx
    cases hwq : w ++ q with
    | nil => rw [hwq] at hx; cases hx
    | cons d r =>
      have hp := ha.pend
      rw [hwq] at hx hp
      have := hp.byte
      simp at hx
      omega
  have hlow := h.low
  obtain ⟨l, p', hl, hp⟩ := qflow_run (cfg := cfg) (start := s'.mark) h39 hqt (hm.oneLine (b := s'.indent) hn) (k := cfg.fuel) (s := pass s' [qt] false) (str := []) (lb := false)
    (pass_rest (a := [qt]) (by rw [e2, h.rest]; simp)) (by simp at hf; omega) (by simp at hf; omega) (by omega)
    (by rw [hcol]; show s'.indent ≤ _; rw [e3, h.indent]; omega) (Nat.le_refl _) (fun hx => by omega)
  exact ⟨l, p', hl, by simpa using hp⟩

theorem leaf_read {cfg s out I i c al t tok w q i0 I0} (h : Pos s out I i (t ++ (w ++ q)) c al) (ht : LeafText t tok)
    (hx : BCtx I i i0 I0) (hb : BlockTop I0) (hi : i0 ≤ c) (h1 : 1 ≤ c) (ha : AfterL w q i0) (hf : (t ++ (w ++ q)).length < cfg.fuel) :
    ∃ s3 w1 w2, fetchMain cfg s = (.ok (), s3) ∧ w = w1 ++ w2 ∧ ReadL s s3 tok t.length w1 w2 q i0 I0 := by
  cases ht with
  | plain hw h2 => exact plain_lay h hw h2 hx hb hi ha hf
  | @double m v hm hn => exact quoted_line (single := false) h rfl hm hn hx h1 ha hf
  | @single m v hm hn => exact quoted_line (single := true) h rfl hm hn hx h1 ha hf

end Verif.Scanner
