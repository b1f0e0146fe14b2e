import Verif.Lemmas.ScanJson
import Verif.Lemmas.Utf8Text
/-!
# Scanning JSON: one token at a time
-/
namespace Verif.Scanner
open Verif Verif.CharUtils Verif.Source Verif.Emitter

/-! ## Strings -/

theorem piece_short {c v : Byte} (h : (c, v) ∈ Spec.Json.shortEscapes) : Piece [92, c] [v] := by
  have key : isBreak c = false ∧ simpleEscape c = some v ∧ v < 128 ∧ c ≠ 10 := by
    simp only [Spec.Json.shortEscapes, List.mem_cons, Prod.mk.injEq, List.not_mem_nil, or_false] at h
    rcases h with ⟨rfl, rfl⟩ | ⟨rfl, rfl⟩ | ⟨rfl, rfl⟩ | ⟨rfl, rfl⟩ | ⟨rfl, rfl⟩ | ⟨rfl, rfl⟩ | ⟨rfl, rfl⟩ | ⟨rfl, rfl⟩ <;> decide
  obtain ⟨hb, hs, hlt, h10⟩ := key
  refine ⟨⟨_, rfl⟩, by simp [h10], fun start str s r h => ?_⟩
  have h0 : s.src.peekz 0 = 92 := by simp [Src.peekz, h]
  have h1 : s.src.peekz 1 = c := by simp [Src.peekz, h]
  unfold flowCharsBody resolveEscape skipN
  ev [h0, h1, hb, hs]
  simp [isBlankOrBreakz, isBlank, isBreak, Utf8.encode, hlt]
  rfl

theorem hex_digit {c d : Nat} (h : Spec.Core.digit 16 c = some d) : isAsciiHexdigit c = true ∧ asHex c = some d := by
  simp only [Spec.Core.digit] at h
  simp only [isAsciiHexdigit, asHex]
  split at h
  · rename_i hc
    simp at h hc
    obtain ⟨rfl, h⟩ := h
    simp [hc]
  · split at h
    · rename_i hc' hc
      simp at h hc hc'
      obtain ⟨rfl, h⟩ := h
      rw [if_neg (by omega), if_pos (by omega)]
      simp [hc]
    · split at h
      · rename_i hc'' hc' hc
        simp at h hc hc' hc''
        obtain ⟨rfl, h⟩ := h
        rw [if_neg (by omega), if_neg (by omega), if_pos (by omega)]
        simp [hc]
      · simp at h

theorem hex4_value {h v} (hh : Spec.Json.Hex4 h v) {s : Src} {r} (hs : s.rest = h ++ r) : hexValue s 4 0 0 = some (some v) ∧ ∀ x ∈ h, x ≠ 10 := by
  obtain ⟨hl, -, hv⟩ := hh
  match h, hl with
  | [a, b, c, d], _ =>
    simp only [Spec.Core.value, List.foldl] at hv
    cases ha : Spec.Core.digit 16 a with
    | none => simp [ha] at hv
    | some a' =>
      cases hb : Spec.Core.digit 16 b with
      | none => simp [ha, hb] at hv
      | some b' =>
        cases hc : Spec.Core.digit 16 c with
        | none => simp [ha, hb, hc] at hv
        | some c' =>
          cases hd : Spec.Core.digit 16 d with
          | none => simp [ha, hb, hc, hd] at hv
          | some d' =>
            have e : ((0 * 16 + a') * 16 + b') * 16 + c' = ((0 * 16 + a') * 16 + b') * 16 + c' := rfl
            simp [ha, hb, hc, hd] at hv
            have p0 : s.peekz 0 = a := by simp [Src.peekz, hs]
            have p1 : s.peekz 1 = b := by simp [Src.peekz, hs]
            have p2 : s.peekz 2 = c := by simp [Src.peekz, hs]
            have p3 : s.peekz 3 = d := by simp [Src.peekz, hs]
            obtain ⟨a1, a2⟩ := hex_digit ha
            obtain ⟨b1, b2⟩ := hex_digit hb
            obtain ⟨c1, c2⟩ := hex_digit hc
            obtain ⟨d1, d2⟩ := hex_digit hd
            refine ⟨?_, ?_⟩
            · simp only [hexValue, p0, p1, p2, p3, a1, a2, b1, b2, c1, c2, d1, d2, if_true, Nat.zero_add]
              simp only [Option.some.injEq]
              omega
            · have : ∀ x, isAsciiHexdigit x = true → x ≠ 10 := by rintro x hx rfl; revert hx; decide
              simp only [List.mem_cons, List.not_mem_nil, or_false]
              rintro x (rfl | rfl | rfl | rfl)
              · exact this _ a1
              · exact this _ b1
              · exact this _ c1
              · exact this _ d1

theorem piece_code {h} {c : Char} (hh : Spec.Json.Hex4 h c.toNat) : Piece (92 :: 117 :: h) (Spec.utf8 [c]) := by
  refine ⟨⟨_, rfl⟩, ?_, fun start str s r hs => ?_⟩
  · intro x hx
    simp only [List.mem_cons] at hx
    rcases hx with rfl | rfl | hx
    · decide
    · decide
    · exact (hex4_value hh (s := ⟨h ++ [], 0, 0⟩) rfl).2 x hx
  · have hl := hh.1
    have hu : Spec.utf8 [c] = Utf8.encode c.toNat := by rw [Utf8.utf8_cons, Utf8.utf8_nil, List.append_nil]
    have h0 : s.src.peekz 0 = 92 := by simp [Src.peekz, hs]
    have h1 : s.src.peekz 1 = 117 := by simp [Src.peekz, hs]
    have hv := (hex4_value hh (s := s.src.skip 2) (r := r) (by simp [Src.skip, hs])).1
    have hc := Utf8.charFromU32_char c
    unfold flowCharsBody resolveEscape hexEscape skipN
    ev [h0, h1]
    simp [isBlankOrBreakz, isBlank, isBreak, simpleEscape]
    rw [bind_run (a := c.toNat) (s1 := on s 6)]
    · ev []
      simp [hu, hl]
    · ev [hv, hc]
      simp [on, Src.skip, hs, hl]
      try omega

/-- between quotation marks, JSON strings are read as they should be -/
theorem json_chars {w u} (h : Spec.Json.Chars false w u) : Folded w u := by
  -- a run of spaces and the rest
  have key : ∀ {w u}, Spec.Json.Chars false w u → Folded w u ∧ ∃ i w' u', w = List.replicate i 32 ++ w' ∧ u = List.replicate i 32 ++ u' ∧ InkHead w' ∧ Folded w' u' := by
    intro w u h
    induction h with
    | nil => exact ⟨.stop .nil, ⟨0, [], [], rfl, rfl, by simp [InkHead], .stop .nil⟩⟩
    | @raw b w s h1 h2 h3 _ ih =>
      obtain ⟨ih1, ih2⟩ := ih
      by_cases hb : b = 32
      · subst hb
        obtain ⟨i, w', u', rfl, rfl, h4, h5⟩ := ih2
        refine ⟨?_, ⟨i + 1, w', u', by simp [List.replicate_succ], by simp [List.replicate_succ], h4, h5⟩⟩
        have := Folded.gap (w := []) (u := []) (g := List.replicate (i + 1) 32) .nil (by simp) (by intro b hb; rw [List.eq_of_mem_replicate hb]; rfl) h4 h5
        simpa [List.replicate_succ] using this
      · have hbb : isBlank b = false ∧ isBreak b = false := by
          constructor
          · simp [isBlank, hb]; omega
          · simp [isBreak]; omega
        have ho : Ordinary b := ⟨by simp [isBlankOrBreakz, hbb]; omega, h2, h3⟩
        refine ⟨ih1.cons ho, ⟨0, b :: w, b :: s, rfl, rfl, ?_, ih1.cons ho⟩⟩
        intro c hc
        simp at hc
        subst hc
        exact hbb
    | @short c v w s h1 _ ih =>
      have hf : Folded ([92, c] ++ w) ([v] ++ s) := by
        have hp := piece_short h1
        cases ih.1 with
        | stop h => exact .stop (.piece hp h)
        | gap a b c d e => simpa using Folded.gap (.piece hp a) b c d e
        | line a b c d => simpa using Folded.line (.piece hp a) b c d
      exact ⟨hf, ⟨0, _, _, rfl, rfl, by intro d hd; simp at hd; subst hd; decide, hf⟩⟩
    | @code h w s c h1 _ ih =>
      have hf : Folded ((92 :: 117 :: h) ++ w) (Spec.utf8 [c] ++ s) := by
        have hp := piece_code h1
        cases ih.1 with
        | stop h => exact .stop (.piece hp h)
        | gap a b c d e => simpa using Folded.gap (.piece hp a) b c d e
        | line a b c d => simpa using Folded.line (.piece hp a) b c d
      exact ⟨hf, ⟨0, _, _, rfl, rfl, by intro d hd; simp at hd; subst hd; decide, hf⟩⟩
    | pair h => cases h
  exact (key h).1
/-! ## Tokens -/

/-- Between tokens of a JSON text, `n` collections deep. -/
structure Fl (cfg : Cfg) (s : SSt) (out : List TokenType) (k : SimpleKey) (ks : List SimpleKey) (n : Nat) (rest : List Byte) : Prop where
  rest : ∃ w, JWs w ∧ s.src.rest = w ++ rest
  fuel : s.src.rest.length + 2 < cfg.fuel
  col : 1 ≤ s.mark.col
  indents : s.indents = []
  indent : s.indent = 0
  toks : types s = out
  keys : s.simpleKeys = k :: ks
  req : ∀ x ∈ k :: ks, x.required = false
  level : s.flowLevel = n
  impl : ∀ x ∈ s.implicitFlowMappingStates, x = .possible
  parsed : s.tokensParsed = 0
  started : s.streamStartProduced = true
  fit : Fit s.src

/-- not taken for the start of something else -/
def JHead (r : List Byte) : Prop := TokenHead r ∧ ∃ a r', r = a :: r' ∧ a ≠ 37 ∧ a ≠ 46 ∧ (a = 45 → ∃ b r'', r' = b :: r'' ∧ b ≠ 45)

theorem fl_fetch {cfg s out k ks n rest} (h : Fl cfg s out k ks n rest) (hr : JHead rest) (h0 : n = 0 → k.possible = false ∧ ks = [] ∧ s.simpleKeyAllowed = true) :
    ∃ s2, fetchNextToken cfg s = fetchMain cfg s2 ∧ Fl cfg s2 out k ks n rest ∧ s2.src.rest = rest ∧ s2.simpleKeyAllowed = s.simpleKeyAllowed ∧
      s2.flowMappingStarted = s.flowMappingStarted ∧ (s.src.rest = rest → s2 = s) := by
  obtain ⟨hh, a, r', rfl, ha, hb, hd⟩ := hr
  obtain ⟨w, hw, hrest⟩ := h.rest
  have hfu := h.fuel
  obtain ⟨m, l, al, e1, hm, hal, hz⟩ := jws_skip hh hw hrest (k := cfg.fuel) (by simp [hrest] at hfu; omega) h.indents h.col
  have hal : al = s.simpleKeyAllowed := by
    apply hal
    by_cases hn : n = 0
    · exact .inr (h0 hn).2.2
    · left; rw [h.level]; exact hn
  generalize hs2 : adv s w.length m l al = s2 at e1 hz
  have r2 : s2.src.rest = a :: r' := by rw [← hs2]; exact adv_rest hrest rfl
  have hFl : Fl cfg s2 out k ks n (a :: r') := by
    refine ⟨⟨[], .nil, r2⟩, ?_, ?_, ?_, ?_, ?_, ?_, h.req, ?_, ?_, ?_, ?_, ?_⟩
    · rw [r2]; rw [hrest] at hfu; simp at hfu ⊢; omega
    · rw [← hs2]; exact hm
    · rw [← hs2]; exact h.indents
    · rw [← hs2]; exact h.indent
    · rw [← hs2]; exact h.toks
    · rw [← hs2]; exact h.keys
    · rw [← hs2]; exact h.level
    · rw [← hs2]; exact h.impl
    · rw [← hs2]; exact h.parsed
    · rw [← hs2]; exact h.started
    · rw [← hs2]; exact h.fit.skip (by simp [hrest])
  refine ⟨s2, ?_, hFl, r2, ?_, ?_, ?_⟩
  · unfold fetchNextToken
    rw [gets_bind, if_pos h.started]
    rw [show skipToNextToken cfg = loopM skipToNextTokenBody cfg.fuel () from rfl, bind_run e1]
    have hst : staleSimpleKeys s2 = (.ok (), s2) := by
      rw [stale_run (fun k' hk' _ => h.req k' (by rw [hFl.keys] at hk'; exact hk'))]
      have : (s2.simpleKeys.map fun k => if isStale s2 k then { k with possible := false } else k) = s2.simpleKeys := by
        by_cases hn : n = 0
        · obtain ⟨hp, rfl, -⟩ := h0 hn
          rw [hFl.keys]
          simp [isStale, hp]
        · conv => rhs; rw [← List.map_id s2.simpleKeys]
          refine List.map_congr_left fun x _ => ?_
          have : isStale s2 x = false := by simp [isStale, hFl.level, hn]
          rw [this]; rfl
      rw [this]
    rw [bind_run hst, getMark_bind]
    have hun : unrollIndent s2.mark.col s2 = (.ok (), s2) := by
      unfold unrollIndent
      by_cases hl : s2.flowLevel > 0
      · rw [if_pos hl]
      · rw [if_neg hl, hFl.indents, hFl.indent]
        have : unroll s2.mark.col 0 [] = some ([], 0, 0) := unroll_ok (by omega)
        rw [this]
        have h1 := hFl.indents
        have h2 := hFl.indent
        rcases s2 with ⟨⟩
        simp at h1 h2 ⊢
        simp [h1, h2]
    rw [bind_run hun]
    have he : s2.src.bufIsEmpty = false := by simp [Src.bufIsEmpty, r2]
    rw [atEof_bind, he]
    have h0 : s2.src.peekz 0 = a := peekz_cons r2
    have key : (s2.mark.col == 1 && s2.src.peekz 0 == b%'%') = false ∧ (s2.mark.col == 1 && nextIsDocumentStart s2) = false ∧
        (s2.mark.col == 1 && nextIsDocumentEnd s2) = false := by
      refine ⟨by simp [h0, ha], ?_, ?_⟩
      · by_cases h45 : a = 45
        · obtain ⟨b, r'', rfl, hb2⟩ := hd h45
          have h1 : s2.src.peekz 1 = b := by simp [Src.peekz, r2]
          simp [nextIsDocumentStart, Src.nextIsThree, h0, h1, hb2]
        · simp [nextIsDocumentStart, Src.nextIsThree, h0, h45]
      · simp [nextIsDocumentEnd, Src.nextIsThree, h0, hb]
    have hl : decide (s2.mark.col < s2.indent) = false := by rw [hFl.indent]; simp
    unfold fetchAtToken
    ev [key, hl]
  · rw [← hs2]; exact hal
  · rw [← hs2]; rfl
  · intro hx
    refine hz ?_
    rw [hrest] at hx
    simpa using hx

/-- the key saved here, or the one that was there -/
theorem saved_keys {cfg s out k ks n rest} (h : Fl cfg s out k ks n rest) : ∃ k', savedKeys s = k' :: ks ∧ k'.required = false ∧
    (s.simpleKeyAllowed = true → k'.possible = true ∧ k'.tokenNumber = out.length) := by
  unfold savedKeys
  split
  · refine ⟨keyHere s, by simp [h.keys], by simp [keyHere, h.indents], fun _ => ⟨rfl, ?_⟩⟩
    simp only [keyHere, h.parsed]
    rw [← h.toks]
    simp [types]
  · rename_i hx
    exact ⟨k, h.keys, h.req k (by simp), fun hy => absurd hy hx⟩

theorem open_fetch {cfg s out k ks n tt c w q} (hc : (c = 91 ∧ tt = TokenType.flowSequenceStart) ∨ (c = 123 ∧ tt = .flowMappingStart)) (hw : JWs w) (hq : TokenHead q)
    (h : Fl cfg s out k ks n (c :: (w ++ q))) (h0 : n = 0 → k.possible = false ∧ ks = [] ∧ s.simpleKeyAllowed = true) :
    ∃ s' k', fetchNextToken cfg s = (.ok (), s') ∧ Fl cfg s' (out ++ [tt]) (SimpleKey.new ⟨0, 0, 0⟩) (k' :: ks) (n + 1) q ∧
      s'.simpleKeyAllowed = true ∧ (c = 123 ∨ s.flowMappingStarted = true → s'.flowMappingStarted = true) := by
  obtain ⟨s2, e, h2, r2, -, hfm, -⟩ := fl_fetch h (by
    refine ⟨?_, c, _, rfl, ?_⟩
    · intro d hd; simp at hd; rcases hc with ⟨rfl, -⟩ | ⟨rfl, -⟩ <;> (subst hd; simp)
    · rcases hc with ⟨rfl, -⟩ | ⟨rfl, -⟩ <;> simp) h0
  obtain ⟨k', hk', hreq, -⟩ := saved_keys h2
  have hm : fetchMain cfg s2 = fetchFlowStart tt s2 := by
    have h0 : s2.src.peekz 0 = c := peekz_cons r2
    unfold fetchMain
    rcases hc with ⟨rfl, rfl⟩ | ⟨rfl, rfl⟩ <;> (ev [h0]; try simp)
  rw [e, hm]
  unfold fetchFlowStart setAllowed increaseFlowLevel
  rw [bind_run (save_run s2)]
  have hro : rollOneColIndent ({ s2 with simpleKeys := savedKeys s2 } : SSt) = (.ok (), { s2 with simpleKeys := savedKeys s2 }) := by
    simp [rollOneColIndent, upd, h2.indents]
  rw [bind_run hro]
  ev []
  rw [bind_run (skipNonBlank_adv _)]
  have hn : ∀ s : SSt, ∃ b i, noteFlowStart tt s = (.ok (), { s with flowMappingStarted := b, implicitFlowMappingStates := i }) ∧ (c = 123 ∨ s.flowMappingStarted = true → b = true) ∧
      (∀ x ∈ i, x = .possible ∨ x ∈ s.implicitFlowMappingStates) := by
    intro s
    rcases hc with ⟨rfl, rfl⟩ | ⟨rfl, rfl⟩
    · exact ⟨s.flowMappingStarted, .possible :: s.implicitFlowMappingStates, rfl, by simp, by simp⟩
    · exact ⟨true, s.implicitFlowMappingStates, rfl, by simp, fun x hx => .inr hx⟩
  obtain ⟨b, i, en, hb, hi⟩ := hn (adv ({ s2 with simpleKeys := SimpleKey.new ⟨0, 0, 0⟩ :: savedKeys s2, flowLevel := s2.flowLevel + 1, simpleKeyAllowed := true } : SSt) 1
    { s2.mark with pos := s2.mark.pos + 1, col := s2.mark.col + 1 } false true)
  rw [bind_run en]
  generalize hS : ({ adv ({ s2 with simpleKeys := SimpleKey.new ⟨0, 0, 0⟩ :: savedKeys s2, flowLevel := s2.flowLevel + 1, simpleKeyAllowed := true } : SSt) 1
    { s2.mark with pos := s2.mark.pos + 1, col := s2.mark.col + 1 } false true with flowMappingStarted := b, implicitFlowMappingStates := i } : SSt) = S
  have hSr : S.src.rest = w ++ q := by rw [← hS]; simp [adv, Src.skip, r2]
  have hSc : 1 ≤ S.mark.col := by rw [← hS]; simp [adv]
  obtain ⟨w1, w2, r, m, ew, rfl, hw2, -, hmc, -, -⟩ := jws_skipWs hq hw hSr hSc
  rw [bind_run ew]
  ev []
  unfold push
  refine ⟨_, k', rfl, ⟨⟨w2, hw2, ?_⟩, ?_, hmc, ?_, ?_, ?_, ?_, ?_, ?_, ?_, ?_, ?_, ?_⟩, ?_, ?_⟩
  · simp [adv, Src.skip, hSr]
  · have := h2.fuel
    rw [r2] at this
    simp [adv, Src.skip, hSr] at this ⊢
    omega
  · simp [adv, ← hS, h2.indents]
  · simp [adv, ← hS, h2.indent]
  · have := h2.toks
    simp only [types] at this
    simp [types, adv, ← hS, this]
  · simp [adv, ← hS, hk']
  · intro x hx
    simp at hx
    rcases hx with rfl | rfl | hx
    · rfl
    · exact hreq
    · exact h2.req x (by simp [hx])
  · simp [adv, ← hS, h2.level]
  · intro x hx
    simp only [adv, ← hS] at hx
    rcases hi x hx with h | h
    · exact h
    · exact h2.impl x (by simpa [adv] using h)
  · simp [adv, ← hS, h2.parsed]
  · simp [adv, ← hS, h2.started]
  · have := h2.fit
    refine Fit.skip ?_ ?_
    · rw [← hS]; exact this.skip (by rw [r2]; simp)
    · rw [hSr]; simp
  · simp [adv, ← hS]
  · intro hx
    rw [← hfm] at hx
    simp [adv, ← hS]
    exact hb (by simpa [adv] using hx)

theorem calm_end {s : SSt} {m} (h : ∀ x ∈ s.implicitFlowMappingStates, x = .possible) : endImplicitMapping m s = (.ok (), s) := by
  unfold endImplicitMapping upd
  cases hx : s.implicitFlowMappingStates with
  | nil => simp only [hx]
  | cons x xs =>
    have := h x (by simp [hx])
    subst this
    simp only [hx]

theorem close_fetch {cfg s out k k1 ks n tt c w q} (hc : (c = 93 ∧ tt = TokenType.flowSequenceEnd) ∨ (c = 125 ∧ tt = .flowMappingEnd)) (hw : JWs w) (hq : TokenHead q)
    (h : Fl cfg s out k (k1 :: ks) (n + 1) (c :: (w ++ q))) :
    ∃ s', fetchNextToken cfg s = (.ok (), s') ∧ Fl cfg s' (out ++ [tt]) k1 ks n q ∧ (s.flowMappingStarted = true → s'.flowMappingStarted = true) := by
  obtain ⟨s2, e, h2, r2, -, hfm, -⟩ := fl_fetch h (by
    refine ⟨?_, c, _, rfl, ?_⟩
    · intro d hd; simp at hd; rcases hc with ⟨rfl, -⟩ | ⟨rfl, -⟩ <;> (subst hd; simp)
    · rcases hc with ⟨rfl, -⟩ | ⟨rfl, -⟩ <;> simp) (by simp)
  have hm : fetchMain cfg s2 = fetchFlowEnd tt s2 := by
    have h0 : s2.src.peekz 0 = c := peekz_cons r2
    unfold fetchMain
    rcases hc with ⟨rfl, rfl⟩ | ⟨rfl, rfl⟩ <;> (ev [h0]; simp)
  rw [e, hm]
  unfold fetchFlowEnd setAllowed
  have e1 : removeSimpleKey s2 = (.ok (), { s2 with simpleKeys := { k with possible := false } :: k1 :: ks }) := by
    simp [removeSimpleKey, h2.keys, h2.req k (by simp)]
  rw [bind_run e1]
  have e2 : decreaseFlowLevel ({ s2 with simpleKeys := { k with possible := false } :: k1 :: ks } : SSt) = (.ok (), { s2 with flowLevel := n, simpleKeys := k1 :: ks }) := by
    simp [decreaseFlowLevel, h2.level]
  rw [bind_run e2]
  ev []
  have hn : ∀ (m : Marker) (s : SSt), (∀ x ∈ s.implicitFlowMappingStates, x = .possible) → ∃ i, (when (tt == .flowSequenceEnd) do
      endImplicitMapping m
      upd fun s => { s with implicitFlowMappingStates := s.implicitFlowMappingStates.tail } : SM Unit) s = (.ok (), { s with implicitFlowMappingStates := i }) ∧
      (∀ x ∈ i, x ∈ s.implicitFlowMappingStates) := by
    intro m s hs
    rcases hc with ⟨rfl, rfl⟩ | ⟨rfl, rfl⟩
    · refine ⟨s.implicitFlowMappingStates.tail, ?_, fun x hx => List.mem_of_mem_tail hx⟩
      rw [show (TokenType.flowSequenceEnd == .flowSequenceEnd) = true by decide]
      show (endImplicitMapping m >>= fun _ => _) s = _
      rw [bind_run (calm_end hs)]
      rfl
    · exact ⟨s.implicitFlowMappingStates, rfl, fun x hx => hx⟩
  obtain ⟨i, en, hi⟩ := hn s2.mark ({ s2 with flowLevel := n, simpleKeys := k1 :: ks, simpleKeyAllowed := false } : SSt) h2.impl
  rw [bind_run en, bind_run (skipNonBlank_adv _)]
  generalize hS : (adv ({ s2 with flowLevel := n, simpleKeys := k1 :: ks, simpleKeyAllowed := false, implicitFlowMappingStates := i } : SSt) 1
    { s2.mark with pos := s2.mark.pos + 1, col := s2.mark.col + 1 } false false) = S
  have hSr : S.src.rest = w ++ q := by rw [← hS]; simp [adv, Src.skip, r2]
  have hSc : 1 ≤ S.mark.col := by rw [← hS]; simp [adv]
  obtain ⟨w1, w2, r, m, ew, rfl, hw2, -, hmc, -, -⟩ := jws_skipWs hq hw hSr hSc
  have ew' : skipWsToEol true false S = _ := ew
  rw [bind_run ew']
  generalize hT : adv S w1.length m S.leadingWhitespace S.simpleKeyAllowed = T
  have hu : ∃ a, (upd (fun s : SSt => if s.flowLevel > 0 then { s with adjacentValueAllowedAt := s.mark.pos } else s) : SM Unit) T = (.ok (), { T with adjacentValueAllowedAt := a }) := by
    unfold upd
    by_cases hl : T.flowLevel > 0
    · exact ⟨T.mark.pos, by simp only [if_pos hl]⟩
    · exact ⟨T.adjacentValueAllowedAt, by simp only [if_neg hl]⟩
  obtain ⟨av, hu⟩ := hu
  rw [bind_run hu]
  ev []
  unfold push
  refine ⟨_, rfl, ⟨⟨w2, hw2, ?_⟩, ?_, ?_, ?_, ?_, ?_, ?_, ?_, ?_, ?_, ?_, ?_, ?_⟩, ?_⟩
  · simp [← hT, adv, Src.skip, hSr]
  · have := h2.fuel
    rw [r2] at this
    simp [← hT, adv, Src.skip, hSr] at this ⊢
    omega
  · simp [← hT]; exact hmc
  · simp [adv, ← hT, ← hS, h2.indents]
  · simp [adv, ← hT, ← hS, h2.indent]
  · have := h2.toks
    simp only [types] at this
    simp [types, adv, ← hT, ← hS, this]
  · simp [adv, ← hT, ← hS]
  · intro x hx
    exact h2.req x (List.mem_cons_of_mem _ hx)
  · simp [adv, ← hT, ← hS]
  · intro x hx
    simp only [adv, ← hT, ← hS] at hx
    exact h2.impl x (hi x hx)
  · simp [adv, ← hT, ← hS, h2.parsed]
  · simp [adv, ← hT, ← hS, h2.started]
  · have := h2.fit
    rw [← hT]
    refine Fit.skip ?_ ?_
    · rw [← hS]; exact this.skip (by rw [r2]; simp)
    · rw [hSr]; simp
  · intro hx
    rw [← hfm] at hx
    simp [adv, ← hT, ← hS, hx]

theorem comma_fetch {cfg s out k ks n w q} (hw : JWs w) (hq : TokenHead q) (h : Fl cfg s out k ks (n + 1) (44 :: (w ++ q))) :
    ∃ s' k', fetchNextToken cfg s = (.ok (), s') ∧ Fl cfg s' (out ++ [.flowEntry]) k' ks (n + 1) q ∧ s'.simpleKeyAllowed = true ∧
      (s.flowMappingStarted = true → s'.flowMappingStarted = true) := by
  obtain ⟨s2, e, h2, r2, -, hfm, -⟩ := fl_fetch h ⟨by intro d hd; simp at hd; subst hd; simp, 44, _, rfl, by simp⟩ (by simp)
  have hm : fetchMain cfg s2 = fetchFlowEntry s2 := by
    have h0 : s2.src.peekz 0 = 44 := peekz_cons r2
    unfold fetchMain
    ev [h0]; simp
  rw [e, hm]
  unfold fetchFlowEntry setAllowed
  have e1 : removeSimpleKey s2 = (.ok (), { s2 with simpleKeys := { k with possible := false } :: ks }) := by
    simp [removeSimpleKey, h2.keys, h2.req k (by simp)]
  rw [bind_run e1]
  ev []
  have e2 : endImplicitMapping s2.mark ({ s2 with simpleKeys := { k with possible := false } :: ks, simpleKeyAllowed := true } : SSt) = _ := calm_end h2.impl
  rw [bind_run e2, bind_run (skipNonBlank_adv _)]
  generalize hS : (adv ({ s2 with simpleKeys := { k with possible := false } :: ks, simpleKeyAllowed := true } : SSt) 1
    { s2.mark with pos := s2.mark.pos + 1, col := s2.mark.col + 1 } false true) = S
  have hSr : S.src.rest = w ++ q := by rw [← hS]; simp [adv, Src.skip, r2]
  have hSc : 1 ≤ S.mark.col := by rw [← hS]; simp [adv]
  obtain ⟨w1, w2, r, m, ew, rfl, hw2, -, hmc, -, -⟩ := jws_skipWs hq hw hSr hSc
  have ew' : skipWsToEol true false S = _ := ew
  rw [bind_run ew']
  ev []
  unfold push
  refine ⟨_, { k with possible := false }, rfl, ⟨⟨w2, hw2, ?_⟩, ?_, hmc, ?_, ?_, ?_, ?_, ?_, ?_, ?_, ?_, ?_, ?_⟩, ?_, ?_⟩
  · simp [adv, Src.skip, hSr]
  · have := h2.fuel
    rw [r2] at this
    simp [adv, Src.skip, hSr] at this ⊢
    omega
  · simp [adv, ← hS, h2.indents]
  · simp [adv, ← hS, h2.indent]
  · have := h2.toks
    simp only [types] at this
    simp [types, adv, ← hS, this]
  · simp [adv, ← hS]
  · intro x hx
    simp only [List.mem_cons] at hx
    rcases hx with rfl | hx
    · exact h2.req k (by simp)
    · exact h2.req x (List.mem_cons_of_mem _ hx)
  · simp [adv, ← hS, h2.level]
  · intro x hx
    simp only [adv, ← hS] at hx
    exact h2.impl x hx
  · simp [adv, ← hS, h2.parsed]
  · simp [adv, ← hS, h2.started]
  · have := h2.fit
    refine Fit.skip ?_ ?_
    · rw [← hS]; exact this.skip (by rw [r2]; simp)
    · rw [hSr]; simp
  · simp [adv, ← hS]
  · intro hx
    rw [← hfm] at hx
    simp [adv, ← hS, hx]
theorem string_fetch {cfg s out k ks n m v w q} (hm : Folded m v) (hw : JWs w) (hq : Follow n q)
    (h : Fl cfg s out k ks n (34 :: (m ++ 34 :: (w ++ q)))) (h0 : n = 0 → k.possible = false ∧ ks = [] ∧ s.simpleKeyAllowed = true) :
    ∃ s' k', fetchNextToken cfg s = (.ok (), s') ∧ Fl cfg s' (out ++ [.scalar .doubleQuote v]) k' ks n q ∧ s'.src.rest = q ∧
      s'.adjacentValueAllowedAt = s'.mark.pos ∧ (s.simpleKeyAllowed = true → k'.possible = true ∧ k'.tokenNumber = out.length) ∧
      (s.flowMappingStarted = true → s'.flowMappingStarted = true) := by
  obtain ⟨s2, e, h2, r2, hal, hfm, -⟩ := fl_fetch h ⟨by intro d hd; simp at hd; subst hd; simp, 34, _, rfl, by simp⟩ h0
  obtain ⟨k', hk', hreq, hpos⟩ := saved_keys h2
  have hmain : fetchMain cfg s2 = fetchFlowScalar cfg false s2 := by
    have h0 : s2.src.peekz 0 = 34 := peekz_cons r2
    unfold fetchMain
    ev [h0]; simp
  rw [e, hmain]
  unfold fetchFlowScalar setAllowed
  rw [bind_run (save_run s2)]
  ev []
  generalize hA : ({ s2 with simpleKeys := savedKeys s2, simpleKeyAllowed := false } : SSt) = A
  have a1 : A.flowLevel = n := by rw [← hA]; exact h2.level
  have a2 : A.src.rest = 34 :: (m ++ 34 :: (w ++ q)) := by rw [← hA]; exact r2
  have a3 : 1 ≤ A.mark.col := by rw [← hA]; exact h2.col
  have a4 : A.indent = 0 := by rw [← hA]; exact h2.indent
  have a5 : A.indents = [] := by rw [← hA]; exact h2.indents
  have hfu := h2.fuel
  rw [r2] at hfu
  simp at hfu
  obtain ⟨sp, w1, w2, mk, es, rfl, hw2, hmk⟩ := jstring_scan (cfg := cfg) hm hw a2 (by omega) a3 (by omega) (by rw [a1]; exact hq)
  rw [bind_run es]
  generalize hB : adv A (34 :: (m ++ 34 :: w1)).length mk false A.simpleKeyAllowed = B
  have b1 : B.src.rest = w2 ++ q := by rw [← hB]; refine adv_rest (w := 34 :: (m ++ 34 :: w1)) ?_ rfl; simp [a2]
  have b2 : 1 ≤ B.mark.col := by rw [← hB]; exact hmk
  have b3 : B.indents = [] := by rw [← hB]; exact a5
  obtain ⟨m3, l3, al3, e3, hm3, -, -⟩ := jws_skip hq.head hw2 b1 (k := cfg.fuel) (by simp at hfu; omega) b3 b2
  rw [show skipToNextToken cfg = loopM skipToNextTokenBody cfg.fuel () from rfl, bind_run e3]
  ev []
  unfold pushTok push
  have hrest : (adv B w2.length m3 l3 al3).src.rest = q := adv_rest b1 rfl
  refine ⟨_, k', rfl, ⟨⟨[], .nil, hrest⟩, ?_, hm3, ?_, ?_, ?_, ?_, ?_, ?_, ?_, ?_, ?_, ?_⟩, hrest, rfl, ?_, ?_⟩
  · have : ∀ s : SSt, s.src.rest = q → s.src.rest.length + 2 < cfg.fuel := by
      intro s hs; rw [hs]; simp at hfu; omega
    exact this _ hrest
  · simp [adv, ← hB, a5]
  · simp [adv, ← hB, a4]
  · have := h2.toks
    simp only [types] at this
    simp [types, adv, ← hB, ← hA, this]
  · simp [adv, ← hB, ← hA, hk']
  · intro x hx
    simp only [List.mem_cons] at hx
    rcases hx with rfl | hx
    · exact hreq
    · exact h2.req x (by simp [hx])
  · simp [adv, ← hB, a1]
  · intro x hx
    simp only [adv, ← hB, ← hA] at hx
    exact h2.impl x hx
  · simp [adv, ← hB, ← hA, h2.parsed]
  · simp [adv, ← hB, ← hA, h2.started]
  · have := h2.fit
    refine Fit.skip ?_ ?_
    · rw [← hB]; refine Fit.skip ?_ ?_
      · rw [← hA]; exact this
      · rw [a2]; simp
    · rw [b1]; simp
  · intro hx
    exact hpos (by rw [hal]; exact hx)
  · intro hx
    rw [← hfm] at hx
    simp [adv, ← hB, ← hA, hx]

theorem plain_fetch {cfg s out k ks n w g q} (hw : w ≠ []) (hb : ∀ b ∈ w, JByte b) (hm : w ≠ [45]) (hd : ∀ b r', w = 45 :: b :: r' → b ≠ 45)
    (h46 : ∃ c w', w = c :: w' ∧ c ∉ bs!"[]{},*&!|>'\"%@`:?." ∧ TokenHead w)
    (hg : JWs g) (hq : q = [] ∨ (0 < n ∧ ∃ c q', q = c :: q' ∧ (c = 44 ∨ c = 93 ∨ c = 125)))
    (h : Fl cfg s out k ks n (w ++ (g ++ q))) (h0 : n = 0 → k.possible = false ∧ ks = [] ∧ s.simpleKeyAllowed = true) :
    ∃ s' k', fetchNextToken cfg s = (.ok (), s') ∧ Fl cfg s' (out ++ [.scalar .plain w]) k' ks n q ∧
      (s.flowMappingStarted = true → s'.flowMappingStarted = true) := by
  obtain ⟨c, w', rfl, hc, hth⟩ := h46
  simp at hc
  have hsecond : c = 45 → ∃ d r, w' = d :: r ∧ d ≠ 45 ∧ JByte d := by
    rintro rfl
    cases w' with
    | nil => exact absurd rfl hm
    | cons d r => exact ⟨d, r, rfl, hd d r rfl, hb d (by simp)⟩
  obtain ⟨s2, e, h2, r2, hal, hfm, -⟩ := fl_fetch h ⟨by intro d hd; exact hth d (by simpa using hd), c, _, rfl, by omega, by omega, by
    intro h45
    obtain ⟨d, r, rfl, h1, -⟩ := hsecond h45
    exact ⟨d, _, rfl, h1⟩⟩ h0
  obtain ⟨k', hk', hreq, hpos⟩ := saved_keys h2
  have hmain : fetchMain cfg s2 = fetchPlainScalar cfg s2 := by
    have h0 : s2.src.peekz 0 = c := peekz_cons r2
    unfold fetchMain
    ev [h0, hc]
    by_cases h45 : c = 45
    · obtain ⟨d, r, rfl, -, hj⟩ := hsecond h45
      have h1 : s2.src.peekz 1 = d := by simp [Src.peekz, r2]
      have := wordByte_blank hj.1
      have h2 : isBlankOrBreak d = false := by
        simp only [isBlankOrBreakz, isBlank, isBreak, isBlankOrBreak, Bool.or_eq_false_iff] at this ⊢
        simp [this]
      simp [h45, h1, this, h2]
    · simp [h45]
  rw [e, hmain]
  unfold fetchPlainScalar setAllowed
  rw [bind_run (save_run s2)]
  ev []
  generalize hA : ({ s2 with simpleKeys := savedKeys s2, simpleKeyAllowed := false } : SSt) = A
  have a1 : A.flowLevel = n := by rw [← hA]; exact h2.level
  have a2 : A.src.rest = c :: w' ++ (g ++ q) := by rw [← hA]; exact r2
  have a3 : 1 ≤ A.mark.col := by rw [← hA]; exact h2.col
  have a4 : A.indent = 0 := by rw [← hA]; exact h2.indent
  have a5 : A.indents = [] := by rw [← hA]; exact h2.indents
  have hfu := h2.fuel
  rw [r2] at hfu
  simp at hfu
  obtain ⟨sp, m3, l3, al3, es, hm3⟩ := jplain_scan (cfg := cfg) (s := A) hw hb hm hd (by simp; omega) hg (by rw [a1]; exact hq) a2 (by simp; omega) a3 a4 a5
  rw [bind_run es]
  unfold pushTok push
  have hrest : (adv A (c :: w' ++ g).length m3 l3 al3).src.rest = q := by
    refine adv_rest (w := c :: w' ++ g) ?_ rfl
    simp [a2]
  refine ⟨_, k', rfl, ⟨⟨[], .nil, hrest⟩, ?_, hm3, ?_, ?_, ?_, ?_, ?_, ?_, ?_, ?_, ?_, ?_⟩, ?_⟩
  · have : ∀ s : SSt, s.src.rest = q → s.src.rest.length + 2 < cfg.fuel := by
      intro s hs; rw [hs]; omega
    exact this _ hrest
  · simp [adv, a5]
  · simp [adv, a4]
  · have := h2.toks
    simp only [types] at this
    simp [types, adv, ← hA, this]
  · simp [adv, ← hA, hk']
  · intro x hx
    simp only [List.mem_cons] at hx
    rcases hx with rfl | hx
    · exact hreq
    · exact h2.req x (by simp [hx])
  · simp [adv, a1]
  · intro x hx
    simp only [adv, ← hA] at hx
    exact h2.impl x hx
  · simp [adv, ← hA, h2.parsed]
  · simp [adv, ← hA, h2.started]
  · have := h2.fit
    refine Fit.skip ?_ ?_
    · rw [← hA]; exact this
    · rw [a2]; simp
  · intro hx
    rw [← hfm] at hx
    simp [adv, ← hA, hx]

theorem colon_fetch {cfg s out t k ks n w q} (hw : JWs w) (hq : TokenHead q) (h : Fl cfg s (out ++ [t]) k ks (n + 1) (58 :: (w ++ q)))
    (hr : s.src.rest = 58 :: (w ++ q)) (hadj : s.adjacentValueAllowedAt = s.mark.pos) (hp : k.possible = true) (hk : k.tokenNumber = out.length)
    (hfm : s.flowMappingStarted = true)
    (htab : w ≠ [] → (∀ b ∈ w, b = 9) → ∃ c q', q = c :: q' ∧ (c = 34 ∨ c = 91 ∨ c = 123)) :
    ∃ s' k', fetchNextToken cfg s = (.ok (), s') ∧ Fl cfg s' (out ++ [.key, t, .value]) k' ks (n + 1) q ∧ s'.flowMappingStarted = true := by
  obtain ⟨s2, e, h2, r2, -, -, hs⟩ := fl_fetch h ⟨by intro d hd; simp at hd; subst hd; simp, 58, _, rfl, by simp⟩ (by simp)
  have := hs hr
  subst this
  have hfu := h2.fuel
  rw [r2] at hfu
  simp at hfu
  have hmain : fetchMain cfg s2 = fetchValue s2 := by
    have h0 : s2.src.peekz 0 = 58 := peekz_cons r2
    have hv : fetchFlowValue s2 = fetchValue s2 := by
      unfold fetchFlowValue
      have : (s2.mark.pos != s2.adjacentValueAllowedAt && (s2.src.peekz 1 == b%'[' || s2.src.peekz 1 == b%'{')) = false := by simp [hadj]
      ev [this]
    unfold fetchMain
    ev [h0]
    simp [h2.level, hadj, hv]
  rw [e, hmain]
  unfold fetchValue
  have himp : (!s2.implicitFlowMappingStates.isEmpty && !s2.flowMappingStarted) = false := by simp [hfm]
  ev [h2.keys, himp]
  have hcolon : ∃ w1 w2 m, skipColon s2 = (.ok (), adv s2 (1 + w1.length) m false s2.simpleKeyAllowed) ∧ w = w1 ++ w2 ∧ JWs w2 ∧ 1 ≤ m.col := by
    unfold skipColon
    rw [bind_run (skipNonBlank_adv s2)]
    generalize hS : adv s2 1 { s2.mark with pos := s2.mark.pos + 1, col := s2.mark.col + 1 } false s2.simpleKeyAllowed = S
    have hSr : S.src.rest = w ++ q := by rw [← hS]; simp [adv, Src.skip, r2]
    have hSc : 1 ≤ S.mark.col := by rw [← hS]; simp [adv]
    by_cases h9 : S.src.peekz 0 = 9
    · ev [h9]
      obtain ⟨w1, w2, r, m, ew, rfl, hw2, hbr, hmc, hw1, hr2⟩ := jws_skipWs hq hw hSr hSc
      rw [bind_run ew]
      refine ⟨w1, w2, m, ?_, rfl, hw2, hmc⟩
      have hTr : (adv S w1.length m S.leadingWhitespace S.simpleKeyAllowed).src.rest = w2 ++ q := adv_rest (by rw [hSr]; simp) rfl
      have hbad : (!r.2 && ((adv S w1.length m S.leadingWhitespace S.simpleKeyAllowed).src.peekz 0 == b%'-' || isAlpha ((adv S w1.length m S.leadingWhitespace S.simpleKeyAllowed).src.peekz 0))) = false := by
        cases hr2' : r.2 with
        | true => rfl
        | false =>
          rw [hr2] at hr2'
          cases w2 with
          | cons c w2 =>
            have h0 : (adv S w1.length m S.leadingWhitespace S.simpleKeyAllowed).src.peekz 0 = c := peekz_cons (by rw [hTr]; rfl)
            rw [h0]
            rcases hbr c rfl with rfl | rfl <;> decide
          | nil =>
            have htabs : ∀ b ∈ w1, b = 9 := by
              intro b hb
              rcases hw1 b hb with rfl | hb'
              · simp [hb] at hr2'
              · exact hb'
            have hne : w1 ≠ [] := by
              rintro rfl
              have h0 := peekz_head hSr
              rw [h9] at h0
              simp at h0
              cases q with
              | nil => simp at h0
              | cons c q => have := hq c rfl; simp at h0; omega
            obtain ⟨c, q', rfl, hc⟩ := htab (by simpa using hne) (by simpa using htabs)
            have h0 : (adv S w1.length m S.leadingWhitespace S.simpleKeyAllowed).src.peekz 0 = c := peekz_cons (by rw [hTr]; rfl)
            rw [h0]
            rcases hc with rfl | rfl | rfl <;> decide
      ev [hbad]
      rw [← hS, adv_adv]
      rfl
    · ev [h9]
      refine ⟨[], w, _, ?_, rfl, hw, hSc⟩
      rw [← hS]
      rfl
  obtain ⟨w1, w2, m, ec, rfl, hw2, hmc⟩ := hcolon
  rw [bind_run ec]
  generalize hB : adv s2 (1 + w1.length) m false s2.simpleKeyAllowed = B
  have b1 : B.src.rest = w2 ++ q := by rw [← hB]; refine adv_rest (w := 58 :: w1) (by simp [r2]) (by simp; omega)
  have b2 : B.tokensParsed = 0 := by rw [← hB]; exact h2.parsed
  have b3 : B.tokens = s2.tokens := by rw [← hB]; rfl
  have b4 : B.flowLevel = n + 1 := by rw [← hB]; exact h2.level
  have b5 : B.indents = [] := by rw [← hB]; exact h2.indents
  have b6 : B.simpleKeys = k :: ks := by rw [← hB]; exact h2.keys
  have ht := h2.toks
  simp only [types] at ht
  have hlen : s2.tokens.length = out.length + 1 := by
    have := congrArg List.length ht
    simpa using this
  have ev1 : valueAfterKey k s2.mark false B = (.ok (), { B with
      tokens := s2.tokens.take out.length ++ ⟨Span.empty k.mark, .key⟩ :: s2.tokens.drop out.length
      simpleKeys := { k with possible := false } :: ks
      simpleKeyAllowed := false }) := by
    unfold valueAfterKey valueAfterSimpleKey
    rw [if_pos hp]
    have ei : insertToken k.tokenNumber (Span.empty k.mark) .key B = (.ok (), { B with tokens := s2.tokens.take out.length ++ ⟨Span.empty k.mark, .key⟩ :: s2.tokens.drop out.length }) := by
      unfold insertToken
      rw [b2, b3, hk, if_neg (by omega)]
      rfl
    rw [bind_run ei]
    unfold rollIndent rollOneColIndent
    ev []
    simp [b4, b5, b6]
    rfl
  rw [bind_run ev1]
  unfold push
  refine ⟨_, { k with possible := false }, rfl, ⟨⟨w2, hw2, b1⟩, ?_, ?_, b5, ?_, ?_, rfl, ?_, b4, ?_, b2, ?_, ?_⟩, ?_⟩
  · have : ∀ s : SSt, s.src.rest = w2 ++ q → s.src.rest.length + 2 < cfg.fuel := by
      intro s hs; rw [hs]; simp at hfu ⊢; omega
    exact this _ b1
  · rw [← hB]; exact hmc
  · rw [← hB]; exact h2.indent
  · have h1 : (s2.tokens.take out.length).map (·.tt) = out := by rw [List.map_take, ht]; simp
    have h3 : (s2.tokens.drop out.length).map (·.tt) = [t] := by rw [List.map_drop, ht]; simp
    simp [types, h1, h3]
  · intro x hx
    simp only [List.mem_cons] at hx
    rcases hx with rfl | hx
    · exact h2.req k (by simp)
    · exact h2.req x (by simp [hx])
  · intro x hx
    simp only [← hB, adv] at hx
    exact h2.impl x hx
  · rw [← hB]; exact h2.started
  · rw [← hB]; exact h2.fit.skip (by rw [r2]; simp; omega)
  · rw [← hB]; exact hfm

end Verif.Scanner
