import Verif.Lemmas.ScanFolded
import Verif.Spec.Json
/-!
# Scanning JSON: white space and scalars
-/
namespace Verif.Scanner
open Verif Verif.CharUtils Verif.Source Verif.Emitter

/-- white space: spaces, tabs and line breaks -/
inductive JWs : List Byte → Prop
  | nil : JWs []
  | blank {c w} : (c = 32 ∨ c = 9) → JWs w → JWs (c :: w)
  | lf {w} : JWs w → JWs (10 :: w)
  | crlf {w} : JWs w → JWs (13 :: 10 :: w)

theorem JWs.of {w} (h : Spec.Json.Ws false w) : JWs w := by
  induction h with
  | nil => exact .nil
  | space _ ih => exact .blank (.inl rfl) ih
  | tab _ ih => exact .blank (.inr rfl) ih
  | lf _ ih => exact .lf ih
  | @cr w _ h ih =>
    rcases h with h | h
    · cases h
    · cases ih with
      | nil => simp at h
      | blank hc _ => simp at h; omega
      | lf h' => exact .crlf h'
      | crlf _ => simp at h

/-- the state moved forward by `n` bytes -/
def adv (s : SSt) (n : Nat) (m : Marker) (l a : Bool) : SSt :=
  { s with src := s.src.skip n, mark := m, leadingWhitespace := l, simpleKeyAllowed := a }

theorem adv_adv (s : SSt) (n m : Nat) (k k' : Marker) (l l' a a' : Bool) : adv (adv s n k l a) m k' l' a' = adv s (n + m) k' l' a' := by
  simp [adv, Src.skip, Nat.add_comm, Nat.add_left_comm]

theorem adv_zero (s : SSt) : adv s 0 s.mark s.leadingWhitespace s.simpleKeyAllowed = s := by
  simp [adv, Src.skip]

theorem adv_rest {s : SSt} {n m l a} {w r : List Byte} (h : s.src.rest = w ++ r) (hn : n = w.length) : (adv s n m l a).src.rest = r := by
  simp [adv, Src.skip, h, hn]

theorem skipBlank_adv (s : SSt) : skipBlank s = (.ok (), adv s 1 { s.mark with pos := s.mark.pos + 1, col := s.mark.col + 1 } s.leadingWhitespace s.simpleKeyAllowed) := rfl

theorem skipNonBlank_adv (s : SSt) : skipNonBlank s = (.ok (), adv s 1 { s.mark with pos := s.mark.pos + 1, col := s.mark.col + 1 } false s.simpleKeyAllowed) := rfl

theorem linebreak_lf {s : SSt} {r} (h : s.src.rest = 10 :: r) : skipLinebreak s = (.ok (), adv s 1 ⟨s.mark.pos + 1, 1, s.mark.line + 1⟩ true s.simpleKeyAllowed) := by
  have h0 : s.src.peekz 0 = 10 := peekz_cons h
  simp [skipLinebreak, upd, h0, adv]

theorem linebreak_crlf {s : SSt} {r} (h : s.src.rest = 13 :: 10 :: r) : skipLinebreak s = (.ok (), adv s 2 ⟨s.mark.pos + 2, 1, s.mark.line + 1⟩ true s.simpleKeyAllowed) := by
  have h0 : s.src.peekz 0 = 13 := peekz_cons h
  have h1 : s.src.peekz 1 = 10 := by simp [Src.peekz, h]
  simp [skipLinebreak, upd, h0, h1, adv]

theorem jws_skip {q} (hq : TokenHead q) {w} (hw : JWs w) : ∀ {k s}, s.src.rest = w ++ q → w.length < k → s.indents = [] → 1 ≤ s.mark.col →
    ∃ m l a, loopM skipToNextTokenBody k () s = (.ok (), adv s w.length m l a) ∧ 1 ≤ m.col ∧ (s.flowLevel ≠ 0 ∨ s.simpleKeyAllowed = true → a = s.simpleKeyAllowed) ∧
      (w = [] → adv s w.length m l a = s) := by
  induction hw with
  | nil =>
    intro k s hr hk hi hc
    obtain ⟨k, rfl⟩ : ∃ j, k = j + 1 := ⟨k - 1, by omega⟩
    have h0 := peekz_head hr
    have : s.src.peekz 0 ≠ 9 ∧ s.src.peekz 0 ≠ 32 ∧ s.src.peekz 0 ≠ 10 ∧ s.src.peekz 0 ≠ 13 ∧ s.src.peekz 0 ≠ 35 := by
      rw [h0]
      cases q with
      | nil => simp
      | cons c q => have := hq c rfl; simp [this]
    refine ⟨s.mark, s.leadingWhitespace, s.simpleKeyAllowed, ?_, hc, fun _ => rfl, fun _ => adv_zero s⟩
    rw [loop_done (b := ()) (s1 := s) (by unfold skipToNextTokenBody; ev [this, false_and, or_self])]
    simp [adv_zero]
  | @blank c w hc' _ ih =>
    intro k s hr hk hi hc
    obtain ⟨k, rfl⟩ : ∃ j, k = j + 1 := ⟨k - 1, by omega⟩
    have h0 : s.src.peekz 0 = c := peekz_cons hr
    have hb : skipToNextTokenBody () s = (.ok (.next ()), adv s 1 { s.mark with pos := s.mark.pos + 1, col := s.mark.col + 1 } s.leadingWhitespace s.simpleKeyAllowed) := by
      unfold skipToNextTokenBody
      ev [h0, hi, List.isEmpty_nil, Bool.not_true, Bool.false_and, and_false]
      rw [if_pos (by omega), bind_run (skipBlank_adv s)]
      rfl
    obtain ⟨m, l, a, h1, h2, h3, h4⟩ := ih (k := k) (s := adv s 1 { s.mark with pos := s.mark.pos + 1, col := s.mark.col + 1 } s.leadingWhitespace s.simpleKeyAllowed)
      (adv_rest (w := [c]) hr rfl) (by simp at hk; omega) hi (by simp [adv])
    refine ⟨m, l, a, ?_, h2, h3, by simp⟩
    rw [loop_next hb, h1, adv_adv]
    simp [Nat.add_comm]
  | @lf w _ ih =>
    intro k s hr hk hi hc
    obtain ⟨k, rfl⟩ : ∃ j, k = j + 1 := ⟨k - 1, by omega⟩
    have h0 : s.src.peekz 0 = 10 := peekz_cons hr
    have hb : skipToNextTokenBody () s = (.ok (.next ()), adv s 1 ⟨s.mark.pos + 1, 1, s.mark.line + 1⟩ true (if s.flowLevel = 0 then true else s.simpleKeyAllowed)) := by
      unfold skipToNextTokenBody setAllowed
      ev [h0]
      rw [if_neg (by simp), if_neg (by decide), if_pos (by decide), bind_run (linebreak_lf hr)]
      by_cases hf : s.flowLevel = 0 <;> simp [hf, adv, when, gets_bind, pure_bind_run, upd_bind, pure_run]
    obtain ⟨m, l, a, h1, h2, h3, h4⟩ := ih (k := k) (s := adv s 1 ⟨s.mark.pos + 1, 1, s.mark.line + 1⟩ true (if s.flowLevel = 0 then true else s.simpleKeyAllowed))
      (adv_rest (w := [10]) hr rfl) (by simp at hk; omega) hi (by simp [adv])
    refine ⟨m, l, a, ?_, h2, ?_, by simp⟩
    · rw [loop_next hb, h1, adv_adv]
      simp [Nat.add_comm]
    · intro hx
      rw [h3 (by by_cases hf : s.flowLevel = 0 <;> simp [adv, hf])]
      by_cases hf : s.flowLevel = 0
      · simp [adv, hf]; exact (hx.resolve_left (by simp [hf]))
      · simp [adv, hf]
  | @crlf w _ ih =>
    intro k s hr hk hi hc
    obtain ⟨k, rfl⟩ : ∃ j, k = j + 1 := ⟨k - 1, by omega⟩
    have h0 : s.src.peekz 0 = 13 := peekz_cons hr
    have hb : skipToNextTokenBody () s = (.ok (.next ()), adv s 2 ⟨s.mark.pos + 2, 1, s.mark.line + 1⟩ true (if s.flowLevel = 0 then true else s.simpleKeyAllowed)) := by
      unfold skipToNextTokenBody setAllowed
      ev [h0]
      rw [if_neg (by simp), if_neg (by decide), if_pos (by decide), bind_run (linebreak_crlf hr)]
      by_cases hf : s.flowLevel = 0 <;> simp [hf, adv, when, gets_bind, pure_bind_run, upd_bind, pure_run]
    obtain ⟨m, l, a, h1, h2, h3, h4⟩ := ih (k := k) (s := adv s 2 ⟨s.mark.pos + 2, 1, s.mark.line + 1⟩ true (if s.flowLevel = 0 then true else s.simpleKeyAllowed))
      (adv_rest (w := [13, 10]) hr rfl) (by simp at hk; omega) hi (by simp [adv])
    refine ⟨m, l, a, ?_, h2, ?_, by simp⟩
    · rw [loop_next hb, h1, adv_adv, show 2 + w.length = (13 :: 10 :: w).length by simp; omega]
    · intro hx
      rw [h3 (by by_cases hf : s.flowLevel = 0 <;> simp [adv, hf])]
      by_cases hf : s.flowLevel = 0
      · simp [adv, hf]; exact (hx.resolve_left (by simp [hf]))
      · simp [adv, hf]

/-- `skip_ws_to_eol` takes some of the white space -/
theorem jws_eol {q} (hq : TokenHead q) {w} (hw : JWs w) (a b : Bool) : ∃ w1 w2 r, wsToEol true (w ++ q) a b = (w1.length, .ok r) ∧ w = w1 ++ w2 ∧
    (∀ c ∈ w1, c = 32 ∨ c = 9) ∧ JWs w2 ∧ (∀ c, w2.head? = some c → c = 10 ∨ c = 13) ∧ r.2 = (b || w1.contains 32) := by
  induction hw generalizing a b with
  | nil =>
    refine ⟨[], [], (a, b), ?_, rfl, by simp, .nil, by simp, by simp⟩
    cases q with
    | nil => rfl
    | cons c q =>
      obtain ⟨_, h1, h2, _, _, h3⟩ := hq c rfl
      simp [wsToEol, h1, h2, h3]
  | @blank c w hc h ih =>
    rcases hc with rfl | rfl
    · obtain ⟨w1, w2, r, h1, h2, h3, h4, h5, h6⟩ := ih a true
      refine ⟨32 :: w1, w2, r, ?_, by simp [h2], by simpa using h3, h4, h5, by simp [h6]⟩
      rw [List.cons_append, wsToEol]
      simp [h1]
    · obtain ⟨w1, w2, r, h1, h2, h3, h4, h5, h6⟩ := ih true b
      refine ⟨9 :: w1, w2, r, ?_, by simp [h2], by simpa using h3, h4, h5, by simp [h6]⟩
      rw [List.cons_append, wsToEol]
      simp [h1]
  | @lf w h _ => exact ⟨[], 10 :: w, (a, b), by simp [wsToEol], rfl, by simp, .lf h, by simp, by simp⟩
  | @crlf w h _ => exact ⟨[], 13 :: 10 :: w, (a, b), by simp [wsToEol], rfl, by simp, .crlf h, by simp, by simp⟩

/-- a byte that may be followed by the end of a JSON value -/
theorem jws_skipWs {q} (hq : TokenHead q) {w} (hw : JWs w) {s : SSt} (hr : s.src.rest = w ++ q) (hc : 1 ≤ s.mark.col) :
    ∃ w1 w2 r m, skipWsToEol true false s = (.ok r, adv s w1.length m s.leadingWhitespace s.simpleKeyAllowed) ∧ w = w1 ++ w2 ∧ JWs w2 ∧
      (∀ c, w2.head? = some c → c = 10 ∨ c = 13) ∧ 1 ≤ m.col ∧ (∀ c ∈ w1, c = 32 ∨ c = 9) ∧ r.2 = w1.contains 32 := by
  obtain ⟨w1, w2, r, h1, h2, h3, h4, h5, h6⟩ := jws_eol hq hw false false
  refine ⟨w1, w2, r, { s.mark with pos := s.mark.pos + w1.length, col := s.mark.col + w1.length }, ?_, h2, h4, h5, by dsimp only; omega, h3, by simpa using h6⟩
  unfold skipWsToEol Src.skipWsToEol
  simp only [hr, h1]
  rfl

/-- what follows a value -/
def Follow (n : Nat) (q : List Byte) : Prop := q = [] ∨ (0 < n ∧ ∃ c r, q = c :: r ∧ (c = 44 ∨ c = 93 ∨ c = 125 ∨ c = 58))

theorem Follow.head {n q} (h : Follow n q) : TokenHead q := by
  rcases h with rfl | ⟨_, c, r, rfl, h⟩
  · simp [TokenHead]
  · intro d hd
    simp at hd
    omega

theorem jstring_scan {cfg : Cfg} {s : SSt} {m v w q} (h : Folded m v) (hw : JWs w) (hr : s.src.rest = 34 :: (m ++ 34 :: (w ++ q))) (hf : m.length < cfg.fuel)
    (hc : 1 ≤ s.mark.col) (hi : s.indent ≤ 1) (hq : Follow s.flowLevel q) :
    ∃ sp w1 w2 k, scanFlowScalar cfg false s = (.ok ⟨sp, .scalar .doubleQuote v⟩, adv s (34 :: (m ++ 34 :: w1)).length k false s.simpleKeyAllowed) ∧ w = w1 ++ w2 ∧
      JWs w2 ∧ 1 ≤ k.col := by
  unfold scanFlowScalar
  ev []
  have e0 : skipNonBlank s = (.ok (), pass s [34] false) := skipNonBlank_pass (by decide)
  rw [bind_run e0]
  have e1 : (pass s [34] false).src.rest = m ++ 34 :: (w ++ q) := pass_rest (by simpa using hr)
  have hcol : (pass s [34] false).mark.col = s.mark.col + 1 := by simp [pass, gapMark]
  obtain ⟨l, hl⟩ := folded_run (start := s.mark) (str := []) (lb := false) h e1 hf hf (by omega) (.inl hi) (by omega)
  rw [bind_run hl]
  have e2 : skipNonBlank (pass (pass s [34] false) m l) = (.ok (), pass s (34 :: (m ++ [34])) false) := by
    rw [skipNonBlank_pass (b := 34) (by decide), pass_pass, pass_pass]
    simp
  rw [bind_run e2]
  have e3 : (pass s (34 :: (m ++ [34])) false).src.rest = w ++ q := pass_rest (by simpa using hr)
  obtain ⟨w1, w2, r, k, h1, rfl, h2, h3, h4, -⟩ := jws_skipWs hq.head hw e3 (gapMark_pos _ _ hc)
  rw [bind_run h1]
  have e4 : adv (pass s (34 :: (m ++ [34])) false) w1.length k (pass s (34 :: (m ++ [34])) false).leadingWhitespace (pass s (34 :: (m ++ [34])) false).simpleKeyAllowed =
      adv s (34 :: (m ++ 34 :: w1)).length k false s.simpleKeyAllowed := by
    have : pass s (34 :: (m ++ [34])) false = adv s (34 :: (m ++ [34])).length (gapMark s.mark (34 :: (m ++ [34]))) false s.simpleKeyAllowed := rfl
    rw [this, adv_adv]
    simp [adv, Nat.add_assoc, Nat.add_comm, Nat.add_left_comm]
  rw [e4]
  have e5 : (adv s (34 :: (m ++ 34 :: w1)).length k false s.simpleKeyAllowed).src.rest = w2 ++ q := adv_rest (w := 34 :: (m ++ 34 :: w1)) (by simp [hr]) rfl
  have hok : flowTrailingOk (adv s (34 :: (m ++ 34 :: w1)).length k false s.simpleKeyAllowed) s.mark = true := by
    have hp := peekz_head e5
    have hl : (adv s (34 :: (m ++ 34 :: w1)).length k false s.simpleKeyAllowed).flowLevel = s.flowLevel := rfl
    unfold flowTrailingOk
    rw [hp, hl]
    cases w2 with
    | cons c w2 => rcases h3 c rfl with rfl | rfl <;> simp [isBreakz, isBreak]
    | nil =>
      rcases hq with rfl | ⟨hn, c, r, rfl, hcc⟩
      · simp [isBreakz]
      · rcases hcc with rfl | rfl | rfl | rfl <;> simp [hn]
  ev [hok, Bool.not_true]
  exact ⟨_, w1, w2, k, rfl, rfl, h2, h4⟩

/-- a byte of a number, `true`, `false` or `null` -/
def JByte (c : Byte) : Prop := WordByte c ∧ isFlow c = false

theorem jplain_blanks {start q} (hq : TokenHead q) {g} (hg : JWs g) : ∀ {k s p}, s.src.rest = g ++ q → g.length < k → 1 ≤ s.mark.col →
    ∃ p' m l, loopM (plainBlankBody 1 start) k p s = (.ok p', adv s g.length m l s.simpleKeyAllowed) ∧ p'.string = p.string ∧ 1 ≤ m.col := by
  induction hg with
  | nil =>
    intro k s p hr hk hc
    obtain ⟨k, rfl⟩ : ∃ j, k = j + 1 := ⟨k - 1, by omega⟩
    have h0 := peekz_head hr
    have hb : isBlankOrBreak (s.src.peekz 0) = false := by
      rw [h0]
      cases q with
      | nil => rfl
      | cons c q => have := hq c rfl; simp [isBlankOrBreak, this]
    refine ⟨p, s.mark, s.leadingWhitespace, ?_, rfl, hc⟩
    rw [loop_done (b := p) (s1 := s) (by unfold plainBlankBody; ev [hb])]
    simp [adv_zero]
  | @blank c w hc' _ ih =>
    intro k s p hr hk hc
    obtain ⟨k, rfl⟩ : ∃ j, k = j + 1 := ⟨k - 1, by omega⟩
    have h0 : s.src.peekz 0 = c := peekz_cons hr
    obtain ⟨p1, hb, hp1⟩ : ∃ p1, plainBlankBody 1 start p s = (.ok (.next p1), adv s 1 { s.mark with pos := s.mark.pos + 1, col := s.mark.col + 1 } s.leadingWhitespace s.simpleKeyAllowed) ∧
        p1.string = p.string := by
      unfold plainBlankBody
      ev [h0]
      have hb1 : isBlankOrBreak c = true := by rcases hc' with rfl | rfl <;> rfl
      have hb2 : isBlank c = true := by rcases hc' with rfl | rfl <;> rfl
      rw [if_neg (by simp [hb1]), if_pos hb2]
      cases hl : s.leadingWhitespace with
      | false =>
        rw [if_pos rfl, bind_run (skipBlank_adv s), hl]
        exact ⟨_, rfl, rfl⟩
      | true =>
        rw [if_neg (by simp), if_neg (by omega), bind_run (skipBlank_adv s), hl]
        exact ⟨_, rfl, rfl⟩
    obtain ⟨p', m, l, h1, h2, h3⟩ := ih (k := k) (p := p1) (s := adv s 1 { s.mark with pos := s.mark.pos + 1, col := s.mark.col + 1 } s.leadingWhitespace s.simpleKeyAllowed)
      (adv_rest (w := [c]) hr rfl) (by simp at hk; omega) (by simp [adv])
    refine ⟨p', m, l, ?_, h2.trans hp1, h3⟩
    rw [loop_next hb, h1, adv_adv, Nat.add_comm]
    rfl
  | @lf w _ ih =>
    intro k s p hr hk hc
    obtain ⟨k, rfl⟩ : ∃ j, k = j + 1 := ⟨k - 1, by omega⟩
    have h0 : s.src.peekz 0 = 10 := peekz_cons hr
    obtain ⟨p1, hb, hp1⟩ : ∃ p1, plainBlankBody 1 start p s = (.ok (.next p1), adv s 1 ⟨s.mark.pos + 1, 1, s.mark.line + 1⟩ true s.simpleKeyAllowed) ∧
        p1.string = p.string := by
      unfold plainBlankBody
      ev [h0]
      rw [if_neg (by decide), if_neg (by decide)]
      cases hl : s.leadingWhitespace with
      | false =>
        rw [if_neg (by decide), bind_run (linebreak_lf hr)]
        exact ⟨_, rfl, rfl⟩
      | true =>
        rw [if_pos rfl, bind_run (linebreak_lf hr)]
        exact ⟨_, rfl, rfl⟩
    obtain ⟨p', m, l, h1, h2, h3⟩ := ih (k := k) (p := p1) (s := adv s 1 ⟨s.mark.pos + 1, 1, s.mark.line + 1⟩ true s.simpleKeyAllowed)
      (adv_rest (w := [10]) hr rfl) (by simp at hk; omega) (by simp [adv])
    refine ⟨p', m, l, ?_, h2.trans hp1, h3⟩
    rw [loop_next hb, h1, adv_adv, Nat.add_comm]
    rfl
  | @crlf w _ ih =>
    intro k s p hr hk hc
    obtain ⟨k, rfl⟩ : ∃ j, k = j + 1 := ⟨k - 1, by omega⟩
    have h0 : s.src.peekz 0 = 13 := peekz_cons hr
    obtain ⟨p1, hb, hp1⟩ : ∃ p1, plainBlankBody 1 start p s = (.ok (.next p1), adv s 2 ⟨s.mark.pos + 2, 1, s.mark.line + 1⟩ true s.simpleKeyAllowed) ∧
        p1.string = p.string := by
      unfold plainBlankBody
      ev [h0]
      rw [if_neg (by decide), if_neg (by decide)]
      cases hl : s.leadingWhitespace with
      | false =>
        rw [if_neg (by decide), bind_run (linebreak_crlf hr)]
        exact ⟨_, rfl, rfl⟩
      | true =>
        rw [if_pos rfl, bind_run (linebreak_crlf hr)]
        exact ⟨_, rfl, rfl⟩
    obtain ⟨p', m, l, h1, h2, h3⟩ := ih (k := k) (p := p1) (s := adv s 2 ⟨s.mark.pos + 2, 1, s.mark.line + 1⟩ true s.simpleKeyAllowed)
      (adv_rest (w := [13, 10]) hr rfl) (by simp at hk; omega) (by simp [adv])
    refine ⟨p', m, l, ?_, h2.trans hp1, h3⟩
    rw [loop_next hb, h1, adv_adv, Nat.add_comm]
    rfl

theorem jcan {s : SSt} {c r} (h : s.src.rest = c :: r) (hc : JByte c) (b : Bool) : s.src.nextCanBePlainScalar b = true := by
  simp [Src.nextCanBePlainScalar, peekz_cons h, hc.1.2.2.2.2.2.2, hc.2]

/-- a value ends before this -/
def JEnd (n : Nat) (r : List Byte) : Prop := ∃ g q, r = g ++ q ∧ JWs g ∧ (q = [] ∨ (0 < n ∧ ∃ c q', q = c :: q' ∧ (c = 44 ∨ c = 93 ∨ c = 125)))

theorem JEnd.head {n r} (h : JEnd n r) (s : Src) (hs : s.rest = r) : (isBlankOrBreakz (s.peekz 0) || !s.nextCanBePlainScalar (decide (n > 0))) = true := by
  obtain ⟨g, q, rfl, hg, hq⟩ := h
  cases hg with
  | nil =>
    rcases hq with rfl | ⟨hn, c, q', rfl, hc⟩
    · simp [Src.peekz, hs, isBlankOrBreakz]
    · have h0 : s.peekz 0 = c := by simp [Src.peekz, hs]
      have hn' : decide (n > 0) = true := by simpa using hn
      rw [hn']
      rcases hc with rfl | rfl | rfl <;> simp [Src.nextCanBePlainScalar, h0, isFlow]
  | @blank c w hc _ =>
    have h0 : s.peekz 0 = c := by simp [Src.peekz, hs]
    rcases hc with rfl | rfl <;> simp [h0, isBlankOrBreakz, isBlank]
  | lf _ =>
    have h0 : s.peekz 0 = 10 := by simp [Src.peekz, hs]
    simp [h0, isBlankOrBreakz, isBreak]
  | crlf _ =>
    have h0 : s.peekz 0 = 13 := by simp [Src.peekz, hs]
    simp [h0, isBlankOrBreakz, isBreak]

theorem jword_run {r} : ∀ {w k s str}, (∀ b ∈ w, JByte b) → s.src.rest = w ++ r → JEnd s.flowLevel r → w.length < k →
    s.leadingWhitespace = false → loopM plainRunBody k str s = (.ok (str ++ w), on s w.length) := by
  intro w
  induction w with
  | nil =>
    intro k s str _ h hr hk hl
    obtain ⟨k, rfl⟩ : ∃ j, k = j + 1 := ⟨k - 1, by omega⟩
    have hb : plainRunBody str s = (.ok (.done str), s) := by
      unfold plainRunBody
      ev [hr.head s.src h]
    rw [loop_done hb]
    simp [on_zero hl]
  | cons c w ih =>
    intro k s str hw h hr hk hl
    obtain ⟨k, rfl⟩ : ∃ j, k = j + 1 := ⟨k - 1, by omega⟩
    have hc := hw c List.mem_cons_self
    have hb : plainRunBody str s = (.ok (.next (str ++ [c])), on s 1) := by
      unfold plainRunBody
      ev [peekz_cons h, wordByte_blank hc.1, jcan h hc, Bool.not_true, Bool.or_self]
      rw [bind_run (skipNonBlank_on s)]
      rfl
    simp only [List.length_cons] at hk
    rw [loop_next hb, ih (s := on s 1) (fun b hb => hw b (List.mem_cons_of_mem _ hb)) (on_rest (w := [c]) h rfl) hr (by omega) rfl, on_on]
    simp [Nat.add_comm]

theorem jplain_content {cfg s m r w} (hw : w ≠ []) (hb : ∀ b ∈ w, JByte b) (hr : JEnd s.flowLevel r) (h : s.src.rest = w ++ r)
    (hk : w.length ≤ cfg.fuel) :
    plainContent cfg ⟨[], [], [], [], m⟩ s = (.ok ⟨w, [], [], [], (on s w.length).mark⟩, on s w.length) := by
  unfold plainContent
  obtain ⟨ws', hj, rfl⟩ := plainJoin_first (lw := s.leadingWhitespace) (str := []) (m := m) (ws := []) (fun _ => rfl)
  cases w with
  | nil => exact absurd rfl hw
  | cons c w =>
    rw [gets_bind]
    show (peekz 0 >>= fun c => _) s = _
    rw [hj]
    ev [peekz_cons h]
    rw [bind_run (skipNonBlank_on s)]
    simp only [List.length_cons] at hk
    rw [bind_run (jword_run (s := on s 1) (fun b hx => hb b (List.mem_cons_of_mem _ hx)) (on_rest (w := [c]) h rfl) hr (by omega) rfl), on_on]
    ev []
    simp [Nat.add_comm]

/-- the first iteration of `scan_plain_scalar` reads the word -/
theorem jplain_first {cfg start s m r w} (hw : w ≠ []) (hb : ∀ b ∈ w, JByte b) (hm : w ≠ [45]) (hd : ∀ b r', w = 45 :: b :: r' → b ≠ 45) (h46 : w.head? ≠ some 46)
    (hr : JEnd s.flowLevel r) (h : s.src.rest = w ++ r) (hk : w.length ≤ cfg.fuel) :
    plainBody cfg 1 start ⟨[], [], [], [], m⟩ s = plainAfter cfg 1 start ⟨w, [], [], [], (on s w.length).mark⟩ (on s w.length) := by
  unfold plainBody
  obtain ⟨c, w', rfl⟩ : ∃ c w', w = c :: w' := by cases w with | nil => exact absurd rfl hw | cons c w' => exact ⟨c, w', rfl⟩
  have h0 : s.src.peekz 0 = c := peekz_cons h
  have hc := hb c (by simp)
  have h1 : ((s.leadingWhitespace && s.src.nextIsDocumentIndicator) || s.src.peekz 0 == b%'#') = false := by
    have h35 : (c == 35) = false := by simpa using hc.1.2.2.2.2.2.1
    have h46' : c ≠ 46 := by simpa using h46
    rw [h0, h35]
    have : s.src.nextIsDocumentIndicator = false := by
      unfold Src.nextIsDocumentIndicator Src.nextIsThree
      by_cases h45 : c = 45
      · subst h45
        cases w' with
        | nil => exact absurd rfl hm
        | cons b r' =>
          have h1 : s.src.peekz 1 = b := by simp [Src.peekz, h]
          simp [h0, h1, hd b r' rfl]
      · simp [h0, h45, h46']
    simp [this]
  have h2 : (decide (s.flowLevel > 0) && s.src.peekz 0 == b%'-' && isFlow (s.src.peekz 1)) = false := by
    by_cases h45 : c = 45
    · subst h45
      cases w' with
      | nil => exact absurd rfl hm
      | cons b r' =>
        have h1 : s.src.peekz 1 = b := by simp [Src.peekz, h]
        simp [h1, (hb b (by simp)).2]
    · simp [h0, h45]
  have h3 : (!isBlankOrBreakz (s.src.peekz 0) && s.src.nextCanBePlainScalar (decide (s.flowLevel > 0))) = true := by
    rw [h0, wordByte_blank hc.1, jcan h hc]; rfl
  ev [h1, h2, h3]
  rw [bind_run (jplain_content hw hb hr h hk)]

theorem jplain_scan {cfg : Cfg} {s : SSt} {w g q} (hw : w ≠ []) (hb : ∀ b ∈ w, JByte b) (hm : w ≠ [45]) (hd : ∀ b r', w = 45 :: b :: r' → b ≠ 45) (h46 : w.head? ≠ some 46)
    (hg : JWs g) (hq : q = [] ∨ (0 < s.flowLevel ∧ ∃ c q', q = c :: q' ∧ (c = 44 ∨ c = 93 ∨ c = 125))) (hr : s.src.rest = w ++ (g ++ q))
    (hf : (w ++ g).length < cfg.fuel) (hc : 1 ≤ s.mark.col) (hi : s.indent = 0) (hI : s.indents = []) :
    ∃ sp m l a, scanPlainScalar cfg s = (.ok ⟨sp, .scalar .plain w⟩, adv s (w ++ g).length m l a) ∧ 1 ≤ m.col := by
  have hjq : TokenHead q := by
    rcases hq with rfl | ⟨_, c, r, rfl, h⟩
    · simp [TokenHead]
    · intro d hd
      simp at hd
      omega
  have hend : JEnd s.flowLevel (g ++ q) := ⟨g, q, rfl, hg, hq⟩
  have key : ∃ p' m l, loopM (plainBody cfg 1 s.mark) cfg.fuel ⟨[], [], [], [], s.mark⟩ s = (.ok p', adv s (w ++ g).length m l s.simpleKeyAllowed) ∧ p'.string = w ∧ 1 ≤ m.col := by
    obtain ⟨k, hk⟩ : ∃ k, cfg.fuel = k + 2 := ⟨cfg.fuel - 2, by simp at hf; have : 0 < w.length := List.length_pos_iff.2 hw; omega⟩
    have h1 := jplain_first (cfg := cfg) (start := s.mark) (m := s.mark) hw hb hm hd h46 hend hr (by simp at hf; omega)
    have hr1 : (on s w.length).src.rest = g ++ q := on_rest hr rfl
    have hcol : 1 ≤ (on s w.length).mark.col := by simp [on]; omega
    have hon : on s w.length = adv s w.length (on s w.length).mark false s.simpleKeyAllowed := rfl
    obtain ⟨p', m, l, h2, h3, h4⟩ := jplain_blanks (start := s.mark) hjq hg (k := cfg.fuel) (p := ⟨w, [], [], [], (on s w.length).mark⟩) hr1 (by simp at hf; omega) hcol
    -- at `q` the scalar ends
    have stop : ∀ (s' : SSt) (p : PlainSt), s'.src.rest = q → s'.flowLevel = s.flowLevel → plainAfter cfg 1 s.mark p s' = (.ok (.done p), s') ∧ plainBody cfg 1 s.mark p s' = (.ok (.done p), s') := by
      intro s' p hs' hfl
      have h0 := peekz_head hs'
      have hna : (isBlank (s'.src.peekz 0) || isBreak (s'.src.peekz 0)) = false := by
        rw [h0]
        rcases hq with rfl | ⟨_, c, r, rfl, h⟩
        · rfl
        · rcases h with rfl | rfl | rfl <;> rfl
      have ha : plainAfter cfg 1 s.mark p s' = (.ok (.done p), s') := by
        unfold plainAfter
        ev [hna]
      refine ⟨ha, ?_⟩
      unfold plainBody
      have e1 : ((s'.leadingWhitespace && s'.src.nextIsDocumentIndicator) || s'.src.peekz 0 == b%'#') = false := by
        unfold Src.nextIsDocumentIndicator Src.nextIsThree
        rw [h0]
        rcases hq with rfl | ⟨_, c, r, rfl, h⟩
        · simp
        · rcases h with rfl | rfl | rfl <;> simp
      have e2 : (decide (s'.flowLevel > 0) && s'.src.peekz 0 == b%'-' && isFlow (s'.src.peekz 1)) = false := by
        rw [h0]
        rcases hq with rfl | ⟨_, c, r, rfl, h⟩
        · simp
        · rcases h with rfl | rfl | rfl <;> simp
      have e3 : (!isBlankOrBreakz (s'.src.peekz 0) && s'.src.nextCanBePlainScalar (decide (s'.flowLevel > 0))) = false := by
        have := JEnd.head (n := s'.flowLevel) ⟨[], q, rfl, .nil, by rw [hfl]; exact hq⟩ s'.src hs'
        revert this
        cases isBlankOrBreakz (s'.src.peekz 0) <;> cases s'.src.nextCanBePlainScalar (decide (s'.flowLevel > 0)) <;> simp
      ev [e1, e2, e3]
      exact ha
    cases g with
    | nil =>
      refine ⟨⟨w, [], [], [], (on s w.length).mark⟩, (on s w.length).mark, false, ?_, rfl, hcol⟩
      rw [hk]
      refine (loop_done (h1.trans (stop (on s w.length) _ hr1 rfl).1)).trans ?_
      simp [← hon]
    | cons c g =>
      have h0 : (on s w.length).src.peekz 0 = c := peekz_cons hr1
      have hcb : (isBlank c || isBreak c) = true := by
        cases hg with
        | blank hc _ => rcases hc with rfl | rfl <;> rfl
        | lf _ => rfl
        | crlf _ => rfl
      have h5 : plainAfter cfg 1 s.mark ⟨w, [], [], [], (on s w.length).mark⟩ (on s w.length) = (.ok (.next p'), adv s (w ++ (c :: g)).length m l s.simpleKeyAllowed) := by
        unfold plainAfter
        ev [h0, hcb]
        rw [bind_run h2]
        have e : adv (on s w.length) (c :: g).length m l (on s w.length).simpleKeyAllowed = adv s (w ++ (c :: g)).length m l s.simpleKeyAllowed := by
          rw [hon, adv_adv, List.length_append]; rfl
        rw [e]
        have h3 : ((adv s (w ++ (c :: g)).length m l s.simpleKeyAllowed).flowLevel == 0 && decide ((adv s (w ++ (c :: g)).length m l s.simpleKeyAllowed).mark.col < 1)) = false := by
          rw [Bool.and_eq_false_iff, decide_eq_false_iff_not]; right; simp [adv]; omega
        ev [h3]
      have h6 := stop (adv s (w ++ (c :: g)).length m l s.simpleKeyAllowed) p' (adv_rest (by simp [hr]) rfl) rfl
      refine ⟨p', m, l, ?_, h3, h4⟩
      rw [hk, loop_next (h1.trans h5), loop_done h6.2]
  obtain ⟨p', m, l, h1, h2, h3⟩ := key
  unfold scanPlainScalar
  have e0 : unrollNonBlockIndents s = (.ok (), s) := by
    unfold unrollNonBlockIndents upd
    rcases s with ⟨⟩
    simp only at hI
    simp [hI, unrollNonBlock]
  rw [bind_run e0]
  have e1 : (decide (s.flowLevel > 0) && decide (s.mark.col < 0 + 1)) = false := by
    have : decide (s.mark.col < 0 + 1) = false := decide_eq_false (by omega)
    rw [this, Bool.and_false]
  ev [hi, e1, Nat.zero_add]
  rw [bind_run h1]
  have e2 : w.isEmpty = false := by simpa using hw
  have e3 : (adv s (w ++ g).length m l s.simpleKeyAllowed).leadingWhitespace = l := rfl
  unfold setAllowed
  cases l <;> ev [e3, h2, e2] <;> exact ⟨_, m, _, _, rfl, h3⟩

end Verif.Scanner
