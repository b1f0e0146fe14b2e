import Verif.Lemmas.ScanEval
import Verif.Lemmas.Quotes
import Verif.Spec.ScanInputs
/-!
# Reading back what `escape_str` writes
-/
namespace Verif.Scanner
open Verif Verif.CharUtils Verif.Source Verif.Emitter

/-- `n` bytes further on the same line -/
def on (s : SSt) (n : Nat) : SSt :=
  { s with
    src := s.src.skip n
    mark := { s.mark with pos := s.mark.pos + n, col := s.mark.col + n }
    leadingWhitespace := false }

theorem on_on (s : SSt) (a b : Nat) : on (on s a) b = on s (a + b) := by
  simp [on, Src.skip, Nat.add_comm]
  omega

theorem on_zero {s : SSt} (h : s.leadingWhitespace = false) : on s 0 = s := by
  simp [on, Src.skip, ← h]

theorem on_rest {s : SSt} {n w r} (h : s.src.rest = w ++ r) (hn : n = w.length) : (on s n).src.rest = r := by
  simp [on, Src.skip, h, hn]

theorem peekz_cons {s : SSt} {c r} (h : s.src.rest = c :: r) : s.src.peekz 0 = c := by simp [Src.peekz, h]

theorem skipBlank_on {s : SSt} (h : s.leadingWhitespace = false) : skipBlank s = (.ok (), on s 1) := by
  simp [skipBlank, upd, on, ← h]

theorem flowChars_plain {s : SSt} {b r str start} (h : s.src.rest = b :: r) (h1 : isBlankOrBreakz b = false) (h2 : b ≠ 34)
    (h3 : b ≠ 92) : flowCharsBody false start str s = (.ok (.next (str ++ [b])), on s 1) := by
  unfold flowCharsBody skipNonBlank
  ev [peekz_cons h, h1, h2, h3]
  simp
  rfl

theorem flowChars_stop {s : SSt} {b r str start} (h : s.src.rest = b :: r) (h1 : isBlankOrBreakz b = true ∨ b = 34) :
    flowCharsBody false start str s = (.ok (.done (str, false)), s) := by
  unfold flowCharsBody
  ev [peekz_cons h]
  rcases h1 with h1 | rfl
  · simp [h1]
  · simp

theorem hexDigit_ok (n : Nat) (h : n < 16) : isAsciiHexdigit (hexDigit n) = true ∧ asHex (hexDigit n) = some n := by
  revert n; decide

theorem flowChars_esc {s : SSt} {b e r str start} (he : escapeOf b = some e) (h : s.src.rest = e ++ r) :
    flowCharsBody false start str s = (.ok (.next (str ++ [b])), on s e.length) := by
  have simple : ∀ c, e = [92, c] → isBreak c = false → simpleEscape c = some b → b < 128 →
      flowCharsBody false start str s = (.ok (.next (str ++ [b])), on s e.length) := by
    intro c hc hb hs hlt
    subst hc
    have h0 : s.src.peekz 0 = 92 := by simp [Src.peekz, h]
    have h1 : s.src.peekz 1 = c := by simp [Src.peekz, h]
    unfold flowCharsBody resolveEscape skipN
    ev [h0, h1, hb, hs]
    simp [isBlankOrBreakz, isBlank, isBreak, Utf8.encode, hlt]
    rfl
  unfold escapeOf at he
  split at he
  · subst b; simp at he; exact simple 34 he.symm rfl rfl (by decide)
  split at he
  · subst b; simp at he; exact simple 92 he.symm rfl rfl (by decide)
  split at he
  · subst b; simp at he; exact simple 98 he.symm rfl rfl (by decide)
  split at he
  · subst b; simp at he; exact simple 116 he.symm rfl rfl (by decide)
  split at he
  · subst b; simp at he; exact simple 110 he.symm rfl rfl (by decide)
  split at he
  · subst b; simp at he; exact simple 102 he.symm rfl rfl (by decide)
  split at he
  · subst b; simp at he; exact simple 114 he.symm rfl rfl (by decide)
  split at he
  · rename_i hb
    simp at he
    have hd1 := hexDigit_ok (b / 16) (by omega)
    have hd2 := hexDigit_ok (b % 16) (by omega)
    subst he
    have h0 : s.src.peekz 0 = 92 := by simp [Src.peekz, h]
    have h1 : s.src.peekz 1 = 117 := by simp [Src.peekz, h]
    unfold flowCharsBody resolveEscape hexEscape skipN
    have hv : hexValue (s.src.skip 2) 4 0 0 = some (some b) := by
      have p0 : (s.src.skip 2).peekz 0 = 48 := by simp [Src.peekz, Src.skip, h]
      have p1 : (s.src.skip 2).peekz 1 = 48 := by simp [Src.peekz, Src.skip, h]
      have p2 : (s.src.skip 2).peekz 2 = hexDigit (b / 16) := by simp [Src.peekz, Src.skip, h]
      have p3 : (s.src.skip 2).peekz 3 = hexDigit (b % 16) := by simp [Src.peekz, Src.skip, h]
      have hz : isAsciiHexdigit 48 = true ∧ asHex 48 = some 0 := by decide
      simp only [hexValue, p0, p1, p2, p3, hd1, hd2, hz, if_true, Nat.zero_add]
      simp only [Option.some.injEq]
      omega
    have hc : Utf8.charFromU32 b = some b := by simp [Utf8.charFromU32]; omega
    ev [h0, h1]
    simp [isBlankOrBreakz, isBlank, isBreak, simpleEscape]
    rw [bind_run (a := b) (s1 := on s 6)]
    · ev []
      simp [Utf8.encode, show b < 128 by omega]
    · ev [hv, hc]
      simp [on, Src.skip, h]
  · simp at he

theorem escapeLoop_cons {b v m} (h : escapeLoop (b :: v) = some m) :
    ∃ e m', escapeLoop v = some m' ∧ m = e ++ m' ∧
      ((needsEscape b = true ∧ escapeOf b = some e) ∨ (needsEscape b = false ∧ e = [b])) := by
  unfold escapeLoop at h
  split at h
  · rename_i hb
    split at h
    · rename_i e m' h1 h2
      simp at h
      exact ⟨e, m', h2, h.symm, .inl ⟨hb, h1⟩⟩
    · simp at h
  · rename_i hb
    cases hm : escapeLoop v with
    | none => simp [hm] at h
    | some m' =>
      simp [hm] at h
      exact ⟨[b], m', rfl, h.symm, .inr ⟨by simpa using hb, rfl⟩⟩

theorem escapeOf_len {b e} (h : escapeOf b = some e) : e = 92 :: e.tail ∧ 1 ≤ e.length := by
  unfold escapeOf at h
  repeat' split at h
  all_goals simp at h
  all_goals subst h; simp

/-- the characters up to the next space or the closing quote -/
theorem chars_run {start c r} (hc : c = 32 ∨ c = 34) : ∀ {v m k s str}, escapeLoop v = some m → 32 ∉ v → s.leadingWhitespace = false →
    s.src.rest = m ++ c :: r → m.length < k → loopM (flowCharsBody false start) k str s = (.ok (str ++ v, false), on s m.length) := by
  intro v
  induction v with
  | nil =>
    intro m k s str h _ hl hr hk
    simp [escapeLoop] at h
    subst h
    obtain ⟨k, rfl⟩ : ∃ j, k = j + 1 := ⟨k - 1, by omega⟩
    rw [loop_done (flowChars_stop hr (by rcases hc with rfl | rfl <;> simp [isBlankOrBreakz, isBlank]))]
    simp [on_zero hl]
  | cons b v ih =>
    intro m k s str h hv hl hr hk
    obtain ⟨k, rfl⟩ : ∃ j, k = j + 1 := ⟨k - 1, by omega⟩
    obtain ⟨e, m', h1, rfl, h2⟩ := escapeLoop_cons h
    have hstep : flowCharsBody false start str s = (.ok (.next (str ++ [b])), on s e.length) := by
      rcases h2 with ⟨_, h2⟩ | ⟨h2, rfl⟩
      · exact flowChars_esc h2 (by rw [hr, List.append_assoc])
      · simp [needsEscape] at h2
        simp at hv
        refine flowChars_plain (r := m' ++ c :: r) (by simp [hr]) ?_ (by omega) (by omega)
        simp [isBlankOrBreakz, isBlank, isBreak]; omega
    have he : 1 ≤ e.length := by
      rcases h2 with ⟨_, h2⟩ | ⟨_, rfl⟩
      · exact (escapeOf_len h2).2
      · simp
    rw [loop_next hstep, ih h1 (by simp at hv; simp [hv]) rfl (on_rest (by rw [hr, List.append_assoc]) rfl)
      (by simp at hk; omega), on_on]
    simp

/-- a run of spaces -/
theorem blanks_run {c r} (hc : isBlank c = false ∧ isBreak c = false) : ∀ {n k s p}, p.leadingBlanks = false → s.leadingWhitespace = false →
    s.src.rest = List.replicate n 32 ++ c :: r → n < k →
    loopM flowBlankBody k p s = (.ok { p with whitespaces := p.whitespaces ++ List.replicate n 32 }, on s n) := by
  intro n
  induction n with
  | zero =>
    intro k s p hp hl hr hk
    obtain ⟨k, rfl⟩ : ∃ j, k = j + 1 := ⟨k - 1, by omega⟩
    have h0 : s.src.peekz 0 = c := peekz_cons hr
    rw [loop_done (b := p) (s1 := s) (by unfold flowBlankBody; ev [h0, hc])]
    simp [on_zero hl]
  | succ n ih =>
    intro k s p hp hl hr hk
    obtain ⟨k, rfl⟩ : ∃ j, k = j + 1 := ⟨k - 1, by omega⟩
    have h0 : s.src.peekz 0 = 32 := peekz_cons hr
    have hb : flowBlankBody p s = (.ok (.next { p with whitespaces := p.whitespaces ++ [32] }), on s 1) := by
      unfold flowBlankBody
      ev [h0, hp]
      rw [if_pos (by decide), bind_run (skipBlank_on hl)]
      ev []
    rw [loop_next hb, ih (s := on s 1) (by exact hp) rfl (on_rest (w := [32]) (by simp [hr, List.replicate_succ]) rfl) (by omega), on_on]
    simp [List.replicate_succ, Nat.add_comm]

theorem escapeLoop_append {a b m n} (ha : escapeLoop a = some m) (hb : escapeLoop b = some n) : escapeLoop (a ++ b) = some (m ++ n) := by
  induction a generalizing m with
  | nil => simp [escapeLoop] at ha; subst ha; simpa using hb
  | cons c a ih =>
    obtain ⟨e, m', h1, rfl, h2⟩ := escapeLoop_cons ha
    have := ih h1
    rw [List.cons_append]
    unfold escapeLoop
    rcases h2 with ⟨h2, h3⟩ | ⟨h2, rfl⟩
    · simp [h2, h3, this]
    · simp [h2, this]

theorem escapeLoop_split (v : List Byte) : ∃ m, escapeLoop v = some m := by
  have := escapeLoop_isSome v
  exact Option.isSome_iff_exists.1 this

theorem escapeLoop_spaces (n : Nat) : escapeLoop (List.replicate n 32) = some (List.replicate n 32) := by
  induction n with
  | zero => rfl
  | succ n ih => simp [List.replicate_succ, escapeLoop, needsEscape, ih]

theorem lead_spaces (v : List Byte) : ∃ n u, v = List.replicate n 32 ++ u ∧ u.head? ≠ some 32 := by
  induction v with
  | nil => exact ⟨0, [], rfl, by simp⟩
  | cons c v ih =>
    by_cases hc : c = 32
    · obtain ⟨n, u, rfl, hu⟩ := ih
      exact ⟨n + 1, u, by simp [hc, List.replicate_succ], hu⟩
    · exact ⟨0, c :: v, rfl, by simpa using hc⟩

theorem first_space (v : List Byte) : 32 ∉ v ∨ ∃ w u, v = w ++ 32 :: u ∧ 32 ∉ w := by
  induction v with
  | nil => left; simp
  | cons c v ih =>
    by_cases hc : c = 32
    · exact .inr ⟨[], v, by simp [hc], by simp⟩
    · rcases ih with h | ⟨w, u, rfl, h⟩
      · left; simp [h]; omega
      · exact .inr ⟨c :: w, u, rfl, by simp [h]; omega⟩

/-- a text is a word without spaces, then nothing or a run of spaces followed by something else -/
theorem split_spaces (v : List Byte) : 32 ∉ v ∨ ∃ w n u, v = w ++ (List.replicate (n + 1) 32 ++ u) ∧ 32 ∉ w ∧ u.head? ≠ some 32 := by
  rcases first_space v with h | ⟨w, u, rfl, h⟩
  · exact .inl h
  · obtain ⟨n, u', rfl, hu⟩ := lead_spaces u
    exact .inr ⟨w, n, u', by simp [List.replicate_succ], h, hu⟩

/-- the loop of `scan_flow_scalar` on what `escape_str` wrote -/
theorem flow_run {cfg : Cfg} {start r} : ∀ {N v m k s str}, v.length < N → escapeLoop v = some m → s.leadingWhitespace = false →
    s.src.rest = m ++ 34 :: r → m.length < k → m.length < cfg.fuel → 2 ≤ s.mark.col → s.indent ≤ s.mark.col →
    loopM (flowBody cfg false start) k ⟨str, [], [], [], false⟩ s = (.ok ⟨str ++ v, [], [], [], false⟩, on s m.length) := by
  intro N
  induction N with
  | zero =>
    intro v m k s str hN
    omega
  | succ N ih =>
    intro v m k s str hN h hl hr hk hf hc hi
    obtain ⟨k, rfl⟩ : ∃ j, k = j + 1 := ⟨k - 1, by omega⟩
    have hne : s.src.bufIsEmpty = false := by simp [Src.bufIsEmpty, hr]
    have hcol : (s.mark.col == 1) = false := by simp; omega
    have hind : decide (s.mark.col < s.indent) = false := by simp; omega
    rcases split_spaces v with hv | ⟨w, n, u, rfl, hw, hu⟩
    · refine loop_done ?_
      unfold flowBody
      ev [hne, hcol, hind, Bool.false_and]
      rw [bind_run (chars_run (.inr rfl) h hv hl hr hf)]
      have h0 : (on s m.length).src.peekz 0 = 34 := peekz_cons (on_rest hr rfl)
      ev [h0]
      simp
    · obtain ⟨mw, hmw⟩ := escapeLoop_split w
      obtain ⟨mu, hmu⟩ := escapeLoop_split u
      have hm : m = mw ++ (List.replicate (n + 1) 32 ++ mu) := by
        have := escapeLoop_append hmw (escapeLoop_append (escapeLoop_spaces (n + 1)) hmu)
        rw [h] at this
        exact Option.some.inj this
      subst hm
      simp at hk hf
      have hstep : flowBody cfg false start ⟨str, [], [], [], false⟩ s =
          (.ok (.next ⟨str ++ w ++ List.replicate (n + 1) 32, [], [], [], false⟩), on s (mw.length + (n + 1))) := by
        unfold flowBody
        ev [hne, hcol, hind, Bool.false_and]
        rw [bind_run (chars_run (c := 32) (r := List.replicate n 32 ++ mu ++ 34 :: r) (.inl rfl) hmw hw hl (by simp [hr, List.replicate_succ]) (by omega))]
        have h1 : (on s mw.length).src.rest = List.replicate (n + 1) 32 ++ (mu ++ 34 :: r) :=
          on_rest (by simp [hr]) rfl
        have h0 : (on s mw.length).src.peekz 0 = 32 := peekz_cons (by rw [h1, List.replicate_succ]; rfl)
        obtain ⟨c, r', hcr, hcc⟩ : ∃ c r', mu ++ 34 :: r = c :: r' ∧ (isBlank c = false ∧ isBreak c = false) := by
          cases u with
          | nil => simp [escapeLoop] at hmu; subst hmu; exact ⟨34, r, rfl, by decide⟩
          | cons b u =>
            obtain ⟨e, m', _, rfl, h2⟩ := escapeLoop_cons hmu
            rcases h2 with ⟨_, h2⟩ | ⟨h2, rfl⟩
            · have := (escapeOf_len h2).1
              rw [this]
              exact ⟨92, _, rfl, by decide⟩
            · simp at hu
              simp [needsEscape] at h2
              exact ⟨b, _, rfl, by simp [isBlank, isBreak]; omega⟩
        rw [hcr] at h1
        ev [h0]
        rw [bind_run (blanks_run hcc (by rfl) rfl h1 (by omega))]
        ev [on_on]
        simp [flowJoin]
      rw [loop_next hstep, ih (s := on s (mw.length + (n + 1))) (v := u) (m := mu) (by simp at hN; omega) hmu rfl
        (on_rest (w := mw ++ List.replicate (n + 1) 32) (by simp [hr]) (by simp)) (by omega) (by omega) (by simp [on]; omega)
        (by simp [on]; omega), on_on]
      simp [Nat.add_assoc]

/-- blanks and a comment, as `skip_ws_to_eol` reads them -/
theorem ws_spaces (n : Nat) (q : List Byte) (h : Bool) : wsToEol true (List.replicate n 32 ++ q) false h =
    ((wsToEol true q false (h || decide (1 ≤ n))).1 + n, (wsToEol true q false (h || decide (1 ≤ n))).2) := by
  induction n generalizing h with
  | zero => simp
  | succ n ih =>
    rw [List.replicate_succ, List.cons_append, wsToEol]
    simp only [if_true]
    rw [ih]
    simp
    omega

theorem takeWhile_next {p : Byte → Bool} {l : List Byte} {c} (h : l[(l.takeWhile p).length]? = some c) : p c = false := by
  induction l with
  | nil => simp at h
  | cons d l ih =>
    simp only [List.takeWhile] at h
    split at h
    · exact ih (by simpa using h)
    · rename_i hd; simp at h; rw [← h]; exact hd

/-- what may follow a quoted scalar -/
theorem follow_ok {inFlow : Bool} {post : List Byte} (h : Spec.MayFollow inFlow post) :
    ∃ n r, wsToEol true post false false = (n, .ok r) ∧ (∀ c, (post.drop n).head? = some c →
      (isBreakz c = true ∨ c = 58 ∨ (inFlow = true ∧ (c = 44 ∨ c = 93 ∨ c = 125)))) := by
  obtain ⟨n, q, rfl, h⟩ := h
  rw [ws_spaces]
  have plain : ∀ b : Bool, (∀ c, q.head? = some c → (isBreakz c = true ∨ c = 58 ∨ (inFlow = true ∧ (c = 44 ∨ c = 93 ∨ c = 125)))) →
      (∀ c, q.head? = some c → c ≠ 32 ∧ c ≠ 9 ∧ c ≠ 35) →
      ∃ m r, ((wsToEol true q false b).1 + n, (wsToEol true q false b).2) = (m, .ok r) ∧
        (∀ c, ((List.replicate n 32 ++ q).drop m).head? = some c →
          (isBreakz c = true ∨ c = 58 ∨ (inFlow = true ∧ (c = 44 ∨ c = 93 ∨ c = 125)))) := by
    intro b h1 h2
    refine ⟨n, (false, b), ?_, by simpa using h1⟩
    cases q with
    | nil => simp [wsToEol]
    | cons c q =>
      have := h2 c rfl
      simp [wsToEol, this]
  rcases h with rfl | ⟨c, q, rfl, h⟩
  · exact plain _ (by simp) (by simp)
  · rcases h with h | h | h | h | ⟨h1, h2⟩
    · subst h; exact plain _ (by simp [isBreakz]) (by simp)
    · subst h; exact plain _ (by simp [isBreakz]) (by simp)
    · subst h; exact plain _ (by simp) (by simp)
    · refine plain _ (by simp [h]) (by simp; omega)
    · subst h1
      simp only [wsToEol]
      simp [h2]
      intro c hc
      left
      rw [List.getElem?_append_right (by simp)] at hc
      simp only [List.length_replicate, Nat.add_sub_cancel, List.getElem?_cons_succ] at hc
      simpa using takeWhile_next hc

theorem skipNonBlank_on (s : SSt) : skipNonBlank s = (.ok (), on s 1) := rfl

theorem scanFlowScalar_ws {cfg : Cfg} {s v m post} (hm : escapeLoop v = some m) (hr : s.src.rest = 34 :: (m ++ 34 :: post))
    (hf : m.length < cfg.fuel) (hc : 1 ≤ s.mark.col) (hi : s.indent ≤ s.mark.col) (hp : Spec.MayFollow (decide (0 < s.flowLevel)) post) :
    ∃ n r, wsToEol true post false false = (n, .ok r) ∧ scanFlowScalar cfg false s =
      (.ok ⟨⟨s.mark, (on s (m.length + 2 + n)).mark⟩, .scalar .doubleQuote v⟩, on s (m.length + 2 + n)) := by
  obtain ⟨n, r, h1, h2⟩ := follow_ok hp
  refine ⟨n, r, h1, ?_⟩
  unfold scanFlowScalar
  ev []
  rw [bind_run (skipNonBlank_on s)]
  have e1 : (on s 1).src.rest = m ++ 34 :: post := on_rest (w := [34]) hr rfl
  rw [bind_run (flow_run (Nat.lt_succ_self _) hm rfl e1 hf hf (by simp [on]; omega) (by simp [on]; omega)), on_on, bind_run (skipNonBlank_on _), on_on]
  have e2 : (on s (1 + m.length + 1)).src.rest = post := on_rest (w := 34 :: m ++ [34]) (by simp [hr]) (by simp; omega)
  have e3 : skipWsToEol true false (on s (1 + m.length + 1)) = (.ok r, on (on s (1 + m.length + 1)) n) := by
    unfold skipWsToEol Src.skipWsToEol
    simp only [e2, h1]
    rfl
  rw [bind_run e3, on_on]
  have e4 : (on s (1 + m.length + 1 + n)).src.rest = post.drop n := by
    rw [← on_on]; simp only [on, Src.skip] at e2 ⊢; rw [e2]
  have hok : flowTrailingOk (on s (1 + m.length + 1 + n)) s.mark = true := by
    unfold flowTrailingOk
    cases hq : post.drop n with
    | nil =>
      have : (on s (1 + m.length + 1 + n)).src.peekz 0 = 0 := by simp [Src.peekz, e4, hq]
      simp [this, isBreakz]
    | cons c q =>
      have : (on s (1 + m.length + 1 + n)).src.peekz 0 = c := by simp [Src.peekz, e4, hq]
      rw [this]
      have := h2 c (by rw [hq]; rfl)
      rcases this with h | h | ⟨h, h'⟩
      · simp [h]
      · subst h
        by_cases hfl : s.flowLevel = 0
        · simp [hfl, on]
        · simp [on, show 0 < s.flowLevel by omega]
      · simp at h
        have hx : (c == 44 || c == 125 || c == 93) = true := by simp; omega
        simp [on, h, hx]
  ev [hok, Bool.not_true]
  simp [show 1 + m.length + 1 + n = m.length + 2 + n by omega]

theorem scanFlowScalar_escaped {cfg : Cfg} {s v m post} (hm : escapeLoop v = some m) (hr : s.src.rest = 34 :: (m ++ 34 :: post))
    (hf : m.length < cfg.fuel) (hc : 1 ≤ s.mark.col) (hi : s.indent ≤ s.mark.col) (hp : Spec.MayFollow (decide (0 < s.flowLevel)) post) :
    ∃ n, scanFlowScalar cfg false s =
      (.ok ⟨⟨s.mark, (on s (m.length + 2 + n)).mark⟩, .scalar .doubleQuote v⟩, on s (m.length + 2 + n)) := by
  obtain ⟨n, r, -, h⟩ := scanFlowScalar_ws hm hr hf hc hi hp
  exact ⟨n, h⟩

theorem scanFlowScalar_exact {cfg : Cfg} {s v m post r} (hm : escapeLoop v = some m) (hr : s.src.rest = 34 :: (m ++ 34 :: post))
    (hf : m.length < cfg.fuel) (hc : 1 ≤ s.mark.col) (hi : s.indent ≤ s.mark.col) (hp : Spec.MayFollow (decide (0 < s.flowLevel)) post)
    (hw : wsToEol true post false false = (0, .ok r)) : scanFlowScalar cfg false s =
      (.ok ⟨⟨s.mark, (on s (m.length + 2)).mark⟩, .scalar .doubleQuote v⟩, on s (m.length + 2)) := by
  obtain ⟨n, r', h1, h⟩ := scanFlowScalar_ws hm hr hf hc hi hp
  rw [hw] at h1
  obtain ⟨rfl, -⟩ := Prod.mk.inj h1
  exact h

end Verif.Scanner
