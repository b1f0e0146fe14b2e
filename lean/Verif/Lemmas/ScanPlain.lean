import Verif.Lemmas.ScanQuoted
/-!
# Gaps between tokens, and plain scalars on one line
-/
namespace Verif.Scanner
open Verif Verif.CharUtils Verif.Source Verif.Emitter

/-- the position after a run of spaces and line feeds -/
def gapMark (m : Marker) : List Byte → Marker
  | [] => m
  | c :: w => if c = 10 then gapMark ⟨m.pos + 1, 1, m.line + 1⟩ w else gapMark { m with pos := m.pos + 1, col := m.col + 1 } w

/-- the state after a run of spaces and line feeds -/
def gap (s : SSt) (w : List Byte) : SSt :=
  { s with src := s.src.skip w.length, mark := gapMark s.mark w, leadingWhitespace := s.leadingWhitespace || w.contains 10,
           simpleKeyAllowed := s.simpleKeyAllowed || w.contains 10 }

/-- the next byte starts a token, or there is none -/
def TokenHead (q : List Byte) : Prop := ∀ c, q.head? = some c → c ≠ 0 ∧ c ≠ 32 ∧ c ≠ 9 ∧ c ≠ 10 ∧ c ≠ 13 ∧ c ≠ 35

theorem peekz_head {s : SSt} {q} (h : s.src.rest = q) : s.src.peekz 0 = q.headD 0 := by
  rw [Src.peekz, h]; cases q <;> rfl

theorem gap_run {q} (hq : TokenHead q) : ∀ {w k s}, (∀ b ∈ w, b = 32 ∨ b = 10) → s.src.rest = w ++ q → w.length < k → s.flowLevel = 0 →
    loopM skipToNextTokenBody k () s = (.ok (), gap s w) := by
  intro w
  induction w with
  | nil =>
    intro k s _ hr hk _
    obtain ⟨k, rfl⟩ : ∃ j, k = j + 1 := ⟨k - 1, by omega⟩
    have h0 := peekz_head hr
    have : s.src.peekz 0 ≠ 9 ∧ s.src.peekz 0 ≠ 32 ∧ s.src.peekz 0 ≠ 10 ∧ s.src.peekz 0 ≠ 13 ∧ s.src.peekz 0 ≠ 35 := by
      rw [h0]
      cases q with
      | nil => simp
      | cons c q => have := hq c rfl; simp [this]
    rw [loop_done (b := ()) (s1 := s) (by unfold skipToNextTokenBody; ev [this, false_and, or_self])]
    simp [gap, gapMark, Src.skip]
  | cons c w ih =>
    intro k s hw hr hk hf
    obtain ⟨k, rfl⟩ : ∃ j, k = j + 1 := ⟨k - 1, by omega⟩
    have h0 : s.src.peekz 0 = c := peekz_cons hr
    have hw' : ∀ b ∈ w, b = 32 ∨ b = 10 := fun b hb => hw b (List.mem_cons_of_mem _ hb)
    simp only [List.length_cons] at hk
    rcases hw c (List.mem_cons_self) with rfl | rfl
    · have hb : skipToNextTokenBody () s = (.ok (.next ()), { s with src := s.src.skip 1, mark := { s.mark with pos := s.mark.pos + 1, col := s.mark.col + 1 } }) := by
        unfold skipToNextTokenBody skipBlank
        ev [h0]
        simp
      refine (loop_next hb).trans ((ih hw' ?_ (by omega) ?_).trans ?_)
      · simp [Src.skip, hr]
      · exact hf
      simp [gap, gapMark, Src.skip, Nat.add_comm, Nat.add_left_comm]
    · have hb : skipToNextTokenBody () s = (.ok (.next ()), { s with src := s.src.skip 1, mark := ⟨s.mark.pos + 1, 1, s.mark.line + 1⟩, leadingWhitespace := true, simpleKeyAllowed := true }) := by
        unfold skipToNextTokenBody skipLinebreak setAllowed
        ev [h0]
        simp [hf]
        rfl
      refine (loop_next hb).trans ((ih hw' ?_ (by omega) ?_).trans ?_)
      · simp [Src.skip, hr]
      · exact hf
      simp [gap, gapMark, Src.skip, Nat.add_comm, Nat.add_left_comm]

/-! ## Plain scalars -/

/-- a byte inside a word of a plain scalar -/
def WordByte (c : Byte) : Prop := c ≠ 0 ∧ c ≠ 9 ∧ c ≠ 10 ∧ c ≠ 13 ∧ c ≠ 32 ∧ c ≠ 35 ∧ c ≠ 58

/-- a word ends before this -/
def WordEnd (r : List Byte) : Prop := r = [] ∨ (∃ r', r = 32 :: r') ∨ (∃ r', r = 10 :: r') ∨
  (∃ r', r = 58 :: r' ∧ ∃ b r'', r' = b :: r'' ∧ (b = 32 ∨ b = 10))

theorem canBe {s : SSt} {c r} (h : s.src.rest = c :: r) (hc : c ≠ 58) (hf : s.flowLevel = 0) :
    s.src.nextCanBePlainScalar (decide (s.flowLevel > 0)) = true := by
  simp [Src.nextCanBePlainScalar, peekz_cons h, hc, hf]

theorem wordByte_blank {c} (h : WordByte c) : isBlankOrBreakz c = false := by
  obtain ⟨h1, h2, h3, h4, h5, -⟩ := h
  simp [isBlankOrBreakz, isBlank, isBreak, h1, h2, h3, h4, h5]

theorem word_stop {s : SSt} {str r} (h : s.src.rest = r) (hr : WordEnd r) (hf : s.flowLevel = 0) :
    plainRunBody str s = (.ok (.done str), s) := by
  unfold plainRunBody
  have : (isBlankOrBreakz (s.src.peekz 0) || !s.src.nextCanBePlainScalar (decide (s.flowLevel > 0))) = true := by
    rcases hr with rfl | ⟨r', rfl⟩ | ⟨r', rfl⟩ | ⟨r', rfl, b, r'', rfl, hb⟩
    · simp [Src.peekz, h, isBlankOrBreakz]
    · simp [Src.peekz, h, isBlankOrBreakz, isBlank]
    · simp [Src.peekz, h, isBlankOrBreakz, isBreak]
    · have : s.src.peekz 1 = b := by simp [Src.peekz, h]
      have h0 : s.src.peekz 0 = 58 := by simp [Src.peekz, h]
      rcases hb with rfl | rfl <;> simp [Src.nextCanBePlainScalar, this, h0, isBlankOrBreakz, isBlank, isBreak]
  ev [this]

theorem word_run {r} (hr : WordEnd r) : ∀ {w k s str}, (∀ b ∈ w, WordByte b) → s.src.rest = w ++ r → w.length < k → s.flowLevel = 0 →
    s.leadingWhitespace = false → loopM plainRunBody k str s = (.ok (str ++ w), on s w.length) := by
  intro w
  induction w with
  | nil =>
    intro k s str _ h hk hf hl
    obtain ⟨k, rfl⟩ : ∃ j, k = j + 1 := ⟨k - 1, by omega⟩
    rw [loop_done (word_stop h hr hf)]
    simp [on_zero hl]
  | cons c w ih =>
    intro k s str hw h hk hf hl
    obtain ⟨k, rfl⟩ : ∃ j, k = j + 1 := ⟨k - 1, by omega⟩
    have hc := hw c List.mem_cons_self
    have hb : plainRunBody str s = (.ok (.next (str ++ [c])), on s 1) := by
      unfold plainRunBody
      ev [peekz_cons h, wordByte_blank hc, canBe h hc.2.2.2.2.2.2 hf, Bool.not_true, Bool.or_self]
      rw [bind_run (skipNonBlank_on s)]
      rfl
    simp only [List.length_cons] at hk
    rw [loop_next hb, ih (s := on s 1) (fun b hb => hw b (List.mem_cons_of_mem _ hb)) (on_rest (w := [c]) h rfl) (by omega) hf rfl, on_on]
    simp [Nat.add_comm]

theorem plainSpaces_run {ind start c r} (hc : WordByte c) : ∀ {n k s p}, s.leadingWhitespace = false →
    s.src.rest = List.replicate n 32 ++ c :: r → n < k →
    loopM (plainBlankBody ind start) k p s = (.ok { p with whitespaces := p.whitespaces ++ List.replicate n 32 }, on s n) := by
  intro n
  induction n with
  | zero =>
    intro k s p hl hr hk
    obtain ⟨k, rfl⟩ : ∃ j, k = j + 1 := ⟨k - 1, by omega⟩
    have h0 : s.src.peekz 0 = c := peekz_cons hr
    have hb : isBlankOrBreak c = false := by
      obtain ⟨h1, h2, h3, h4, h5, -⟩ := hc
      simp [isBlankOrBreak, h2, h3, h4, h5]
    rw [loop_done (b := p) (s1 := s) (by unfold plainBlankBody; ev [h0, hb])]
    simp [on_zero hl]
  | succ n ih =>
    intro k s p hl hr hk
    obtain ⟨k, rfl⟩ : ∃ j, k = j + 1 := ⟨k - 1, by omega⟩
    have h0 : s.src.peekz 0 = 32 := peekz_cons hr
    have hb : plainBlankBody ind start p s = (.ok (.next { p with whitespaces := p.whitespaces ++ [32] }), on s 1) := by
      unfold plainBlankBody
      ev [h0, hl]
      rw [if_neg (by decide), if_pos (by decide), bind_run (skipBlank_on hl)]
      rfl
    rw [loop_next hb, ih (s := on s 1) rfl (on_rest (w := [32]) (by simp [hr, List.replicate_succ]) rfl) (by omega), on_on]
    simp [List.replicate_succ, Nat.add_comm]

/-- words separated by spaces -/
inductive Words : List Byte → Prop
  | one {w} : w ≠ [] → (∀ b ∈ w, WordByte b) → Words w
  | more {w n t} : w ≠ [] → (∀ b ∈ w, WordByte b) → Words t → Words (w ++ (List.replicate (n + 1) 32 ++ t))

theorem Words.cons {t} (h : Words t) : ∃ c t', t = c :: t' ∧ WordByte c := by
  cases h with
  | one h hb =>
    cases t with
    | nil => exact absurd rfl h
    | cons c t => exact ⟨c, t, rfl, hb c List.mem_cons_self⟩
  | @more w n t h hb =>
    cases w with
    | nil => exact absurd rfl h
    | cons c w => exact ⟨c, _, rfl, hb c List.mem_cons_self⟩

theorem plainJoin_first {lw str ws m} (h : lw = true → ws = []) :
    ∃ ws', plainJoin lw ⟨str, [], [], ws, m⟩ = ⟨str ++ ws, [], [], ws', m⟩ ∧ ws' = [] := by
  cases lw with
  | true => obtain rfl := h rfl; exact ⟨_, by simp [plainJoin], rfl⟩
  | false => exact ⟨_, by simp [plainJoin], rfl⟩

/-- reading one word -/
theorem plainContent_run {cfg s str ws m r w} (hw : w ≠ []) (hb : ∀ b ∈ w, WordByte b) (hr : WordEnd r) (h : s.src.rest = w ++ r)
    (hk : w.length ≤ cfg.fuel) (hf : s.flowLevel = 0) (hl : s.leadingWhitespace = true → ws = []) :
    plainContent cfg ⟨str, [], [], ws, m⟩ s =
      (.ok ⟨str ++ ws ++ w, [], [], [], (on s w.length).mark⟩, on s w.length) := by
  unfold plainContent
  obtain ⟨ws', hj, rfl⟩ := plainJoin_first (str := str) (m := m) hl
  cases w with
  | nil => exact absurd rfl hw
  | cons c w =>
    rw [gets_bind]
    show (peekz 0 >>= fun c => _) s = _
    rw [hj]
    ev [peekz_cons h]
    rw [bind_run (skipNonBlank_on s)]
    simp only [List.length_cons] at hk
    rw [bind_run (word_run hr (s := on s 1) (fun b hx => hb b (List.mem_cons_of_mem _ hx)) (on_rest (w := [c]) h rfl) (by omega) hf rfl), on_on]
    ev []
    simp [Nat.add_comm]

theorem plainBody_content {cfg ind start s c r p} (h : s.src.rest = c :: r) (hc : WordByte c) (hf : s.flowLevel = 0)
    (hd : s.leadingWhitespace = true → s.src.nextIsDocumentIndicator = false) :
    plainBody cfg ind start p s = (do
      let p ← plainContent cfg p
      plainAfter cfg ind start p) s := by
  unfold plainBody
  have h1 : ((s.leadingWhitespace && s.src.nextIsDocumentIndicator) || s.src.peekz 0 == b%'#') = false := by
    rw [peekz_cons h]
    have : (c == 35) = false := by simpa using hc.2.2.2.2.2.1
    rw [this]
    cases hl : s.leadingWhitespace with
    | true => simp [hd hl]
    | false => rfl
  have h2 : (decide (s.flowLevel > 0) && s.src.peekz 0 == b%'-' && isFlow (s.src.peekz 1)) = false := by simp [hf]
  have h3 : (!isBlankOrBreakz (s.src.peekz 0) && s.src.nextCanBePlainScalar (decide (s.flowLevel > 0))) = true := by
    rw [peekz_cons h, wordByte_blank hc, canBe h hc.2.2.2.2.2.2 hf]; rfl
  ev [h1, h2, h3]

/-- The loop of `scan_plain_scalar` on words, followed by `post`; `F` is what happens there. -/
theorem words_run {cfg : Cfg} {ind start post} {F : SSt → SSt} (hp : WordEnd post) (hp' : ∀ r, post ≠ 32 :: r)
    (hF : ∀ {s : SSt} {p : PlainSt}, s.src.rest = post → s.leadingWhitespace = false → s.flowLevel = 0 →
      ∃ p', (plainAfter cfg ind start p s = (.ok (.done p'), F s) ∨
        (plainAfter cfg ind start p s = (.ok (.next p'), F s) ∧ plainBody cfg ind start p' (F s) = (.ok (.done p'), F s))) ∧ p'.string = p.string) {t} (ht : Words t) :
    ∀ {k s str ws m}, s.src.rest = t ++ post → t.length < k → t.length ≤ cfg.fuel → s.flowLevel = 0 → ind ≤ s.mark.col + 1 →
    (s.leadingWhitespace = true → ws = [] ∧ s.src.nextIsDocumentIndicator = false) →
    ∃ p', loopM (plainBody cfg ind start) k ⟨str, [], [], ws, m⟩ s = (.ok p', F (on s t.length)) ∧ p'.string = str ++ ws ++ t := by
  induction ht with
  | @one w hw hb =>
    intro k s str ws m h hk hfu hf hi hl
    obtain ⟨k, rfl⟩ : ∃ j, k = j + 1 := ⟨k - 1, by omega⟩
    obtain ⟨c, w', rfl, hc⟩ := (Words.one hw hb).cons
    obtain ⟨p', e1, e2⟩ := hF (s := on s (c :: w').length) (p := ⟨str ++ ws ++ (c :: w'), [], [], [], (on s (c :: w').length).mark⟩) (on_rest h rfl) rfl hf
    have e0 : plainBody cfg ind start ⟨str, [], [], ws, m⟩ s = plainAfter cfg ind start ⟨str ++ ws ++ (c :: w'), [], [], [], (on s (c :: w').length).mark⟩ (on s (c :: w').length) := by
      rw [plainBody_content (by rw [h]; rfl) hc hf (fun x => (hl x).2), bind_run (plainContent_run hw hb hp h (by omega) hf (fun x => (hl x).1))]
    refine ⟨p', ?_, e2⟩
    rcases e1 with e1 | ⟨e1, e3⟩
    · exact loop_done (e0.trans e1)
    · obtain ⟨k, rfl⟩ : ∃ j, k = j + 1 := ⟨k - 1, by simp at hk; omega⟩
      exact (loop_next (e0.trans e1)).trans (loop_done e3)
  | @more w n t hw hb ht ih =>
    intro k s str ws m h hk hfu hf hi hl
    obtain ⟨k, rfl⟩ : ∃ j, k = j + 1 := ⟨k - 1, by omega⟩
    obtain ⟨c, w', rfl, hc⟩ := (Words.one hw hb).cons
    obtain ⟨d, t', rfl, hd⟩ := ht.cons
    simp only [List.length_append, List.length_replicate, List.length_cons] at hk hfu
    have e0 : s.src.rest = (c :: w') ++ (32 :: (List.replicate n 32 ++ (d :: t') ++ post)) := by
      rw [h]; simp [List.replicate_succ]
    have hr1 : (on s (c :: w').length).src.rest = List.replicate (n + 1) 32 ++ d :: (t' ++ post) := by
      rw [on_rest e0 rfl]; simp [List.replicate_succ]
    have hafter : plainAfter cfg ind start ⟨str ++ ws ++ (c :: w'), [], [], [], (on s (c :: w').length).mark⟩ (on s (c :: w').length) =
        (.ok (.next ⟨str ++ ws ++ (c :: w'), [], [], List.replicate (n + 1) 32, (on s (c :: w').length).mark⟩), on s ((c :: w').length + (n + 1))) := by
      unfold plainAfter
      have h0 : (on s (c :: w').length).src.peekz 0 = 32 := peekz_cons hr1
      ev [h0]
      rw [if_pos (by decide), bind_run (plainSpaces_run hd rfl hr1 (by omega)), on_on]
      have h3 : ((on s ((c :: w').length + (n + 1))).flowLevel == 0 && decide ((on s ((c :: w').length + (n + 1))).mark.col < ind)) = false := by
        rw [Bool.and_eq_false_iff, decide_eq_false_iff_not]; right; simp [on]; omega
      ev [h3]
      simp
    have hb1 : plainBody cfg ind start ⟨str, [], [], ws, m⟩ s =
        (.ok (.next ⟨str ++ ws ++ (c :: w'), [], [], List.replicate (n + 1) 32, (on s (c :: w').length).mark⟩), on s ((c :: w').length + (n + 1))) := by
      rw [plainBody_content (by rw [h]; rfl) hc hf (fun x => (hl x).2),
        bind_run (plainContent_run hw hb (.inr (.inl ⟨_, rfl⟩)) e0 (by simp; omega) hf (fun x => (hl x).1)), hafter]
    obtain ⟨p', e1, e2⟩ := ih (k := k) (s := on s ((c :: w').length + (n + 1))) (str := str ++ ws ++ (c :: w')) (ws := List.replicate (n + 1) 32)
      (m := (on s (c :: w').length).mark) (on_rest (w := (c :: w') ++ List.replicate (n + 1) 32) (by rw [h]; simp) (by simp; omega))
      (by simp; omega) (by simp; omega) hf (by simp [on]; omega) (fun x => by cases x)
    refine ⟨p', ?_, by rw [e2]; simp⟩
    rw [loop_next hb1, e1, on_on]
    simp [Nat.add_assoc, Nat.add_comm, Nat.add_left_comm]

theorem plainAfter_stop {cfg ind start} {s : SSt} {p : PlainSt} (h : s.src.rest = [] ∨ ∃ r, s.src.rest = 58 :: r) :
    plainAfter cfg ind start p s = (.ok (.done p), s) := by
  unfold plainAfter
  have : (isBlank (s.src.peekz 0) || isBreak (s.src.peekz 0)) = false := by
    rcases h with h | ⟨r, h⟩ <;> simp [Src.peekz, h, isBlank, isBreak]
  ev [this]

/-- the state of the plain scalar scanner after a line feed and spaces -/
def foldGap (s : SSt) (n : Nat) : SSt :=
  { s with src := s.src.skip (n + 1), mark := ⟨s.mark.pos + 1 + n, 1 + n, s.mark.line + 1⟩, leadingWhitespace := true }

theorem indent_run {ind start q} (hq : TokenHead q) : ∀ {n k s p}, s.leadingWhitespace = true → s.src.rest = List.replicate n 32 ++ q → n < k →
    loopM (plainBlankBody ind start) k p s = (.ok p, { s with src := s.src.skip n, mark := { s.mark with pos := s.mark.pos + n, col := s.mark.col + n } }) := by
  intro n
  induction n with
  | zero =>
    intro k s p hl hr hk
    obtain ⟨k, rfl⟩ : ∃ j, k = j + 1 := ⟨k - 1, by omega⟩
    have h0 := peekz_head hr
    have hb : isBlankOrBreak (s.src.peekz 0) = false := by
      rw [h0]
      cases q with
      | nil => rfl
      | cons c q => have := hq c rfl; simp [isBlankOrBreak, this]
    rw [loop_done (b := p) (s1 := s) (by unfold plainBlankBody; ev [hb])]
    simp [Src.skip]
  | succ n ih =>
    intro k s p hl hr hk
    obtain ⟨k, rfl⟩ : ∃ j, k = j + 1 := ⟨k - 1, by omega⟩
    have h0 : s.src.peekz 0 = 32 := peekz_cons hr
    have hb : plainBlankBody ind start p s = (.ok (.next p), { s with src := s.src.skip 1, mark := { s.mark with pos := s.mark.pos + 1, col := s.mark.col + 1 } }) := by
      unfold plainBlankBody skipBlank
      ev [h0, hl]
      rw [if_neg (by decide), if_pos (by decide), if_neg (by decide), if_neg (by simp)]
    refine (loop_next hb).trans ((ih (by exact hl) (by simp [Src.skip, hr, List.replicate_succ]) (by omega)).trans ?_)
    simp [Src.skip, Nat.add_comm, Nat.add_left_comm]

theorem plainAfter_fold {cfg : Cfg} {ind start q n} (hq : TokenHead q) {s : SSt} {p : PlainSt} (h : s.src.rest = 10 :: (List.replicate n 32 ++ q))
    (hl : s.leadingWhitespace = false) (hf : s.flowLevel = 0) (hk : n + 1 < cfg.fuel) (hi : n + 1 < ind) :
    ∃ p', plainAfter cfg ind start p s = (.ok (.done p'), foldGap s n) ∧ p'.string = p.string := by
  refine ⟨{ p with whitespaces := [], leadingBreak := p.leadingBreak ++ [10] }, ?_, rfl⟩
  unfold plainAfter
  have h0 : s.src.peekz 0 = 10 := peekz_cons h
  obtain ⟨k, hk'⟩ : ∃ j, cfg.fuel = j + 1 := ⟨cfg.fuel - 1, by omega⟩
  have hb : plainBlankBody ind start p s = (.ok (.next { p with whitespaces := [], leadingBreak := p.leadingBreak ++ [10] }),
      { s with src := s.src.skip 1, mark := ⟨s.mark.pos + 1, 1, s.mark.line + 1⟩, leadingWhitespace := true }) := by
    unfold plainBlankBody skipLinebreak
    ev [h0, hl]
    rw [if_neg (by decide), if_neg (by decide)]
    rfl
  ev [h0]
  rw [if_pos (by decide), hk', bind_run ((loop_next hb).trans (indent_run hq (n := n) rfl (by simp [Src.skip, h]) (by omega)))]
  have h3 : (s.flowLevel == 0 && decide (1 + n < ind)) = true := by simp [hf]; omega
  ev [h3]
  simp [foldGap, Src.skip, Nat.add_comm, Nat.add_left_comm]

/-- `---` or `...`, and after it white space or the end -/
def DocMark (q : List Byte) : Prop := (q.take 3 = bs!"---" ∨ q.take 3 = bs!"...") ∧ isBlankOrBreakz ((q.drop 3).headD 0) = true

instance (q) : Decidable (DocMark q) := inferInstanceAs (Decidable (_ ∧ _))

theorem DocMark.cons {q} (h : DocMark q) : ∃ x r, (x = 45 ∨ x = 46) ∧ q = x :: x :: x :: r ∧ isBlankOrBreakz (r.headD 0) = true := by
  unfold DocMark at h
  match q, h with
  | a :: b :: c :: r, ⟨h1, h2⟩ =>
    simp at h1 h2
    rcases h1 with ⟨rfl, rfl, rfl⟩ | ⟨rfl, rfl, rfl⟩
    · exact ⟨45, r, .inl rfl, rfl, by simpa using h2⟩
    · exact ⟨46, r, .inr rfl, rfl, by simpa using h2⟩
  | [], ⟨h1, _⟩ => simp at h1
  | [a], ⟨h1, _⟩ => simp at h1
  | [a, b], ⟨h1, _⟩ => simp at h1

theorem DocMark.indicator {q} (h : DocMark q) {s : Src} (hr : s.rest = q) : s.nextIsDocumentIndicator = true := by
  obtain ⟨x, r, hx, rfl, h2⟩ := h.cons
  have h3 : isBlankOrBreakz (s.peekz 3) = true := by
    rw [← h2]; cases r <;> simp [Src.peekz, hr]
  rcases hx with rfl | rfl <;> simp [Src.nextIsDocumentIndicator, Src.nextIsThree, h3] <;> simp [Src.peekz, hr]

theorem DocMark.head {q} (h : DocMark q) : TokenHead q ∧ q ≠ [] := by
  obtain ⟨x, r, hx, rfl, h2⟩ := h.cons
  rcases hx with rfl | rfl <;> simp [TokenHead]

theorem plainAfter_mark {cfg : Cfg} {start q} (hq : DocMark q) {s : SSt} {p : PlainSt} (h : s.src.rest = 10 :: q)
    (hl : s.leadingWhitespace = false) (hf : s.flowLevel = 0) (hk : 1 < cfg.fuel) :
    ∃ p', (plainAfter cfg 1 start p s = (.ok (.next p'), foldGap s 0) ∧ plainBody cfg 1 start p' (foldGap s 0) = (.ok (.done p'), foldGap s 0)) ∧ p'.string = p.string := by
  refine ⟨{ p with whitespaces := [], leadingBreak := p.leadingBreak ++ [10] }, ⟨?_, ?_⟩, rfl⟩
  · unfold plainAfter
    have h0 : s.src.peekz 0 = 10 := peekz_cons h
    obtain ⟨k, hk'⟩ : ∃ j, cfg.fuel = j + 1 := ⟨cfg.fuel - 1, by omega⟩
    have hb : plainBlankBody 1 start p s = (.ok (.next { p with whitespaces := [], leadingBreak := p.leadingBreak ++ [10] }),
        { s with src := s.src.skip 1, mark := ⟨s.mark.pos + 1, 1, s.mark.line + 1⟩, leadingWhitespace := true }) := by
      unfold plainBlankBody skipLinebreak
      ev [h0, hl]
      rw [if_neg (by decide), if_neg (by decide)]
      rfl
    ev [h0]
    rw [if_pos (by decide), hk', bind_run ((loop_next hb).trans (indent_run (q := q) hq.head.1 (n := 0) rfl (by simp [Src.skip, h]) (by omega)))]
    ev [Nat.lt_irrefl, decide_false, Bool.and_false]
    simp [foldGap, Src.skip]
  · have h1 : (foldGap s 0).src.rest = q := by simp [foldGap, Src.skip, h]
    have h2 : ((foldGap s 0).leadingWhitespace && (foldGap s 0).src.nextIsDocumentIndicator) = true := by
      rw [hq.indicator h1]; rfl
    unfold plainBody
    ev [h2, Bool.true_or]

/-- the state after reading `m` -/
def pass (s : SSt) (m : List Byte) (l : Bool) : SSt :=
  { s with src := s.src.skip m.length, mark := gapMark s.mark m, leadingWhitespace := l }

theorem gapMark_append (m : Marker) (a b : List Byte) : gapMark m (a ++ b) = gapMark (gapMark m a) b := by
  induction a generalizing m with
  | nil => rfl
  | cons c a ih =>
    rw [List.cons_append, gapMark, gapMark]
    split <;> rw [ih]

theorem pass_pass (s : SSt) (a b : List Byte) (l l' : Bool) : pass (pass s a l) b l' = pass s (a ++ b) l' := by
  simp only [pass, gapMark_append, List.length_append]
  simp [Src.skip, Nat.add_assoc]

theorem pass_rest {s : SSt} {a r l} (h : s.src.rest = a ++ r) : (pass s a l).src.rest = r := by
  simp [pass, Src.skip, h]

theorem pass_nil (s : SSt) : pass s [] s.leadingWhitespace = s := by
  simp [pass, gapMark, Src.skip]

end Verif.Scanner
