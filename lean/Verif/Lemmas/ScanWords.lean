import Verif.Lemmas.ScanLayout
/-!
# Plain scalars on one line, before any gap
-/
namespace Verif.Scanner
open Verif Verif.CharUtils Verif.Source Verif.Emitter

/-- a byte inside a word -/
def PByte (c : Byte) : Prop := c ≠ 0 ∧ c ≠ 9 ∧ c ≠ 10 ∧ c ≠ 13 ∧ c ≠ 32

theorem PByte.blank {c} (h : PByte c) : isBlankOrBreakz c = false := by
  obtain ⟨h1, h2, h3, h4, h5⟩ := h
  simp [isBlankOrBreakz, isBlank, isBreak, h1, h2, h3, h4, h5]

/-- a word: no blanks, not a comment, and no `:` at its end -/
structure PWord (w : List Byte) : Prop where
  ne : w ≠ []
  bytes : ∀ b ∈ w, PByte b
  hash : w.head? ≠ some 35
  colon : w.getLast? ≠ some 58

/-- a word ends before this -/
def PEnd (r : List Byte) : Prop := r = [] ∨ (∃ r', r = 32 :: r') ∨ (∃ r', r = 10 :: r') ∨
  (∃ r', r = 58 :: r' ∧ (r' = [] ∨ ∃ b r'', r' = b :: r'' ∧ (b = 32 ∨ b = 10)))

theorem canBe' {s : SSt} {c w r} (h : s.src.rest = c :: (w ++ r)) (hb : ∀ b ∈ w, PByte b) (hl : (c :: w).getLast? ≠ some 58) (hf : s.flowLevel = 0) :
    s.src.nextCanBePlainScalar (decide (s.flowLevel > 0)) = true := by
  by_cases hc : c = 58
  · subst hc
    cases w with
    | nil => simp at hl
    | cons d w =>
      have h1 : s.src.peekz 1 = d := by simp [Src.peekz, h]
      have := (hb d List.mem_cons_self).blank
      simp [Src.nextCanBePlainScalar, peekz_cons h, h1, this, hf]
  · exact canBe h hc hf

theorem pword_stop {s : SSt} {str r} (h : s.src.rest = r) (hr : PEnd r) :
    plainRunBody str s = (.ok (.done str), s) := by
  unfold plainRunBody
  have : (isBlankOrBreakz (s.src.peekz 0) || !s.src.nextCanBePlainScalar (decide (s.flowLevel > 0))) = true := by
    rcases hr with rfl | ⟨r', rfl⟩ | ⟨r', rfl⟩ | ⟨r', rfl, hb⟩
    · simp [Src.peekz, h, isBlankOrBreakz]
    · simp [Src.peekz, h, isBlankOrBreakz, isBlank]
    · simp [Src.peekz, h, isBlankOrBreakz, isBreak]
    · have h0 : s.src.peekz 0 = 58 := by simp [Src.peekz, h]
      have h1 : isBlankOrBreakz (s.src.peekz 1) = true := by
        rcases hb with rfl | ⟨b, r'', rfl, rfl | rfl⟩ <;> simp [Src.peekz, h, isBlankOrBreakz, isBlank, isBreak]
      simp [Src.nextCanBePlainScalar, h0, h1]
  ev [this]

theorem getLast_tail {c : Byte} {w : List Byte} (h : (c :: w).getLast? ≠ some 58) : w.getLast? ≠ some 58 := by
  cases w with
  | nil => simp
  | cons d w => simpa [List.getLast?_cons_cons] using h

theorem pword_run {r} (hr : PEnd r) : ∀ {w k s str}, (∀ b ∈ w, PByte b) → w.getLast? ≠ some 58 → s.src.rest = w ++ r → w.length < k → s.flowLevel = 0 →
    s.leadingWhitespace = false → loopM plainRunBody k str s = (.ok (str ++ w), on s w.length) := by
  intro w
  induction w with
  | nil =>
    intro k s str _ _ h hk hf hl
    obtain ⟨k, rfl⟩ : ∃ j, k = j + 1 := ⟨k - 1, by omega⟩
    rw [loop_done (pword_stop h hr)]
    simp [on_zero hl]
  | cons c w ih =>
    intro k s str hw hla h hk hf hl
    obtain ⟨k, rfl⟩ : ∃ j, k = j + 1 := ⟨k - 1, by omega⟩
    have hc := hw c List.mem_cons_self
    have hw' : ∀ b ∈ w, PByte b := fun b hb => hw b (List.mem_cons_of_mem _ hb)
    have hb : plainRunBody str s = (.ok (.next (str ++ [c])), on s 1) := by
      unfold plainRunBody
      ev [peekz_cons h, hc.blank, canBe' (by simpa using h) hw' hla hf, Bool.not_true, Bool.or_self]
      rw [bind_run (skipNonBlank_on s)]
      rfl
    simp only [List.length_cons] at hk
    rw [loop_next hb, ih (s := on s 1) hw' (getLast_tail hla) (on_rest (w := [c]) h rfl) (by omega) hf rfl, on_on]
    simp [Nat.add_comm]

/-- words separated by spaces -/
inductive PWords : List Byte → Prop
  | one {w} : PWord w → PWords w
  | more {w n t} : PWord w → PWords t → PWords (w ++ (List.replicate (n + 1) 32 ++ t))

theorem PWord.cons {w} (h : PWord w) : ∃ c w', w = c :: w' ∧ PByte c ∧ c ≠ 35 := by
  cases w with
  | nil => exact absurd rfl h.ne
  | cons c w => exact ⟨c, w, rfl, h.bytes c List.mem_cons_self, fun hx => h.hash (by rw [hx]; rfl)⟩

theorem PWords.cons {t} (h : PWords t) : ∃ c t', t = c :: t' ∧ PByte c ∧ c ≠ 35 := by
  cases h with
  | one h => exact h.cons
  | more h _ =>
    obtain ⟨c, w, rfl, h1, h2⟩ := h.cons
    exact ⟨c, _, rfl, h1, h2⟩

theorem pspaces_run {ind start c r} (hc : PByte c) : ∀ {n k s p}, s.leadingWhitespace = false →
    s.src.rest = List.replicate n 32 ++ c :: r → n < k →
    loopM (plainBlankBody ind start) k p s = (.ok { p with whitespaces := p.whitespaces ++ List.replicate n 32 }, on s n) := by
  intro n
  induction n with
  | zero =>
    intro k s p hl hr hk
    obtain ⟨k, rfl⟩ : ∃ j, k = j + 1 := ⟨k - 1, by omega⟩
    have h0 : s.src.peekz 0 = c := peekz_cons hr
    have hb : isBlankOrBreak c = false := by
      obtain ⟨h1, h2, h3, h4, h5⟩ := hc
      simp [isBlankOrBreak, h2, h3, h4, h5]
    rw [loop_done (b := p) (s1 := s) (by unfold plainBlankBody; ev [h0, hb])]
    simp [on_zero hl]
  | succ n ih =>
    intro k s p hl hr hk
    obtain ⟨k, rfl⟩ : ∃ j, k = j + 1 := ⟨k - 1, by omega⟩
    have h0 : s.src.peekz 0 = 32 := peekz_cons hr
    have hb : plainBlankBody ind start p s = (.ok (.next { p with whitespaces := p.whitespaces ++ [32] }), on s 1) := by
      unfold plainBlankBody
      ev [h0, hl]
      rw [if_neg (by decide), if_pos (by decide), bind_run (skipBlank_on hl)]
      rfl
    rw [loop_next hb, ih (s := on s 1) rfl (on_rest (w := [32]) (by simp [hr, List.replicate_succ]) rfl) (by omega), on_on]
    simp [List.replicate_succ, Nat.add_comm]

/-- reading one word -/
theorem pcontent_run {cfg s str ws m r w} (hw : PWord w) (hr : PEnd r) (h : s.src.rest = w ++ r)
    (hk : w.length ≤ cfg.fuel) (hf : s.flowLevel = 0) (hl : s.leadingWhitespace = true → ws = []) :
    plainContent cfg ⟨str, [], [], ws, m⟩ s =
      (.ok ⟨str ++ ws ++ w, [], [], [], (on s w.length).mark⟩, on s w.length) := by
  unfold plainContent
  obtain ⟨ws', hj, rfl⟩ := plainJoin_first (str := str) (m := m) hl
  obtain ⟨c, w, rfl, hc, -⟩ := hw.cons
  rw [gets_bind]
  show (peekz 0 >>= fun c => _) s = _
  rw [hj]
  ev [peekz_cons h]
  rw [bind_run (skipNonBlank_on s)]
  simp only [List.length_cons] at hk
  rw [bind_run (pword_run hr (s := on s 1) (fun b hx => hw.bytes b (List.mem_cons_of_mem _ hx)) (getLast_tail hw.colon) (on_rest (w := [c]) h rfl) (by omega) hf rfl), on_on]
  ev []
  simp [Nat.add_comm]

theorem pbody_content {cfg ind start s w r p} (h : s.src.rest = w ++ r) (hw : PWord w) (hf : s.flowLevel = 0)
    (hd : s.leadingWhitespace = true → s.src.nextIsDocumentIndicator = false) :
    plainBody cfg ind start p s = (do
      let p ← plainContent cfg p
      plainAfter cfg ind start p) s := by
  obtain ⟨c, w, rfl, hc, hc35⟩ := hw.cons
  unfold plainBody
  have h1 : ((s.leadingWhitespace && s.src.nextIsDocumentIndicator) || s.src.peekz 0 == b%'#') = false := by
    rw [peekz_cons h]
    have : (c == 35) = false := by simpa using hc35
    rw [this]
    cases hl : s.leadingWhitespace with
    | true => simp [hd hl]
    | false => rfl
  have h2 : (decide (s.flowLevel > 0) && s.src.peekz 0 == b%'-' && isFlow (s.src.peekz 1)) = false := by simp [hf]
  have h3 : (!isBlankOrBreakz (s.src.peekz 0) && s.src.nextCanBePlainScalar (decide (s.flowLevel > 0))) = true := by
    rw [peekz_cons h, hc.blank, canBe' (by simpa using h) (fun b hb => hw.bytes b (List.mem_cons_of_mem _ hb)) hw.colon hf]; rfl
  ev [h1, h2, h3]

/-- The loop of `scan_plain_scalar` on words, followed by `post`; `F` is what happens there. -/
theorem pwords_run {cfg : Cfg} {ind start post} {F : SSt → SSt} (hp : PEnd post)
    (hF : ∀ {s : SSt} {p : PlainSt}, s.src.rest = post → s.leadingWhitespace = false → s.flowLevel = 0 →
      ∃ p', (plainAfter cfg ind start p s = (.ok (.done p'), F s) ∨
        (plainAfter cfg ind start p s = (.ok (.next p'), F s) ∧ plainBody cfg ind start p' (F s) = (.ok (.done p'), F s))) ∧ p'.string = p.string) {t} (ht : PWords t) :
    ∀ {k s str ws m}, s.src.rest = t ++ post → t.length < k → t.length ≤ cfg.fuel → s.flowLevel = 0 → ind ≤ s.mark.col + 1 →
    (s.leadingWhitespace = true → ws = [] ∧ s.src.nextIsDocumentIndicator = false) →
    ∃ p', loopM (plainBody cfg ind start) k ⟨str, [], [], ws, m⟩ s = (.ok p', F (on s t.length)) ∧ p'.string = str ++ ws ++ t := by
  induction ht with
  | @one w hw =>
    intro k s str ws m h hk hfu hf hi hl
    obtain ⟨k, rfl⟩ : ∃ j, k = j + 1 := ⟨k - 1, by omega⟩
    have hpos : 0 < w.length := List.length_pos_iff.2 hw.ne
    obtain ⟨p', e1, e2⟩ := hF (s := on s w.length) (p := ⟨str ++ ws ++ w, [], [], [], (on s w.length).mark⟩) (on_rest h rfl) rfl hf
    have e0 : plainBody cfg ind start ⟨str, [], [], ws, m⟩ s = plainAfter cfg ind start ⟨str ++ ws ++ w, [], [], [], (on s w.length).mark⟩ (on s w.length) := by
      rw [pbody_content h hw hf (fun x => (hl x).2), bind_run (pcontent_run hw hp h (by omega) hf (fun x => (hl x).1))]
    refine ⟨p', ?_, e2⟩
    rcases e1 with e1 | ⟨e1, e3⟩
    · exact loop_done (e0.trans e1)
    · obtain ⟨k, rfl⟩ : ∃ j, k = j + 1 := ⟨k - 1, by omega⟩
      exact (loop_next (e0.trans e1)).trans (loop_done e3)
  | @more w n t hw ht ih =>
    intro k s str ws m h hk hfu hf hi hl
    obtain ⟨k, rfl⟩ : ∃ j, k = j + 1 := ⟨k - 1, by omega⟩
    have hpos : 0 < w.length := List.length_pos_iff.2 hw.ne
    obtain ⟨d, t', rfl, hd, -⟩ := ht.cons
    simp only [List.length_append, List.length_replicate, List.length_cons] at hk hfu
    have e0 : s.src.rest = w ++ (32 :: (List.replicate n 32 ++ (d :: t') ++ post)) := by
      rw [h]; simp [List.replicate_succ]
    have hr1 : (on s w.length).src.rest = List.replicate (n + 1) 32 ++ d :: (t' ++ post) := by
      rw [on_rest e0 rfl]; simp [List.replicate_succ]
    have hafter : plainAfter cfg ind start ⟨str ++ ws ++ w, [], [], [], (on s w.length).mark⟩ (on s w.length) =
        (.ok (.next ⟨str ++ ws ++ w, [], [], List.replicate (n + 1) 32, (on s w.length).mark⟩), on s (w.length + (n + 1))) := by
      unfold plainAfter
      have h0 : (on s w.length).src.peekz 0 = 32 := peekz_cons hr1
      ev [h0]
      rw [if_pos (by decide), bind_run (pspaces_run hd rfl hr1 (by omega)), on_on]
      have h3 : ((on s (w.length + (n + 1))).flowLevel == 0 && decide ((on s (w.length + (n + 1))).mark.col < ind)) = false := by
        rw [Bool.and_eq_false_iff, decide_eq_false_iff_not]; right; simp [on]; omega
      ev [h3]
      simp
    have hb1 : plainBody cfg ind start ⟨str, [], [], ws, m⟩ s =
        (.ok (.next ⟨str ++ ws ++ w, [], [], List.replicate (n + 1) 32, (on s w.length).mark⟩), on s (w.length + (n + 1))) := by
      rw [pbody_content e0 hw hf (fun x => (hl x).2),
        bind_run (pcontent_run hw (.inr (.inl ⟨_, rfl⟩)) e0 (by omega) hf (fun x => (hl x).1)), hafter]
    obtain ⟨p', e1, e2⟩ := ih (k := k) (s := on s (w.length + (n + 1))) (str := str ++ ws ++ w) (ws := List.replicate (n + 1) 32)
      (m := (on s w.length).mark) (on_rest (w := w ++ List.replicate (n + 1) 32) (by rw [h]; simp) (by simp))
      (by simp; omega) (by simp; omega) hf (by simp [on]; omega) (fun x => by cases x)
    refine ⟨p', ?_, by rw [e2]; simp⟩
    rw [loop_next hb1, e1, on_on]
    simp [Nat.add_assoc, Nat.add_comm, Nat.add_left_comm]

/-- the blanks after a word -/
theorem pblanks_run {ind start r} (hr : ∀ c, r.head? = some c → c ≠ 32 ∧ c ≠ 9 ∧ c ≠ 10 ∧ c ≠ 13) : ∀ {a k s p}, (∀ x ∈ a, x = 32 ∨ x = 10) →
    s.src.rest = a ++ r → a.length < k →
    ∃ p', loopM (plainBlankBody ind start) k p s = (.ok p', pass s a (s.leadingWhitespace || a.contains 10)) ∧ p'.string = p.string := by
  intro a
  induction a with
  | nil =>
    intro k s p _ h hk
    obtain ⟨k, rfl⟩ : ∃ j, k = j + 1 := ⟨k - 1, by omega⟩
    have h0 := peekz_head h
    have hb : isBlankOrBreak (s.src.peekz 0) = false := by
      rw [h0]
      cases r with
      | nil => rfl
      | cons c q => have := hr c rfl; simp [isBlankOrBreak, this]
    refine ⟨p, ?_, rfl⟩
    rw [loop_done (b := p) (s1 := s) (by unfold plainBlankBody; ev [hb])]
    rw [List.contains_nil, Bool.or_false, pass_nil]
  | cons c a ih =>
    intro k s p ha h hk
    obtain ⟨k, rfl⟩ : ∃ j, k = j + 1 := ⟨k - 1, by omega⟩
    have h0 : s.src.peekz 0 = c := peekz_cons h
    have ha' : ∀ x ∈ a, x = 32 ∨ x = 10 := fun b hb => ha b (List.mem_cons_of_mem _ hb)
    simp only [List.length_cons] at hk
    have key : ∀ {l p1}, plainBlankBody ind start p s = (.ok (.next p1), pass s [c] l) → p1.string = p.string → (l || a.contains 10) = (s.leadingWhitespace || (c :: a).contains 10) →
        ∃ p', loopM (plainBlankBody ind start) (k + 1) p s = (.ok p', pass s (c :: a) (s.leadingWhitespace || (c :: a).contains 10)) ∧ p'.string = p.string := by
      intro l p1 h1 h2 h3
      obtain ⟨p', e1, e2⟩ := ih (k := k) (s := pass s [c] l) (p := p1) ha' (pass_rest (a := [c]) h) (by omega)
      refine ⟨p', ?_, e2.trans h2⟩
      rw [loop_next h1, e1, pass_pass, ← h3]
      rfl
    rcases ha c List.mem_cons_self with rfl | rfl
    · by_cases hl : s.leadingWhitespace = false
      · refine key (l := false) (p1 := { p with whitespaces := p.whitespaces ++ [32] }) ?_ rfl (by simp [hl])
        unfold plainBlankBody
        ev [h0, hl]
        rw [if_neg (by decide), if_pos (by decide), bind_run (skipBlank_on hl)]
        rfl
      · replace hl : s.leadingWhitespace = true := by simpa using hl
        refine key (l := true) (p1 := p) ?_ rfl (by simp [hl])
        unfold plainBlankBody skipBlank
        ev [h0, hl]
        rw [if_neg (by decide), if_pos (by decide), if_neg (by decide), if_neg (by simp)]
        simp [pass, gapMark, hl]
    · by_cases hl : s.leadingWhitespace = false
      · refine key (l := true) (p1 := { p with whitespaces := [], leadingBreak := p.leadingBreak ++ [10] }) ?_ rfl (by simp)
        unfold plainBlankBody skipLinebreak
        ev [h0, hl]
        rw [if_neg (by decide), if_neg (by decide)]
        rfl
      · replace hl : s.leadingWhitespace = true := by simpa using hl
        refine key (l := true) (p1 := { p with trailingBreaks := p.trailingBreaks ++ [10] }) ?_ rfl (by simp)
        unfold plainBlankBody skipLinebreak
        ev [h0, hl]
        rw [if_neg (by decide), if_neg (by decide)]
        rfl

end Verif.Scanner
