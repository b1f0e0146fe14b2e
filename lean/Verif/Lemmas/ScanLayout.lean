import Verif.Lemmas.ScanFolded
/-!
# Gaps with comments and blank lines
-/
namespace Verif.Scanner
open Verif Verif.CharUtils Verif.Source Verif.Emitter

/-- the text of a comment, after `#` -/
def CommentText (k : List Byte) : Prop := ∀ b ∈ k, b ≠ 10 ∧ b ≠ 13 ∧ b ≠ 0

/-- spaces, line feeds and comments before `q` -/
inductive Lay : List Byte → List Byte → Prop
  | nil {q} : Lay [] q
  | space {w q} : Lay w q → Lay (32 :: w) q
  | newline {w q} : Lay w q → Lay (10 :: w) q
  | comment {k w q} : CommentText k → Lay w q → Lay (35 :: (k ++ 10 :: w)) q
  | last {k} : CommentText k → Lay (35 :: k) []

theorem breakz_comment {k : List Byte} (h : CommentText k) : ∀ b ∈ k, (!isBreakz b) = true := by
  intro b hb
  obtain ⟨h1, h2, h3⟩ := h b hb
  simp [isBreakz, isBreak, h1, h2, h3]

theorem takeWhile_comment {k r : List Byte} (h : CommentText k) (hr : r = [] ∨ ∃ r', r = 10 :: r') : (35 :: (k ++ r)).takeWhile (!isBreakz ·) = 35 :: k := by
  rw [List.takeWhile_cons, if_pos (by decide), List.takeWhile_append_of_pos (breakz_comment h)]
  rcases hr with rfl | ⟨r', rfl⟩
  · simp
  · rw [List.takeWhile_cons, if_neg (by decide)]; simp

theorem comment_flat {k : List Byte} (h : CommentText k) : ∀ b ∈ 35 :: k, b ≠ 10 := by
  intro b hb
  rcases List.mem_cons.1 hb with rfl | hb
  · decide
  · exact (h b hb).1

theorem skipComment_run {s : SSt} {k r} (h : CommentText k) (hr : r = [] ∨ ∃ r', r = 10 :: r') (hs : s.src.rest = 35 :: (k ++ r)) :
    skipCounted Src.skipWhileNonBreakz s = (.ok (), gap s (35 :: k)) := by
  have e : (s.src.rest.takeWhile (!isBreakz ·)).length = k.length + 1 := by rw [hs, takeWhile_comment h hr]; rfl
  have e2 : (35 :: k).contains 10 = false := by
    rw [← Bool.not_eq_true, List.contains_iff_mem]
    exact fun hx => comment_flat h 10 hx rfl
  unfold skipCounted upd gap
  rw [gapMark_flat _ _ (comment_flat h), e2]
  simp [Src.skipWhileNonBreakz, e]

theorem gap_gap (s : SSt) (a b : List Byte) : gap (gap s a) b = gap s (a ++ b) := by
  simp [gap, gapMark_append, Src.skip, Nat.add_assoc, Bool.or_assoc]

theorem gap_rest {s : SSt} {a r} (h : s.src.rest = a ++ r) : (gap s a).src.rest = r := by
  simp [gap, Src.skip, h]

theorem comment_step {s : SSt} {k r} (h : CommentText k) (hr : r = [] ∨ ∃ r', r = 10 :: r') (hs : s.src.rest = 35 :: (k ++ r)) :
    skipToNextTokenBody () s = (.ok (.next ()), gap s (35 :: k)) := by
  have h0 : s.src.peekz 0 = 35 := peekz_cons hs
  unfold skipToNextTokenBody
  ev [h0]
  simp only [show ¬ ((35 : Nat) = 9) by decide, show ¬ ((35 : Nat) = 32) by decide, show ¬ ((35 : Nat) = 10) by decide, show ¬ ((35 : Nat) = 13) by decide, false_and, or_self, if_false]
  rw [bind_run (skipComment_run h hr hs)]
  rfl

theorem space_step {s : SSt} {r} (hs : s.src.rest = 32 :: r) : skipToNextTokenBody () s = (.ok (.next ()), gap s [32]) := by
  have h0 : s.src.peekz 0 = 32 := peekz_cons hs
  unfold skipToNextTokenBody skipBlank
  ev [h0]
  simp [gap, gapMark]

theorem newline_step {s : SSt} {r} (hs : s.src.rest = 10 :: r) (hf : s.flowLevel = 0) : skipToNextTokenBody () s = (.ok (.next ()), gap s [10]) := by
  have h0 : s.src.peekz 0 = 10 := peekz_cons hs
  unfold skipToNextTokenBody skipLinebreak setAllowed
  ev [h0]
  simp [hf, gap, gapMark]
  rfl

theorem lay_run {w q} (h : Lay w q) : ∀ {k s}, TokenHead q → s.src.rest = w ++ q → w.length < k → s.flowLevel = 0 →
    loopM skipToNextTokenBody k () s = (.ok (), gap s w) := by
  induction h with
  | nil =>
    intro k s hq hr hk hf
    exact gap_run hq (by simp) hr hk hf
  | @space w q _ ih =>
    intro k s hq hr hk hf
    obtain ⟨k, rfl⟩ : ∃ j, k = j + 1 := ⟨k - 1, by omega⟩
    rw [loop_next (space_step hr), ih hq (gap_rest (a := [32]) hr) (by simpa using hk) hf, gap_gap]
    rfl
  | @newline w q _ ih =>
    intro k s hq hr hk hf
    obtain ⟨k, rfl⟩ : ∃ j, k = j + 1 := ⟨k - 1, by omega⟩
    rw [loop_next (newline_step hr hf), ih hq (gap_rest (a := [10]) hr) (by simpa using hk) hf, gap_gap]
    rfl
  | @comment k w q hk _ ih =>
    intro j s hq hr hj hf
    obtain ⟨j, rfl⟩ : ∃ i, j = i + 2 := ⟨j - 2, by simp at hj; omega⟩
    have hr' : s.src.rest = 35 :: (k ++ 10 :: (w ++ q)) := by rw [hr]; simp
    have h1 : (gap s (35 :: k)).src.rest = 10 :: (w ++ q) := gap_rest (a := 35 :: k) hr'
    rw [loop_next (comment_step hk (.inr ⟨_, rfl⟩) hr'), loop_next (newline_step h1 hf), ih hq (gap_rest (a := [10]) h1) (by simp at hj; omega) hf, gap_gap, gap_gap]
    simp
  | @last k hk =>
    intro j s hq hr hj hf
    obtain ⟨j, rfl⟩ : ∃ i, j = i + 1 := ⟨j - 1, by omega⟩
    have hr' : s.src.rest = 35 :: (k ++ []) := by rw [hr]; simp
    rw [loop_next (comment_step hk (.inl rfl) hr'), gap_run (q := []) (w := []) hq (by simp) (gap_rest (a := 35 :: k) hr') (by simp at hj; simp; omega) hf, gap_gap]
    simp

theorem Lay.append {a w q} (h : Lay w q) (ha : ∀ b ∈ a, b = 32 ∨ b = 10) : Lay (a ++ w) q := by
  induction a with
  | nil => exact h
  | cons b a ih =>
    have := ih (fun x hx => ha x (List.mem_cons_of_mem _ hx))
    rcases ha b List.mem_cons_self with rfl | rfl
    · exact .space this
    · exact .newline this

/-- the longest run of blanks at the front, and the rest -/
theorem Lay.split {w q} (h : Lay w q) : ∃ a b, w = a ++ b ∧ (∀ x ∈ a, x = 32 ∨ x = 10) ∧ Lay b q ∧ (b = [] ∨ ∃ b', b = 35 :: b') := by
  induction h with
  | nil => exact ⟨[], [], rfl, by simp, .nil, .inl rfl⟩
  | space _ ih =>
    obtain ⟨a, b, rfl, h1, h2, h3⟩ := ih
    exact ⟨32 :: a, b, rfl, by simpa using h1, h2, h3⟩
  | newline _ ih =>
    obtain ⟨a, b, rfl, h1, h2, h3⟩ := ih
    exact ⟨10 :: a, b, rfl, by simpa using h1, h2, h3⟩
  | comment hk h _ => exact ⟨[], _, rfl, by simp, .comment hk h, .inr ⟨_, rfl⟩⟩
  | last hk => exact ⟨[], _, rfl, by simp, .last hk, .inr ⟨_, rfl⟩⟩

/-- after a token that was followed by a gap -/
theorem here_lay {cfg : Cfg} {s : SSt} {w q I i n k c} (hw : Lay w q) (hr : s.src.rest = w ++ q) (hq : TokenHead q)
    (hf : w.length < cfg.fuel) (hc : Calm s) (hcol : q ≠ [] → (gapMark s.mark w).col = c)
    (hu : unroll (lowCol q c) s.indent s.indents = some (I, i, n))
    (hk : s.simpleKeys = [k]) (hkp : k.possible = true → k.required = false ∧ (q ≠ [] → k.mark.line < (gapMark s.mark w).line ∨
      ((s.simpleKeyAllowed || w.contains 10) = false ∧ k.mark.line ≤ (gapMark s.mark w).line)))
    (hnp : NP s.tokens c i) :
    Here cfg s (types s ++ List.replicate n .blockEnd) I i q c (s.simpleKeyAllowed || w.contains 10) := by
  refine ⟨gap s w, n, k, lay_run hw hq hr hf hc.level, ?_, fun hx => ⟨hcol hx, rfl⟩, hu, rfl, hk, hkp, ⟨hc.level, hc.impl, hc.parsed, hc.started, hc.fit.skip (by simp [hr])⟩, hnp, hc.started⟩
  exact gap_rest hr

end Verif.Scanner
