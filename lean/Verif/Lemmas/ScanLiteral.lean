import Verif.Lemmas.ScanBlocks
/-!
# Scanning literal blocks
-/
namespace Verif.Scanner
open Verif Verif.CharUtils Verif.Source Verif.Emitter

theorem pass_true {s : SSt} (h : s.leadingWhitespace = true) : pass s [] true = s := by
  rw [← h]; exact pass_nil s

theorem skipBlank_lead {s : SSt} {c r} (h : s.src.rest = c :: r) (hc : c ≠ 10) (hl : s.leadingWhitespace = true) :
    skipBlank s = (.ok (), pass s [c] true) := by
  unfold skipBlank upd pass
  rw [gapMark, if_neg hc, gapMark]
  simp [hl]

theorem readBreak_pass {s : SSt} {r} (b : List Byte) (h : s.src.rest = 10 :: r) : readBreak b s = (.ok (b ++ [10]), pass s [10] true) := by
  have h0 : s.src.peekz 0 = 10 := peekz_cons h
  unfold readBreak skipLinebreak
  rw [upd_bind]
  simp only [h0]
  rw [if_neg (by simp)]
  rfl

theorem gapMark_ink (m : Marker) : ∀ w : List Byte, 10 ∉ w → gapMark m w = { m with pos := m.pos + w.length, col := m.col + w.length } := by
  intro w
  induction w generalizing m with
  | nil => intro _; rfl
  | cons c w ih =>
    intro h
    rw [gapMark, if_neg (by rintro rfl; simp at h), ih _ (by simp at h; exact h.2)]
    simp [Nat.add_comm, Nat.add_left_comm]

theorem spaces_no (n : Nat) : 10 ∉ List.replicate n 32 := by
  intro h
  have := List.eq_of_mem_replicate h
  omega

theorem pass_spaces_col (s : SSt) (n : Nat) (l : Bool) : (pass s (List.replicate n 32) l).mark.col = s.mark.col + n := by
  simp [pass, gapMark_spaces]

/-! ## Indentation -/

theorem spacesLead_run : ∀ {n k s r}, s.src.rest = List.replicate n 32 ++ r → r.head? ≠ some 32 → n < k → s.leadingWhitespace = true →
    loopM spacesBody k () s = (.ok (), pass s (List.replicate n 32) true) := by
  intro n
  induction n with
  | zero =>
    intro k s r hr hq hk hl
    obtain ⟨k, rfl⟩ : ∃ j, k = j + 1 := ⟨k - 1, by omega⟩
    have h0 : s.src.peekz 0 ≠ 32 := by
      rw [peekz_head (by simpa using hr)]
      cases r with
      | nil => simp
      | cons c r => simpa using hq
    rw [loop_done (b := ()) (s1 := s) (by unfold spacesBody; ev [h0]), List.replicate_zero, pass_true hl]
  | succ n ih =>
    intro k s r hr hq hk hl
    obtain ⟨k, rfl⟩ : ∃ j, k = j + 1 := ⟨k - 1, by omega⟩
    have hr' : s.src.rest = 32 :: (List.replicate n 32 ++ r) := by rw [hr, List.replicate_succ]; rfl
    have h0 : s.src.peekz 0 = 32 := peekz_cons hr'
    have hb : spacesBody () s = (.ok (.next ()), pass s [32] true) := by
      unfold spacesBody
      ev [h0]
      rw [bind_run (skipBlank_lead hr' (by decide) hl)]
      rfl
    refine (loop_next hb).trans ((ih (pass_rest hr') hq (by omega) rfl).trans ?_)
    rw [pass_pass]; rfl

theorem indentSpaces_run {C} : ∀ {n k s r}, s.src.rest = List.replicate n 32 ++ r → s.mark.col + n ≤ C → (s.mark.col + n = C ∨ r.head? ≠ some 32) →
    n < k → s.leadingWhitespace = true → loopM (indentSpacesBody C) k () s = (.ok (), pass s (List.replicate n 32) true) := by
  intro n
  induction n with
  | zero =>
    intro k s r hr hc hq hk hl
    obtain ⟨k, rfl⟩ : ∃ j, k = j + 1 := ⟨k - 1, by omega⟩
    have h0 : ¬ (s.mark.col < C ∧ s.src.peekz 0 = 32) := by
      rintro ⟨h1, h2⟩
      rcases hq with hq | hq
      · omega
      · rw [peekz_head (by simpa using hr)] at h2
        cases r with
        | nil => simp at h2
        | cons c r => simp at hq h2; exact hq h2
    rw [loop_done (b := ()) (s1 := s) (by unfold indentSpacesBody; ev [h0]), List.replicate_zero, pass_true hl]
  | succ n ih =>
    intro k s r hr hc hq hk hl
    obtain ⟨k, rfl⟩ : ∃ j, k = j + 1 := ⟨k - 1, by omega⟩
    have hr' : s.src.rest = 32 :: (List.replicate n 32 ++ r) := by rw [hr, List.replicate_succ]; rfl
    have h0 : s.src.peekz 0 = 32 := peekz_cons hr'
    have h1 : s.mark.col < C := by omega
    have hb : indentSpacesBody C () s = (.ok (.next ()), pass s [32] true) := by
      unfold indentSpacesBody
      ev [h0, h1, true_and]
      rw [bind_run (skipBlank_lead hr' (by decide) hl)]
      rfl
    have hcol : (pass s [32] true).mark.col = s.mark.col + 1 := rfl
    refine (loop_next hb).trans ((ih (pass_rest hr') (by rw [hcol]; omega) (by rw [hcol]; exact hq.imp (by omega) id) (by omega) rfl).trans ?_)
    rw [pass_pass]; rfl

theorem blockIndent_run {cfg : Cfg} {C n s r} (hr : s.src.rest = List.replicate n 32 ++ r) (hc : s.mark.col + n ≤ C)
    (hq : s.mark.col + n = C ∨ (r ≠ [] ∧ r.head? ≠ some 32)) (hk : n < cfg.fuel) (hl : s.leadingWhitespace = true) :
    blockIndentSpaces cfg C s = (.ok (), pass s (List.replicate n 32) true) := by
  have hrun := indentSpaces_run (k := cfg.fuel) hr hc (hq.imp id And.right) hk hl
  unfold blockIndentSpaces
  split
  · exact hrun
  · obtain ⟨k, hk'⟩ : ∃ j, cfg.fuel = j + 1 := ⟨cfg.fuel - 1, by omega⟩
    rw [hk', loop_done (b := ()) (s1 := pass s (List.replicate n 32) true)]
    unfold deepIndentBody
    rw [bind_run hrun]
    have hrest := pass_rest (l := true) hr
    have hout : ((pass s (List.replicate n 32) true).mark.col == C || (!(pass s (List.replicate n 32) true).src.bufIsEmpty && (pass s (List.replicate n 32) true).src.peekz 0 != 32)) = true := by
      rw [pass_spaces_col]
      rcases hq with h | ⟨h1, h2⟩
      · simp [h]
      · rw [peekz_head hrest]
        unfold Src.bufIsEmpty
        rw [hrest]
        cases r with
        | nil => exact absurd rfl h1
        | cons c r => simp at h2; simp [h2]
    ev [hout]

/-- `k` empty lines, indented up to column `C` -/
def blanks (C : Nat) : Nat → List Byte
  | 0 => []
  | k + 1 => List.replicate (C - 1) 32 ++ 10 :: blanks C k

/-- the next byte is not a line break -/
def NoBreak (r : List Byte) : Prop := ∀ c, r.head? = some c → isBreak c = false

theorem NoBreak.peekz {r} {s : SSt} (h : NoBreak r) (hr : s.src.rest = r) : isBreak (s.src.peekz 0) = false := by
  rw [peekz_head hr]
  cases r with
  | nil => decide
  | cons c r => exact h c rfl

theorem pass_line {s : SSt} {w l} : (pass s (w ++ [10]) l).mark.col = 1 := by
  simp [pass, gapMark_append, gapMark]

theorem skipIndent_run {cfg : Cfg} {C n r} (hC : 1 ≤ C) (hn : n + 1 ≤ C) (hq : n + 1 = C ∨ (r ≠ [] ∧ r.head? ≠ some 32)) (hb : NoBreak r) :
    ∀ {k j s tb}, s.src.rest = blanks C k ++ (List.replicate n 32 ++ r) → s.mark.col = 1 → (blanks C k ++ List.replicate n 32).length < j →
      (blanks C k ++ List.replicate n 32).length < cfg.fuel → s.leadingWhitespace = true →
      loopM (blockIndentBody cfg C) j tb s = (.ok (tb ++ List.replicate k 10), pass s (blanks C k ++ List.replicate n 32) true) := by
  intro k
  induction k with
  | zero =>
    intro j s tb hr hc hj hf hl
    obtain ⟨j, rfl⟩ : ∃ j', j = j' + 1 := ⟨j - 1, by omega⟩
    simp only [blanks, List.nil_append, List.length_replicate] at hr hf ⊢
    have hrun := blockIndent_run (cfg := cfg) (C := C) hr (by omega) (by rw [hc]; exact hq.imp (by omega) id) hf hl
    rw [loop_done (b := tb) (s1 := pass s (List.replicate n 32) true)]
    · simp
    · unfold blockIndentBody
      rw [bind_run hrun]
      have := NoBreak.peekz hb (pass_rest (l := true) hr)
      ev [this]
  | succ k ih =>
    intro j s tb hr hc hj hf hl
    obtain ⟨j, rfl⟩ : ∃ j', j = j' + 1 := ⟨j - 1, by omega⟩
    simp only [blanks, List.append_assoc, List.cons_append] at hr hf hj ⊢
    simp only [List.length_append, List.length_replicate, List.length_cons] at hf hj
    have hrun := blockIndent_run (cfg := cfg) (C := C) hr (by omega) (.inl (by omega)) (by omega) hl
    have hr2 := pass_rest (l := true) hr
    have hbody : blockIndentBody cfg C tb s = (.ok (.next (tb ++ [10])), pass s (List.replicate (C - 1) 32 ++ [10]) true) := by
      unfold blockIndentBody
      rw [bind_run hrun]
      have : isBreak ((pass s (List.replicate (C - 1) 32) true).src.peekz 0) = true := by rw [peekz_cons hr2]; rfl
      ev [this]
      rw [bind_run (readBreak_pass tb hr2), pass_pass]
      rfl
    refine (loop_next hbody).trans ((ih (s := pass s (List.replicate (C - 1) 32 ++ [10]) true) (pass_rest (by rw [hr]; simp)) pass_line ?_ ?_ rfl).trans ?_)
    · simp; omega
    · simp; omega
    · rw [pass_pass]
      simp [List.replicate_succ]

theorem firstLine_run {cfg : Cfg} {C r} (hC : 1 ≤ C) (hq : r.head? ≠ some 32) (hb : NoBreak r) :
    ∀ {k j s mi tb}, s.src.rest = blanks C k ++ (List.replicate (C - 1) 32 ++ r) → s.mark.col = 1 → mi ≤ C →
      (blanks C k ++ List.replicate (C - 1) 32).length < j → (blanks C k ++ List.replicate (C - 1) 32).length < cfg.fuel → s.leadingWhitespace = true →
      loopM (firstLineBody cfg) j (mi, tb) s = (.ok (C, tb ++ List.replicate k 10), pass s (blanks C k ++ List.replicate (C - 1) 32) true) := by
  intro k
  induction k with
  | zero =>
    intro j s mi tb hr hc hm hj hf hl
    obtain ⟨j, rfl⟩ : ∃ j', j = j' + 1 := ⟨j - 1, by omega⟩
    simp only [blanks, List.nil_append, List.length_replicate] at hr hf ⊢
    have hrun := spacesLead_run (k := cfg.fuel) hr hq hf hl
    rw [loop_done (b := (C, tb)) (s1 := pass s (List.replicate (C - 1) 32) true)]
    · simp
    · unfold firstLineBody
      rw [bind_run hrun]
      have := NoBreak.peekz hb (pass_rest (l := true) hr)
      have hcol : (pass s (List.replicate (C - 1) 32) true).mark.col = C := by rw [pass_spaces_col]; omega
      ev [this, hcol]
      have : (if C > mi then C else mi) = C := by split <;> omega
      simp [this]
  | succ k ih =>
    intro j s mi tb hr hc hm hj hf hl
    obtain ⟨j, rfl⟩ : ∃ j', j = j' + 1 := ⟨j - 1, by omega⟩
    simp only [blanks, List.append_assoc, List.cons_append] at hr hf hj ⊢
    simp only [List.length_append, List.length_replicate, List.length_cons] at hf hj
    have hrun := spacesLead_run (k := cfg.fuel) hr (by simp) (by omega) hl
    have hr2 := pass_rest (l := true) hr
    have hbody : firstLineBody cfg (mi, tb) s = (.ok (.next (C, tb ++ [10])), pass s (List.replicate (C - 1) 32 ++ [10]) true) := by
      unfold firstLineBody
      rw [bind_run hrun]
      have : isBreak ((pass s (List.replicate (C - 1) 32) true).src.peekz 0) = true := by rw [peekz_cons hr2]; rfl
      have hcol : (pass s (List.replicate (C - 1) 32) true).mark.col = C := by rw [pass_spaces_col]; omega
      ev [this, hcol]
      have : (if C > mi then C else mi) = C := by split <;> omega
      simp only [this]
      rw [bind_run (readBreak_pass tb hr2), pass_pass]
      rfl
    refine (loop_next hbody).trans ((ih (s := pass s (List.replicate (C - 1) 32 ++ [10]) true) (pass_rest (by rw [hr]; simp)) pass_line (Nat.le_refl _) ?_ ?_ rfl).trans ?_)
    · simp; omega
    · simp; omega
    · rw [pass_pass]
      simp [List.replicate_succ]

/-! ## Content -/

/-- a line of content -/
def Ink (y : List Byte) : Prop := y ≠ [] ∧ ∀ b ∈ y, isBreak b = false

theorem content_run : ∀ {y k s str r}, (∀ b ∈ y, isBreak b = false) → s.src.rest = y ++ r → (r = [] ∨ r.head? = some 10) → y.length < k → s.leadingWhitespace = true →
    loopM contentBody k str s = (.ok (str ++ y), pass s y true) := by
  intro y
  induction y with
  | nil =>
    intro k s str r _ hr hq hk hl
    obtain ⟨k, rfl⟩ : ∃ j, k = j + 1 := ⟨k - 1, by omega⟩
    have h0 : (!s.src.bufIsEmpty && !isBreak (s.src.peekz 0)) = false := by
      rcases hq with rfl | hq
      · simp [Src.bufIsEmpty, hr]
      · cases r with
        | nil => cases hq
        | cons c r => cases hq; rw [peekz_cons (by simpa using hr)]; simp [isBreak]
    rw [loop_done (b := str) (s1 := s) (by unfold contentBody; ev [h0]), pass_true hl, List.append_nil]
  | cons c y ih =>
    intro k s str r hy hr hq hk hl
    obtain ⟨k, rfl⟩ : ∃ j, k = j + 1 := ⟨k - 1, by omega⟩
    simp only [List.length_cons] at hk
    have hr' : s.src.rest = c :: (y ++ r) := hr
    have h0 : s.src.peekz 0 = c := peekz_cons hr'
    have hc : isBreak c = false := hy c (by simp)
    have he : s.src.bufIsEmpty = false := by simp [Src.bufIsEmpty, hr]
    have hb : contentBody str s = (.ok (.next (str ++ [c])), pass s [c] true) := by
      unfold contentBody
      ev [h0, he, hc, Bool.not_false, Bool.and_self]
      rw [bind_run (skipBlank_lead hr' (by rintro rfl; revert hc; decide) hl)]
      rfl
    refine (loop_next hb).trans ((ih (fun b hb => hy b (by simp [hb])) (pass_rest hr') hq (by omega) rfl).trans ?_)
    rw [pass_pass]
    simp

theorem contentLine_run {cfg : Cfg} {y s str r} (hy : ∀ b ∈ y, isBreak b = false) (hr : s.src.rest = y ++ r) (hq : r = [] ∨ r.head? = some 10)
    (hk : y.length < cfg.fuel) (hl : s.leadingWhitespace = true) (hfit : Fit s.src) :
    contentLine cfg str s = (.ok (str ++ y), pass s y true) := by
  unfold contentLine
  rw [bind_run (content_run hy hr hq hk hl), atEof_bind]
  have hr2 := pass_rest (l := true) hr
  rcases hq with rfl | hq
  · have : (pass s y true).src.bufIsEmpty = true := by simp [Src.bufIsEmpty, hr2]
    rw [if_pos this]
    have hp : pushNonBreakz (pass s y true) = (.ok [], pass s y true) := by
      unfold pushNonBreakz
      have hf : Fit (pass s y true).src := hfit.skip (by simp [hr])
      unfold Fit at hf
      rw [if_neg (by omega)]
      simp [hr2, Src.skip]
      rw [← hr2]
    rw [bind_run hp]
    simp [pure_run]
  · have : (pass s y true).src.bufIsEmpty = false := by
      cases r with
      | nil => cases hq
      | cons c r => simp [Src.bufIsEmpty, hr2]
    rw [if_neg (by simp [this])]
    rfl

/-! ## The lines of a block -/

/-- the lines of a block after its first line, each with the number of empty lines before it -/
def groupTxt (C : Nat) (gs : List (Nat × List Byte)) : List Byte :=
  gs.flatMap fun g => 10 :: (blanks C g.1 ++ (List.replicate (C - 1) 32 ++ g.2))

/-- the text those lines denote -/
def groupVal (gs : List (Nat × List Byte)) : List Byte := gs.flatMap fun g => 10 :: (List.replicate g.1 10 ++ g.2)

theorem groupTxt_cons (C g gs) : groupTxt C (g :: gs) = 10 :: (blanks C g.1 ++ (List.replicate (C - 1) 32 ++ g.2)) ++ groupTxt C gs := by
  simp [groupTxt]

theorem groupVal_cons (g gs) : groupVal (g :: gs) = 10 :: (List.replicate g.1 10 ++ g.2) ++ groupVal gs := by
  simp [groupVal]

/-- the line starts with three dots followed by a blank or nothing -/
def DotLine (y : List Byte) : Prop := y.take 3 = [46, 46, 46] ∧ isBlankOrBreakz (y.getD 3 0) = true

/-- the lines of a block indented to column `C` -/
def LineOk (C : Nat) (y : List Byte) : Prop := Ink y ∧ (C = 1 → ¬ DotLine y)

/-- what follows a block: the end of the text or a line with less indentation -/
def Ends (C : Nat) (m r : List Byte) : Prop :=
  (m = [] ∧ r = []) ∨ ∃ n, m = 10 :: List.replicate n 32 ∧ n + 1 < C ∧ r ≠ [] ∧ r.head? ≠ some 32 ∧ NoBreak r

theorem notDocEnd {C y s w} (h : LineOk C y) (hr : s.src.rest = y ++ w) (hw : w = [] ∨ w.head? = some 10) :
    ((C == 1) && nextIsDocumentEnd s) = false := by
  by_cases hC : C = 1
  · have hd := h.2 hC
    cases hn : nextIsDocumentEnd s with
    | false => simp
    | true =>
      refine absurd ?_ hd
      unfold nextIsDocumentEnd Src.nextIsThree at hn
      simp only [Bool.and_eq_true, beq_iff_eq] at hn
      obtain ⟨⟨⟨h0, h1⟩, h2⟩, h3⟩ := hn
      have key : ∀ n, s.src.peekz n = (y ++ w).getD n 0 := by
        intro n; simp [Src.peekz, hr]
      rw [key] at h0 h1 h2 h3
      have hw0 : w.getD 0 0 = 0 ∨ w.getD 0 0 = 10 := by
        rcases hw with rfl | hw
        · simp
        · cases w with
          | nil => cases hw
          | cons c w => cases hw; simp
      match y, h.1.1 with
      | [a], _ =>
        simp only [List.cons_append, List.nil_append, List.getD_cons_succ] at h1
        rw [h1] at hw0; simp at hw0
      | [a, b], _ =>
        simp only [List.cons_append, List.nil_append, List.getD_cons_succ] at h2
        rw [h2] at hw0; simp at hw0
      | [a, b, c], _ =>
        simp at h0 h1 h2
        subst h0 h1 h2
        exact ⟨rfl, by decide⟩
      | a :: b :: c :: d :: y, _ =>
        simp at h0 h1 h2 h3
        subst h0 h1 h2
        exact ⟨rfl, by simpa using h3⟩
  · simp [hC]

theorem join_lit (b : Bool) (p : BlockSt) : blockJoin true b p = ⟨p.string ++ p.leadingBreak ++ p.trailingBreaks, [], [], b⟩ := by
  simp [blockJoin]

theorem body_run {cfg : Cfg} {C} (hC : 1 ≤ C) {m r} (he : Ends C m r) : ∀ {gs : List (Nat × List Byte)} {y j s p},
    s.src.rest = y ++ (groupTxt C gs ++ (m ++ r)) → s.mark.col = C → LineOk C y → (∀ g ∈ gs, LineOk C g.2) → Fit s.src →
    s.leadingWhitespace = true → (y ++ (groupTxt C gs ++ m)).length < j → (y ++ (groupTxt C gs ++ m)).length < cfg.fuel →
    ∃ b, loopM (blockBody cfg true C) j p s =
      (.ok ⟨p.string ++ p.leadingBreak ++ p.trailingBreaks ++ y ++ groupVal gs, if m = [] then [] else [10], [], b⟩,
       pass s (y ++ (groupTxt C gs ++ m)) true) := by
  intro gs
  induction gs with
  | nil =>
    intro y j s p hr hc hy _ hfit hl hj hf
    obtain ⟨j, rfl⟩ : ∃ j', j = j' + 1 := ⟨j - 1, by omega⟩
    simp only [groupTxt, groupVal, List.flatMap_nil, List.nil_append, List.append_nil] at hr hj hf ⊢
    have hw : m ++ r = [] ∨ (m ++ r).head? = some 10 := by
      rcases he with ⟨rfl, rfl⟩ | ⟨n, rfl, _⟩ <;> simp
    have hgo : (s.mark.col == C && !s.src.bufIsEmpty && !(C == 1 && nextIsDocumentEnd s)) = true := by
      rw [notDocEnd hy hr hw]
      have : y ≠ [] := hy.1.1
      cases y with
      | nil => exact absurd rfl this
      | cons c y => simp [hc, Src.bufIsEmpty, hr]
    have hline := fun str => contentLine_run (cfg := cfg) (str := str) hy.1.2 hr hw (by simp at hf; omega) hl hfit
    have hr2 := pass_rest (l := true) hr
    rcases he with ⟨rfl, rfl⟩ | ⟨n, rfl, hn, hr0, hq, hb⟩
    · refine ⟨isBlank (s.src.peekz 0), loop_done ?_⟩
      unfold blockBody
      ev [hgo]
      have heof : (pass s y true).src.bufIsEmpty = true := by simp [Src.bufIsEmpty, hr2]
      rw [bind_run (hline _)]
      ev [heof]
      simp [blockJoin]
    · simp only [List.length_append, List.length_cons, List.length_replicate] at hj hf
      obtain ⟨j, rfl⟩ : ∃ j', j = j' + 1 := ⟨j - 1, by have := hy.1.1; cases y <;> simp at * ; omega⟩
      have heof : (pass s y true).src.bufIsEmpty = false := by simp [Src.bufIsEmpty, hr2]
      have hskip := skipIndent_run (cfg := cfg) (C := C) (n := n) (r := r) hC (by omega) (.inr ⟨hr0, hq⟩) hb (k := 0) (j := cfg.fuel)
        (s := pass s (y ++ [10]) true) (tb := []) (by
          simp only [blanks, List.nil_append]
          exact pass_rest (by rw [hr]; simp)) pass_line (by simp [blanks]; omega) (by simp [blanks]; omega) rfl
      refine ⟨isBlank (s.src.peekz 0), (loop_next (b := { blockJoin true (isBlank (s.src.peekz 0)) p with
          string := p.string ++ p.leadingBreak ++ p.trailingBreaks ++ y, leadingBreak := [10], trailingBreaks := [] })
          (s1 := pass s (y ++ 10 :: List.replicate n 32) true) ?_).trans (loop_done ?_)⟩
      · unfold blockBody
        ev [hgo]
        rw [bind_run (hline _)]
        ev [heof]
        rw [bind_run (readBreak_pass _ hr2), pass_pass]
        unfold skipBlockIndent
        simp only [join_lit, List.nil_append]
        rw [bind_run hskip, pass_pass]
        simp [pure_run, blanks]
      · unfold blockBody
        have hcol : (pass s (y ++ 10 :: List.replicate n 32) true).mark.col = n + 1 := by
          simp [pass, gapMark_append, gapMark, gapMark_spaces]; omega
        have : ((n + 1 == C) && !(pass s (y ++ 10 :: List.replicate n 32) true).src.bufIsEmpty && !(C == 1 && nextIsDocumentEnd (pass s (y ++ 10 :: List.replicate n 32) true))) = false := by
          have : (n + 1 == C) = false := by simp; omega
          rw [this]; simp
        ev [hcol, this]
        simp [blockJoin]
  | cons g gs ih =>
    intro y j s p hr hc hy hgs hfit hl hj hf
    obtain ⟨j, rfl⟩ : ∃ j', j = j' + 1 := ⟨j - 1, by omega⟩
    rw [groupTxt_cons] at hr hj hf ⊢
    rw [groupVal_cons]
    have hg := hgs g (by simp)
    simp only [List.cons_append, List.append_assoc] at hr hj hf ⊢
    have hline := fun str => contentLine_run (cfg := cfg) (str := str) hy.1.2 hr (.inr rfl) (by simp at hf; omega) hl hfit
    have hr2 := pass_rest (l := true) hr
    have hgo : (s.mark.col == C && !s.src.bufIsEmpty && !(C == 1 && nextIsDocumentEnd s)) = true := by
      rw [notDocEnd hy hr (.inr rfl)]
      have : y ≠ [] := hy.1.1
      cases y with
      | nil => exact absurd rfl this
      | cons c y => simp [hc, Src.bufIsEmpty, hr]
    have heof : (pass s y true).src.bufIsEmpty = false := by simp [Src.bufIsEmpty, hr2]
    simp only [List.length_append, List.length_cons, List.length_replicate] at hj hf
    have hnb : NoBreak (g.2 ++ (groupTxt C gs ++ (m ++ r))) := by
      have := hg.1
      obtain ⟨k, y'⟩ := g
      cases y' with
      | nil => exact absurd rfl this.1
      | cons c y' => intro c' hc'; cases hc'; exact this.2 c (by simp)
    have hskip := skipIndent_run (cfg := cfg) (C := C) (n := C - 1) hC (by omega) (.inl (by omega)) hnb (k := g.1) (j := cfg.fuel)
        (s := pass s (y ++ [10]) true) (tb := []) (pass_rest (by rw [hr]; simp)) pass_line (by simp; omega) (by simp; omega) rfl
    obtain ⟨b, hb⟩ := ih (y := g.2) (j := j) (s := pass s (y ++ 10 :: (blanks C g.1 ++ List.replicate (C - 1) 32)) true)
      (p := { blockJoin true (isBlank (s.src.peekz 0)) p with
          string := p.string ++ p.leadingBreak ++ p.trailingBreaks ++ y, leadingBreak := [10], trailingBreaks := List.replicate g.1 10 })
      (pass_rest (by rw [hr]; simp)) (by
          simp [pass, gapMark_append, gapMark]
          rw [gapMark_spaces]
          have : ∀ (k : Nat) (mk : Marker), mk.col = 1 → (gapMark mk (blanks C k)).col = 1 := by
            intro k
            induction k with
            | zero => intro mk h; exact h
            | succ k ih => intro mk h; rw [blanks, gapMark_append]; rw [gapMark, if_pos rfl]; exact ih _ rfl
          simp [this]; omega) hg (fun x hx => hgs x (by simp [hx]))
      (hfit.skip (by rw [hr]; simp)) rfl (by simp; omega) (by simp; omega)
    refine ⟨b, (loop_next (s1 := pass s (y ++ 10 :: (blanks C g.1 ++ List.replicate (C - 1) 32)) true) ?_).trans (hb.trans ?_)⟩
    · unfold blockBody
      ev [hgo]
      rw [bind_run (hline _)]
      ev [heof]
      rw [bind_run (readBreak_pass _ hr2), pass_pass]
      unfold skipBlockIndent
      simp only [join_lit, List.nil_append]
      rw [bind_run hskip, pass_pass]
      simp [pure_run]
    · rw [pass_pass]
      simp

theorem blanks_col {C} : ∀ (k : Nat) {mk : Marker}, mk.col = 1 → (gapMark mk (blanks C k)).col = 1 := by
  intro k
  induction k with
  | zero => intro mk h; exact h
  | succ k ih => intro mk h; rw [blanks, gapMark_append, gapMark, if_pos rfl]; exact ih rfl

theorem gapMark_lineLe : ∀ (w : List Byte) (mk : Marker), mk.line ≤ (gapMark mk w).line := by
  intro w
  induction w with
  | nil => intro mk; exact Nat.le_refl _
  | cons c w ih =>
    intro mk
    rw [gapMark]
    split
    · exact Nat.le_trans (Nat.le_succ _) (ih ⟨mk.pos + 1, 1, mk.line + 1⟩)
    · exact ih ⟨mk.pos + 1, mk.col + 1, mk.line⟩

theorem lines_col {C} (hC : 1 ≤ C) : ∀ {gs : List (Nat × List Byte)} {y} {mk : Marker}, mk.col = C → Ink y → (∀ g ∈ gs, Ink g.2) →
    C < (gapMark mk (y ++ groupTxt C gs)).col := by
  have hno : ∀ y, Ink y → 10 ∉ y := fun y h hx => by have := h.2 10 hx; revert this; decide
  intro gs
  induction gs with
  | nil =>
    intro y mk hc hy _
    rw [groupTxt, List.flatMap_nil, List.append_nil, gapMark_ink _ _ (hno y hy)]
    have := List.length_pos_iff.2 hy.1
    simp; omega
  | cons g gs ih =>
    intro y mk hc hy hgs
    rw [groupTxt_cons, gapMark_append, List.cons_append, gapMark, if_pos rfl, List.append_assoc, gapMark_append, List.append_assoc, gapMark_append]
    refine ih ?_ (hgs g (by simp)) (fun x hx => hgs x (by simp [hx]))
    rw [gapMark_spaces]
    simp only
    rw [blanks_col g.1 rfl]
    omega

theorem increment_run {s : SSt} {r} (start : Marker) (hr : s.src.rest = 10 :: r) : blockIncrement start s = (.ok 0, s) := by
  have h0 : s.src.peekz 0 = 10 := peekz_cons hr
  unfold blockIncrement
  ev [h0]
  rfl

theorem header_run {s : SSt} {strip : Bool} {r} (start : Marker) (hl : s.leadingWhitespace = false) (hr : s.src.rest = (if strip then [45] else []) ++ 10 :: r) :
    blockHeader start s = (.ok (if strip then .strip else .clip, 0), on s (if strip then 1 else 0)) := by
  cases strip with
  | true =>
    have h0 : s.src.peekz 0 = 45 := peekz_cons hr
    have hc : blockChomp s = (.ok .strip, on s 1) := by
      unfold blockChomp
      rw [peekz_bind, h0, if_neg (by decide), if_pos rfl, bind_run (skipNonBlank_on s)]
      rfl
    unfold blockHeader
    rw [peekz_bind, h0, if_pos (.inr rfl), bind_run hc, bind_run (increment_run (s := on s 1) start (on_rest (w := [45]) hr rfl))]
    rfl
  | false =>
    have h0 : s.src.peekz 0 = 10 := peekz_cons hr
    unfold blockHeader
    rw [peekz_bind, h0, if_neg (by decide), bind_run (increment_run start hr)]
    simp only [Bool.false_eq_true, if_false, if_true, on_zero hl]
    rfl

/-- the text of a literal block -/
def litTxt (strip : Bool) (C k : Nat) (y : List Byte) (gs : List (Nat × List Byte)) : List Byte :=
  124 :: ((if strip then [45] else []) ++ 10 :: (blanks C k ++ (List.replicate (C - 1) 32 ++ (y ++ groupTxt C gs))))

/-- what a literal block denotes -/
def litVal (strip : Bool) (k : Nat) (y : List Byte) (gs : List (Nat × List Byte)) : List Byte :=
  List.replicate k 10 ++ (y ++ (groupVal gs ++ if strip then [] else [10]))

/-- `s3`: a block was read in `s`, with what follows it up to the next token -/
structure ReadBlock (s s3 : SSt) (v : List Byte) (q : List Byte) (c' i0 : Nat) (I0 : List Indent) : Prop where
  rest : s3.src.rest = q
  col : q ≠ [] → s3.mark.col = c'
  line : s.mark.line < s3.mark.line
  indents : s3.indents = I0
  indent : s3.indent = i0
  toks : ∃ sp, s3.tokens = s.tokens ++ [⟨sp, .scalar .literal v⟩]
  al : s3.simpleKeyAllowed = true
  keys : s3.simpleKeys = savedKeys s
  calm : Calm s3

theorem End.ends {w q c' i0 C} (h : End w q c' i0) (hC : i0 < C) (hm : C = 1 → ¬ DocMark q) : Ends C w q := by
  rcases h with ⟨rfl, rfl⟩ | ⟨rfl, h1, h2, h3, h4⟩
  · exact .inl ⟨rfl, rfl⟩
  · have : c' < C := by
      rcases h2 with h2 | ⟨rfl, rfl, hd⟩
      · omega
      · by_cases hC1 : C = 1
        · exact absurd hd (hm hC1)
        · omega
    refine .inr ⟨c' - 1, rfl, by omega, h4, fun hx => (h3 32 hx).2.1 rfl, fun c hc => ?_⟩
    have := h3 c hc
    simp [isBreak, this]

theorem block_read {cfg s out I i c al strip C k y gs w q c' i0 I0} (h : Pos s out I i (litTxt strip C k y gs ++ (w ++ q)) c al)
    (hx : BCtx I i i0 I0) (hb : BlockTop I0) (hC : i0 < C) (he : End w q c' i0) (hy : LineOk C y) (hgs : ∀ g ∈ gs, LineOk C g.2)
    (h32 : y.head? ≠ some 32) (h9 : C = 1 → k = 0 → y.head? ≠ some 9) (hm : C = 1 → ¬ DocMark q) (hf : (litTxt strip C k y gs ++ (w ++ q)).length < cfg.fuel) :
    ∃ s3, fetchMain cfg s = (.ok (), s3) ∧ ReadBlock s s3 (litVal strip k y gs) q c' i0 I0 := by
  have h0 : s.src.peekz 0 = 124 := peekz_cons (by rw [h.rest]; rfl)
  have hfm : fetchMain cfg s = fetchBlockScalar cfg true s := by
    unfold fetchMain
    ev [h0]
    simp [h.calm.level]
  rw [hfm]
  unfold fetchBlockScalar setAllowed
  rw [bind_run (save_run s)]
  ev []
  generalize hA : ({ s with simpleKeys := savedKeys s, simpleKeyAllowed := true } : SSt) = sA
  unfold scanBlockScalar
  rw [getMark_bind, bind_run (skipNonBlank_on sA)]
  have hnb : unrollNonBlockIndents (on sA 1) = (.ok (), { on sA 1 with indents := I0, indent := i0 }) := by
    have e1 : (on sA 1).indents = I := by rw [← hA]; exact h.indents
    have e2 : (on sA 1).indent = i := by rw [← hA]; exact h.indent
    simp only [unrollNonBlockIndents, upd, e1, e2, hx.nonBlock hb]
  rw [bind_run hnb]
  generalize hB : ({ on sA 1 with indents := I0, indent := i0 } : SSt) = sB
  have b1 : sB.leadingWhitespace = false := by rw [← hB]; rfl
  have b2 : sB.src.rest = (if strip then [45] else []) ++ 10 :: (blanks C k ++ (List.replicate (C - 1) 32 ++ (y ++ (groupTxt C gs ++ (w ++ q))))) := by
    rw [← hB, ← hA]
    simp [on, Src.skip, h.rest, litTxt]
  rw [bind_run (header_run _ b1 b2)]
  generalize hD : on sB (if strip then 1 else 0) = sD
  have d2 : sD.src.rest = 10 :: (blanks C k ++ (List.replicate (C - 1) 32 ++ (y ++ (groupTxt C gs ++ (w ++ q))))) := by
    rw [← hD]
    exact on_rest b2 (by cases strip <;> rfl)
  rw [bind_run (skipWs_none d2 (by simp))]
  have hp0 : sD.src.peekz 0 = 10 := peekz_cons d2
  rw [peekz_bind, hp0]
  rw [show (!isBreakz 10) = false from rfl, failIf_false, pure_bind_run]
  have hbr : blockHeaderBreak sD = (.ok [10], pass sD [10] true) := by
    unfold blockHeaderBreak
    rw [peekz_bind, hp0, if_pos (by decide), readBreak_pass [] d2]
    rfl
  rw [bind_run hbr]
  generalize hE : pass sD [10] true = sE
  have e1 : sE.src.rest = blanks C k ++ (List.replicate (C - 1) 32 ++ (y ++ (groupTxt C gs ++ (w ++ q)))) := by
    rw [← hE]; exact pass_rest d2
  have e2 : sE.leadingWhitespace = true := by rw [← hE]; rfl
  have e3 : sE.mark.col = 1 := by rw [← hE]; rfl
  have e4 : sE.indent = i0 := by rw [← hE, ← hD, ← hB]; rfl
  have e5 : sE.indents = I0 := by rw [← hE, ← hD, ← hB]; rfl
  have e6 : sE.tokens = s.tokens := by rw [← hE, ← hD, ← hB, ← hA]; rfl
  have e7 : sE.simpleKeys = savedKeys s := by rw [← hE, ← hD, ← hB, ← hA]; rfl
  have e8 : sE.simpleKeyAllowed = true := by rw [← hE, ← hD, ← hB, ← hA]; rfl
  have e9 : sE.mark.line = s.mark.line + 1 := by rw [← hE, ← hD, ← hB, ← hA]; rfl
  have eA : Fit sE.src := by
    have hfB : Fit sB.src := by
      rw [← hB, ← hA]
      exact h.calm.fit.skip (by rw [h.rest]; simp [litTxt])
    have hfD : Fit sD.src := by
      rw [← hD]
      refine hfB.skip ?_
      rw [b2]
      cases strip <;> simp
    rw [← hE]
    exact hfD.skip (by rw [d2]; simp)
  have eC : Calm sE := ⟨by rw [← hE, ← hD, ← hB, ← hA]; exact h.calm.level, by rw [← hE, ← hD, ← hB, ← hA]; exact h.calm.impl,
    by rw [← hE, ← hD, ← hB, ← hA]; exact h.calm.parsed, by rw [← hE, ← hD, ← hB, ← hA]; exact h.calm.started, eA⟩
  clear hE hD hB hnb hbr hfm
  obtain ⟨y0, yt, hyt⟩ : ∃ y0 yt, y = y0 :: yt := by
    cases hyy : y with
    | nil => exact absurd hyy hy.1.1
    | cons a b => exact ⟨a, b, rfl⟩
  have hb0 : isBreak y0 = false := hy.1.2 y0 (by simp [hyt])
  have hp1 : (sE.src.peekz 0 == 9) = false := by
    rw [peekz_head e1]
    cases k with
    | succ k =>
      rcases Nat.eq_zero_or_pos (C - 1) with h1 | h1
      · simp [blanks, h1]
      · obtain ⟨n, hn⟩ : ∃ n, C - 1 = n + 1 := ⟨C - 2, by omega⟩
        simp [blanks, hn, List.replicate_succ]
    | zero =>
      rcases Nat.eq_zero_or_pos (C - 1) with h1 | h1
      · have := h9 (by omega) rfl
        simp [blanks, h1, hyt] at this ⊢
        exact this
      · obtain ⟨n, hn⟩ : ∃ n, C - 1 = n + 1 := ⟨C - 2, by omega⟩
        simp [blanks, hn, List.replicate_succ]
  rw [peekz_bind, hp1, failIf_false, pure_bind_run]
  have hlen : (blanks C k ++ List.replicate (C - 1) 32).length + (y ++ (groupTxt C gs ++ w)).length < cfg.fuel := by
    simp [litTxt] at hf
    simp
    omega
  have hfirst := firstLine_run (cfg := cfg) (C := C) (r := y ++ (groupTxt C gs ++ (w ++ q))) (by omega)
    (by rw [hyt] at h32 ⊢; exact h32) (by rw [hyt]; intro c hc; cases hc; exact hb0) (j := cfg.fuel) (mi := 0) (tb := []) e1 e3 (by omega) (by omega) (by omega) e2
  generalize hG : pass sE (blanks C k ++ List.replicate (C - 1) 32) true = sG at hfirst
  have g1 : sG.src.rest = y ++ (groupTxt C gs ++ (w ++ q)) := by rw [← hG]; exact pass_rest (by rw [e1]; simp)
  have g2 : sG.mark.col = C := by
    rw [← hG]
    simp only [pass, gapMark_append, gapMark_spaces]
    rw [blanks_col k e3]; omega
  have g3 : sG.indent = i0 := by rw [← hG]; exact e4
  have g4 : Fit sG.src := by rw [← hG]; exact eA.skip (by rw [e1]; simp)
  have g5 : sG.leadingWhitespace = true := by rw [← hG]; rfl
  have g6 : s.mark.line < sG.mark.line := by
    rw [← hG]
    have := gapMark_lineLe (blanks C k ++ List.replicate (C - 1) 32) sE.mark
    simp only [pass]; omega
  have hfind : blockFindIndent cfg 0 sE = (.ok (C, List.replicate k 10), sG) := by
    unfold blockFindIndent skipFirstLineIndent
    ev []
    simp only [Nat.lt_irrefl, if_false, if_true]
    rw [bind_run hfirst]
    ev [g3]
    have : max C (i0 + 1) = C := by omega
    rw [this]
    have : (if i0 > 0 then max C 1 else C) = C := by split <;> omega
    rw [this]
    simp
  dsimp only
  rw [bind_run hfind, atEof_bind]
  have hne : sG.src.bufIsEmpty = false := by simp [Src.bufIsEmpty, g1, hyt]
  rw [hne, if_neg (by simp)]
  obtain ⟨b, hbody⟩ := body_run (cfg := cfg) (C := C) (by omega) (he.ends hC hm) (gs := gs) (y := y) (j := cfg.fuel) (s := sG) (p := ⟨[], [], List.replicate k 10, false⟩)
    g1 g2 hy hgs g4 g5 (by omega) (by omega)
  unfold blockContent
  have hbad : (decide (sG.mark.col < C) && decide (sG.mark.col > sG.indent)) = false := by simp [g2]
  dsimp only
  rw [gets_bind, hbad, getMark_bind, failIf_false, pure_bind_run, bind_run hbody, atEof_bind, gets_bind, getMark_bind]
  generalize hH : pass sG (y ++ (groupTxt C gs ++ w)) true = sH
  have h1 : sH.src.rest = q := by rw [← hH]; exact pass_rest (by rw [g1]; simp)
  have h2 : blockChompTail (if strip then Chomp.strip else .clip) sH.src.bufIsEmpty (decide (sH.mark.col > max C 1))
      ⟨[] ++ [] ++ List.replicate k 10 ++ y ++ groupVal gs, if w = [] then [] else [10], [], b⟩ = litVal strip k y gs := by
    cases strip with
    | true => simp [blockChompTail, litVal]
    | false =>
      rcases he with ⟨rfl, rfl⟩ | ⟨rfl, -, -, -, hq⟩
      · have hc : sH.mark.col > max C 1 := by
          rw [← hH]
          have := lines_col (C := C) (by omega) (gs := gs) (y := y) g2 hy.1 (fun g hg => (hgs g hg).1)
          simp only [pass, List.append_nil]
          omega
        simp [blockChompTail, litVal, hc, Src.bufIsEmpty, h1]
      · simp [blockChompTail, litVal, Src.bufIsEmpty, h1, hq]
  dsimp only
  rw [h2]
  refine ⟨_, rfl, ?_⟩
  constructor
  · exact h1
  · intro hq
    show sH.mark.col = c'
    rw [← hH]
    simp only [pass]
    rw [← List.append_assoc, gapMark_append]
    exact (he.col hq _).1
  · show s.mark.line < sH.mark.line
    rw [← hH]
    exact Nat.lt_of_lt_of_le g6 (gapMark_lineLe _ _)
  · show sH.indents = I0
    rw [← hH, ← hG]; exact e5
  · show sH.indent = i0
    rw [← hH]; exact g3
  · have ht : sH.tokens = s.tokens := by rw [← hH, ← hG]; exact e6
    exact ⟨⟨sG.mark, sH.mark⟩, by rw [← ht]; rfl⟩
  · show sH.simpleKeyAllowed = true
    rw [← hH, ← hG]; exact e8
  · show sH.simpleKeys = _
    rw [← hH, ← hG]; exact e7
  · have hc : Calm sH := by
      refine ⟨by rw [← hH, ← hG]; exact eC.level, by rw [← hH, ← hG]; exact eC.impl, by rw [← hH, ← hG]; exact eC.parsed, by rw [← hH, ← hG]; exact eC.started, ?_⟩
      rw [← hH]; exact g4.skip (by rw [g1]; simp)
    exact ⟨hc.level, hc.impl, hc.parsed, hc.started, hc.fit⟩

/-- a literal block -/
theorem block_goes {cfg s out I i i0 I0 strip C k y gs w q c c' al I' i' n} (h : Here cfg s out I i (litTxt strip C k y gs ++ (w ++ q)) c al)
    (hx : BCtx I i i0 I0) (hb : BlockTop I0) (hi : i0 < c) (hC : i0 < C) (he : End w q c' i0) (hy : LineOk C y) (hgs : ∀ g ∈ gs, LineOk C g.2)
    (h32 : y.head? ≠ some 32) (h9 : C = 1 → k = 0 → y.head? ≠ some 9) (hm : C = 1 → ¬ DocMark q) (hf : (litTxt strip C k y gs ++ (w ++ q)).length < cfg.fuel)
    (hu : unroll (lowCol q c') i0 I0 = some (I', i', n)) :
    Goes cfg s (litTxt strip C k y gs ++ (w ++ q)).length (out ++ [.scalar .literal (litVal strip k y gs)] ++ List.replicate n .blockEnd) I' i' q c' true := by
  obtain ⟨s2, hp, e⟩ := fetch_here h (by simp [litTxt]) (fun _ => ⟨124, _, rfl, by decide, by decide, by simp⟩)
  obtain ⟨s3, e3, r⟩ := block_read hp hx hb hC he hy hgs h32 h9 hm hf
  refine Goes.one (e.trans e3) ?_ (by simp [litTxt]; omega)
  obtain ⟨k, hk, hkp⟩ := hp.keys
  obtain ⟨sp, htk⟩ := r.toks
  generalize litVal strip _ y gs = v at htk ⊢
  have hty : types s3 = out ++ [.scalar .literal v] := by simp [types, htk]; exact hp.toks
  have hsv : ∃ k', savedKeys s2 = [k'] ∧ (k'.possible = true → k'.required = false ∧ k'.mark.line < s3.mark.line) := by
    unfold savedKeys
    split
    · refine ⟨keyHere s2, by simp [hk], fun _ => ⟨BCtx.notRequired (by rw [hp.indents, hp.indent]; exact hx) hp.col hi, r.line⟩⟩
    · exact ⟨k, hk, fun hx => ⟨(hkp hx).1, Nat.lt_of_le_of_lt (hkp hx).2.2 r.line⟩⟩
  obtain ⟨k', hk', hkp'⟩ := hsv
  have := here_gap (cfg := cfg) (s := s3) (w := []) (q := q) (c := c') (k := k') (by simp) r.rest he.head (by simp; omega) r.calm
    (fun hq => r.col hq) (by rw [r.indents, r.indent]; exact hu) (by rw [r.keys, hk']) (fun hx => ⟨(hkp' hx).1, fun hq => .inl (hkp' hx).2⟩)
    (NP.last hty rfl)
  rw [hty, r.al] at this
  exact this

end Verif.Scanner
