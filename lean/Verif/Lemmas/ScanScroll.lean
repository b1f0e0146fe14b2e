import Verif.Lemmas.ScanLines
import Verif.Spec.Block
/-!
# Scanning block scalars in any form
-/
namespace Verif.Scanner
open Verif Verif.CharUtils Verif.Source Verif.Emitter Verif.Spec

/-! ## Indentation -/

theorem scrollIndent_run {cfg : Cfg} {C n s r} (hr : s.src.rest = List.replicate n 32 ++ r) (hc : s.mark.col + n ≤ C)
    (hq : s.mark.col + n = C ∨ (r.head? ≠ some 32 ∧ (r ≠ [] ∨ C < 126))) (hk : n < cfg.fuel) (hl : s.leadingWhitespace = true) :
    blockIndentSpaces cfg C s = (.ok (), pass s (List.replicate n 32) true) := by
  rcases hq with hq | ⟨h1, h2 | h2⟩
  · exact blockIndent_run hr hc (.inl hq) hk hl
  · exact blockIndent_run hr hc (.inr ⟨h2, h1⟩) hk hl
  · unfold blockIndentSpaces
    rw [if_pos (by rw [show bufMaxLen = 128 from rfl]; omega)]
    exact indentSpaces_run (k := cfg.fuel) hr hc (.inr h1) hk hl

/-- what stands after the empty lines of a block scalar with its content at column `c`: the content itself, or something to the left of it -/
def Reached (c n : Nat) (r : List Byte) : Prop := n ≤ c ∧ NoBreak r ∧ (n = c ∨ (r.head? ≠ some 32 ∧ (r ≠ [] ∨ c < 125)))

theorem empties_run {cfg : Cfg} {c n r} (hx : Reached c n r) : ∀ {m e}, Block.Empties c m e →
    ∀ {j s tb}, s.src.rest = e ++ (Block.spaces n ++ r) → s.mark.col = 1 → (e ++ Block.spaces n).length < j →
      (e ++ Block.spaces n).length < cfg.fuel → s.leadingWhitespace = true →
      loopM (blockIndentBody cfg (c + 1)) j tb s = (.ok (tb ++ List.replicate m 10), pass s (e ++ Block.spaces n) true) := by
  obtain ⟨hn, hb, hq⟩ := hx
  intro m e he
  induction he with
  | nil =>
    intro j s tb hr hc hj hf hl
    obtain ⟨j, rfl⟩ : ∃ j', j = j' + 1 := ⟨j - 1, by omega⟩
    simp only [List.nil_append, Block.spaces, List.length_replicate] at hr hf ⊢
    have hrun := scrollIndent_run (cfg := cfg) (C := c + 1) hr (by omega) (by
      rw [hc]
      rcases hq with hq | ⟨h1, h2⟩
      · exact .inl (by omega)
      · exact .inr ⟨h1, h2.imp id (by omega)⟩) hf hl
    rw [loop_done (b := tb) (s1 := pass s (List.replicate n 32) true)]
    · simp
    · unfold blockIndentBody
      rw [bind_run hrun]
      have := NoBreak.peekz hb (pass_rest (l := true) hr)
      ev [this]
  | @cons m k r' hk _ ih =>
    intro j s tb hr hc hj hf hl
    obtain ⟨j, rfl⟩ : ∃ j', j = j' + 1 := ⟨j - 1, by omega⟩
    simp only [List.append_assoc, List.cons_append, Block.spaces] at hr hf hj ⊢
    simp only [List.length_append, List.length_replicate, List.length_cons] at hf hj
    have hrun := scrollIndent_run (cfg := cfg) (C := c + 1) hr (by omega) (.inr ⟨by simp, .inl (by simp)⟩) (by omega) hl
    have hr2 := pass_rest (l := true) hr
    have hbody : blockIndentBody cfg (c + 1) tb s = (.ok (.next (tb ++ [10])), pass s (List.replicate k 32 ++ [10]) true) := by
      unfold blockIndentBody
      rw [bind_run hrun]
      have : isBreak ((pass s (List.replicate k 32) true).src.peekz 0) = true := by rw [peekz_cons hr2]; rfl
      ev [this]
      rw [bind_run (readBreak_pass tb hr2), pass_pass]
      rfl
    refine (loop_next hbody).trans ((ih (s := pass s (List.replicate k 32 ++ [10]) true) (pass_rest (by rw [hr]; simp [Block.spaces])) pass_line ?_ ?_ rfl).trans ?_)
    · simp [Block.spaces]; omega
    · simp [Block.spaces]; omega
    · rw [pass_pass]
      simp [List.replicate_succ, Block.spaces]

theorem firstEmpties_run {cfg : Cfg} {c r} (hq : r.head? ≠ some 32) (hb : NoBreak r) : ∀ {m e}, Block.Empties c m e →
    ∀ {j s mi tb}, s.src.rest = e ++ (Block.spaces c ++ r) → s.mark.col = 1 → mi ≤ c + 1 →
      (e ++ Block.spaces c).length < j → (e ++ Block.spaces c).length < cfg.fuel → s.leadingWhitespace = true →
      loopM (firstLineBody cfg) j (mi, tb) s = (.ok (c + 1, tb ++ List.replicate m 10), pass s (e ++ Block.spaces c) true) := by
  intro m e he
  induction he with
  | nil =>
    intro j s mi tb hr hc hm hj hf hl
    obtain ⟨j, rfl⟩ : ∃ j', j = j' + 1 := ⟨j - 1, by omega⟩
    simp only [List.nil_append, Block.spaces, List.length_replicate] at hr hf ⊢
    have hrun := spacesLead_run (k := cfg.fuel) hr hq hf hl
    rw [loop_done (b := (c + 1, tb)) (s1 := pass s (List.replicate c 32) true)]
    · simp
    · unfold firstLineBody
      rw [bind_run hrun]
      have := NoBreak.peekz hb (pass_rest (l := true) hr)
      have hcol : (pass s (List.replicate c 32) true).mark.col = c + 1 := by rw [pass_spaces_col]; omega
      ev [this, hcol]
      have : (if c + 1 > mi then c + 1 else mi) = c + 1 := by split <;> omega
      simp [this]
  | @cons m k r' hk _ ih =>
    intro j s mi tb hr hc hm hj hf hl
    obtain ⟨j, rfl⟩ : ∃ j', j = j' + 1 := ⟨j - 1, by omega⟩
    simp only [List.append_assoc, List.cons_append, Block.spaces] at hr hf hj ⊢
    simp only [List.length_append, List.length_replicate, List.length_cons] at hf hj
    have hrun := spacesLead_run (k := cfg.fuel) hr (by simp) (by omega) hl
    have hr2 := pass_rest (l := true) hr
    have hbody : firstLineBody cfg (mi, tb) s = (.ok (.next (if k + 1 > mi then k + 1 else mi, tb ++ [10])), pass s (List.replicate k 32 ++ [10]) true) := by
      unfold firstLineBody
      rw [bind_run hrun]
      have : isBreak ((pass s (List.replicate k 32) true).src.peekz 0) = true := by rw [peekz_cons hr2]; rfl
      have hcol : (pass s (List.replicate k 32) true).mark.col = k + 1 := by rw [pass_spaces_col]; omega
      ev [this, hcol]
      rw [bind_run (readBreak_pass tb hr2), pass_pass]
      rfl
    refine (loop_next hbody).trans ((ih (s := pass s (List.replicate k 32 ++ [10]) true) (pass_rest (by rw [hr]; simp [Block.spaces])) pass_line (by split <;> omega) ?_ ?_ rfl).trans ?_)
    · simp [Block.spaces]; omega
    · simp [Block.spaces]; omega
    · rw [pass_pass]
      simp [List.replicate_succ, Block.spaces]

theorem empties_col {c m e} (h : Block.Empties c m e) : ∀ {mk : Marker}, mk.col = 1 → (gapMark mk e).col = 1 := by
  induction h with
  | nil => intro mk h; exact h
  | cons _ _ ih => intro mk h; rw [gapMark_append, gapMark, if_pos rfl]; exact ih rfl

theorem trail_empties {c m e} (h : Block.Trail c m e) (x : List Byte) : ∃ e', Block.Empties c m e' ∧ e ++ 10 :: x = 10 :: (e' ++ x) := by
  induction h with
  | nil => exact ⟨[], .nil, rfl⟩
  | @cons m k r hk _ ih =>
    obtain ⟨e', h1, h2⟩ := ih
    refine ⟨Block.spaces k ++ 10 :: e', .cons hk h1, ?_⟩
    simp [h2]

theorem spaces_length (n : Nat) : (Block.spaces n).length = n := by simp [Block.spaces]

/-! ## Lines -/

theorem row_ok {c l} (h : Block.Row c l) : LineOk (c + 1) l := by
  refine ⟨⟨h.ne, fun b hb => ?_⟩, fun hc hd => ?_⟩
  · have := h.line b hb
    simp [isBreak, this]
  · obtain ⟨d, r', h1, h2⟩ := h.mark (by omega) [46, 46, 46] (l.drop 3) (.inr rfl) (by rw [← hd.1, List.take_append_drop])
    have h3 := hd.2
    have h4 : l.getD 3 0 = d := by
      rw [← List.take_append_drop 3 l, hd.1, h1]; rfl
    rw [h4] at h3
    obtain ⟨k0, k9, k10, k13, k32⟩ := h2
    simp [isBlankOrBreakz, isBlank, isBreak] at h3
    omega

theorem rows_first {folded c l t v} (h : Block.Rows folded c l t v) : Block.Row c l ∧ ∃ t', t = l ++ t' := by
  cases h with
  | one h => exact ⟨h, [], by simp⟩
  | more h _ _ => exact ⟨h, _, rfl⟩

theorem spaced_blank {l : List Byte} {s : SSt} {r} (hl : l ≠ []) (hr : s.src.rest = l ++ r) : isBlank (s.src.peekz 0) = Block.spaced l := by
  cases l with
  | nil => exact absurd rfl hl
  | cons a l =>
    rw [peekz_cons hr]
    simp [isBlank, Block.spaced, Bool.beq_eq_decide_eq]

theorem join_joint (folded : Bool) (l l' : List Byte) (m : Nat) (x : List Byte) :
    (blockJoin (!folded) (Block.spaced l') ⟨x, [10], List.replicate m 10, Block.spaced l⟩).string = x ++ Block.joint folded l l' m := by
  unfold blockJoin Block.joint Block.glue
  cases folded <;> cases Block.spaced l <;> cases Block.spaced l' <;> cases m <;> simp [List.replicate_succ]

theorem join_rest (lit b : Bool) (p : BlockSt) : blockJoin lit b p = ⟨(blockJoin lit b p).string, [], [], b⟩ := by
  unfold blockJoin; split <;> rfl

/-- the end of a block scalar: the end of the text, something to the left of its content, or `...` -/
def Stop (c n : Nat) (r : List Byte) : Prop := n ≤ c ∧ NoBreak r ∧ r.head? ≠ some 32 ∧ ((n < c ∧ r ≠ []) ∨ (r = [] ∧ c < 125) ∨ (c = 0 ∧ DocMark r ∧ r.head? = some 46))

theorem Stop.reached {c n r} (h : Stop c n r) : Reached c n r :=
  ⟨h.1, h.2.1, .inr ⟨h.2.2.1, h.2.2.2.elim (fun h => .inl h.2) fun h => h.elim (fun h => .inr h.2) fun h => .inl h.2.1.head.2⟩⟩

theorem rows_run {cfg : Cfg} {folded c n r m₁ E} (hs : Stop c n r) (hE : Block.Empties c m₁ E) : ∀ {l t v}, Block.Rows folded c l t v → ∀ {j s p},
    s.src.rest = t ++ 10 :: (E ++ (Block.spaces n ++ r)) → s.mark.col = c + 1 → Fit s.src →
    s.leadingWhitespace = true → (t ++ 10 :: (E ++ Block.spaces n)).length < j → (t ++ 10 :: (E ++ Block.spaces n)).length < cfg.fuel →
    ∃ b, loopM (blockBody cfg (!folded) (c + 1)) j p s =
      (.ok ⟨(blockJoin (!folded) (Block.spaced l) p).string ++ v, [10], List.replicate m₁ 10, b⟩, pass s (t ++ 10 :: (E ++ Block.spaces n)) true) := by
  intro l t v h
  induction h with
  | @one y hrow =>
    intro j s p hr hc hfit hl hj hf
    obtain ⟨j, rfl⟩ : ∃ j', j = j' + 1 := ⟨j - 1, by omega⟩
    have hy := row_ok hrow
    have hgo : (s.mark.col == c + 1 && !s.src.bufIsEmpty && !(c + 1 == 1 && nextIsDocumentEnd s)) = true := by
      rw [notDocEnd hy hr (.inr rfl)]
      have : y ≠ [] := hy.1.1
      cases y with
      | nil => exact absurd rfl this
      | cons c y => simp [hc, Src.bufIsEmpty, hr]
    simp only [List.length_append, List.length_cons] at hj hf
    have hline := fun str => contentLine_run (cfg := cfg) (str := str) hy.1.2 hr (.inr rfl) (by omega) hl hfit
    have hr2 := pass_rest (l := true) hr
    obtain ⟨j, rfl⟩ : ∃ j', j = j' + 1 := ⟨j - 1, by have := List.length_pos_iff.2 hy.1.1; omega⟩
    have heof : (pass s y true).src.bufIsEmpty = false := by simp [Src.bufIsEmpty, hr2]
    have hskip := empties_run (cfg := cfg) hs.reached hE (j := cfg.fuel) (s := pass s (y ++ [10]) true) (tb := []) (pass_rest (by rw [hr]; simp)) pass_line
      (by simp; omega) (by simp; omega) rfl
    refine ⟨Block.spaced y, (loop_next (b := ⟨(blockJoin (!folded) (Block.spaced y) p).string ++ y, [10], List.replicate m₁ 10, Block.spaced y⟩)
        (s1 := pass s (y ++ 10 :: (E ++ Block.spaces n)) true) ?_).trans (loop_done ?_)⟩
    · unfold blockBody
      ev [hgo]
      rw [spaced_blank hy.1.1 hr, bind_run (hline _)]
      ev [heof]
      rw [bind_run (readBreak_pass _ hr2), pass_pass]
      unfold skipBlockIndent
      rw [join_rest]
      simp only [List.nil_append]
      rw [bind_run hskip, pass_pass]
      simp [pure_run]
    · unfold blockBody
      have hcol : (pass s (y ++ 10 :: (E ++ Block.spaces n)) true).mark.col = n + 1 := by
        simp only [pass, gapMark_append, gapMark, if_true, Block.spaces]
        rw [gapMark_spaces]
        simp only
        rw [empties_col hE rfl]; omega
      have hrest : (pass s (y ++ 10 :: (E ++ Block.spaces n)) true).src.rest = r := pass_rest (by rw [hr]; simp)
      have : ((n + 1 == c + 1) && !(pass s (y ++ 10 :: (E ++ Block.spaces n)) true).src.bufIsEmpty && !(c + 1 == 1 && nextIsDocumentEnd (pass s (y ++ 10 :: (E ++ Block.spaces n)) true))) = false := by
        rcases hs.2.2.2 with ⟨h1, -⟩ | ⟨h1, -⟩ | ⟨h1, h2, h3⟩
        · have : (n + 1 == c + 1) = false := by simp; omega
          rw [this]; simp
        · simp [Src.bufIsEmpty, hrest, h1]
        · subst h1
          obtain ⟨x, r', -, rfl, h4⟩ := h2.cons
          simp at h3
          subst h3
          generalize pass s (y ++ 10 :: (E ++ Block.spaces n)) true = S at hrest ⊢
          have h5 : isBlankOrBreakz (S.src.peekz 3) = true := by rw [← h4]; cases r' <;> simp [Src.peekz, hrest]
          have h6 : nextIsDocumentEnd S = true := by simp [nextIsDocumentEnd, Src.nextIsThree, h5]; simp [Src.peekz, hrest]
          rw [h6]; simp
      ev [hcol, this]
  | @more y m e l' t v hrow he hrows ih =>
    intro j s p hr hc hfit hl hj hf
    obtain ⟨j, rfl⟩ : ∃ j', j = j' + 1 := ⟨j - 1, by omega⟩
    have hy := row_ok hrow
    simp only [List.cons_append, List.append_assoc] at hr hj hf ⊢
    have hline := fun str => contentLine_run (cfg := cfg) (str := str) hy.1.2 hr (.inr rfl) (by simp at hf; omega) hl hfit
    have hr2 := pass_rest (l := true) hr
    have hgo : (s.mark.col == c + 1 && !s.src.bufIsEmpty && !(c + 1 == 1 && nextIsDocumentEnd s)) = true := by
      rw [notDocEnd hy hr (.inr rfl)]
      have : y ≠ [] := hy.1.1
      cases y with
      | nil => exact absurd rfl this
      | cons c y => simp [hc, Src.bufIsEmpty, hr]
    have heof : (pass s y true).src.bufIsEmpty = false := by simp [Src.bufIsEmpty, hr2]
    simp only [List.length_append, List.length_cons, spaces_length] at hj hf
    have hrs : Reached c c (t ++ 10 :: (E ++ (Block.spaces n ++ r))) := by
      refine ⟨Nat.le_refl _, ?_, .inl rfl⟩
      obtain ⟨hrow', t', rfl⟩ := rows_first hrows
      have := (row_ok hrow').1
      cases l' with
      | nil => exact absurd rfl this.1
      | cons a l' => intro c' hc'; cases hc'; exact this.2 a (by simp)
    have hskip := empties_run (cfg := cfg) hrs he (j := cfg.fuel) (s := pass s (y ++ [10]) true) (tb := []) (pass_rest (by rw [hr]; simp)) pass_line
      (by simp [spaces_length]; omega) (by simp [spaces_length]; omega) rfl
    obtain ⟨b, hb⟩ := ih (j := j) (s := pass s (y ++ 10 :: (e ++ Block.spaces c)) true)
      (p := ⟨(blockJoin (!folded) (Block.spaced y) p).string ++ y, [10], List.replicate m 10, Block.spaced y⟩)
      (pass_rest (by rw [hr]; simp)) (by
          simp only [pass, gapMark_append, gapMark, if_true, Block.spaces]
          rw [gapMark_spaces]
          simp only
          rw [empties_col he rfl]; omega)
      (hfit.skip (by rw [hr]; simp)) rfl (by simp [spaces_length]; omega) (by simp [spaces_length]; omega)
    refine ⟨b, (loop_next (s1 := pass s (y ++ 10 :: (e ++ Block.spaces c)) true) ?_).trans (hb.trans ?_)⟩
    · unfold blockBody
      ev [hgo]
      rw [spaced_blank hy.1.1 hr, bind_run (hline _)]
      ev [heof]
      rw [bind_run (readBreak_pass _ hr2), pass_pass]
      unfold skipBlockIndent
      rw [join_rest]
      simp only [List.nil_append]
      rw [bind_run hskip, pass_pass]
      simp [pure_run]
    · rw [pass_pass, join_joint]
      simp

/-! ## The header -/

/-- the chomping of the model -/
def chompOf : Block.Chomp → Chomp
  | .strip => .strip
  | .clip => .clip
  | .keep => .keep

/-- what follows the header: a space or a line feed -/
def AfterHeader (r : List Byte) : Prop := r.head? = some 32 ∨ r.head? = some 10

theorem digit_run {s : SSt} {d t r} (start : Marker) (hl : s.leadingWhitespace = false) (hd : Block.Digit d t) (hr : s.src.rest = t ++ r)
    (ha : ∀ c, r.head? = some c → isAsciiDigit c = false) : blockIncrement start s = (.ok (d.getD 0), on s t.length) := by
  cases hd with
  | none =>
    have h0 : isAsciiDigit (s.src.peekz 0) = false := by
      rw [peekz_head hr]
      cases r with
      | nil => decide
      | cons c r => exact ha c rfl
    unfold blockIncrement
    ev [h0]
    simp only [List.length_nil, on_zero hl]
    rfl
  | @some d h1 h9 =>
    have h0 : s.src.peekz 0 = 48 + d := peekz_cons hr
    have hdig : isAsciiDigit (48 + d) = true := by simp [isAsciiDigit]; omega
    have hne : (48 + d == 48) = false := by simp; omega
    unfold blockIncrement
    rw [peekz_bind, h0, if_pos hdig, hne, failIf_false, pure_bind_run, bind_run (skipNonBlank_on s), pure_run]
    simp

theorem chomp_run {s : SSt} {ch : Block.Chomp} {r} (hl : s.leadingWhitespace = false) (hr : s.src.rest = ch.sign ++ r)
    (ha : ∀ c, r.head? = some c → c ≠ 43 ∧ c ≠ 45) : blockChomp s = (.ok (chompOf ch), on s ch.sign.length) := by
  unfold blockChomp
  cases ch with
  | strip =>
    have h0 : s.src.peekz 0 = 45 := peekz_cons hr
    rw [peekz_bind, h0, if_neg (by decide), if_pos rfl, bind_run (skipNonBlank_on s)]
    rfl
  | keep =>
    have h0 : s.src.peekz 0 = 43 := peekz_cons hr
    rw [peekz_bind, h0, if_pos rfl, bind_run (skipNonBlank_on s)]
    rfl
  | clip =>
    have h0 : s.src.peekz 0 ≠ 43 ∧ s.src.peekz 0 ≠ 45 := by
      rw [peekz_head hr]
      cases r with
      | nil => decide
      | cons c r => exact ha c rfl
    rw [peekz_bind, if_neg h0.1, if_neg h0.2]
    simp only [Block.Chomp.sign, List.length_nil, on_zero hl]
    rfl

theorem headerAll_run {s : SSt} {ch d h r} (start : Marker) (hl : s.leadingWhitespace = false) (hh : Block.Header ch d h) (hr : s.src.rest = h ++ r) (ha : AfterHeader r) :
    blockHeader start s = (.ok (chompOf ch, d.getD 0), on s h.length) := by
  obtain ⟨t, hd, hh⟩ := hh
  have ha1 : ∀ c, r.head? = some c → isAsciiDigit c = false := by
    intro c hc; rw [AfterHeader, hc] at ha; rcases ha with ha | ha <;> cases ha <;> rfl
  have ha2 : ∀ c, r.head? = some c → c ≠ 43 ∧ c ≠ 45 := by
    intro c hc; rw [AfterHeader, hc] at ha; rcases ha with ha | ha <;> cases ha <;> decide
  by_cases hs : ch = .clip
  · subst hs
    have hh : h = t := by rcases hh with rfl | rfl <;> simp [Block.Chomp.sign]
    subst hh
    have hc : ¬ (s.src.peekz 0 = 43 ∨ s.src.peekz 0 = 45) := by
      rw [peekz_head hr]
      cases hd with
      | none =>
        cases r with
        | nil => decide
        | cons c r => have := ha2 c rfl; simp; omega
      | some h1 h9 => simp; omega
    unfold blockHeader
    rw [peekz_bind, if_neg hc, bind_run (digit_run start hl hd hr ha1)]
    have h1 : ¬ d.getD 0 = 0 → blockChomp (on s h.length) = (.ok .clip, on (on s h.length) 0) := fun _ =>
      chomp_run (s := on s h.length) (ch := .clip) (r := r) rfl (by simpa [Block.Chomp.sign] using on_rest hr rfl) ha2
    split
    · rename_i h0
      rw [h0]; rfl
    · rename_i h0
      rw [bind_run (h1 h0), on_on]; rfl
  · have key : ∃ x, ch.sign = [x] ∧ (x = 43 ∨ x = 45) := by
      cases ch <;> simp_all [Block.Chomp.sign]
    obtain ⟨x, hx, hx'⟩ := key
    rcases hh with rfl | rfl
    · rw [List.append_assoc] at hr
      have h0 : s.src.peekz 0 = x := peekz_cons (by rw [hr, hx]; rfl)
      have hdh : ∀ c, (t ++ r).head? = some c → c ≠ 43 ∧ c ≠ 45 := by
        cases hd with
        | none => exact ha2
        | some h1 h9 => intro c hc; simp at hc; omega
      unfold blockHeader
      rw [peekz_bind, h0, if_pos hx', bind_run (chomp_run hl hr hdh), bind_run (digit_run start rfl hd (on_rest hr rfl) ha1), on_on]
      rw [List.length_append]; rfl
    · rw [List.append_assoc] at hr
      cases hd with
      | none =>
        have h0 : s.src.peekz 0 = x := peekz_cons (by rw [hr, hx]; rfl)
        have hr' : s.src.rest = ch.sign ++ r := hr
        unfold blockHeader
        rw [peekz_bind, h0, if_pos hx', bind_run (chomp_run hl hr' ha2), bind_run (digit_run (d := none) (t := []) (r := r) start rfl .none (on_rest hr' rfl) ha1), on_on]
        simp; rfl
      | @some d h1 h9 =>
        have h0 : s.src.peekz 0 = 48 + d := peekz_cons hr
        have hdd : isAsciiDigit x = false := by rcases hx' with rfl | rfl <;> rfl
        unfold blockHeader
        rw [peekz_bind, h0, if_neg (by omega), bind_run (digit_run start hl (.some h1 h9) hr (by rw [hx]; intro c hc; cases hc; exact hdd))]
        simp only [Option.getD_some]
        rw [if_neg (by omega), bind_run (chomp_run (s := on s _) rfl (on_rest hr rfl) ha2), on_on]
        rw [List.length_append]; rfl

theorem wsToEol_spaces (n : Nat) (r : List Byte) (b : Bool) :
    wsToEol true (Block.spaces n ++ r) false b = ((wsToEol true r false (b || decide (0 < n))).1 + n, (wsToEol true r false (b || decide (0 < n))).2) := by
  induction n generalizing b with
  | zero => simp [Block.spaces]
  | succ n ih =>
    rw [Block.spaces, List.replicate_succ, List.cons_append, wsToEol, if_pos rfl]
    have := ih true
    rw [Block.spaces] at this
    rw [this]
    simp [Nat.add_assoc]

theorem eol_run {s : SSt} {o r} (ho : Block.Eol o) (hr : s.src.rest = o ++ r) (h : r = [] ∨ ∃ r', r = 10 :: r') :
    ∃ x, skipWsToEol true false s = (.ok (false, x), pass s o s.leadingWhitespace) := by
  have key : ∃ x, wsToEol true (o ++ r) false false = (o.length, .ok (false, x)) ∧ ∀ b ∈ o, b ≠ 10 := by
    have h0 : ∀ b, wsToEol true r false b = (0, .ok (false, b)) := by
      intro b
      rcases h with rfl | ⟨r', rfl⟩
      · rfl
      · exact wsToEol_zero (by decide)
    rcases ho with ⟨n, rfl⟩ | ⟨n, k, ⟨k, rfl, hk⟩, rfl⟩
    · refine ⟨decide (0 < n), ?_, fun b hb => ?_⟩
      · rw [wsToEol_spaces, h0]
        simp [spaces_length]
      · rw [List.eq_of_mem_replicate hb]; decide
    · refine ⟨true, ?_, fun b hb => ?_⟩
      · rw [List.append_assoc, wsToEol_spaces]
        have := takeWhile_comment hk (r := r) h
        rw [List.takeWhile_cons, if_pos (by decide)] at this
        simp [wsToEol, List.cons.inj this, spaces_length]
        omega
      · rcases List.mem_append.1 hb with hb | hb
        · rw [List.eq_of_mem_replicate hb]; decide
        · exact comment_flat hk b hb
  obtain ⟨x, h1, h2⟩ := key
  refine ⟨x, ?_⟩
  unfold skipWsToEol Src.skipWsToEol
  simp only [hr, h1]
  simp [pass, gapMark_flat _ _ h2]

theorem eol_after {o r} (ho : Block.Eol o) : AfterHeader (o ++ 10 :: r) := by
  rcases ho with ⟨n, rfl⟩ | ⟨n, k, hk, rfl⟩
  · cases n with
    | zero => exact .inr rfl
    | succ n => exact .inl rfl
  · exact .inl rfl

/-! ## Reading a block scalar -/

/-- a block scalar with its content at column `c`, and its token -/
inductive ScrollText (p : Nat) : Nat → List Byte → TokenType → Prop
  | mk {folded ch d h o c m₀ e₀ l t v m e} : Block.Header ch d h → Block.Eol o → Block.Empties c m₀ e₀ → Block.Rows folded c l t v → Block.Trail c m e → Block.At p c l d →
      (c = 0 → l.head? ≠ some 9) →
      ScrollText p c ((if folded then 62 else 124) :: (h ++ (o ++ 10 :: (e₀ ++ (Block.spaces c ++ (t ++ e))))))
        (.scalar (if !folded then .literal else .folded) (List.replicate m₀ 10 ++ (v ++ ch.rest m)))

/-- `s3`: a block scalar was read in `s`, up to column `k` of the next line with something to the left of its content -/
structure ReadScroll (s s3 : SSt) (tok : TokenType) (r : List Byte) (k i0 : Nat) (I0 : List Indent) : Prop where
  rest : s3.src.rest = r
  col : s3.mark.col = k + 1
  line : s.mark.line < s3.mark.line
  indents : s3.indents = I0
  indent : s3.indent = i0
  toks : ∃ sp, s3.tokens = s.tokens ++ [⟨sp, tok⟩]
  al : s3.simpleKeyAllowed = true
  keys : s3.simpleKeys = savedKeys s
  calm : Calm s3

theorem head_spaces {n : Nat} {r : List Byte} (h : n = 0 → r.head? ≠ some 9) : (Block.spaces n ++ r).head? ≠ some 9 := by
  cases n with
  | zero => exact h rfl
  | succ n => simp [Block.spaces, List.replicate_succ]

theorem empties_head {c m e} (h : Block.Empties c m e) {r : List Byte} (hr : r.head? ≠ some 9) : (e ++ r).head? ≠ some 9 := by
  cases h with
  | nil => exact hr
  | cons _ _ =>
    rw [List.append_assoc]
    exact head_spaces fun _ => by simp

theorem chomp_tail (ch : Block.Chomp) (eof greater : Bool) (x : List Byte) (m : Nat) (b : Bool) (h : (eof && greater) = false) :
    blockChompTail (chompOf ch) eof greater ⟨x, [10], List.replicate m 10, b⟩ = x ++ ch.rest m := by
  cases ch <;> simp [blockChompTail, chompOf, h, Block.Chomp.rest, List.replicate_succ]

theorem scroll_read {cfg s out I i c0 al p c t tok k r i0 I0} (h : Pos s out I i (t ++ 10 :: (Block.spaces k ++ r)) c0 al) (ht : ScrollText p c t tok)
    (hp : i0 = p) (hx : BCtx I i i0 I0) (hb : BlockTop I0) (hs : Stop c k r) (hf : (t ++ 10 :: (Block.spaces k ++ r)).length < cfg.fuel) :
    ∃ s3, fetchMain cfg s = (.ok (), s3) ∧ ReadScroll s s3 tok r k i0 I0 := by
  subst hp
  cases ht with
  | @mk folded ch d hd o _ m₀ e₀ y t v m e hh ho he0 hrows htr hat h9 =>
  obtain ⟨E, hE, htail⟩ := trail_empties htr (Block.spaces k ++ r)
  have hrest := h.rest
  simp only [List.cons_append, List.append_assoc] at hrest hf
  rw [htail] at hrest hf
  have hfm : fetchMain cfg s = fetchBlockScalar cfg (!folded) s := by
    have h0 : s.src.peekz 0 = if folded then 62 else 124 := peekz_cons hrest
    unfold fetchMain
    ev [h0]
    cases folded <;> simp [h.calm.level]
  rw [hfm]
  unfold fetchBlockScalar setAllowed
  rw [bind_run (save_run s)]
  ev []
  generalize hA : ({ s with simpleKeys := savedKeys s, simpleKeyAllowed := true } : SSt) = sA
  unfold scanBlockScalar
  rw [getMark_bind, bind_run (skipNonBlank_on sA)]
  have hnb : unrollNonBlockIndents (on sA 1) = (.ok (), { on sA 1 with indents := I0, indent := i0 }) := by
    have e1 : (on sA 1).indents = I := by rw [← hA]; exact h.indents
    have e2 : (on sA 1).indent = i := by rw [← hA]; exact h.indent
    simp only [unrollNonBlockIndents, upd, e1, e2, hx.nonBlock hb]
  rw [bind_run hnb]
  generalize hB : ({ on sA 1 with indents := I0, indent := i0 } : SSt) = sB
  generalize hT : e₀ ++ (Block.spaces c ++ (t ++ 10 :: (E ++ (Block.spaces k ++ r)))) = T at *
  have b1 : sB.leadingWhitespace = false := by rw [← hB]; rfl
  have b2 : sB.src.rest = hd ++ (o ++ 10 :: T) := by
    rw [← hB, ← hA]
    simp [on, Src.skip, hrest]
  rw [bind_run (headerAll_run _ b1 hh b2 (eol_after ho))]
  generalize hD : on sB hd.length = sD
  have d2 : sD.src.rest = o ++ 10 :: T := by
    rw [← hD]
    exact on_rest b2 rfl
  obtain ⟨x, hws⟩ := eol_run ho d2 (.inr ⟨_, rfl⟩)
  rw [bind_run hws]
  generalize hD' : pass sD o sD.leadingWhitespace = sD'
  have d3 : sD'.src.rest = 10 :: T := by rw [← hD']; exact pass_rest d2
  have hp0 : sD'.src.peekz 0 = 10 := peekz_cons d3
  rw [peekz_bind, hp0]
  rw [show (!isBreakz 10) = false from rfl, failIf_false, pure_bind_run]
  have hbr : blockHeaderBreak sD' = (.ok [10], pass sD' [10] true) := by
    unfold blockHeaderBreak
    rw [peekz_bind, hp0, if_pos (by decide), readBreak_pass [] d3]
    rfl
  rw [bind_run hbr]
  generalize hE' : pass sD' [10] true = sE
  have e1 : sE.src.rest = T := by
    rw [← hE']; exact pass_rest d3
  have e2 : sE.leadingWhitespace = true := by rw [← hE']; rfl
  have e3 : sE.mark.col = 1 := by rw [← hE']; rfl
  have e4 : sE.indent = i0 := by rw [← hE', ← hD', ← hD, ← hB]; rfl
  have e5 : sE.indents = I0 := by rw [← hE', ← hD', ← hD, ← hB]; rfl
  have e6 : sE.tokens = s.tokens := by rw [← hE', ← hD', ← hD, ← hB, ← hA]; rfl
  have e7 : sE.simpleKeys = savedKeys s := by rw [← hE', ← hD', ← hD, ← hB, ← hA]; rfl
  have e8 : sE.simpleKeyAllowed = true := by rw [← hE', ← hD', ← hD, ← hB, ← hA]; rfl
  have e9 : s.mark.line < sE.mark.line := by
    have h1 : sD.mark.line = s.mark.line := by rw [← hD, ← hB, ← hA]; rfl
    have h2 : sD'.mark = gapMark sD.mark o := by rw [← hD']; rfl
    have h3 : sE.mark.line = sD'.mark.line + 1 := by rw [← hE']; rfl
    have := gapMark_le sD.mark o
    rw [h3, h2]; omega
  have eA : Fit sE.src := by
    have hfB : Fit sB.src := by
      rw [← hB, ← hA]
      exact h.calm.fit.skip (by rw [hrest]; simp)
    have hfD : Fit sD.src := by
      rw [← hD]
      exact hfB.skip (by rw [b2]; simp)
    have hfD' : Fit sD'.src := by
      rw [← hD']
      exact hfD.skip (by rw [d2]; simp)
    rw [← hE']
    exact hfD'.skip (by rw [d3]; simp)
  have eC : Calm sE := ⟨by rw [← hE', ← hD', ← hD, ← hB, ← hA]; exact h.calm.level, by rw [← hE', ← hD', ← hD, ← hB, ← hA]; exact h.calm.impl,
    by rw [← hE', ← hD', ← hD, ← hB, ← hA]; exact h.calm.parsed, by rw [← hE', ← hD', ← hD, ← hB, ← hA]; exact h.calm.started, eA⟩
  clear hE' hD' hD hB hnb hbr hfm hws
  obtain ⟨hrow, t', rfl⟩ := rows_first hrows
  have hy := row_ok hrow
  obtain ⟨y0, yt, hyt⟩ : ∃ y0 yt, y = y0 :: yt := by
    cases hyy : y with
    | nil => exact absurd hyy hy.1.1
    | cons a b => exact ⟨a, b, rfl⟩
  have hb0 : isBreak y0 = false := hy.1.2 y0 (by simp [hyt])
  have hp1 : (sE.src.peekz 0 == 9) = false := by
    have : T.head? ≠ some 9 := by
      rw [← hT]
      refine empties_head he0 (head_spaces fun h0 => ?_)
      have := h9 h0
      rw [hyt] at this ⊢
      exact this
    rw [peekz_head e1]
    cases hTT : T with
    | nil => rfl
    | cons a b =>
      rw [hTT] at this
      simpa using this
  rw [peekz_bind, hp1, failIf_false, pure_bind_run]
  have hlen : (e₀ ++ Block.spaces c).length + (y ++ t' ++ 10 :: (E ++ Block.spaces k)).length < cfg.fuel := by
    rw [← hT] at hf
    simp at hf
    simp
    omega
  rw [← hT] at e1
  generalize hG : pass sE (e₀ ++ Block.spaces c) true = sG
  have g1 : sG.src.rest = y ++ t' ++ 10 :: (E ++ (Block.spaces k ++ r)) := by rw [← hG]; exact pass_rest (by rw [e1]; simp)
  have g2 : sG.mark.col = c + 1 := by
    rw [← hG]
    simp only [pass, gapMark_append, Block.spaces, gapMark_spaces]
    rw [empties_col he0 e3]; omega
  have g3 : sG.indent = i0 := by rw [← hG]; exact e4
  have g4 : Fit sG.src := by rw [← hG]; exact eA.skip (by rw [e1]; simp)
  have g5 : sG.leadingWhitespace = true := by rw [← hG]; rfl
  have g6 : s.mark.line < sG.mark.line := by
    rw [← hG]
    have := gapMark_lineLe (e₀ ++ Block.spaces c) sE.mark
    simp only [pass]; omega
  have hnbk : NoBreak (y ++ t' ++ 10 :: (E ++ (Block.spaces k ++ r))) := by rw [hyt]; intro c hc; cases hc; exact hb0
  have hfind : blockFindIndent cfg (d.getD 0) sE = (.ok (c + 1, List.replicate m₀ 10), sG) := by
    unfold blockFindIndent
    rw [gets_bind, e4]
    cases d with
    | none =>
      obtain ⟨hpc, h32⟩ := hat
      have hfirst := firstEmpties_run (cfg := cfg) (c := c) (r := y ++ t' ++ 10 :: (E ++ (Block.spaces k ++ r)))
        (by rw [hyt] at h32 ⊢; exact h32) hnbk he0 (j := cfg.fuel) (mi := 0) (tb := []) e1 e3 (by omega) (by omega) (by omega) e2
      rw [hG] at hfirst
      simp only [Option.getD_none, Nat.lt_irrefl, if_false, if_true]
      unfold skipFirstLineIndent
      rw [bind_run hfirst, gets_bind, g3]
      have : max (c + 1) (i0 + 1) = c + 1 := by omega
      simp only [this]
      have : (if i0 > 0 then max (c + 1) 1 else c + 1) = c + 1 := by split <;> omega
      rw [this]
      simp [pure_run]
    | some d =>
      have hd1 : 0 < d := by
        obtain ⟨_, h1, _⟩ := hh
        cases h1; omega
      have hat' : c + 1 = i0 + d := hat
      simp only [Option.getD_some]
      have hind : (if d > 0 then if i0 ≥ 1 then i0 + d else d else 0) = c + 1 := by
        rw [if_pos hd1]
        split <;> omega
      rw [hind, if_neg (by omega)]
      have hfirst := empties_run (cfg := cfg) (c := c) (n := c) ⟨Nat.le_refl _, hnbk, .inl rfl⟩ he0 (j := cfg.fuel) (tb := []) e1 e3 (by omega) (by omega) e2
      rw [hG] at hfirst
      unfold skipBlockIndent
      rw [bind_run hfirst]
      simp [pure_run]
  dsimp only
  rw [bind_run hfind, atEof_bind]
  have hne : sG.src.bufIsEmpty = false := by simp [Src.bufIsEmpty, g1]
  rw [hne, if_neg (by simp)]
  obtain ⟨b, hbody⟩ := rows_run (cfg := cfg) (folded := folded) (c := c) hs hE hrows (j := cfg.fuel) (s := sG) (p := ⟨[], [], List.replicate m₀ 10, false⟩)
    g1 g2 g4 g5 (by omega) (by omega)
  unfold blockContent
  have hbad : (decide (sG.mark.col < c + 1) && decide (sG.mark.col > sG.indent)) = false := by simp [g2]
  dsimp only
  rw [gets_bind, hbad, getMark_bind, failIf_false, pure_bind_run, bind_run hbody, atEof_bind, gets_bind, getMark_bind]
  generalize hH : pass sG (y ++ t' ++ 10 :: (E ++ Block.spaces k)) true = sH
  have h1 : sH.src.rest = r := by rw [← hH]; exact pass_rest (by rw [g1]; simp)
  have hcol : sH.mark.col = k + 1 := by
    rw [← hH]
    simp only [pass]
    rw [gapMark_append, gapMark, if_pos rfl, gapMark_append]
    simp only [Block.spaces, gapMark_spaces]
    rw [empties_col hE rfl]; omega
  have hj0 : (blockJoin (!folded) (Block.spaced y) ⟨[], [], List.replicate m₀ 10, false⟩).string = List.replicate m₀ 10 := by
    unfold blockJoin; simp
  rw [chomp_tail ch _ _ _ m b (by
    have : decide (sH.mark.col > max (c + 1) 1) = false := by
      have := hs.1
      simp; omega
    rw [this, Bool.and_false]), hj0, List.append_assoc]
  refine ⟨_, rfl, ?_⟩
  constructor
  · exact h1
  · exact hcol
  · show s.mark.line < sH.mark.line
    rw [← hH]
    exact Nat.lt_of_lt_of_le g6 (gapMark_lineLe _ _)
  · show sH.indents = I0
    rw [← hH, ← hG]; exact e5
  · show sH.indent = i0
    rw [← hH]; exact g3
  · have ht : sH.tokens = s.tokens := by rw [← hH, ← hG]; exact e6
    exact ⟨⟨sG.mark, sH.mark⟩, by rw [← ht]⟩
  · show sH.simpleKeyAllowed = true
    rw [← hH, ← hG]; exact e8
  · show sH.simpleKeys = _
    rw [← hH, ← hG]; exact e7
  · have hc : Calm sH := by
      refine ⟨by rw [← hH, ← hG]; exact eC.level, by rw [← hH, ← hG]; exact eC.impl, by rw [← hH, ← hG]; exact eC.parsed, by rw [← hH, ← hG]; exact eC.started, ?_⟩
      rw [← hH]; exact g4.skip (by rw [g1]; simp)
    exact ⟨hc.level, hc.impl, hc.parsed, hc.started, hc.fit⟩

/-- what has to follow a block scalar with its content at column `c`: its last line feed, and then something to the left of its content -/
def Follows (c : Nat) (w q : List Byte) : Prop := ∃ k w', w = 10 :: (Block.spaces k ++ w') ∧ Lay w' q ∧ Stop c k (w' ++ q)

theorem gapMark_colEq : ∀ (w : List Byte) {m m' : Marker}, m.col = m'.col → (gapMark m w).col = (gapMark m' w).col := by
  intro w
  induction w with
  | nil => exact fun h => h
  | cons b w ih =>
    intro m m' h
    rw [gapMark, gapMark]
    split
    · exact ih rfl
    · exact ih (by simp [h])

/-- a block scalar -/
theorem scroll_goes {cfg s out I i i0 I0 p C t tok w q c c' al I' i' n} (h : Here cfg s out I i (t ++ (w ++ q)) c al) (ht : ScrollText p C t tok) (hp : i0 = p)
    (hx : BCtx I i i0 I0) (hb : BlockTop I0) (hi : i0 < c) (he : EndL w q c' i0) (hfo : Follows C w q) (hf : (t ++ (w ++ q)).length < cfg.fuel)
    (hu : unroll (lowCol q c') i0 I0 = some (I', i', n)) :
    Goes cfg s (t ++ (w ++ q)).length (out ++ [tok] ++ List.replicate n .blockEnd) I' i' q c' true := by
  obtain ⟨k, w', rfl, hlay, hst⟩ := hfo
  have hne : t ≠ [] := by cases ht; simp
  have hnm : NotMarkL (t ++ (10 :: (Block.spaces k ++ w') ++ q)) := by
    cases ht with
    | @mk folded =>
      refine ⟨by cases folded <;> simp, fun x r hx hr => ?_⟩
      cases folded <;> simp at hr <;> omega
  obtain ⟨s2, hpos, e⟩ := fetch_hereL h (by simp [hne]) (fun _ => hnm)
  obtain ⟨s3, e3, r⟩ := scroll_read (k := k) (r := w' ++ q) (by simpa using hpos) ht hp hx hb hst (by simpa using hf)
  have hlen : 0 < t.length := by rw [List.length_pos_iff]; exact hne
  refine Goes.one (e.trans e3) ?_ (by simp; omega)
  obtain ⟨k1, hk, hkp⟩ := hpos.keys
  obtain ⟨sp, htk⟩ := r.toks
  have hty : types s3 = out ++ [tok] := by simp [types, htk]; exact hpos.toks
  have hnp : ∃ st v, tok = .scalar st v := by cases ht; exact ⟨_, _, rfl⟩
  obtain ⟨st, v, rfl⟩ := hnp
  have hcol : q ≠ [] → (gapMark s3.mark w').col = c' := by
    intro hq
    have := (he.col hq s3.mark).1
    rw [gapMark, if_pos rfl, gapMark_append] at this
    rw [← this]
    refine gapMark_colEq w' ?_
    rw [r.col]
    simp only [Block.spaces, gapMark_spaces]; omega
  have hsv : ∃ k', savedKeys s2 = [k'] ∧ (k'.possible = true → k'.required = false ∧ (q ≠ [] → k'.mark.line < (gapMark s3.mark w').line)) := by
    have hline : s2.mark.line < (gapMark s3.mark w').line := Nat.lt_of_lt_of_le r.line (gapMark_le _ w')
    unfold savedKeys
    split
    · refine ⟨keyHere s2, by simp [hk], fun _ => ⟨BCtx.notRequired (by rw [hpos.indents, hpos.indent]; exact hx) hpos.col hi, fun _ => hline⟩⟩
    · exact ⟨k1, hk, fun hx => ⟨(hkp hx).1, fun hq => Nat.lt_of_le_of_lt (hkp hx).2.2 hline⟩⟩
  obtain ⟨k', hk', hkp'⟩ := hsv
  have := here_lay (cfg := cfg) (s := s3) (w := w') (q := q) (c := c') (k := k') hlay r.rest he.head (by simp at hf; omega) r.calm
    hcol (by rw [r.indents, r.indent]; exact hu) (by rw [r.keys, hk']) (fun hx => ⟨(hkp' hx).1, fun hq => .inl ((hkp' hx).2 hq)⟩)
    (NP.last hty rfl)
  rw [hty, r.al, Bool.true_or] at this
  exact this

end Verif.Scanner
