import Verif.Lemmas.ScanWords
import Verif.Spec.Block
/-!
# Quoted scalars, on one line or over several lines
-/
namespace Verif.Scanner
open Verif Verif.CharUtils Verif.Source Verif.Emitter Verif.Spec

/-! ## White space between lines -/

theorem blanks_mem {m ls} (h : Block.Blanks m ls) : ∀ x ∈ ls, x = 32 ∨ x = 10 := by
  induction h with
  | nil => simp
  | @cons m k r _ ih =>
    intro x hx
    simp only [List.mem_append, List.mem_cons] at hx
    rcases hx with hx | rfl | hx
    · exact .inl (List.eq_of_mem_replicate hx)
    · exact .inr rfl
    · exact ih x hx

theorem fold_mem {m n g} (h : Block.Fold m n g) : ∀ x ∈ g, x = 32 ∨ x = 10 := by
  obtain ⟨j, ls, hl, rfl⟩ := h
  intro x hx
  simp only [List.mem_append, List.mem_cons] at hx
  rcases hx with hx | rfl | hx | hx
  · exact .inl (List.eq_of_mem_replicate hx)
  · exact .inr rfl
  · exact blanks_mem hl x hx
  · exact .inl (List.eq_of_mem_replicate hx)

theorem fold_newline {m n g} (h : Block.Fold m n g) : g.contains 10 = true := by
  obtain ⟨j, ls, hl, rfl⟩ := h
  simp

theorem blanks_end {m ls} (h : Block.Blanks m ls) : ls = [] ∨ ∃ l, ls = l ++ [10] := by
  induction h with
  | nil => exact .inl rfl
  | @cons m k r _ ih =>
    rcases ih with rfl | ⟨l, rfl⟩
    · exact .inr ⟨Block.spaces k, rfl⟩
    · exact .inr ⟨Block.spaces k ++ 10 :: l, by simp⟩

theorem fold_col {m n g} (h : Block.Fold m n g) (mk : Marker) : (gapMark mk g).col = n + 1 := by
  obtain ⟨j, ls, hl, rfl⟩ := h
  have key : ∀ a, (gapMark mk (a ++ 10 :: Block.spaces n)).col = n + 1 := by
    intro a
    rw [gapMark_append]
    show (gapMark _ (10 :: List.replicate n 32)).col = _
    rw [gapMark_line]
    exact Nat.add_comm _ _
  rcases blanks_end hl with rfl | ⟨l, rfl⟩
  · exact key _
  · have := key (Block.spaces j ++ 10 :: l)
    simpa using this

/-! ## Quoted scalars -/

/-- a piece of a line between quotation marks, without white space that is not escaped -/
structure QChars (single : Bool) (w u : List Byte) : Prop where
  run : ∀ {start k s str r}, s.src.rest = w ++ r → w.length < k →
    ∃ k' l, k ≤ k' + w.length ∧ loopM (flowCharsBody single start) k str s = loopM (flowCharsBody single start) k' (str ++ u) (pass s w l)
  flat : ∀ b ∈ w, b ≠ 10
  ink : InkHead w
  nil : w = [] → u = []
  first : single = false → w.head? ≠ some 34

theorem QChars.empty {single} : QChars single [] [] := by
  refine ⟨fun {start k s str r} h hk => ⟨k, s.leadingWhitespace, by simp, ?_⟩, by simp, by simp [InkHead], fun _ => rfl, by simp⟩
  rw [pass_nil, List.append_nil]

theorem QChars.append {single a u b v} (h1 : QChars single a u) (h2 : QChars single b v) : QChars single (a ++ b) (u ++ v) := by
  refine ⟨fun {start k s str r} h hk => ?_, ?_, ?_, ?_, ?_⟩
  · simp only [List.length_append] at hk
    obtain ⟨k1, l1, e1, e2⟩ := h1.run (start := start) (k := k) (s := s) (str := str) (r := b ++ r) (by rw [h]; simp) (by omega)
    obtain ⟨k2, l2, e3, e4⟩ := h2.run (start := start) (k := k1) (s := pass s a l1) (str := str ++ u) (r := r) (pass_rest (by rw [h]; simp)) (by omega)
    refine ⟨k2, l2, by simp; omega, ?_⟩
    rw [e2, e4, pass_pass, List.append_assoc]
  · intro x hx
    rcases List.mem_append.1 hx with hx | hx
    · exact h1.flat x hx
    · exact h2.flat x hx
  · intro c hc
    cases a with
    | nil => exact h2.ink c hc
    | cons x a => exact h1.ink c hc
  · intro h
    obtain ⟨rfl, rfl⟩ := List.append_eq_nil_iff.1 h
    rw [h1.nil rfl, h2.nil rfl]; rfl
  · intro h
    cases a with
    | nil => exact h2.first h
    | cons x a => exact h1.first h

theorem QChars.step {single w u} (hw : w ≠ []) (hf : ∀ b ∈ w, b ≠ 10) (hi : InkHead w) (hq : single = false → w.head? ≠ some 34)
    (h : ∀ start str (s : SSt) r, s.src.rest = w ++ r → flowCharsBody single start str s = (.ok (.next (str ++ u)), pass s w false)) : QChars single w u := by
  refine ⟨fun {start k s str r} hr hk => ?_, hf, hi, fun h => absurd h hw, hq⟩
  have : 0 < w.length := List.length_pos_iff.2 hw
  obtain ⟨k, rfl⟩ : ∃ j, k = j + 1 := ⟨k - 1, by omega⟩
  exact ⟨k, false, by omega, loop_next (h _ _ _ r hr)⟩

theorem QChars.same {b} {single : Bool} (h1 : isBlankOrBreakz b = false) (h2 : b ≠ if single then 39 else 34) (h3 : single = false → b ≠ 92) : QChars single [b] [b] := by
  have h10 : b ≠ 10 := by rintro rfl; simp [isBlankOrBreakz, isBreak] at h1
  refine .step (by simp) (by simp [h10]) (fun c hc => ?_) (fun hs => by subst hs; simpa using h2) (fun start str s r hr => ?_)
  · simp at hc
    subst hc
    simp only [isBlankOrBreakz, Bool.or_eq_false_iff] at h1
    simp [h1]
  · have h0 : s.src.peekz 0 = b := peekz_cons hr
    cases single with
    | false =>
      have := flowChars_plain (str := str) (start := start) (s := s) (r := r) hr h1 (by simpa using h2) (h3 rfl)
      rw [this]
      simp [on, pass, gapMark_col _ h10]
    | true =>
      have h39 : b ≠ 39 := by simpa using h2
      unfold flowCharsBody
      ev [h0, h1]
      simp only [h39, false_and, if_false, Bool.true_eq_false, and_false]
      rw [bind_run (skipNonBlank_pass h10)]
      rfl

theorem QChars.quote : QChars true [39, 39] [39] := by
  refine .step (by simp) (by simp) (fun c hc => by simp at hc; subst hc; decide) (by simp) (fun start str s r hr => ?_)
  have h0 : s.src.peekz 0 = 39 := peekz_cons hr
  have h1 : s.src.peekz 1 = 39 := by simp [Src.peekz, hr]
  unfold flowCharsBody skipN
  ev [h0, h1]
  simp [isBlankOrBreakz, isBlank, isBreak, pass, gapMark]

theorem QChars.piece {e v} (h : Piece e v) : QChars false e v := by
  obtain ⟨⟨e', he'⟩, h10, hs⟩ := h
  refine .step (by simp [he']) h10 (fun c hc => by rw [he'] at hc; simp at hc; subst hc; decide) (by simp [he']) (fun start str s r hr => ?_)
  rw [hs _ _ _ r hr]
  simp [on, pass, gapMark_flat _ _ h10]

/-- `m`, between quotation marks, is read as `v`; `ind` is the least column where a line may begin -/
inductive QFlow (single : Bool) (ind : Nat) : List Byte → List Byte → Prop
  | stop {w u} : QChars single w u → QFlow single ind w u
  | gap {w u n m v} : QChars single w u → InkHead m → QFlow single ind m v →
      QFlow single ind (w ++ (List.replicate (n + 1) 32 ++ m)) (u ++ (List.replicate (n + 1) 32 ++ v))
  | line {w u j n g m v} : QChars single w u → Block.Fold j n g → ind ≤ n + 1 → InkHead m → (n = 0 → NotDocMark m) → QFlow single ind m v →
      QFlow single ind (w ++ (g ++ m)) (u ++ (Block.glue j ++ v))
  | esc {w u j n ls m v} : single = false → QChars single w u → Block.Blanks j ls → ind ≤ n + 1 → InkHead m → (n = 0 → NotDocMark m) → QFlow single ind m v →
      QFlow single ind (w ++ (92 :: 10 :: (ls ++ (List.replicate n 32 ++ m)))) (u ++ (List.replicate j 10 ++ v))

theorem QFlow.cons {single ind a x m v} (h : QChars single a x) (hm : QFlow single ind m v) : QFlow single ind (a ++ m) (x ++ v) := by
  cases hm with
  | stop h' => exact .stop (h.append h')
  | @gap w u n m v h1 h2 h3 =>
    have := QFlow.gap (n := n) (h.append h1) h2 h3
    simpa only [List.append_assoc] using this
  | line h1 h2 h3 h4 h5 h6 =>
    have := QFlow.line (h.append h1) h2 h3 h4 h5 h6
    simpa only [List.append_assoc] using this
  | esc h0 h1 h2 h3 h4 h5 h6 =>
    have := QFlow.esc h0 (h.append h1) h2 h3 h4 h5 h6
    simpa only [List.append_assoc] using this

theorem QFlow.nil {single ind m v} (h : QFlow single ind m v) (hm : m = []) : v = [] := by
  cases h with
  | stop h => exact h.nil hm
  | gap _ _ _ => simp at hm
  | line _ hg _ _ _ _ =>
    have := fold_newline hg
    simp at hm
    rw [hm.2.1] at this
    cases this
  | esc _ _ _ _ _ _ _ => simp at hm

theorem QFlow.first {ind m v} {single : Bool} (h : QFlow single ind m v) (hs : single = false) : m.head? ≠ some 34 := by
  have key : ∀ {w u c r}, QChars single w u → c ≠ 34 → (w ++ c :: r).head? ≠ some 34 := by
    intro w u c r hw hc
    cases w with
    | nil => simpa using hc
    | cons x w => exact hw.first hs
  cases h with
  | stop h => exact h.first hs
  | gap h _ _ => exact key h (by decide)
  | @line w u j n g m v h hg _ _ _ _ =>
    cases g with
    | nil => have := fold_newline hg; cases this
    | cons g0 g' =>
      refine key h ?_
      have := fold_mem hg g0 List.mem_cons_self
      omega
  | esc _ h _ _ _ _ _ => exact key h (by decide)

/-- the white space loop of a quoted scalar -/
def qfold : FlowSt → List Byte → FlowSt
  | p, [] => p
  | p, c :: a =>
    if c = 32 then qfold (if p.leadingBlanks then p else { p with whitespaces := p.whitespaces ++ [32] }) a
    else qfold (if p.leadingBlanks then { p with trailingBreaks := p.trailingBreaks ++ [10] } else { p with whitespaces := [], leadingBreak := p.leadingBreak ++ [10], leadingBlanks := true }) a

theorem qfold_run {c r} (hc : isBlank c = false ∧ isBreak c = false) : ∀ {a k s p}, (∀ x ∈ a, x = 32 ∨ x = 10) → s.src.rest = a ++ c :: r → a.length < k →
    ∃ l, loopM flowBlankBody k p s = (.ok (qfold p a), pass s a l) := by
  intro a
  induction a with
  | nil =>
    intro k s p _ hr hk
    obtain ⟨k, rfl⟩ : ∃ j, k = j + 1 := ⟨k - 1, by omega⟩
    have h0 : s.src.peekz 0 = c := peekz_cons hr
    refine ⟨s.leadingWhitespace, ?_⟩
    rw [loop_done (b := p) (s1 := s) (by unfold flowBlankBody; ev [h0, hc]), pass_nil]
    rfl
  | cons x a ih =>
    intro k s p ha hr hk
    obtain ⟨k, rfl⟩ : ∃ j, k = j + 1 := ⟨k - 1, by omega⟩
    have h0 : s.src.peekz 0 = x := peekz_cons hr
    simp only [List.length_cons] at hk
    have key : ∀ {l p1}, flowBlankBody p s = (.ok (.next p1), pass s [x] l) → qfold p1 a = qfold p (x :: a) →
        ∃ l, loopM flowBlankBody (k + 1) p s = (.ok (qfold p (x :: a)), pass s (x :: a) l) := by
      intro l p1 h1 h2
      obtain ⟨l', e1⟩ := ih (k := k) (s := pass s [x] l) (p := p1) (fun b hb => ha b (List.mem_cons_of_mem _ hb)) (pass_rest (a := [x]) hr) (by omega)
      refine ⟨l', ?_⟩
      rw [loop_next h1, e1, pass_pass, ← h2]
      rfl
    have hbrk : x = 10 → skipLinebreak s = (.ok (), pass s [10] true) := by
      rintro rfl
      simp [skipLinebreak, upd, h0, pass, gapMark]
    rcases ha x List.mem_cons_self with rfl | rfl
    · by_cases hl : p.leadingBlanks = true
      · refine key (l := s.leadingWhitespace) (p1 := p) ?_ (by simp [qfold, hl])
        unfold flowBlankBody
        ev [h0, hl]
        simp only [show isBlank 32 = true from rfl, if_true]
        rw [show ((32 : Nat) == 9 && decide (s.mark.col < s.indent)) = false from rfl, failIf_false, pure_bind_run, bind_run (skipBlank_pass (b := 32) (by decide))]
        ev []
      · replace hl : p.leadingBlanks = false := by simpa using hl
        refine key (l := s.leadingWhitespace) (p1 := { p with whitespaces := p.whitespaces ++ [32] }) ?_ (by simp [qfold, hl])
        unfold flowBlankBody
        ev [h0, hl]
        rw [if_pos (by decide), bind_run (skipBlank_pass (b := 32) (by decide))]
        ev []
    · by_cases hl : p.leadingBlanks = true
      · refine key (l := true) (p1 := { p with trailingBreaks := p.trailingBreaks ++ [10] }) ?_ (by simp [qfold, hl])
        unfold flowBlankBody readBreak
        ev [h0, hl]
        rw [if_neg (by decide), if_pos (by decide), bind_run (hbrk rfl)]
        ev []
      · replace hl : p.leadingBlanks = false := by simpa using hl
        refine key (l := true) (p1 := { p with whitespaces := [], leadingBreak := p.leadingBreak ++ [10], leadingBlanks := true }) ?_ (by simp [qfold, hl])
        unfold flowBlankBody readBreak
        ev [h0, hl]
        rw [if_neg (by decide), if_pos (by decide), bind_run (hbrk rfl)]
        ev []

theorem qfold_lead {n : Nat} {p : FlowSt} {a} (h : p.leadingBlanks = true) : qfold p (List.replicate n 32 ++ a) = qfold p a := by
  induction n with
  | zero => rfl
  | succ n ih => rw [List.replicate_succ, List.cons_append, qfold, if_pos rfl, if_pos h, ih]

theorem qfold_first {n : Nat} {p : FlowSt} {a} (h : p.leadingBlanks = false) :
    qfold p (List.replicate n 32 ++ 10 :: a) = qfold { p with whitespaces := [], leadingBreak := p.leadingBreak ++ [10], leadingBlanks := true } a := by
  induction n generalizing p with
  | zero => rw [List.replicate_zero, List.nil_append, qfold, if_neg (by decide), if_neg (by simp [h])]
  | succ n ih => rw [List.replicate_succ, List.cons_append, qfold, if_pos rfl, if_neg (by simp [h]), ih (by exact h)]

theorem qfold_blanks {m ls} (h : Block.Blanks m ls) : ∀ {p : FlowSt} {a}, p.leadingBlanks = true → qfold p (ls ++ a) = qfold { p with trailingBreaks := p.trailingBreaks ++ List.replicate m 10 } a := by
  induction h with
  | nil => intro p a _; simp
  | @cons m k r _ ih =>
    intro p a hp
    rw [List.append_assoc, List.cons_append]
    show qfold p (List.replicate k 32 ++ 10 :: (r ++ a)) = _
    rw [qfold_lead hp, qfold, if_neg (by decide), if_pos hp, ih (by exact hp)]
    simp [List.replicate_succ]

theorem qfold_spaces {n : Nat} {p : FlowSt} (h : p.leadingBlanks = true) : qfold p (List.replicate n 32) = p := by
  have := qfold_lead (n := n) (a := []) h
  simpa [qfold] using this

theorem qfold_fold {m n g str} (h : Block.Fold m n g) : qfold ⟨str, [], [], [], false⟩ g = ⟨str, [10], List.replicate m 10, [], true⟩ := by
  obtain ⟨j, ls, hl, rfl⟩ := h
  show qfold _ (List.replicate j 32 ++ 10 :: (ls ++ List.replicate n 32)) = _
  rw [qfold_first rfl, qfold_blanks hl rfl, qfold_spaces rfl]
  simp

theorem qfold_esc {m n ls str} (h : Block.Blanks m ls) : qfold ⟨str, [], [], [], true⟩ (ls ++ List.replicate n 32) = ⟨str, [], List.replicate m 10, [], true⟩ := by
  rw [qfold_blanks h rfl, qfold_spaces rfl]
  simp

theorem qdoc_false {s : SSt} {m r} {qt : Byte} (hq : qt = 39 ∨ qt = 34) (hr : s.src.rest = m ++ qt :: r) (h : NotDocMark m) : s.src.nextIsDocumentIndicator = false := by
  have key : ∀ d, (d = 45 ∨ d = 46) → (s.src.nextIsThree d && isBlankOrBreakz (s.src.peekz 3)) = false := by
    intro d hd
    rw [Bool.eq_false_iff]
    intro hx
    rw [Bool.and_eq_true] at hx
    obtain ⟨h3, h4⟩ := hx
    simp [Src.nextIsThree, Src.peekz, hr] at h3
    simp [Src.peekz, hr] at h4
    match m with
    | [] => simp at h3; omega
    | [a] => simp at h3; omega
    | [a, b] => simp at h3; omega
    | [a, b, c] => rcases hq with rfl | rfl <;> simp [isBlankOrBreakz, isBlank, isBreak] at h4
    | a :: b :: c :: e :: m =>
      simp at h3 h4
      obtain ⟨⟨rfl, rfl⟩, rfl⟩ := h3
      have := h _ _ _ hd rfl
      rw [this] at h4
      cases h4
  have k1 := key 45 (.inl rfl)
  have k2 := key 46 (.inr rfl)
  unfold Src.nextIsDocumentIndicator
  cases h1 : s.src.nextIsThree 45 <;> cases h2 : s.src.nextIsThree 46 <;> simp_all

/-- the loop over characters ends -/
theorem qchars_stop {single start k s str c r} (hk : 0 < k) (hr : s.src.rest = c :: r)
    (hc : isBlankOrBreakz c = true ∨ (c = (if single then 39 else 34) ∧ (single = true → r.head? ≠ some 39))) :
    loopM (flowCharsBody single start) k str s = (.ok (str, false), s) := by
  obtain ⟨k, rfl⟩ : ∃ j, k = j + 1 := ⟨k - 1, by omega⟩
  refine loop_done ?_
  have h0 : s.src.peekz 0 = c := peekz_cons hr
  unfold flowCharsBody
  rcases hc with hc | ⟨hc, hr39⟩
  · ev [h0, hc]
  · cases single with
    | false => simp at hc; subst hc; ev [h0]; simp [isBlankOrBreakz, isBlank, isBreak]
    | true =>
      simp at hc
      subst hc
      have h1 : s.src.peekz 1 ≠ 39 := by
        intro hx
        refine hr39 rfl ?_
        cases r with
        | nil => simp [Src.peekz, hr] at hx
        | cons d r => simpa [Src.peekz, hr] using hx
      ev [h0]
      simp [isBlankOrBreakz, isBlank, isBreak, h1]

theorem QChars.until {single w u start k s str c r} (h : QChars single w u) (hr : s.src.rest = w ++ c :: r) (hk : w.length < k)
    (hc : isBlankOrBreakz c = true ∨ (c = (if single then 39 else 34) ∧ (single = true → r.head? ≠ some 39))) :
    ∃ l, loopM (flowCharsBody single start) k str s = (.ok (str ++ u, false), pass s w l) := by
  obtain ⟨k', l, h1, h2⟩ := h.run (start := start) (str := str) hr hk
  exact ⟨l, h2.trans (qchars_stop (by omega) (pass_rest hr) hc)⟩

/-- The loop of `scan_flow_scalar` up to the closing quotation mark. -/
theorem qflow_run {cfg : Cfg} {single start r ind} (hr39 : single = true → r.head? ≠ some 39) {qt : Byte} (hqt : qt = if single then 39 else 34) {m v} (h : QFlow single ind m v) :
    ∀ {k s str lb}, s.src.rest = m ++ qt :: r → m.length < k → m.length < cfg.fuel →
    1 ≤ s.mark.col → s.indent ≤ s.mark.col → s.indent ≤ ind → (s.mark.col = 1 → NotDocMark m) →
    ∃ l p', loopM (flowBody cfg single start) k ⟨str, [], [], [], lb⟩ s = (.ok p', pass s m l) ∧ p'.string = str ++ v := by
  have hq2 : qt = 39 ∨ qt = 34 := by rw [hqt]; cases single <;> simp
  have hqink : isBlank qt = false ∧ isBreak qt = false := by rcases hq2 with rfl | rfl <;> decide
  have pre : ∀ {s : SSt} {m}, s.src.rest = m ++ qt :: r → s.indent ≤ s.mark.col → (s.mark.col = 1 → NotDocMark m) →
      s.src.bufIsEmpty = false ∧ (s.mark.col == 1 && s.src.nextIsDocumentIndicator) = false ∧ decide (s.mark.col < s.indent) = false := by
    intro s m hr hi hd
    refine ⟨by simp [Src.bufIsEmpty, hr], ?_, by simp; omega⟩
    by_cases h1 : s.mark.col = 1
    · simp [qdoc_false hq2 hr (hd h1)]
    · simp [h1]
  have next : ∀ {m}, InkHead m → ∃ c r', m ++ qt :: r = c :: r' ∧ (isBlank c = false ∧ isBreak c = false) := by
    intro m hm
    cases m with
    | nil => exact ⟨qt, r, rfl, hqink⟩
    | cons c m => exact ⟨c, m ++ qt :: r, rfl, hm c rfl⟩
  induction h with
  | @stop w u hw =>
    intro k s str lb hr hk hf h1c hi hin hd
    obtain ⟨k, rfl⟩ : ∃ j, k = j + 1 := ⟨k - 1, by omega⟩
    obtain ⟨p1, p2, p3⟩ := pre hr hi hd
    obtain ⟨l, hl⟩ := hw.until (start := start) (str := str) hr hf (.inr ⟨hqt, hr39⟩)
    refine ⟨l, ⟨str ++ u, [], [], [], false⟩, loop_done ?_, rfl⟩
    unfold flowBody
    ev [p1, p2, p3]
    rw [bind_run hl]
    have h0 : (pass s w l).src.peekz 0 = qt := peekz_cons (pass_rest hr)
    ev [h0]
    cases single <;> simp at hqt <;> subst hqt <;> simp
  | @gap w u n m v hw hm _ ih =>
    intro k s str lb hr hk hf h1c hi hin hd
    obtain ⟨k, rfl⟩ : ∃ j, k = j + 1 := ⟨k - 1, by omega⟩
    obtain ⟨p1, p2, p3⟩ := pre hr hi hd
    simp at hk hf
    obtain ⟨l, hl⟩ := hw.until (start := start) (str := str) (s := s) (k := cfg.fuel) (c := 32) (r := List.replicate n 32 ++ (m ++ qt :: r)) (by simp [hr, List.replicate_succ]) (by omega) (.inl rfl)
    have hr1 : (pass s w l).src.rest = List.replicate (n + 1) 32 ++ (m ++ qt :: r) := pass_rest (by simp [hr])
    obtain ⟨c, r', hcr, hcc⟩ := next hm
    obtain ⟨l1, hl1⟩ := white_run hcc (k := cfg.fuel) (s := pass s w l) (g := List.replicate (n + 1) 32) (p := ⟨str ++ u, [], [], [], false⟩)
      (by intro b hb; rw [List.eq_of_mem_replicate hb]; rfl) rfl (by rw [hr1, hcr]) (by simp; omega)
    have hstep : flowBody cfg single start ⟨str, [], [], [], lb⟩ s = (.ok (.next ⟨str ++ u ++ List.replicate (n + 1) 32, [], [], [], false⟩), pass s (w ++ List.replicate (n + 1) 32) l1) := by
      unfold flowBody
      ev [p1, p2, p3]
      rw [bind_run hl]
      have h0 : (pass s w l).src.peekz 0 = 32 := peekz_cons (by rw [hr1, List.replicate_succ]; rfl)
      ev [h0]
      simp only [show ¬ ((32 : Nat) = 39) by decide, show ¬ ((32 : Nat) = 34) by decide, false_and, or_self, if_false]
      rw [bind_run hl1]
      ev [pass_pass]
      simp [flowJoin]
    have hcle : s.mark.col + 1 ≤ (pass s (w ++ List.replicate (n + 1) 32) l1).mark.col := by
      show s.mark.col + 1 ≤ (gapMark s.mark (w ++ List.replicate (n + 1) 32)).col
      rw [gapMark_flat]
      · simp; omega
      · intro y hy
        rcases List.mem_append.1 hy with hy | hy
        · exact hw.flat _ hy
        · rw [List.eq_of_mem_replicate hy]; decide
    obtain ⟨l2, p', e1, e2⟩ := ih (k := k) (s := pass s (w ++ List.replicate (n + 1) 32) l1) (str := str ++ u ++ List.replicate (n + 1) 32) (lb := false) (pass_rest (by simp [hr])) (by omega) (by omega)
      (by omega) (Nat.le_trans hi (Nat.le_trans (Nat.le_succ _) hcle)) hin (fun h => by omega)
    refine ⟨l2, p', ?_, by rw [e2]; simp⟩
    rw [loop_next hstep, e1, pass_pass]
    simp
  | @line w u j n g m v hw hg hn hm hd' _ ih =>
    intro k s str lb hr hk hf h1c hi hin hd
    obtain ⟨k, rfl⟩ : ∃ j, k = j + 1 := ⟨k - 1, by omega⟩
    obtain ⟨p1, p2, p3⟩ := pre hr hi hd
    simp at hk hf
    obtain ⟨g0, g', hgc, hg0⟩ : ∃ g0 g', g = g0 :: g' ∧ (g0 = 32 ∨ g0 = 10) := by
      cases hgc : g with
      | nil => have := fold_newline hg; rw [hgc] at this; cases this
      | cons g0 g' => exact ⟨g0, g', rfl, fold_mem hg _ (by rw [hgc]; simp)⟩
    have hglen : 0 < g.length := by rw [hgc]; simp
    obtain ⟨l, hl⟩ := hw.until (start := start) (str := str) (s := s) (k := cfg.fuel) (c := g0) (r := g' ++ (m ++ qt :: r)) (by simp [hr, hgc]) (by omega)
      (.inl (by rcases hg0 with rfl | rfl <;> rfl))
    have hr1 : (pass s w l).src.rest = g ++ (m ++ qt :: r) := pass_rest (by simp [hr])
    obtain ⟨c, r', hcr, hcc⟩ := next hm
    obtain ⟨l1, hl1⟩ := qfold_run hcc (k := cfg.fuel) (s := pass s w l) (a := g) (p := ⟨str ++ u, [], [], [], false⟩) (fold_mem hg) (by rw [hr1, hcr]) (by omega)
    rw [qfold_fold hg] at hl1
    have hstep : flowBody cfg single start ⟨str, [], [], [], lb⟩ s = (.ok (.next ⟨str ++ u ++ Block.glue j, [], [], [], true⟩), pass s (w ++ g) l1) := by
      unfold flowBody
      ev [p1, p2, p3]
      rw [bind_run hl]
      have h0 : (pass s w l).src.peekz 0 = g0 := peekz_cons (by rw [hr1, hgc]; rfl)
      have hx : ¬ (g0 = 39) ∧ ¬ (g0 = 34) := by omega
      ev [h0]
      simp only [hx, false_and, or_self, if_false]
      rw [bind_run hl1]
      ev [pass_pass]
      cases j <;> simp [flowJoin, Block.glue, List.replicate_succ]
    have hcol : (pass s (w ++ g) l1).mark.col = n + 1 := by
      show (gapMark s.mark (w ++ g)).col = _
      rw [gapMark_append, fold_col hg]
    obtain ⟨l2, p', e1, e2⟩ := ih (k := k) (s := pass s (w ++ g) l1) (str := str ++ u ++ Block.glue j) (lb := true) (pass_rest (by simp [hr])) (by omega) (by omega)
      (by omega) (by rw [hcol]; exact Nat.le_trans hin hn) hin (fun h => hd' (by omega))
    refine ⟨l2, p', ?_, by rw [e2]; simp⟩
    rw [loop_next hstep, e1, pass_pass]
    simp
  | @esc w u j n ls m v hs hw hls hn hm hd' hmv ih =>
    intro k s str lb hr hk hf h1c hi hin hd
    subst hs
    obtain rfl : qt = 34 := hqt
    obtain ⟨k, rfl⟩ : ∃ j, k = j + 1 := ⟨k - 1, by omega⟩
    obtain ⟨p1, p2, p3⟩ := pre hr hi hd
    simp at hk hf
    obtain ⟨k1, l, h1, h2⟩ := hw.run (start := start) (k := cfg.fuel) (s := s) (str := str) (r := 92 :: 10 :: (ls ++ (List.replicate n 32 ++ (m ++ 34 :: r)))) (by simp [hr]) (by omega)
    obtain ⟨k1, rfl⟩ : ∃ j, k1 = j + 1 := ⟨k1 - 1, by omega⟩
    have hr0 : (pass s w l).src.rest = 92 :: 10 :: (ls ++ (List.replicate n 32 ++ (m ++ 34 :: r))) := pass_rest (by simp [hr])
    have hesc : flowCharsBody false start (str ++ u) (pass s w l) = (.ok (.done (str ++ u, true)), pass s (w ++ [92, 10]) true) := by
      have h0 : (pass s w l).src.peekz 0 = 92 := peekz_cons hr0
      have h1 : (pass s w l).src.peekz 1 = 10 := by simp [Src.peekz, hr0]
      unfold flowCharsBody
      ev [h0, h1]
      simp only [show isBlankOrBreakz 92 = false from rfl, show isBreak 10 = true from rfl, Bool.false_eq_true, if_false, show ¬ ((92 : Nat) = 39) by decide, show ¬ ((92 : Nat) = 34) by decide,
        false_and, and_self, if_true]
      rw [bind_run (skipNonBlank_pass (b := 92) (by decide)), pass_pass]
      have hb : skipLinebreak (pass s (w ++ [92]) false) = (.ok (), pass s (w ++ [92, 10]) true) := by
        have : (pass s (w ++ [92]) false).src.rest = 10 :: (ls ++ (List.replicate n 32 ++ (m ++ 34 :: r))) := pass_rest (by simp [hr])
        have h0 : (pass s (w ++ [92]) false).src.peekz 0 = 10 := peekz_cons this
        have e : pass s (w ++ [92, 10]) true = pass (pass s (w ++ [92]) false) [10] true := by rw [pass_pass]; simp
        rw [e]
        simp only [skipLinebreak, upd, h0]
        simp [pass, gapMark]
      rw [bind_run hb]
      rfl
    have hl : loopM (flowCharsBody false start) cfg.fuel str s = (.ok (str ++ u, true), pass s (w ++ [92, 10]) true) := h2.trans (loop_done hesc)
    generalize hS : pass s (w ++ [92, 10]) true = S at hl
    have hr1 : S.src.rest = (ls ++ List.replicate n 32) ++ (m ++ 34 :: r) := by rw [← hS]; exact pass_rest (by simp [hr])
    obtain ⟨c, r', hcr, hcc⟩ := next hm
    by_cases hz : ls ++ List.replicate n 32 = [] ∧ m = []
    · obtain ⟨hz, rfl⟩ := hz
      obtain ⟨rfl, hn0⟩ := List.append_eq_nil_iff.1 hz
      obtain rfl : n = 0 := by simpa using hn0
      obtain rfl : j = 0 := by
        generalize hx : ([] : List Byte) = x at hls
        cases hls with
        | nil => rfl
        | cons _ => simp at hx
      obtain rfl := hmv.nil rfl
      refine ⟨true, ⟨str ++ u, [], [], [], true⟩, loop_done ?_, by simp⟩
      unfold flowBody
      ev [p1, p2, p3]
      rw [bind_run hl]
      have h0 : S.src.peekz 0 = 34 := peekz_cons hr1
      ev [h0]
      simp [← hS]
    · obtain ⟨l1, hl1⟩ := qfold_run hcc (k := cfg.fuel) (s := S) (a := ls ++ List.replicate n 32) (p := ⟨str ++ u, [], [], [], true⟩)
        (by intro x hx; rcases List.mem_append.1 hx with hx | hx
            · exact blanks_mem hls x hx
            · exact .inl (List.eq_of_mem_replicate hx)) (by rw [hr1, hcr]) (by simp; omega)
      rw [qfold_esc hls] at hl1
      have h34 : S.src.peekz 0 ≠ 34 := by
        rw [peekz_head hr1]
        cases hx : ls ++ List.replicate n 32 with
        | nil =>
          cases hmm : m with
          | nil => exact absurd ⟨hx, hmm⟩ hz
          | cons x m' =>
            have := hmv.first rfl
            rw [hmm] at this
            simpa using this
        | cons x a =>
          have : x = 32 ∨ x = 10 := by
            have hx' : x ∈ ls ++ List.replicate n 32 := by rw [hx]; simp
            rcases List.mem_append.1 hx' with h | h
            · exact blanks_mem hls x h
            · exact .inl (List.eq_of_mem_replicate h)
          simp
          omega
      have hstep : flowBody cfg false start ⟨str, [], [], [], lb⟩ s = (.ok (.next ⟨str ++ u ++ List.replicate j 10, [], [], [], true⟩), pass S (ls ++ List.replicate n 32) l1) := by
        unfold flowBody
        ev [p1, p2, p3]
        rw [bind_run hl]
        ev []
        simp only [h34, and_false, false_and, or_self, if_false]
        rw [bind_run hl1]
        ev []
        simp [flowJoin]
      have hcol : (pass S (ls ++ List.replicate n 32) l1).mark.col = n + 1 := by
        have hx := fold_col (g := 10 :: (ls ++ Block.spaces n)) (m := j) (n := n) ⟨0, ls, hls, rfl⟩ (gapMark s.mark (w ++ [92]))
        rw [← gapMark_append] at hx
        have e : pass S (ls ++ List.replicate n 32) l1 = pass s (w ++ [92] ++ 10 :: (ls ++ List.replicate n 32)) l1 := by rw [← hS, pass_pass]; simp
        rw [e]
        exact hx
      have hSi : (pass S (ls ++ List.replicate n 32) l1).indent = s.indent := by rw [← hS]; rfl
      obtain ⟨l2, p', e1, e2⟩ := ih (k := k) (s := pass S (ls ++ List.replicate n 32) l1) (str := str ++ u ++ List.replicate j 10) (lb := true) (pass_rest hr1) (by omega) (by omega)
        (by omega) (by rw [hcol, hSi]; exact Nat.le_trans hin hn) (by rw [hSi]; exact hin) (fun h => hd' (by omega))
      refine ⟨l2, p', ?_, by rw [e2]; simp⟩
      rw [loop_next hstep, e1, ← hS, pass_pass, pass_pass]
      simp

theorem QFlow.weaken {single a b t v} (h : QFlow single a t v) (hab : b ≤ a) : QFlow single b t v := by
  induction h with
  | stop h => exact .stop h
  | gap h1 h2 _ ih => exact .gap h1 h2 ih
  | line h1 h2 h3 h4 h5 _ ih => exact .line h1 h2 (by omega) h4 h5 ih
  | esc h0 h1 h2 h3 h4 h5 _ ih => exact .esc h0 h1 h2 (by omega) h4 h5 ih

/-- on one line the column does not matter -/
theorem QFlow.oneLine {single a b t v} (h : QFlow single a t v) (ht : ∀ x ∈ t, x ≠ 10) : QFlow single b t v := by
  induction h with
  | stop h => exact .stop h
  | gap h1 h2 _ ih => exact .gap h1 h2 (ih fun x hx => ht x (by simp [hx]))
  | line h1 h2 _ _ _ _ _ =>
    have := fold_newline h2
    rw [List.contains_iff_mem] at this
    exact absurd rfl (ht 10 (by simp [this]))
  | esc _ _ _ _ _ _ _ _ => exact absurd rfl (ht 10 (by simp))

end Verif.Scanner
