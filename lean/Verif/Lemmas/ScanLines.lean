import Verif.Lemmas.ScanEntriesL
/-!
# Plain and quoted scalars over several lines
-/
namespace Verif.Scanner
open Verif Verif.CharUtils Verif.Source Verif.Emitter Verif.Spec

theorem on_pass {s : SSt} {w : List Byte} (h : ∀ b ∈ w, b ≠ 10) : on s w.length = pass s w false := by
  simp [on, pass, gapMark_flat w _ h]

theorem word_flat {w} (h : PWord w) : ∀ b ∈ w, b ≠ 10 := fun b hb => (h.bytes b hb).2.2.1

/-! ## Plain scalars -/

/-- the white space loop of a plain scalar -/
def pfold : PlainSt → Bool → List Byte → PlainSt
  | p, _, [] => p
  | p, lw, c :: a =>
    if c = 32 then pfold (if lw then p else { p with whitespaces := p.whitespaces ++ [32] }) lw a
    else pfold (if lw then { p with trailingBreaks := p.trailingBreaks ++ [10] } else { p with whitespaces := [], leadingBreak := p.leadingBreak ++ [10] }) true a

theorem pfold_run {ind start r} (hr : ∀ c, r.head? = some c → c ≠ 32 ∧ c ≠ 9 ∧ c ≠ 10 ∧ c ≠ 13) : ∀ {a k s p}, (∀ x ∈ a, x = 32 ∨ x = 10) →
    s.src.rest = a ++ r → a.length < k →
    loopM (plainBlankBody ind start) k p s = (.ok (pfold p s.leadingWhitespace a), pass s a (s.leadingWhitespace || a.contains 10)) := by
  intro a
  induction a with
  | nil =>
    intro k s p _ h hk
    obtain ⟨k, rfl⟩ : ∃ j, k = j + 1 := ⟨k - 1, by omega⟩
    have h0 := peekz_head h
    have hb : isBlankOrBreak (s.src.peekz 0) = false := by
      rw [h0]
      cases r with
      | nil => rfl
      | cons c q => have := hr c rfl; simp [isBlankOrBreak, this]
    rw [loop_done (b := p) (s1 := s) (by unfold plainBlankBody; ev [hb])]
    rw [List.contains_nil, Bool.or_false, pass_nil, pfold]
  | cons c a ih =>
    intro k s p ha h hk
    obtain ⟨k, rfl⟩ : ∃ j, k = j + 1 := ⟨k - 1, by omega⟩
    have h0 : s.src.peekz 0 = c := peekz_cons h
    have ha' : ∀ x ∈ a, x = 32 ∨ x = 10 := fun b hb => ha b (List.mem_cons_of_mem _ hb)
    simp only [List.length_cons] at hk
    have key : ∀ {l p1}, plainBlankBody ind start p s = (.ok (.next p1), pass s [c] l) → pfold p1 l a = pfold p s.leadingWhitespace (c :: a) → (l || a.contains 10) = (s.leadingWhitespace || (c :: a).contains 10) →
        loopM (plainBlankBody ind start) (k + 1) p s = (.ok (pfold p s.leadingWhitespace (c :: a)), pass s (c :: a) (s.leadingWhitespace || (c :: a).contains 10)) := by
      intro l p1 h1 h2 h3
      have e1 := ih (k := k) (s := pass s [c] l) (p := p1) ha' (pass_rest (a := [c]) h) (by omega)
      rw [loop_next h1, e1, pass_pass, ← h3, ← h2]
      rfl
    rcases ha c List.mem_cons_self with rfl | rfl
    · by_cases hl : s.leadingWhitespace = false
      · refine key (l := false) (p1 := { p with whitespaces := p.whitespaces ++ [32] }) ?_ (by simp [pfold, hl]) (by simp [hl])
        unfold plainBlankBody
        ev [h0, hl]
        rw [if_neg (by decide), if_pos (by decide), bind_run (skipBlank_on hl)]
        rfl
      · replace hl : s.leadingWhitespace = true := by simpa using hl
        refine key (l := true) (p1 := p) ?_ (by simp [pfold, hl]) (by simp [hl])
        unfold plainBlankBody skipBlank
        ev [h0, hl]
        rw [if_neg (by decide), if_pos (by decide), if_neg (by decide), if_neg (by simp)]
        simp [pass, gapMark]
    · by_cases hl : s.leadingWhitespace = false
      · refine key (l := true) (p1 := { p with whitespaces := [], leadingBreak := p.leadingBreak ++ [10] }) ?_ (by simp [pfold, hl]) (by simp)
        unfold plainBlankBody skipLinebreak
        ev [h0, hl]
        rw [if_neg (by decide), if_neg (by decide)]
        rfl
      · replace hl : s.leadingWhitespace = true := by simpa using hl
        refine key (l := true) (p1 := { p with trailingBreaks := p.trailingBreaks ++ [10] }) ?_ (by simp [pfold, hl]) (by simp)
        unfold plainBlankBody skipLinebreak
        ev [h0, hl]
        rw [if_neg (by decide), if_neg (by decide)]
        rfl

theorem pfold_lead {n : Nat} {p : PlainSt} {a} : pfold p true (List.replicate n 32 ++ a) = pfold p true a := by
  induction n with
  | zero => rfl
  | succ n ih => rw [List.replicate_succ, List.cons_append, pfold, if_pos rfl, if_pos rfl, ih]

theorem pfold_first {n : Nat} {p : PlainSt} {a} : pfold p false (List.replicate n 32 ++ 10 :: a) = pfold { p with whitespaces := [], leadingBreak := p.leadingBreak ++ [10] } true a := by
  induction n generalizing p with
  | zero => rw [List.replicate_zero, List.nil_append, pfold, if_neg (by decide), if_neg (by decide)]
  | succ n ih => rw [List.replicate_succ, List.cons_append, pfold, if_pos rfl, if_neg (by decide), ih]

theorem pfold_blanks {m ls} (h : Block.Blanks m ls) : ∀ {p : PlainSt} {a}, pfold p true (ls ++ a) = pfold { p with trailingBreaks := p.trailingBreaks ++ List.replicate m 10 } true a := by
  induction h with
  | nil => intro p a; simp
  | @cons m k r _ ih =>
    intro p a
    rw [List.append_assoc, List.cons_append]
    show pfold p true (List.replicate k 32 ++ 10 :: (r ++ a)) = _
    rw [pfold_lead, pfold, if_neg (by decide), if_pos rfl, ih]
    simp [List.replicate_succ]

theorem pfold_fold {m n g str mk} (h : Block.Fold m n g) : pfold ⟨str, [], [], [], mk⟩ false g = ⟨str, [10], List.replicate m 10, [], mk⟩ := by
  obtain ⟨j, ls, hl, rfl⟩ := h
  show pfold _ false (List.replicate j 32 ++ 10 :: (ls ++ List.replicate n 32)) = _
  rw [pfold_first, pfold_blanks hl]
  have := @pfold_lead n ⟨str, [10], List.replicate m 10, [], mk⟩ []
  rw [List.append_nil] at this
  simpa [pfold] using this

/-- reading one word -/
theorem pcontent_join {cfg s p str m r w} (hw : PWord w) (hr : PEnd r) (h : s.src.rest = w ++ r)
    (hk : w.length ≤ cfg.fuel) (hf : s.flowLevel = 0) (hj : plainJoin s.leadingWhitespace p = ⟨str, [], [], [], m⟩) :
    plainContent cfg p s = (.ok ⟨str ++ w, [], [], [], (on s w.length).mark⟩, on s w.length) := by
  unfold plainContent
  obtain ⟨c, w, rfl, hc, -⟩ := hw.cons
  rw [gets_bind]
  show (peekz 0 >>= fun c => _) s = _
  rw [hj]
  ev [peekz_cons h]
  rw [bind_run (skipNonBlank_on s)]
  simp only [List.length_cons] at hk
  rw [bind_run (pword_run hr (s := on s 1) (fun b hx => hw.bytes b (List.mem_cons_of_mem _ hx)) (getLast_tail hw.colon) (on_rest (w := [c]) h rfl) (by omega) hf rfl), on_on]
  ev []
  simp [Nat.add_comm]

/-- the line does not begin with a document marker -/
def LineMark (t : List Byte) : Prop := ∀ x r, (x = 45 ∨ x = 46) → t = x :: x :: x :: r → ∃ d r', r = d :: r' ∧ PByte d

/-- words separated by spaces or line ends; `ind` is the least column where a line may begin -/
inductive PFlow (ind : Nat) : List Byte → List Byte → Prop
  | one {w} : PWord w → PFlow ind w w
  | space {w n t v} : PWord w → PFlow ind t v → PFlow ind (w ++ (List.replicate (n + 1) 32 ++ t)) (w ++ (List.replicate (n + 1) 32 ++ v))
  | line {w m n g t v} : PWord w → Block.Fold m n g → ind ≤ n + 1 → LineMark t → PFlow ind t v → PFlow ind (w ++ (g ++ t)) (w ++ (Block.glue m ++ v))

theorem PFlow.cons {ind t v} (h : PFlow ind t v) : ∃ c t', t = c :: t' ∧ PByte c ∧ c ≠ 35 := by
  cases h with
  | one h => exact h.cons
  | space h _ =>
    obtain ⟨c, w, rfl, h1, h2⟩ := h.cons
    exact ⟨c, _, rfl, h1, h2⟩
  | line h _ _ _ _ =>
    obtain ⟨c, w, rfl, h1, h2⟩ := h.cons
    exact ⟨c, _, rfl, h1, h2⟩

theorem PFlow.ne {ind t v} (h : PFlow ind t v) : v ≠ [] := by
  cases h with
  | one h => exact h.ne
  | space h _ => simp [h.ne]
  | line h _ _ _ _ => simp [h.ne]

theorem lineMark_doc {s : SSt} {t r} (h : LineMark t) (ht : t ≠ []) (hr : PEnd r) (hs : s.src.rest = t ++ r) : s.src.nextIsDocumentIndicator = false := by
  have key : ∀ x, (x = 45 ∨ x = 46) → (s.src.nextIsThree x && isBlankOrBreakz (s.src.peekz 3)) = false := by
    intro x hx
    rw [Bool.eq_false_iff]
    intro hy
    rw [Bool.and_eq_true] at hy
    obtain ⟨h3, h4⟩ := hy
    have hend : ∀ c r', r = c :: r' → c ≠ x := fun c r' e => by
      rw [e] at hr; have := hr.byte; omega
    simp [Src.nextIsThree, Src.peekz, hs] at h3
    simp [Src.peekz, hs] at h4
    match t with
    | [] => exact ht rfl
    | [a] =>
      cases r with
      | nil => simp at h3; omega
      | cons c r => simp at h3; exact hend _ _ rfl h3.1.2
    | [a, b] =>
      cases r with
      | nil => simp at h3; omega
      | cons c r => simp at h3; exact hend _ _ rfl h3.2
    | a :: b :: c :: t =>
      simp at h3
      obtain ⟨⟨rfl, rfl⟩, rfl⟩ := h3
      obtain ⟨d, t', rfl, hd⟩ := h _ _ hx rfl
      simp [hd.blank] at h4
  unfold Src.nextIsDocumentIndicator
  rw [Bool.and_or_distrib_right, key 45 (.inl rfl), key 46 (.inr rfl)]; rfl

/-- The loop of `scan_plain_scalar` on words over several lines, followed by `post`; `F` is what happens there. -/
theorem pflow_run {cfg : Cfg} {ind start post} {F : SSt → SSt} (hp : PEnd post)
    (hF : ∀ {s : SSt} {p : PlainSt}, s.src.rest = post → s.leadingWhitespace = false → s.flowLevel = 0 →
      ∃ p', (plainAfter cfg ind start p s = (.ok (.done p'), F s) ∨
        (plainAfter cfg ind start p s = (.ok (.next p'), F s) ∧ plainBody cfg ind start p' (F s) = (.ok (.done p'), F s))) ∧ p'.string = p.string) {t v} (ht : PFlow ind t v) :
    ∀ {k s p str m}, s.src.rest = t ++ post → t.length < k → t.length ≤ cfg.fuel → s.flowLevel = 0 → ind ≤ s.mark.col + 1 →
    plainJoin s.leadingWhitespace p = ⟨str, [], [], [], m⟩ → (s.leadingWhitespace = true → LineMark t) →
    ∃ p', loopM (plainBody cfg ind start) k p s = (.ok p', F (pass s t false)) ∧ p'.string = str ++ v := by
  induction ht with
  | @one w hw =>
    intro k s p str m h hk hfu hf hi hj hl
    obtain ⟨k, rfl⟩ : ∃ j, k = j + 1 := ⟨k - 1, by omega⟩
    have hpos : 0 < w.length := List.length_pos_iff.2 hw.ne
    obtain ⟨p', e1, e2⟩ := hF (s := on s w.length) (p := ⟨str ++ w, [], [], [], (on s w.length).mark⟩) (on_rest h rfl) rfl hf
    have e0 : plainBody cfg ind start p s = plainAfter cfg ind start ⟨str ++ w, [], [], [], (on s w.length).mark⟩ (on s w.length) := by
      rw [pbody_content h hw hf (fun x => lineMark_doc (hl x) hw.ne hp h), bind_run (pcontent_join hw hp h (by omega) hf hj)]
    rw [← on_pass (word_flat hw)]
    refine ⟨p', ?_, e2⟩
    rcases e1 with e1 | ⟨e1, e3⟩
    · exact loop_done (e0.trans e1)
    · obtain ⟨k, rfl⟩ : ∃ j, k = j + 1 := ⟨k - 1, by omega⟩
      exact (loop_next (e0.trans e1)).trans (loop_done e3)
  | @space w n t v hw ht ih =>
    intro k s p str m h hk hfu hf hi hj hl
    obtain ⟨k, rfl⟩ : ∃ j, k = j + 1 := ⟨k - 1, by omega⟩
    have hpos : 0 < w.length := List.length_pos_iff.2 hw.ne
    obtain ⟨d, t', rfl, hd, -⟩ := ht.cons
    simp only [List.length_append, List.length_replicate, List.length_cons] at hk hfu
    have e0 : s.src.rest = w ++ (32 :: (List.replicate n 32 ++ (d :: t') ++ post)) := by
      rw [h]; simp [List.replicate_succ]
    have hr1 : (on s w.length).src.rest = List.replicate (n + 1) 32 ++ d :: (t' ++ post) := by
      rw [on_rest e0 rfl]; simp [List.replicate_succ]
    have hafter : plainAfter cfg ind start ⟨str ++ w, [], [], [], (on s w.length).mark⟩ (on s w.length) =
        (.ok (.next ⟨str ++ w, [], [], List.replicate (n + 1) 32, (on s w.length).mark⟩), on s (w.length + (n + 1))) := by
      unfold plainAfter
      have h0 : (on s w.length).src.peekz 0 = 32 := peekz_cons hr1
      ev [h0]
      rw [if_pos (by decide), bind_run (pspaces_run hd rfl hr1 (by omega)), on_on]
      have h3 : ((on s (w.length + (n + 1))).flowLevel == 0 && decide ((on s (w.length + (n + 1))).mark.col < ind)) = false := by
        rw [Bool.and_eq_false_iff, decide_eq_false_iff_not]; right; simp [on]; omega
      ev [h3]
      simp
    have hmark : s.leadingWhitespace = true → s.src.nextIsDocumentIndicator = false := fun x => lineMark_doc (hl x) (by simp) hp h
    have hb1 : plainBody cfg ind start p s =
        (.ok (.next ⟨str ++ w, [], [], List.replicate (n + 1) 32, (on s w.length).mark⟩), on s (w.length + (n + 1))) := by
      rw [pbody_content e0 hw hf hmark,
        bind_run (pcontent_join hw (.inr (.inl ⟨_, rfl⟩)) e0 (by omega) hf hj), hafter]
    obtain ⟨p', e1, e2⟩ := ih (k := k) (s := on s (w.length + (n + 1))) (p := ⟨str ++ w, [], [], List.replicate (n + 1) 32, (on s w.length).mark⟩) (str := str ++ w ++ List.replicate (n + 1) 32)
      (m := (on s w.length).mark) (on_rest (w := w ++ List.replicate (n + 1) 32) (by rw [h]; simp) (by simp))
      (by simp; omega) (by simp; omega) hf (by simp [on]; omega) (by simp [on, plainJoin]) (fun x => by cases x)
    refine ⟨p', ?_, by rw [e2]; simp⟩
    have e3 : on s (w.length + (n + 1)) = pass s (w ++ List.replicate (n + 1) 32) false := by
      rw [← on_pass (s := s)]
      · simp
      · intro b hb
        rcases List.mem_append.1 hb with hb | hb
        · exact word_flat hw b hb
        · rw [List.eq_of_mem_replicate hb]; decide
    rw [loop_next hb1, e1, e3, pass_pass]
    simp
  | @line w m n g t v hw hg hn hm ht ih =>
    intro k s p str mk h hk hfu hf hi hj hl
    obtain ⟨k, rfl⟩ : ∃ j, k = j + 1 := ⟨k - 1, by omega⟩
    have hpos : 0 < w.length := List.length_pos_iff.2 hw.ne
    obtain ⟨d, t', htd, hd, -⟩ := ht.cons
    simp only [List.length_append] at hk hfu
    obtain ⟨g0, g', hgc, hg0⟩ : ∃ g0 g', g = g0 :: g' ∧ (g0 = 32 ∨ g0 = 10) := by
      cases hgc : g with
      | nil => have := fold_newline hg; rw [hgc] at this; cases this
      | cons g0 g' => exact ⟨g0, g', rfl, fold_mem hg _ (by rw [hgc]; simp)⟩
    have e0 : s.src.rest = w ++ (g ++ (t ++ post)) := by rw [h]; simp
    have hpe : PEnd (g ++ (t ++ post)) := by
      rw [hgc]
      rcases hg0 with rfl | rfl
      · exact .inr (.inl ⟨_, rfl⟩)
      · exact .inr (.inr (.inl ⟨_, rfl⟩))
    have hr1 : (on s w.length).src.rest = g ++ (t ++ post) := on_rest e0 rfl
    have hne : w ++ (g ++ t) ≠ [] := by simp [hw.ne]
    have hmark : s.leadingWhitespace = true → s.src.nextIsDocumentIndicator = false := fun x => lineMark_doc (hl x) hne hp h
    have hafter : plainAfter cfg ind start ⟨str ++ w, [], [], [], (on s w.length).mark⟩ (on s w.length) =
        (.ok (.next ⟨str ++ w, [10], List.replicate m 10, [], (on s w.length).mark⟩), pass (on s w.length) g true) := by
      unfold plainAfter
      have h0 : (on s w.length).src.peekz 0 = g0 := peekz_cons (by rw [hr1, hgc]; rfl)
      have hb : (isBlank g0 || isBreak g0) = true := by rcases hg0 with rfl | rfl <;> decide
      have hrun := pfold_run (ind := ind) (start := start) (r := t ++ post) (a := g) (k := cfg.fuel) (s := on s w.length) (p := ⟨str ++ w, [], [], [], (on s w.length).mark⟩)
        (by rw [htd]; intro c hc; simp at hc; subst hc; exact ⟨hd.2.2.2.2, hd.2.1, hd.2.2.1, hd.2.2.2.1⟩) (fold_mem hg) hr1 (by omega)
      have hl0 : (on s w.length).leadingWhitespace = false := rfl
      rw [hl0, pfold_fold hg, fold_newline hg, Bool.false_or] at hrun
      ev [h0, hb]
      rw [bind_run hrun]
      have h3 : ((pass (on s w.length) g true).flowLevel == 0 && decide ((pass (on s w.length) g true).mark.col < ind)) = false := by
        rw [Bool.and_eq_false_iff, decide_eq_false_iff_not]; right
        show ¬ (gapMark _ g).col < ind
        rw [fold_col hg]; omega
      ev [h3]
    have hb1 : plainBody cfg ind start p s =
        (.ok (.next ⟨str ++ w, [10], List.replicate m 10, [], (on s w.length).mark⟩), pass (on s w.length) g true) := by
      rw [pbody_content e0 hw hf hmark, bind_run (pcontent_join hw hpe e0 (by omega) hf hj), hafter]
    have hS : pass (on s w.length) g true = pass s (w ++ g) true := by rw [on_pass (word_flat hw), pass_pass]
    rw [hS] at hb1
    obtain ⟨p', e1, e2⟩ := ih (k := k) (s := pass s (w ++ g) true) (p := ⟨str ++ w, [10], List.replicate m 10, [], (on s w.length).mark⟩) (str := str ++ w ++ Block.glue m)
      (m := (on s w.length).mark) (pass_rest (a := w ++ g) (by rw [h]; simp))
      (by omega) (by omega) hf (by show ind ≤ (gapMark s.mark (w ++ g)).col + 1; rw [gapMark_append, fold_col hg]; omega)
      (by cases m <;> simp [pass, plainJoin, Block.glue, List.replicate_succ]) (fun _ => hm)
    refine ⟨p', ?_, by rw [e2]; simp⟩
    rw [loop_next hb1, e1, pass_pass]
    simp

/-! ## Reading them -/

/-- a text on one or several lines that is read as a scalar token; lines begin at column `p`, counted from 0, or further right -/
inductive TallText (p : Nat) : List Byte → TokenType → Prop
  | plain {t v} : PFlow (p + 1) t v → PFirst t → TallText p t (.scalar .plain v)
  | double {m v} : QFlow false (p + 1) m v → TallText p (34 :: (m ++ [34])) (.scalar .doubleQuote v)
  | single {m v} : QFlow true (p + 1) m v → TallText p (39 :: (m ++ [39])) (.scalar .singleQuote v)

theorem TallText.ne {p t tok} (h : TallText p t tok) : t ≠ [] := by
  cases h with
  | plain h _ => obtain ⟨c, t', rfl, -⟩ := h.cons; simp
  | double _ => simp
  | single _ => simp

theorem TallText.np {p t tok} (h : TallText p t tok) : isProp tok = false := by
  cases h <;> rfl

theorem TallText.notMark {p t tok r} (h : TallText p t tok) (hr : PEnd r) : NotMarkL (t ++ r) := by
  cases h with
  | plain _ h => exact h.notMark hr
  | double _ =>
    refine ⟨by simp, fun x r hx h => ?_⟩
    simp only [List.cons_append, List.cons.injEq] at h
    omega
  | single _ =>
    refine ⟨by simp, fun x r hx h => ?_⟩
    simp only [List.cons_append, List.cons.injEq] at h
    omega

theorem TallText.head {p t tok r} (h : TallText p t tok) : TokenHead (t ++ r) := by
  cases h with
  | plain h _ =>
    obtain ⟨c, t', rfl, ⟨h1, h2, h3, h4, h5⟩, h6⟩ := h.cons
    intro d hd
    simp at hd
    subst hd
    simp [h1, h2, h3, h4, h5, h6]
  | double _ => intro d hd; simp at hd; subst hd; decide
  | single _ => intro d hd; simp at hd; subst hd; decide

/-- `s3`: the scalar token was read in `s`, with the bytes `t`, and then the part `w1` of the gap; the part `w2` and `q` are left -/
structure ReadM (s s3 : SSt) (tok : TokenType) (t w1 w2 q : List Byte) (i0 : Nat) (I0 : List Indent) : Prop where
  rest : s3.src.rest = w2 ++ q
  lay : Lay w2 q
  mark : s3.mark = gapMark s.mark (t ++ w1)
  ctx : BCtx s3.indents s3.indent i0 I0
  toks : ∃ sp, s3.tokens = s.tokens ++ [⟨sp, tok⟩]
  al : s3.simpleKeyAllowed = w1.contains 10
  keys : s3.simpleKeys = savedKeys s
  calm : Calm s3

theorem PFlow.weaken {a b t v} (h : PFlow a t v) (hab : b ≤ a) : PFlow b t v := by
  induction h with
  | one h => exact .one h
  | space h _ ih => exact .space h ih
  | line h1 h2 h3 h4 _ ih => exact .line h1 h2 (by omega) h4 ih

theorem plain_tall {cfg s out I i c al t v w q i0 I0} (h : Pos s out I i (t ++ (w ++ q)) c al) (ht : PFlow (i0 + 1) t v) (hp : PFirst t)
    (hx : BCtx I i i0 I0) (hb : BlockTop I0) (hi : i0 ≤ c) (ha : AfterL w q i0) (hf : (t ++ (w ++ q)).length < cfg.fuel) :
    ∃ s3 w1 w2, fetchMain cfg s = (.ok (), s3) ∧ w = w1 ++ w2 ∧ ReadM s s3 (.scalar .plain v) t w1 w2 q i0 I0 := by
  rw [fetchMain_plainL h.rest hp h.calm.level]
  unfold fetchPlainScalar setAllowed
  rw [bind_run (save_run s)]
  ev []
  generalize hA : ({ s with simpleKeys := savedKeys s, simpleKeyAllowed := false } : SSt) = sA
  unfold scanPlainScalar
  have hnb : unrollNonBlockIndents sA = (.ok (), { sA with indents := I0, indent := i0 }) := by
    have e1 : sA.indents = I := by rw [← hA]; exact h.indents
    have e2 : sA.indent = i := by rw [← hA]; exact h.indent
    simp only [unrollNonBlockIndents, upd, e1, e2, hx.nonBlock hb]
  rw [bind_assoc_run, bind_run hnb]
  generalize hC : ({ sA with indents := I0, indent := i0 } : SSt) = sC
  have c1 : sC.flowLevel = 0 := by rw [← hC, ← hA]; exact h.calm.level
  have c2 : sC.mark = s.mark := by rw [← hC, ← hA]
  have c3 : sC.src = s.src := by rw [← hC, ← hA]
  have c4 : sC.indent = i0 := by rw [← hC]
  have c5 : sC.indents = I0 := by rw [← hC]
  have c6 : sC.tokens = s.tokens := by rw [← hC, ← hA]
  have c7 : sC.simpleKeys = savedKeys s := by rw [← hC, ← hA]
  have c8 : sC.simpleKeyAllowed = false := by rw [← hC, ← hA]
  have c9 : Calm sC := ⟨c1, by rw [← hC, ← hA]; exact h.calm.impl, by rw [← hC, ← hA]; exact h.calm.parsed, by rw [← hC, ← hA]; exact h.calm.started, by rw [c3]; exact h.calm.fit⟩
  have hbad : (decide (sC.flowLevel > 0) && decide (sC.mark.col < sC.indent + 1)) = false := by simp [c1]
  ev [hbad]
  have hlen : t.length < cfg.fuel := by simp at hf; omega
  have hrest : sC.src.rest = t ++ (w ++ q) := by rw [c3, h.rest]
  obtain ⟨a, b, hw, hlb, hF⟩ := plainAfter_lay ha
  obtain ⟨p', e1, e2⟩ := pflow_run (F := fun x => pass x a (a.contains 10)) (cfg := cfg) (ind := sC.indent + 1) (start := sC.mark)
    (post := w ++ q) ha.pend (fun {s' p} hr hl hf' => by rw [c4]; exact hF hr hl hf' (by simp at hf; omega)) (by rw [c4]; exact ht)
    (k := cfg.fuel) (s := sC) (p := ⟨[], [], [], [], sC.mark⟩) (str := []) (m := sC.mark) hrest hlen (by omega) c1 (by rw [c2, c4, h.col]; omega)
    (by cases sC.leadingWhitespace <;> rfl) (fun _ => hp.mark)
  rw [bind_run e1]
  have e3 : p'.string = v := by simpa using e2
  have h2 : p'.string.isEmpty = false := by rw [e3]; simpa using ht.ne
  generalize hS : pass (pass sC t false) a (a.contains 10) = S
  have hr1 : (pass sC t false).src.rest = a ++ (b ++ q) := by rw [pass_rest hrest, hw]; simp
  have hS0 : S.src.rest = b ++ q := by rw [← hS]; exact pass_rest hr1
  have hS1 : S.leadingWhitespace = a.contains 10 := by rw [← hS]; rfl
  have hS2 : S.mark = gapMark s.mark (t ++ a) := by rw [← hS]; simp [pass, c2, gapMark_append]
  have hS3 : S.indents = I0 ∧ S.indent = i0 := by rw [← hS]; exact ⟨c5, c4⟩
  have hS4 : S.tokens = s.tokens := by rw [← hS]; exact c6
  have hS5 : S.simpleKeys = savedKeys s := by rw [← hS]; exact c7
  have hS6 : S.simpleKeyAllowed = false := by rw [← hS]; exact c8
  have hS7 : Calm S := by
    rw [← hS]
    exact ⟨c9.level, c9.impl, c9.parsed, c9.started, (c9.fit.skip (n := t.length) (by simp [hrest])).skip (by show a.length ≤ (pass sC t false).src.rest.length; simp [hr1])⟩
  have hwhen : ∀ x, when x (setAllowed true) S = (.ok (), { S with simpleKeyAllowed := x }) := by
    intro x
    cases x with
    | true => rw [when_true]; rfl
    | false =>
      rw [when_false, pure_run, ← hS6]
  rw [gets_bind, bind_run (hwhen _)]
  clear hwhen
  ev [h2]
  unfold pushTok push
  refine ⟨_, a, b, rfl, hw, ?_⟩
  exact ⟨hS0, hlb, hS2, .inl hS3, ⟨⟨sC.mark, p'.endMark⟩, by simp [hS4, e3]⟩, hS1, hS5, ⟨hS7.level, hS7.impl, hS7.parsed, hS7.started, hS7.fit⟩⟩

/-- the end of a quoted scalar, after its closing quotation mark -/
theorem scanFlow_tall {cfg : Cfg} {s : SSt} {single m w q c' i0 l} {p' : FlowSt} {qt : Byte} (hqt : qt ≠ 10)
    (hbody : loopM (flowBody cfg single s.mark) cfg.fuel ⟨[], [], [], [], false⟩ (pass s [qt] false) = (.ok p', pass (pass s [qt] false) m l))
    (hr : s.src.rest = qt :: (m ++ qt :: (w ++ q))) (ha : EndL w q c' i0) :
    ∃ sp e w', w = e ++ w' ∧ Lay w' q ∧ (∀ x ∈ e, x ≠ 10) ∧
      scanFlowScalar cfg single s = (.ok ⟨sp, .scalar (if single then .singleQuote else .doubleQuote) p'.string⟩, pass s (qt :: (m ++ qt :: e)) false) := by
  have e2 : skipNonBlank (pass (pass s [qt] false) m l) = (.ok (), pass s (qt :: (m ++ [qt])) false) := by
    rw [skipNonBlank_pass (b := qt) hqt, pass_pass, pass_pass]
    simp
  have e3 : (pass s (qt :: (m ++ [qt])) false).src.rest = w ++ q := pass_rest (by simpa using hr)
  obtain ⟨e, w', r, rfl, h1, h2, h3, h4, -⟩ := skipWs_lay (st := true) (b := false) ha.1 ha.head (fun hx => absurd hx ha.2.1) e3
  refine ⟨⟨s.mark, (pass s (qt :: (m ++ qt :: e)) false).mark⟩, e, w', rfl, h4, h1, ?_⟩
  have e4 : pass (pass s (qt :: (m ++ [qt])) false) e (pass s (qt :: (m ++ [qt])) false).leadingWhitespace = pass s (qt :: (m ++ qt :: e)) false := by
    rw [pass_pass]
    simp [pass]
  rw [e4] at h2
  unfold scanFlowScalar
  ev []
  rw [bind_run (skipNonBlank_pass hqt), bind_run hbody, bind_run e2, bind_run h2]
  have e5 : (pass s (qt :: (m ++ qt :: e)) false).src.rest = w' ++ q := pass_rest (by simpa using hr)
  have hok : flowTrailingOk (pass s (qt :: (m ++ qt :: e)) false) s.mark = true := by
    unfold flowTrailingOk
    rcases h3 with rfl | ⟨w'', rfl⟩
    · rcases ha.2.2.2 with rfl | ⟨h10, -⟩
      · have : (pass s (qt :: (m ++ qt :: e)) false).src.peekz 0 = 0 := by simp [Src.peekz, e5]
        simp [this, isBreakz]
      · rw [List.append_nil, contains_false.2 h1] at h10
        cases h10
    · have : (pass s (qt :: (m ++ qt :: e)) false).src.peekz 0 = 10 := by simp [Src.peekz, e5]
      simp [this, isBreakz]
  ev [hok, Bool.not_true]

/-- the fetch of a quoted scalar -/
theorem quoted_tall {cfg s out I i c al single m v w q c' i0 I0} {qt : Byte} (h : Pos s out I i ((qt :: (m ++ [qt])) ++ (w ++ q)) c al) (hqt : qt = if single then 39 else 34)
    (hm : QFlow single (i0 + 1) m v) (hx : BCtx I i i0 I0) (hi : i0 ≤ c) (h1 : 1 ≤ c) (ha : EndL w q c' i0) (hf : ((qt :: (m ++ [qt])) ++ (w ++ q)).length < cfg.fuel) :
    ∃ s3 w1 w2, fetchMain cfg s = (.ok (), s3) ∧ w = w1 ++ w2 ∧
      ReadM s s3 (.scalar (if single then .singleQuote else .doubleQuote) v) (qt :: (m ++ [qt])) w1 w2 q i0 I0 := by
  have h0 : s.src.peekz 0 = qt := peekz_cons h.rest
  have hfm : fetchMain cfg s = fetchFlowScalar cfg single s := by
    unfold fetchMain
    ev [h0]
    cases single <;> simp at hqt <;> subst hqt <;> simp
  have hq10 : qt ≠ 10 := by rw [hqt]; split <;> decide
  rw [hfm]
  unfold fetchFlowScalar setAllowed
  rw [bind_run (save_run s)]
  ev []
  generalize hA : ({ s with simpleKeys := savedKeys s, simpleKeyAllowed := false } : SSt) = sC
  have c1 : sC.flowLevel = 0 := by rw [← hA]; exact h.calm.level
  have c2 : sC.mark = s.mark := by rw [← hA]
  have c3 : sC.src = s.src := by rw [← hA]
  have c4 : sC.indent = i := by rw [← hA]; exact h.indent
  have c5 : sC.indents = I := by rw [← hA]; exact h.indents
  have c6 : sC.tokens = s.tokens := by rw [← hA]
  have c7 : sC.simpleKeys = savedKeys s := by rw [← hA]
  have c8 : sC.simpleKeyAllowed = false := by rw [← hA]
  have c9 : Calm sC := ⟨c1, by rw [← hA]; exact h.calm.impl, by rw [← hA]; exact h.calm.parsed, by rw [← hA]; exact h.calm.started, by rw [c3]; exact h.calm.fit⟩
  have hrest : sC.src.rest = qt :: (m ++ qt :: (w ++ q)) := by rw [c3, h.rest]; simp
  simp only [List.length_append, List.length_cons, List.length_nil] at hf
  have h39 : single = true → (w ++ q).head? ≠ some 39 := by
    intro _ hx
    cases hwq : w ++ q with
    | nil => rw [hwq] at hx; cases hx
    | cons d r =>
      have hp := ha.after.pend
      rw [hwq] at hx hp
      have := hp.byte
      simp at hx
      omega
  have hcol : (pass sC [qt] false).mark.col = c + 1 := by simp [pass, gapMark, hq10, c2, h.col]
  have hii : i ≤ i0 + 1 := by rcases hx with ⟨-, rfl⟩ | ⟨-, rfl⟩ <;> omega
  obtain ⟨l, p', hb, hps⟩ := qflow_run (cfg := cfg) (start := sC.mark) h39 hqt hm (k := cfg.fuel) (s := pass sC [qt] false) (str := []) (lb := false)
    (pass_rest (a := [qt]) hrest) (by omega) (by omega) (by omega)
    (by rw [hcol]; show sC.indent ≤ _; rw [c4]; omega) (by show sC.indent ≤ _; rw [c4]; exact hii) (fun hx => by omega)
  obtain ⟨sp, e, w', rfl, hlay, he, hscan⟩ := scanFlow_tall hq10 hb hrest ha
  rw [bind_run hscan]
  have e3 : p'.string = v := by simpa using hps
  simp only [List.length_append] at hf
  generalize hS : pass sC (qt :: (m ++ qt :: e)) false = S
  have s1 : S.src.rest = w' ++ q := by rw [← hS]; exact pass_rest (by simpa using hrest)
  have s2 : S.flowLevel = 0 := by rw [← hS]; exact c1
  have s3 : S.indent = i := by rw [← hS]; exact c4
  have s4 : S.indents = I := by rw [← hS]; exact c5
  have s5 : S.tokens = s.tokens := by rw [← hS]; exact c6
  have s6 : S.simpleKeys = savedKeys s := by rw [← hS]; exact c7
  have s7 : S.simpleKeyAllowed = false := by rw [← hS]; exact c8
  have s8 : Calm S := by
    rw [← hS]
    exact ⟨c9.level, c9.impl, c9.parsed, c9.started, c9.fit.skip (by simp [hrest])⟩
  have s9 : S.mark = gapMark s.mark ((qt :: (m ++ [qt])) ++ e) := by
    rw [← hS]
    show gapMark sC.mark (qt :: (m ++ qt :: e)) = _
    rw [c2]
    simp
  have hg : skipToNextToken cfg S = (.ok (), gap S w') := lay_run hlay ha.head s1 (by omega) s2
  rw [bind_run hg]
  ev []
  unfold pushTok push
  refine ⟨_, e ++ w', [], rfl, by simp, ?_⟩
  refine ⟨gap_rest s1, .nil, ?_, ?_, ⟨sp, by simp [gap, s5, e3]⟩, ?_, s6, ⟨s8.level, s8.impl, s8.parsed, s8.started, ?_⟩⟩
  · show gapMark S.mark w' = _
    rw [← List.append_assoc, gapMark_append, s9]
  · show BCtx S.indents S.indent i0 I0
    rw [s3, s4]; exact hx
  · show (S.simpleKeyAllowed || w'.contains 10) = _
    have := contains_false.2 he
    rw [s7]
    simp at this ⊢
    simp [this]
  · show Fit (S.src.skip w'.length)
    exact s8.fit.skip (by simp [s1])

theorem tall_read {cfg s out I i c al p t tok w q c' i0 I0} (h : Pos s out I i (t ++ (w ++ q)) c al) (ht : TallText p t tok) (hp : i0 ≤ p)
    (hx : BCtx I i i0 I0) (hb : BlockTop I0) (hi : i0 ≤ c) (h1 : 1 ≤ c) (ha : EndL w q c' i0) (hf : (t ++ (w ++ q)).length < cfg.fuel) :
    ∃ s3 w1 w2, fetchMain cfg s = (.ok (), s3) ∧ w = w1 ++ w2 ∧ ReadM s s3 tok t w1 w2 q i0 I0 := by
  cases ht with
  | plain hw h2 => exact plain_tall h (hw.weaken (by omega)) h2 hx hb hi ha.after hf
  | double hm => exact quoted_tall (single := false) h rfl (hm.weaken (by omega)) hx hi h1 ha hf
  | single hm => exact quoted_tall (single := true) h rfl (hm.weaken (by omega)) hx hi h1 ha hf

/-- a scalar over several lines -/
theorem tall_goes {cfg s out I i i0 I0 p t tok w q c c' al I' i' n} (h : Here cfg s out I i (t ++ (w ++ q)) c al) (ht : TallText p t tok) (hp : i0 ≤ p)
    (hx : BCtx I i i0 I0) (hb : BlockTop I0) (hi : i0 < c) (he : EndL w q c' i0) (hf : (t ++ (w ++ q)).length < cfg.fuel)
    (hu : unroll (lowCol q c') i0 I0 = some (I', i', n)) :
    Goes cfg s (t ++ (w ++ q)).length (out ++ [tok] ++ List.replicate n .blockEnd) I' i' q c' true := by
  obtain ⟨s2, hpos, e⟩ := fetch_hereL h (by simp [ht.ne]) (fun _ => ht.notMark he.after.pend)
  obtain ⟨s3, w1, w2, e3, hw, r⟩ := tall_read hpos ht hp hx hb (by omega) (by omega) he hf
  have hlen : 0 < t.length := by rw [List.length_pos_iff]; exact ht.ne
  refine Goes.one (e.trans e3) ?_ (by simp; omega)
  obtain ⟨k, hk, hkp⟩ := hpos.keys
  obtain ⟨sp, htk⟩ := r.toks
  have hty : types s3 = out ++ [tok] := by simp [types, htk]; exact hpos.toks
  have hmk : gapMark s3.mark w2 = gapMark (gapMark s2.mark t) w := by
    rw [r.mark, hw, gapMark_append, gapMark_append]
  have hsv : ∃ k', savedKeys s2 = [k'] ∧ (k'.possible = true → k'.required = false ∧ (q ≠ [] → k'.mark.line < (gapMark s3.mark w2).line)) := by
    have hline : q ≠ [] → s2.mark.line < (gapMark s3.mark w2).line := fun hq => by
      rw [hmk]
      exact Nat.lt_of_le_of_lt (gapMark_le _ t) (he.col hq _).2.1
    unfold savedKeys
    split
    · refine ⟨keyHere s2, by simp [hk], fun _ => ⟨BCtx.notRequired (by rw [hpos.indents, hpos.indent]; exact hx) hpos.col hi, hline⟩⟩
    · exact ⟨k, hk, fun hx => ⟨(hkp hx).1, fun hq => Nat.lt_of_le_of_lt (hkp hx).2.2 (hline hq)⟩⟩
  obtain ⟨k', hk', hkp'⟩ := hsv
  have := here_lay (cfg := cfg) (s := s3) (w := w2) (q := q) (c := c') (k := k') r.lay r.rest he.head (by rw [hw] at hf; simp at hf; omega) r.calm
    (fun hq => by rw [hmk]; exact (he.col hq _).1) ((r.ctx.unroll he.low).trans hu) (by rw [r.keys, hk']) (fun hx => ⟨(hkp' hx).1, fun hq => .inl ((hkp' hx).2 hq)⟩)
    (NP.last hty ht.np)
  rw [hty] at this
  by_cases hq : q = []
  · subst hq
    exact this.nil _
  · have hc10 := (he.col hq s2.mark).2.2
    rw [hw] at hc10
    rw [r.al, show (w1.contains 10 || w2.contains 10) = true by simpa using hc10] at this
    exact this

end Verif.Scanner
