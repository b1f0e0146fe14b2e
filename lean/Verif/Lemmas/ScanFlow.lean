import Verif.Lemmas.ScanLines
/-!
# Gaps and plain scalars in flow collections
-/
namespace Verif.Scanner
open Verif Verif.CharUtils Verif.Source Verif.Emitter Verif.Spec

/-! ## Gaps -/

/-- the state after a gap in a flow collection -/
def gapF (s : SSt) (w : List Byte) : SSt := { gap s w with simpleKeyAllowed := s.simpleKeyAllowed }

theorem gapF_gapF (s : SSt) (a b : List Byte) : gapF (gapF s a) b = gapF s (a ++ b) := by
  simp [gapF, gap, gapMark_append, Src.skip, Nat.add_assoc, Bool.or_assoc]

theorem gapF_rest {s : SSt} {a r} (h : s.src.rest = a ++ r) : (gapF s a).src.rest = r := by
  simp [gapF, gap, Src.skip, h]

theorem gapF_flat {s : SSt} {a : List Byte} (h : ∀ b ∈ a, b ≠ 10) : gap s a = gapF s a := by
  have : a.contains 10 = false := contains_false.2 h
  simp [gapF, gap, -List.contains_eq_mem, this]

theorem gapF_nil (s : SSt) : gapF s [] = s := by
  simp [gapF, gap, gapMark, Src.skip]

theorem newline_stepF {s : SSt} {r} (hs : s.src.rest = 10 :: r) (hf : 0 < s.flowLevel) : skipToNextTokenBody () s = (.ok (.next ()), gapF s [10]) := by
  have h0 : s.src.peekz 0 = 10 := peekz_cons hs
  have hz : (s.flowLevel == 0) = false := by simp; omega
  unfold skipToNextTokenBody skipLinebreak setAllowed
  ev [h0]
  simp [hz, gapF, gap, gapMark]
  rfl

theorem lay_runF {w q} (h : Lay w q) : ∀ {k s}, TokenHead q → s.src.rest = w ++ q → w.length < k → 0 < s.flowLevel →
    loopM skipToNextTokenBody k () s = (.ok (), gapF s w) := by
  induction h with
  | @nil q =>
    intro k s hq hr hk hf
    obtain ⟨k, rfl⟩ : ∃ j, k = j + 1 := ⟨k - 1, by omega⟩
    have h0 := peekz_head hr
    have : s.src.peekz 0 ≠ 9 ∧ s.src.peekz 0 ≠ 32 ∧ s.src.peekz 0 ≠ 10 ∧ s.src.peekz 0 ≠ 13 ∧ s.src.peekz 0 ≠ 35 := by
      rw [h0, List.nil_append]
      cases q with
      | nil => simp
      | cons c q => have := hq c rfl; simp [this]
    rw [loop_done (b := ()) (s1 := s) (by unfold skipToNextTokenBody; ev [this, false_and, or_self])]
    rw [gapF_nil]
  | @space w q _ ih =>
    intro k s hq hr hk hf
    obtain ⟨k, rfl⟩ : ∃ j, k = j + 1 := ⟨k - 1, by omega⟩
    rw [loop_next (space_step hr), gapF_flat (by simp), ih hq (gapF_rest (a := [32]) hr) (by simpa using hk) hf, gapF_gapF]
    rfl
  | @newline w q _ ih =>
    intro k s hq hr hk hf
    obtain ⟨k, rfl⟩ : ∃ j, k = j + 1 := ⟨k - 1, by omega⟩
    rw [loop_next (newline_stepF hr hf), ih hq (gapF_rest (a := [10]) hr) (by simpa using hk) hf, gapF_gapF]
    rfl
  | @comment k w q hk _ ih =>
    intro j s hq hr hj hf
    obtain ⟨j, rfl⟩ : ∃ i, j = i + 2 := ⟨j - 2, by simp at hj; omega⟩
    have hr' : s.src.rest = 35 :: (k ++ 10 :: (w ++ q)) := by rw [hr]; simp
    have h1 : (gapF s (35 :: k)).src.rest = 10 :: (w ++ q) := gapF_rest (a := 35 :: k) hr'
    rw [loop_next (comment_step hk (.inr ⟨_, rfl⟩) hr'), gapF_flat (comment_flat hk), loop_next (newline_stepF h1 hf), ih hq (gapF_rest (a := [10]) h1) (by simp at hj; omega) hf, gapF_gapF, gapF_gapF]
    simp
  | @last k hk =>
    intro j s hq hr hj hf
    obtain ⟨j, rfl⟩ : ∃ i, j = i + 2 := ⟨j - 2, by simp at hj; omega⟩
    have hr' : s.src.rest = 35 :: (k ++ []) := by rw [hr]; simp
    have h1 : (gapF s (35 :: k)).src.rest = [] := gapF_rest (a := 35 :: k) hr'
    rw [loop_next (comment_step hk (.inl rfl) hr'), gapF_flat (comment_flat hk),
      loop_done (b := ()) (s1 := gapF s (35 :: k)) (by unfold skipToNextTokenBody; have h0 : (gapF s (35 :: k)).src.peekz 0 = 0 := by simp [Src.peekz, h1]
                                                       ev [h0]; simp)]

/-! ## Words -/

theorem isFlow_mem {b : Byte} : isFlow b = false ↔ b ∉ bs!",[]{}" := by
  simp [isFlow]; omega

theorem isFlow_true {b : Byte} : isFlow b = true ↔ b = 44 ∨ b = 91 ∨ b = 93 ∨ b = 123 ∨ b = 125 := by
  simp [isFlow]; omega

/-- a plain scalar in a flow collection ends before this -/
def PEndF (r : List Byte) : Prop := (∃ r', r = 32 :: r') ∨ (∃ r', r = 10 :: r') ∨ (∃ c r', r = c :: r' ∧ isFlow c = true) ∨
  (∃ c r', r = 58 :: c :: r' ∧ (c = 32 ∨ c = 10 ∨ isFlow c = true))

theorem canBeF {s : SSt} {c w r} (h : s.src.rest = c :: (w ++ r)) (hb : ∀ b ∈ w, PByte b) (hl : (c :: w).getLast? ≠ some 58)
    (hn : ∀ b ∈ c :: w, isFlow b = false) : s.src.nextCanBePlainScalar (decide (s.flowLevel > 0)) = true := by
  have hc0 : isFlow c = false := hn c List.mem_cons_self
  by_cases hc : c = 58
  · subst hc
    cases w with
    | nil => simp at hl
    | cons d w =>
      have h1 : s.src.peekz 1 = d := by simp [Src.peekz, h]
      have := (hb d List.mem_cons_self).blank
      have h2 : isFlow d = false := hn d (by simp)
      simp [Src.nextCanBePlainScalar, peekz_cons h, h1, this, h2, hc0]
  · simp [Src.nextCanBePlainScalar, peekz_cons h, hc, hc0]

theorem PEndF.cannot {s : SSt} {r} (h : s.src.rest = r) (hr : PEndF r) (hf : 0 < s.flowLevel) :
    (isBlankOrBreakz (s.src.peekz 0) || !s.src.nextCanBePlainScalar (decide (s.flowLevel > 0))) = true := by
  have hd : decide (s.flowLevel > 0) = true := by simpa using hf
  rcases hr with ⟨r', rfl⟩ | ⟨r', rfl⟩ | ⟨c, r', rfl, hc⟩ | ⟨c, r', rfl, hc⟩
  · simp [Src.peekz, h, isBlankOrBreakz, isBlank]
  · simp [Src.peekz, h, isBlankOrBreakz, isBreak]
  · have h0 : s.src.peekz 0 = c := by simp [Src.peekz, h]
    have h58 : c ≠ 58 := by rintro rfl; revert hc; decide
    simp [Src.nextCanBePlainScalar, h0, hc, h58, hd]
  · have h0 : s.src.peekz 0 = 58 := by simp [Src.peekz, h]
    have h1 : (isBlankOrBreakz (s.src.peekz 1) || isFlow (s.src.peekz 1)) = true := by
      have : s.src.peekz 1 = c := by simp [Src.peekz, h]
      rw [this]
      rcases hc with rfl | rfl | hc
      · rfl
      · rfl
      · simp [hc]
    simp only [Src.nextCanBePlainScalar, h0, hd, Bool.true_and]
    rw [show (((58 : Nat) == 58) && (isBlankOrBreakz (s.src.peekz 1) || isFlow (s.src.peekz 1))) = true by rw [h1]; rfl]
    simp

theorem pword_stopF {s : SSt} {str r} (h : s.src.rest = r) (hr : PEndF r) (hf : 0 < s.flowLevel) :
    plainRunBody str s = (.ok (.done str), s) := by
  unfold plainRunBody
  ev [hr.cannot h hf]

theorem pword_runF {r} (hr : PEndF r) : ∀ {w k s str}, (∀ b ∈ w, PByte b) → w.getLast? ≠ some 58 → s.src.rest = w ++ r → w.length < k → 0 < s.flowLevel →
    (∀ b ∈ w, isFlow b = false) → s.leadingWhitespace = false → loopM plainRunBody k str s = (.ok (str ++ w), on s w.length) := by
  intro w
  induction w with
  | nil =>
    intro k s str _ _ h hk hf _ hl
    obtain ⟨k, rfl⟩ : ∃ j, k = j + 1 := ⟨k - 1, by omega⟩
    rw [loop_done (pword_stopF h hr hf)]
    simp [on_zero hl]
  | cons c w ih =>
    intro k s str hw hla h hk hf hn hl
    obtain ⟨k, rfl⟩ : ∃ j, k = j + 1 := ⟨k - 1, by omega⟩
    have hc := hw c List.mem_cons_self
    have hw' : ∀ b ∈ w, PByte b := fun b hb => hw b (List.mem_cons_of_mem _ hb)
    have hb : plainRunBody str s = (.ok (.next (str ++ [c])), on s 1) := by
      unfold plainRunBody
      ev [peekz_cons h, hc.blank, canBeF (by simpa using h) hw' hla hn, Bool.not_true, Bool.or_self]
      rw [bind_run (skipNonBlank_on s)]
      rfl
    simp only [List.length_cons] at hk
    rw [loop_next hb, ih (s := on s 1) hw' (getLast_tail hla) (on_rest (w := [c]) h rfl) (by omega) hf (fun b hb => hn b (List.mem_cons_of_mem _ hb)) rfl, on_on]
    simp [Nat.add_comm]

theorem pcontent_joinF {cfg s p str m r w} (hw : PWord w) (hr : PEndF r) (h : s.src.rest = w ++ r) (hn : ∀ b ∈ w, isFlow b = false)
    (hk : w.length ≤ cfg.fuel) (hf : 0 < s.flowLevel) (hj : plainJoin s.leadingWhitespace p = ⟨str, [], [], [], m⟩) :
    plainContent cfg p s = (.ok ⟨str ++ w, [], [], [], (on s w.length).mark⟩, on s w.length) := by
  unfold plainContent
  obtain ⟨c, w, rfl, hc, -⟩ := hw.cons
  rw [gets_bind]
  show (peekz 0 >>= fun c => _) s = _
  rw [hj]
  ev [peekz_cons h]
  rw [bind_run (skipNonBlank_on s)]
  simp only [List.length_cons] at hk
  rw [bind_run (pword_runF hr (s := on s 1) (fun b hx => hw.bytes b (List.mem_cons_of_mem _ hx)) (getLast_tail hw.colon) (on_rest (w := [c]) h rfl) (by omega) hf
    (fun b hb => hn b (List.mem_cons_of_mem _ hb)) rfl), on_on]
  ev []
  simp [Nat.add_comm]

theorem pbody_contentF {cfg ind start s w r p} (h : s.src.rest = w ++ r) (hw : PWord w) (hn : ∀ b ∈ w, isFlow b = false) (hf : 0 < s.flowLevel)
    (hdash : w = [45] → ∀ c, r.head? = some c → isFlow c = false) (hd : s.leadingWhitespace = true → s.src.nextIsDocumentIndicator = false) :
    plainBody cfg ind start p s = (do
      let p ← plainContent cfg p
      plainAfter cfg ind start p) s := by
  obtain ⟨c, w, rfl, hc, hc35⟩ := hw.cons
  unfold plainBody
  have h1 : ((s.leadingWhitespace && s.src.nextIsDocumentIndicator) || s.src.peekz 0 == b%'#') = false := by
    rw [peekz_cons h]
    have : (c == 35) = false := by simpa using hc35
    rw [this]
    cases hl : s.leadingWhitespace with
    | true => simp [hd hl]
    | false => rfl
  have h2 : (decide (s.flowLevel > 0) && s.src.peekz 0 == b%'-' && isFlow (s.src.peekz 1)) = false := by
    rw [peekz_cons h]
    by_cases hc45 : c = 45
    · subst hc45
      have : isFlow (s.src.peekz 1) = false := by
        cases w with
        | cons d w =>
          have : s.src.peekz 1 = d := by simp [Src.peekz, h]
          rw [this]
          exact hn d (by simp)
        | nil =>
          cases r with
          | nil => have : s.src.peekz 1 = 0 := by simp [Src.peekz, h]
                   rw [this]; rfl
          | cons d r =>
            have : s.src.peekz 1 = d := by simp [Src.peekz, h]
            rw [this]
            exact hdash rfl d rfl
      simp [this]
    · simp [hc45]
  have h3 : (!isBlankOrBreakz (s.src.peekz 0) && s.src.nextCanBePlainScalar (decide (s.flowLevel > 0))) = true := by
    rw [peekz_cons h, hc.blank, canBeF (by simpa using h) (fun b hb => hw.bytes b (List.mem_cons_of_mem _ hb)) hw.colon hn]; rfl
  ev [h1, h2, h3]

theorem lineMark_docF {s : SSt} {t r} (h : LineMark t) (ht : t ≠ []) (hr : ∀ c r', r = c :: r' → c ≠ 45 ∧ c ≠ 46) (hs : s.src.rest = t ++ r) : s.src.nextIsDocumentIndicator = false := by
  have key : ∀ x, (x = 45 ∨ x = 46) → (s.src.nextIsThree x && isBlankOrBreakz (s.src.peekz 3)) = false := by
    intro x hx
    rw [Bool.eq_false_iff]
    intro hy
    rw [Bool.and_eq_true] at hy
    obtain ⟨h3, h4⟩ := hy
    have hend : ∀ c r', r = c :: r' → c ≠ x := fun c r' e => by
      have := hr c r' e; omega
    simp [Src.nextIsThree, Src.peekz, hs] at h3
    simp [Src.peekz, hs] at h4
    match t with
    | [] => exact ht rfl
    | [a] =>
      cases r with
      | nil => simp at h3; omega
      | cons c r => simp at h3; exact hend _ _ rfl h3.1.2
    | [a, b] =>
      cases r with
      | nil => simp at h3; omega
      | cons c r => simp at h3; exact hend _ _ rfl h3.2
    | a :: b :: c :: t =>
      simp at h3
      obtain ⟨⟨rfl, rfl⟩, rfl⟩ := h3
      obtain ⟨d, t', rfl, hd⟩ := h _ _ hx rfl
      simp [hd.blank] at h4
  unfold Src.nextIsDocumentIndicator
  rw [Bool.and_or_distrib_right, key 45 (.inl rfl), key 46 (.inr rfl)]; rfl

theorem PEndF.byte {r} (h : PEndF r) : ∀ c r', r = c :: r' → c ≠ 45 ∧ c ≠ 46 := by
  rintro c r' rfl
  rcases h with ⟨r', h⟩ | ⟨r', h⟩ | ⟨c', r', h, hc⟩ | ⟨c', r', h, hc⟩
  · simp at h; omega
  · simp at h; omega
  · simp at h; rw [isFlow_true] at hc; omega
  · simp at h; omega

/-- the last word is not `-` -/
def NoDash (t : List Byte) : Prop := t ≠ [45] ∧ ∀ r, t ≠ r ++ [32, 45] ∧ t ≠ r ++ [10, 45]

theorem NoDash.tail {a x t} (h : NoDash (a ++ (x :: t))) (hx : x = 32 ∨ x = 10) : NoDash t := by
  refine ⟨?_, fun r => ⟨?_, ?_⟩⟩
  · rintro rfl
    rcases hx with rfl | rfl
    · exact (h.2 a).1 (by simp)
    · exact (h.2 a).2 (by simp)
  · rintro rfl
    exact (h.2 (a ++ x :: r)).1 (by simp)
  · rintro rfl
    exact (h.2 (a ++ x :: r)).2 (by simp)

theorem NoDash.after {a g t} (h : NoDash (a ++ (g ++ t))) (hg : g ≠ []) (hm : ∀ x ∈ g, x = 32 ∨ x = 10) : NoDash t := by
  obtain ⟨g', x, rfl⟩ : ∃ g' x, g = g' ++ [x] := ⟨g.dropLast, g.getLast hg, (List.dropLast_concat_getLast hg).symm⟩
  refine NoDash.tail (a := a ++ g') (x := x) (by simpa using h) (hm x (by simp))

/-- `pflow_run` in a flow collection -/
theorem pflow_runF {cfg : Cfg} {ind start post} {F : SSt → SSt} (hp : PEndF post)
    (hF : ∀ {s : SSt} {p : PlainSt}, s.src.rest = post → s.leadingWhitespace = false → 0 < s.flowLevel →
      ∃ p', (plainAfter cfg ind start p s = (.ok (.done p'), F s) ∨
        (plainAfter cfg ind start p s = (.ok (.next p'), F s) ∧ plainBody cfg ind start p' (F s) = (.ok (.done p'), F s))) ∧ p'.string = p.string) {i t v} (ht : PFlow i t v) :
    ∀ {k s p str m}, s.src.rest = t ++ post → t.length < k → t.length ≤ cfg.fuel → 0 < s.flowLevel → (∀ b ∈ t, isFlow b = false) → NoDash t →
    plainJoin s.leadingWhitespace p = ⟨str, [], [], [], m⟩ → (s.leadingWhitespace = true → LineMark t) →
    ∃ p', loopM (plainBody cfg ind start) k p s = (.ok p', F (pass s t false)) ∧ p'.string = str ++ v := by
  induction ht with
  | @one w hw =>
    intro k s p str m h hk hfu hf hn hda hj hl
    obtain ⟨k, rfl⟩ : ∃ j, k = j + 1 := ⟨k - 1, by omega⟩
    have hpos : 0 < w.length := List.length_pos_iff.2 hw.ne
    obtain ⟨p', e1, e2⟩ := hF (s := on s w.length) (p := ⟨str ++ w, [], [], [], (on s w.length).mark⟩) (on_rest h rfl) rfl hf
    have e0 : plainBody cfg ind start p s = plainAfter cfg ind start ⟨str ++ w, [], [], [], (on s w.length).mark⟩ (on s w.length) := by
      rw [pbody_contentF h hw hn hf (fun hx => absurd hx hda.1) (fun x => lineMark_docF (hl x) hw.ne hp.byte h), bind_run (pcontent_joinF hw hp h hn (by omega) hf hj)]
    rw [← on_pass (word_flat hw)]
    refine ⟨p', ?_, e2⟩
    rcases e1 with e1 | ⟨e1, e3⟩
    · exact loop_done (e0.trans e1)
    · obtain ⟨k, rfl⟩ : ∃ j, k = j + 1 := ⟨k - 1, by omega⟩
      exact (loop_next (e0.trans e1)).trans (loop_done e3)
  | @space w n t v hw ht ih =>
    intro k s p str m h hk hfu hf hn hda hj hl
    obtain ⟨k, rfl⟩ : ∃ j, k = j + 1 := ⟨k - 1, by omega⟩
    have hpos : 0 < w.length := List.length_pos_iff.2 hw.ne
    have hda' : NoDash t := hda.after (by simp) (fun x hx => .inl (List.eq_of_mem_replicate hx))
    have hnw : ∀ b ∈ w, isFlow b = false := fun b hb => hn b (by simp [hb])
    have hnt : ∀ b ∈ t, isFlow b = false := fun b hb => hn b (by simp [hb])
    obtain ⟨d, t', rfl, hd, -⟩ := ht.cons
    simp only [List.length_append, List.length_replicate, List.length_cons] at hk hfu
    have e0 : s.src.rest = w ++ (32 :: (List.replicate n 32 ++ (d :: t') ++ post)) := by
      rw [h]; simp [List.replicate_succ]
    have hr1 : (on s w.length).src.rest = List.replicate (n + 1) 32 ++ d :: (t' ++ post) := by
      rw [on_rest e0 rfl]; simp [List.replicate_succ]
    have hafter : plainAfter cfg ind start ⟨str ++ w, [], [], [], (on s w.length).mark⟩ (on s w.length) =
        (.ok (.next ⟨str ++ w, [], [], List.replicate (n + 1) 32, (on s w.length).mark⟩), on s (w.length + (n + 1))) := by
      unfold plainAfter
      have h0 : (on s w.length).src.peekz 0 = 32 := peekz_cons hr1
      ev [h0]
      rw [if_pos (by decide), bind_run (pspaces_run hd rfl hr1 (by omega)), on_on]
      have h3 : ((on s (w.length + (n + 1))).flowLevel == 0 && decide ((on s (w.length + (n + 1))).mark.col < ind)) = false := by
        rw [Bool.and_eq_false_iff]; left; simp [on]; omega
      ev [h3]
      simp
    have hmark : s.leadingWhitespace = true → s.src.nextIsDocumentIndicator = false := fun x => lineMark_docF (hl x) (by simp) hp.byte h
    have hb1 : plainBody cfg ind start p s =
        (.ok (.next ⟨str ++ w, [], [], List.replicate (n + 1) 32, (on s w.length).mark⟩), on s (w.length + (n + 1))) := by
      rw [pbody_contentF e0 hw hnw hf (fun _ c hc => by simp at hc; subst hc; rfl) hmark,
        bind_run (pcontent_joinF hw (.inl ⟨_, rfl⟩) e0 hnw (by omega) hf hj), hafter]
    obtain ⟨p', e1, e2⟩ := ih (k := k) (s := on s (w.length + (n + 1))) (p := ⟨str ++ w, [], [], List.replicate (n + 1) 32, (on s w.length).mark⟩) (str := str ++ w ++ List.replicate (n + 1) 32)
      (m := (on s w.length).mark) (on_rest (w := w ++ List.replicate (n + 1) 32) (by rw [h]; simp) (by simp))
      (by simp; omega) (by simp; omega) hf hnt hda' (by simp [on, plainJoin]) (fun x => by cases x)
    refine ⟨p', ?_, by rw [e2]; simp⟩
    have e3 : on s (w.length + (n + 1)) = pass s (w ++ List.replicate (n + 1) 32) false := by
      rw [← on_pass (s := s)]
      · simp
      · intro b hb
        rcases List.mem_append.1 hb with hb | hb
        · exact word_flat hw b hb
        · rw [List.eq_of_mem_replicate hb]; decide
    rw [loop_next hb1, e1, e3, pass_pass]
    simp
  | @line w m n g t v hw hg _ hm ht ih =>
    intro k s p str mk h hk hfu hf hn hda hj hl
    obtain ⟨k, rfl⟩ : ∃ j, k = j + 1 := ⟨k - 1, by omega⟩
    have hpos : 0 < w.length := List.length_pos_iff.2 hw.ne
    have hgne : g ≠ [] := fun hx => by have := fold_newline hg; rw [hx] at this; cases this
    have hda' : NoDash t := hda.after hgne (fold_mem hg)
    have hnw : ∀ b ∈ w, isFlow b = false := fun b hb => hn b (by simp [hb])
    have hnt : ∀ b ∈ t, isFlow b = false := fun b hb => hn b (by simp [hb])
    obtain ⟨d, t', htd, hd, -⟩ := ht.cons
    simp only [List.length_append] at hk hfu
    obtain ⟨g0, g', hgc, hg0⟩ : ∃ g0 g', g = g0 :: g' ∧ (g0 = 32 ∨ g0 = 10) := by
      cases hgc : g with
      | nil => exact absurd hgc hgne
      | cons g0 g' => exact ⟨g0, g', rfl, fold_mem hg _ (by rw [hgc]; simp)⟩
    have e0 : s.src.rest = w ++ (g ++ (t ++ post)) := by rw [h]; simp
    have hpe : PEndF (g ++ (t ++ post)) := by
      rw [hgc]
      rcases hg0 with rfl | rfl
      · exact .inl ⟨_, rfl⟩
      · exact .inr (.inl ⟨_, rfl⟩)
    have hr1 : (on s w.length).src.rest = g ++ (t ++ post) := on_rest e0 rfl
    have hne : w ++ (g ++ t) ≠ [] := by simp [hw.ne]
    have hmark : s.leadingWhitespace = true → s.src.nextIsDocumentIndicator = false := fun x => lineMark_docF (hl x) hne hp.byte h
    have hafter : plainAfter cfg ind start ⟨str ++ w, [], [], [], (on s w.length).mark⟩ (on s w.length) =
        (.ok (.next ⟨str ++ w, [10], List.replicate m 10, [], (on s w.length).mark⟩), pass (on s w.length) g true) := by
      unfold plainAfter
      have h0 : (on s w.length).src.peekz 0 = g0 := peekz_cons (by rw [hr1, hgc]; rfl)
      have hb : (isBlank g0 || isBreak g0) = true := by rcases hg0 with rfl | rfl <;> decide
      have hrun := pfold_run (ind := ind) (start := start) (r := t ++ post) (a := g) (k := cfg.fuel) (s := on s w.length) (p := ⟨str ++ w, [], [], [], (on s w.length).mark⟩)
        (by rw [htd]; intro c hc; simp at hc; subst hc; exact ⟨hd.2.2.2.2, hd.2.1, hd.2.2.1, hd.2.2.2.1⟩) (fold_mem hg) hr1 (by omega)
      have hl0 : (on s w.length).leadingWhitespace = false := rfl
      rw [hl0, pfold_fold hg, fold_newline hg, Bool.false_or] at hrun
      ev [h0, hb]
      rw [bind_run hrun]
      have h3 : ((pass (on s w.length) g true).flowLevel == 0 && decide ((pass (on s w.length) g true).mark.col < ind)) = false := by
        rw [Bool.and_eq_false_iff]; left
        show (s.flowLevel == 0) = false
        simp; omega
      ev [h3]
    have hb1 : plainBody cfg ind start p s =
        (.ok (.next ⟨str ++ w, [10], List.replicate m 10, [], (on s w.length).mark⟩), pass (on s w.length) g true) := by
      rw [pbody_contentF e0 hw hnw hf (fun _ c hc => by rw [hgc] at hc; simp at hc; subst hc; rcases hg0 with rfl | rfl <;> rfl) hmark,
        bind_run (pcontent_joinF hw hpe e0 hnw (by omega) hf hj), hafter]
    have hS : pass (on s w.length) g true = pass s (w ++ g) true := by rw [on_pass (word_flat hw), pass_pass]
    rw [hS] at hb1
    obtain ⟨p', e1, e2⟩ := ih (k := k) (s := pass s (w ++ g) true) (p := ⟨str ++ w, [10], List.replicate m 10, [], (on s w.length).mark⟩) (str := str ++ w ++ Block.glue m)
      (m := (on s w.length).mark) (pass_rest (a := w ++ g) (by rw [h]; simp))
      (by omega) (by omega) hf hnt hda'
      (by cases m <;> simp [pass, plainJoin, Block.glue, List.replicate_succ]) (fun _ => hm)
    refine ⟨p', ?_, by rw [e2]; simp⟩
    rw [loop_next hb1, e1, pass_pass]
    simp

/-- what comes after a node in a flow collection -/
def StopF (q : List Byte) : Prop := (∃ c r, q = c :: r ∧ isFlow c = true) ∨ (∃ c r, q = 58 :: c :: r ∧ (c = 32 ∨ c = 10 ∨ isFlow c = true))

theorem StopF.pend {q} (h : StopF q) : PEndF q := .inr (.inr h)

theorem StopF.head {q} (h : StopF q) : ∃ c r, q = c :: r ∧ (isFlow c = true ∨ c = 58) := by
  rcases h with ⟨c, r, rfl, h⟩ | ⟨c, r, rfl, -⟩
  · exact ⟨c, r, rfl, .inl h⟩
  · exact ⟨58, _, rfl, .inr rfl⟩

theorem flow_byte {c : Byte} (h : isFlow c = true ∨ c = 58) : isBlankOrBreakz c = false ∧ isBlank c = false ∧ isBreak c = false ∧ c ≠ 35 ∧ c ≠ 45 ∧ c ≠ 46 := by
  rw [isFlow_true] at h
  rcases h with (rfl | rfl | rfl | rfl | rfl) | rfl <;> decide

theorem plainAfter_flow {w q} (hlay : Lay w q) (hfirst : w.head? ≠ some 35) (hq : StopF q) : ∃ a b, w = a ++ b ∧ Lay b q ∧ ∀ {cfg : Cfg} {ind start} {s : SSt} {p : PlainSt},
    s.src.rest = w ++ q → s.leadingWhitespace = false → 0 < s.flowLevel →
    w.length < cfg.fuel → ∃ p', (plainAfter cfg ind start p s = (.ok (.done p'), pass s a (a.contains 10)) ∨
      (plainAfter cfg ind start p s = (.ok (.next p'), pass s a (a.contains 10)) ∧
        plainBody cfg ind start p' (pass s a (a.contains 10)) = (.ok (.done p'), pass s a (a.contains 10)))) ∧ p'.string = p.string := by
  obtain ⟨a, b, hw, ha, hb, hbc⟩ := hlay.split
  obtain ⟨y, q', hqy, hy⟩ := hq.head
  obtain ⟨y1, y2, y3, y4, y5, y6⟩ := flow_byte hy
  have stop : ∀ {cfg : Cfg} {ind start} {s : SSt} {p : PlainSt}, s.src.rest = q → plainAfter cfg ind start p s = (.ok (.done p), s) := by
    intro cfg ind start s p hr
    have h0 : s.src.peekz 0 = y := peekz_cons (by rw [hr, hqy])
    unfold plainAfter
    ev [h0, y2, y3, Bool.or_self]
  refine ⟨a, b, hw, hb, fun {cfg ind start s p} hr hl hf hk => ?_⟩
  by_cases ha0 : a = []
  · subst ha0
    have hb0 : b = [] := by
      rcases hbc with hb | ⟨b', rfl⟩
      · exact hb
      · exact absurd (by rw [hw]; rfl) hfirst
    subst hb0
    obtain rfl : w = [] := hw
    refine ⟨p, .inl ?_, rfl⟩
    rw [List.contains_nil, ← hl, pass_nil]
    exact stop hr
  · obtain ⟨x, a', rfl⟩ : ∃ x a', a = x :: a' := by cases a with | nil => exact absurd rfl ha0 | cons x a' => exact ⟨x, a', rfl⟩
    have hr' : s.src.rest = (x :: a') ++ (b ++ q) := by rw [hr, hw]; simp
    have h0 : s.src.peekz 0 = x := peekz_cons hr'
    have hx : (isBlank x || isBreak x) = true := by rcases ha x List.mem_cons_self with rfl | rfl <;> rfl
    have hhead : ∀ c, (b ++ q).head? = some c → c ≠ 32 ∧ c ≠ 9 ∧ c ≠ 10 ∧ c ≠ 13 := by
      intro c hc
      rcases hbc with rfl | ⟨b', rfl⟩
      · rw [hqy] at hc
        simp at hc
        subst hc
        rw [isFlow_true] at hy
        omega
      · simp at hc; subst hc; decide
    obtain ⟨p', e1, e2⟩ := pblanks_run (ind := ind) (start := start) hhead (k := cfg.fuel) (s := s) (p := p) ha hr' (by rw [hw] at hk; simp at hk ⊢; omega)
    rw [hl, Bool.false_or] at e1
    refine ⟨p', ?_, e2⟩
    generalize hS : pass s (x :: a') ((x :: a').contains 10) = S at *
    have hSr : S.src.rest = b ++ q := by rw [← hS]; exact pass_rest hr'
    have hSf : 0 < S.flowLevel := by rw [← hS]; exact hf
    have hout : (S.flowLevel == 0 && decide (S.mark.col < ind)) = false := by
      rw [Bool.and_eq_false_iff]; left; simp; omega
    have hpa : plainAfter cfg ind start p s = (.ok (.next p'), S) := by
      unfold plainAfter
      ev [h0, hx]
      rw [bind_run e1]
      ev [hout]
    rw [hpa]
    refine .inr ⟨rfl, ?_⟩
    unfold plainBody
    rcases hbc with rfl | ⟨b', rfl⟩
    · rw [List.nil_append] at hSr
      have h0 : S.src.peekz 0 = y := peekz_cons (by rw [hSr, hqy])
      have h1 : ((S.leadingWhitespace && S.src.nextIsDocumentIndicator) || S.src.peekz 0 == b%'#') = false := by
        simp [Src.nextIsDocumentIndicator, Src.nextIsThree, h0, y4, y5, y6]
      have h2 : (decide (S.flowLevel > 0) && S.src.peekz 0 == b%'-' && isFlow (S.src.peekz 1)) = false := by simp [h0, y5]
      have h3 : (!isBlankOrBreakz (S.src.peekz 0) && S.src.nextCanBePlainScalar (decide (S.flowLevel > 0))) = false := by
        have := hq.pend.cannot hSr hSf
        rw [h0, y1, Bool.false_or] at this
        rw [h0, y1]
        simpa using this
      ev [h1, h2, h3]
      exact stop hSr
    · have h0 : S.src.peekz 0 = 35 := peekz_cons hSr
      have h1 : ((S.leadingWhitespace && S.src.nextIsDocumentIndicator) || S.src.peekz 0 == b%'#') = true := by simp [h0]
      ev [h1]

end Verif.Scanner
