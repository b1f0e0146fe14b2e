import Verif.Lemmas.ScanWp
/-!
# The skipping functions of the scanner
-/
namespace Verif.Scanner
open Verif Verif.CharUtils Verif.Source

/-- run the next reading step of a `do` block -/
macro "sg" : tactic => `(tactic| ((try apply wp_bind); (first | apply wp_gets | apply wp_pure); (try dsimp only)))

theorem mem_takeWhile {p : Nat → Bool} {l : List Byte} {c} (h : c ∈ l.takeWhile p) : p c = true := by
  induction l with
  | nil => simp at h
  | cons d l ih =>
    simp only [List.takeWhile] at h
    split at h
    · rcases List.mem_cons.1 h with h | h
      · subst h; assumption
      · exact ih h
    · simp at h

theorem drop_takeWhile (p : Nat → Bool) (l : List Byte) : l.drop (l.takeWhile p).length = l.dropWhile p := by
  induction l with
  | nil => rfl
  | cons d l ih => simp only [List.takeWhile, List.dropWhile]; split <;> simp [ih]

/-- an empty `Loop` result -/
macro "sdone" : tactic => `(tactic| (apply wp_pure; simp only [LoopPost]))

theorem adv_skip {x} {s : SSt} (h : Ok x s) {w r : List Byte} (e : s.src.rest = w ++ r) (hw : 10 ∉ w) (lw : Bool) :
    Adv s { s with src := s.src.skip w.length
                   mark := { s.mark with pos := s.mark.pos + w.length, col := s.mark.col + w.length }
                   leadingWhitespace := lw } := by
  have := h
  refine ⟨?_, ⟨rfl, rfl, rfl, rfl, rfl, rfl, rfl, rfl, rfl, rfl, rfl, rfl, rfl, rfl⟩⟩
  obtain ⟨⟨rest, p, l⟩, ⟨q, k, ln⟩, _⟩ := s
  simp only [Src.skip] at e ⊢
  subst e
  simpa using Mv.bytes w r p l q k ln hw

theorem wp_skipN {x n} {Q : Unit → SSt → Prop} {s w r} (h : Ok x s) (e : s.src.rest = w ++ r) (hn : w.length = n) (hw : 10 ∉ w)
    (k : ∀ s', Adv s s' → s'.src.rest = r → Q () s') : wp x (skipN n) Q s := by
  subst hn
  apply wp_upd
  exact k _ (adv_skip h e hw false) (by simp [Src.skip, e])

theorem wp_skipNonBlank {x} {Q : Unit → SSt → Prop} {s c r} (h : Ok x s) (e : s.src.rest = c :: r) (hc : c ≠ 10)
    (k : ∀ s', Adv s s' → s'.src.rest = r → s.src.rest = c :: s'.src.rest → Q () s') : wp x skipNonBlank Q s := by
  apply wp_upd
  exact k _ (adv_skip h (w := [c]) (r := r) (by simpa using e) (by simpa using Ne.symm hc) false) (by simp [Src.skip, e])
    (by simp [Src.skip, e])

theorem wp_skipBlank {x} {Q : Unit → SSt → Prop} {s c r} (h : Ok x s) (e : s.src.rest = c :: r) (hc : c ≠ 10)
    (k : ∀ s', Adv s s' → s'.src.rest = r → s.src.rest = c :: s'.src.rest → Q () s') : wp x skipBlank Q s := by
  apply wp_upd
  exact k _ (adv_skip h (w := [c]) (r := r) (by simpa using e) (by simpa using Ne.symm hc) s.leadingWhitespace)
    (by simp [Src.skip, e]) (by simp [Src.skip, e])

theorem wp_skipLinebreak {x} {Q : Unit → SSt → Prop} {s} (h : Ok x s)
    (k : ∀ s', Adv s s' → (isBreak (s.src.peekz 0) = true → s'.src.rest.length < s.src.rest.length ∨ x.hg) →
      (V x s → V x s') → Q () s') : wp x skipLinebreak Q s := by
  apply wp_upd
  by_cases h1 : s.src.peekz 0 = 13 ∧ s.src.peekz 1 = 10
  · obtain ⟨r, e⟩ := peek_cons h1.1 (by decide)
    obtain ⟨r', e'⟩ := peek1_cons e h1.2 (by decide)
    rw [if_pos h1]
    refine k _ ⟨?_, ⟨rfl, rfl, rfl, rfl, rfl, rfl, rfl, rfl, rfl, rfl, rfl, rfl, rfl, rfl⟩⟩ ?_ ?_
    · clear h h1 k e
      obtain ⟨⟨rest, p, l⟩, ⟨q, k, ln⟩, _⟩ := s
      simp only at e'
      subst e'
      exact .crnl .refl
    · intro _; left; simp [Src.skip, e']; omega
    · intro v; exact v.skip (w := [13, 10]) (by simp [Src.skip, e']) (by simp)
  · rw [if_neg h1]
    by_cases h2 : s.src.peekz 0 = 10
    · rw [if_pos h2]
      obtain ⟨r, e⟩ := peek_cons h2 (by decide)
      refine k _ ⟨?_, ⟨rfl, rfl, rfl, rfl, rfl, rfl, rfl, rfl, rfl, rfl, rfl, rfl, rfl, rfl⟩⟩ ?_ ?_
      · clear h h1 k h2
        obtain ⟨⟨rest, p, l⟩, ⟨q, k, ln⟩, _⟩ := s
        simp only at e
        subst e
        exact .nl .refl
      · intro _; left; simp [Src.skip, e]
      · intro v; exact v.skip1 (c := 10) (by simp [Src.skip, e]) (by simp)
    · rw [if_neg h2]
      refine k s (.refl s) ?_ id
      intro hb
      rw [isBreak_iff] at hb
      rcases hb with hb | hb
      · right
        obtain ⟨r, e⟩ := peek_cons hb (by decide)
        apply h.lone
        refine ⟨[], r, by simpa using e, ?_⟩
        intro hh
        cases r with
        | nil => simp at hh
        | cons d r => simp at hh; subst hh; exact h1 ⟨hb, peek1_of e⟩
      · exact absurd hb h2

theorem wsToEol_spec (tabs : Bool) (l : List Byte) (a b : Bool) :
    ∃ w r, l = w ++ r ∧ w.length = (wsToEol tabs l a b).1 ∧ 10 ∉ w ∧
      (Utf8.run .start l = some .start → Utf8.run .start r = some .start) ∧
      (∀ c r', l = c :: r' → c = 9 → tabs = true → 0 < w.length) := by
  induction l generalizing a b with
  | nil => exact ⟨[], [], rfl, rfl, by simp, id, by simp⟩
  | cons c l ih =>
    simp only [wsToEol]
    by_cases h1 : c = 32
    · rw [if_pos h1]
      obtain ⟨w, r, e1, e2, e3, e4, _⟩ := ih a true
      refine ⟨c :: w, r, by simp [e1], by simp [e2], by simp [e3]; omega, ?_, by simp⟩
      intro hr; apply e4
      simpa [Utf8.run, h1, Utf8.step] using hr
    · rw [if_neg h1]
      by_cases h2 : c = 9 ∧ tabs = true
      · rw [if_pos h2]
        obtain ⟨w, r, e1, e2, e3, e4, _⟩ := ih true b
        refine ⟨c :: w, r, by simp [e1], by simp [e2], by simp [e3]; omega, ?_, by simp⟩
        intro hr; apply e4
        simpa [Utf8.run, h2.1, Utf8.step] using hr
      · rw [if_neg h2]
        have h9 : ∀ (w : List Byte) d r', c :: l = d :: r' → d = 9 → tabs = true → 0 < w.length := by
          intro w d r' e hd ht
          simp at e
          exact absurd ⟨by omega, ht⟩ h2
        by_cases h3 : c = 35
        · rw [if_pos h3]
          split
          · exact ⟨[], c :: l, rfl, rfl, by simp, id, h9 []⟩
          · refine ⟨c :: l.takeWhile (!isBreakz ·), l.dropWhile (!isBreakz ·), ?_, by simp, ?_, ?_, h9 _⟩
            · simp
            · simp; refine ⟨by omega, ?_⟩
              intro hm
              have := mem_takeWhile hm
              simp [isBreakz] at this
            · intro hr
              have : Utf8.run .start (l.takeWhile (!isBreakz ·) ++ l.dropWhile (!isBreakz ·)) = some .start := by
                simpa [Utf8.run, h3, Utf8.step] using hr
              refine (Utf8.split_at this ?_).2
              intro d r' e
              have := List.head_dropWhile_not (p := (!isBreakz ·)) (l := l) (by rw [e]; simp)
              simp [e, isBreakz_iff] at this
              omega
        · rw [if_neg h3]
          exact ⟨[], c :: l, rfl, rfl, by simp, id, h9 []⟩

theorem wp_skipWsToEol {x tabs ws} {Q : Bool × Bool → SSt → Prop} {s} (h : Ok x s)
    (k : ∀ r s', Adv s s' → (V x s → V x s') →
      (s.src.peekz 0 = 9 → tabs = true → s'.src.rest.length < s.src.rest.length) → Q r s') :
    wp x (skipWsToEol tabs ws) Q s := by
  obtain ⟨w, r, e1, e2, e3, e4, e5⟩ := wsToEol_spec tabs s.src.rest false ws
  have hadv := adv_skip h e1 e3 s.leadingWhitespace
  have hlt : (s.src.skip w.length).rest = r := by
    simp only [Src.skip]
    conv => lhs; rw [e1]
    simp
  apply wp_of
  simp only [skipWsToEol, Src.skipWsToEol, ← e2]
  cases hr : (wsToEol tabs s.src.rest false ws).2 with
  | error msg => exact (h.adv hadv).here
  | ok r' =>
    refine k r' _ hadv ?_ ?_
    · intro v u; simp only [hlt]; exact e4 (v u)
    · intro h9 ht
      obtain ⟨r0, e0⟩ := peek_cons h9 (by decide)
      have := e5 9 r0 e0 rfl ht
      simp only [hlt, e1, List.length_append]; omega

theorem wp_skipNonBreakz {x} {Q : Unit → SSt → Prop} {s} (h : Ok x s)
    (k : ∀ s', Adv s s' → (V x s → V x s') → (isBreakz (s.src.peekz 0) = false → s'.src.rest.length < s.src.rest.length) →
      isBreakz (s'.src.peekz 0) = true → Q () s') :
    wp x (skipCounted Src.skipWhileNonBreakz) Q s := by
  have e1 : s.src.rest = s.src.rest.takeWhile (!isBreakz ·) ++ s.src.rest.dropWhile (!isBreakz ·) := by simp
  have e3 : 10 ∉ s.src.rest.takeWhile (!isBreakz ·) := by
    intro hm
    have := mem_takeWhile hm
    simp [isBreakz] at this
  have hadv := adv_skip h e1 e3 s.leadingWhitespace
  have hlt : (s.src.skip (s.src.rest.takeWhile (!isBreakz ·)).length).rest = s.src.rest.dropWhile (!isBreakz ·) := by
    simp only [Src.skip, drop_takeWhile]
  have hd : ∀ d r', s.src.rest.dropWhile (!isBreakz ·) = d :: r' → isBreakz d = true := by
    intro d r' e
    have := List.head_dropWhile_not (p := (!isBreakz ·)) (l := s.src.rest) (by rw [e]; simp)
    simpa [e] using this
  apply wp_upd
  refine k _ hadv ?_ ?_ ?_
  · intro v
    refine v.before (w := s.src.rest.takeWhile (!isBreakz ·)) ?_ ?_
    · simp only [Src.skipWhileNonBreakz]; rw [hlt]; exact e1
    · simp only [Src.skipWhileNonBreakz]; rw [hlt]
      intro d r' e
      have := hd d r' e
      rw [isBreakz_iff] at this; omega
  · intro hz
    simp only [Src.skipWhileNonBreakz]; rw [hlt]
    cases hr : s.src.rest with
    | nil => simp [Src.peekz, hr, isBreakz] at hz
    | cons c r =>
      rw [peek_of hr] at hz
      have := (List.dropWhile_suffix (l := r) (!isBreakz ·)).length_le
      simp [hz]; omega
  · simp only [Src.peekz, Src.skipWhileNonBreakz]; rw [hlt]
    cases hr : s.src.rest.dropWhile (!isBreakz ·) with
    | nil => simp [isBreakz]
    | cons d r => simpa using hd d r hr

theorem wp_skipWhileBlank {x} {Q : Unit → SSt → Prop} {s} (h : Ok x s)
    (k : ∀ s', Adv s s' → (V x s → V x s') → Q () s') : wp x (skipCounted Src.skipWhileBlank) Q s := by
  have e1 : s.src.rest = s.src.rest.takeWhile isBlank ++ s.src.rest.dropWhile isBlank := by simp
  have e2 : ∀ c ∈ s.src.rest.takeWhile isBlank, c = 32 ∨ c = 9 := by
    intro c hm
    have := mem_takeWhile hm
    rwa [isBlank_iff] at this
  have hadv := adv_skip h e1 (fun hm => by have := e2 _ hm; omega) s.leadingWhitespace
  apply wp_upd
  refine k _ hadv ?_
  intro v
  refine v.skip (w := s.src.rest.takeWhile isBlank) ?_ (fun c hc => by have := e2 c hc; omega)
  simp only [Src.skipWhileBlank, Src.skip]
  rw [drop_takeWhile]; exact e1

theorem isAlpha_ascii {c} (h : isAlpha c = true) : c < 128 ∧ c ≠ 10 ∧ c ≠ 0 ∧ c ≠ 37 := by
  simp [isAlpha] at h; omega

theorem wp_fetchAlpha {x} {Q : List Byte → SSt → Prop} {s} (h : Ok x s)
    (k : ∀ w s', Adv s s' → (V x s → V x s') → (∀ c ∈ w, c < 128) → Q w s') : wp x fetchAlpha Q s := by
  have e1 : s.src.rest = s.src.rest.takeWhile isAlpha ++ s.src.rest.dropWhile isAlpha := by simp
  have e2 : ∀ c ∈ s.src.rest.takeWhile isAlpha, c < 128 ∧ c ≠ 10 := by
    intro c hm
    have := isAlpha_ascii (mem_takeWhile hm)
    exact ⟨this.1, this.2.1⟩
  have hadv := adv_skip h e1 (fun hm => by have := e2 _ hm; omega) s.leadingWhitespace
  apply wp_of
  simp only [fetchAlpha, Src.fetchWhileIsAlpha]
  refine k _ _ hadv ?_ (fun c hc => (e2 c hc).1)
  intro v
  refine v.skip (w := s.src.rest.takeWhile isAlpha) ?_ (fun c hc => (e2 c hc).1)
  simp only [Src.skip]
  rw [drop_takeWhile]; exact e1

theorem adv_allowed (s : SSt) (b : Bool) : Adv s { s with simpleKeyAllowed := b } :=
  ⟨.refl, ⟨rfl, rfl, rfl, rfl, rfl, rfl, rfl, rfl, rfl, rfl, rfl, rfl, rfl, rfl⟩⟩

theorem adv_lw (s : SSt) (b : Bool) : Adv s { s with leadingWhitespace := b } :=
  ⟨.refl, ⟨rfl, rfl, rfl, rfl, rfl, rfl, rfl, rfl, rfl, rfl, rfl, rfl, rfl, rfl⟩⟩

theorem wp_setAllowed {x b} {Q : Unit → SSt → Prop} {s} (k : ∀ s', Adv s s' → s'.src = s.src → s'.mark = s.mark → Q () s') :
    wp x (setAllowed b) Q s := by
  apply wp_upd; exact k _ (adv_allowed s b) rfl rfl

theorem wp_whenAllowed {x c b} {Q : Unit → SSt → Prop} {s} (k : ∀ s', Adv s s' → s'.src = s.src → s'.mark = s.mark → Q () s') :
    wp x (when c (setAllowed b)) Q s :=
  wp_when (fun _ => wp_setAllowed k) (fun _ => k s (.refl s) rfl rfl)

/-! ## Loops that skip -/

theorem wp_skipToNextToken {x} {Q : Unit → SSt → Prop} {s} (h : Ok x s)
    (k : ∀ s', Adv s s' → (V x s → V x s') → Q () s') : wp x (skipToNextToken x.cfg) Q s := by
  refine wp_loopM (fun _ s' => Adv s s' ∧ (V x s → V x s')) (fun _ s' => s'.src.rest.length) ⟨.refl s, id⟩ ?_ ?_
  · intro _ s1 ⟨ha, hv⟩
    have h1 := h.adv ha
    unfold skipToNextTokenBody
    sg; sg
    refine wp_ite (fun hc => ?_) (fun _ => ?_)
    · apply wp_bind
      refine wp_skipWsToEol h1 ?_
      intro r s2 a2 v2 l2
      sg; sg
      apply wp_bind
      refine wp_failIf (h1.adv a2).here ?_
      intro _
      sdone
      exact ⟨⟨ha.trans a2, fun v => v2 (hv v)⟩, .inl (l2 hc.1 rfl)⟩
    refine wp_ite (fun hc => ?_) (fun _ => ?_)
    · obtain ⟨r, e⟩ := peek_cons (s := s1.src) rfl (by omega)
      apply wp_bind
      refine wp_skipBlank h1 e (by omega) ?_
      intro s2 a2 e2 e3
      sdone
      exact ⟨⟨ha.trans a2, fun v => (hv v).skip1 e3 (by omega)⟩, .inl (by rw [e3]; simp)⟩
    refine wp_ite (fun hc => ?_) (fun _ => ?_)
    · apply wp_bind
      refine wp_skipLinebreak h1 ?_
      intro s2 a2 l2 v2
      sg
      apply wp_bind
      refine wp_whenAllowed ?_
      intro s3 a3 e3 _
      sdone
      refine ⟨⟨(ha.trans a2).trans a3, fun v => (v2 (hv v)).eq e3⟩, ?_⟩
      rw [e3]
      exact l2 (by rw [isBreak_iff]; omega)
    refine wp_ite (fun hc => ?_) (fun _ => ?_)
    · apply wp_bind
      refine wp_skipNonBreakz h1 ?_
      intro s2 a2 v2 l2 _
      sdone
      exact ⟨⟨ha.trans a2, fun v => v2 (hv v)⟩, .inl (l2 (by rw [hc]; decide))⟩
    · sdone
      exact k s1 ha hv
  · left; have := h.fuel; omega

theorem wp_skipYamlWhitespace {x} {Q : Unit → SSt → Prop} {s} (h : Ok x s)
    (k : ∀ s', Adv s s' → (V x s → V x s') → Q () s') : wp x (skipYamlWhitespace x.cfg) Q s := by
  unfold skipYamlWhitespace
  apply wp_bind
  refine wp_loopM (fun _ s' => Adv s s' ∧ (V x s → V x s')) (fun _ s' => s'.src.rest.length) ⟨.refl s, id⟩ ?_ ?_
  · intro need s1 ⟨ha, hv⟩
    have h1 := h.adv ha
    unfold skipYamlWhitespaceBody
    sg
    refine wp_ite (fun hc => ?_) (fun _ => ?_)
    · obtain ⟨r, e⟩ := peek_cons (s := s1.src) rfl (by omega)
      apply wp_bind
      refine wp_skipBlank h1 e (by omega) ?_
      intro s2 a2 e2 e3
      sdone
      exact ⟨⟨ha.trans a2, fun v => (hv v).skip1 e3 (by omega)⟩, .inl (by rw [e3]; simp)⟩
    refine wp_ite (fun hc => ?_) (fun _ => ?_)
    · apply wp_bind
      refine wp_skipLinebreak h1 ?_
      intro s2 a2 l2 v2
      sg
      apply wp_bind
      refine wp_whenAllowed ?_
      intro s3 a3 e3 _
      sdone
      refine ⟨⟨(ha.trans a2).trans a3, fun v => (v2 (hv v)).eq e3⟩, ?_⟩
      rw [e3]
      exact l2 (by rw [isBreak_iff]; omega)
    refine wp_ite (fun hc => ?_) (fun _ => ?_)
    · apply wp_bind
      refine wp_skipNonBreakz h1 ?_
      intro s2 a2 v2 l2 _
      sdone
      exact ⟨⟨ha.trans a2, fun v => v2 (hv v)⟩, .inl (l2 (by rw [hc]; decide))⟩
    · sdone
      sg
      exact wp_failIf h1.here (fun _ => k s1 ha hv)
  · left; have := h.fuel; omega

theorem wp_readBreak {x} {Q : List Byte → SSt → Prop} {s l} (h : Ok x s) (hb : isBreak (s.src.peekz 0) = true)
    (k : ∀ s', Adv s s' → (s'.src.rest.length < s.src.rest.length ∨ x.hg) → (V x s → V x s') → Q (l ++ [10]) s') :
    wp x (readBreak l) Q s := by
  unfold readBreak
  apply wp_bind
  refine wp_skipLinebreak h ?_
  intro s' a l v
  exact wp_pure (k s' a (l hb) v)

end Verif.Scanner
