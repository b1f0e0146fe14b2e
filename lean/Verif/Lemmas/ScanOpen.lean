import Verif.Lemmas.ScanRefuse
import Verif.Lemmas.Brackets
/-!
# A flow collection that is not closed

`Hd P m Q`: inside a flow collection, if `m` succeeds on a text with `P`, what is left of the text has `Q`, and the queue of tokens and the flow level are as before.
-/
namespace Verif.Scanner
open Verif Verif.CharUtils Verif.Source Verif.Spec Verif.Spec.Faults

/-! ## The specification, step by step -/

/-- outside quotation marks -/
def PlainMode (m : Mode) : Prop := m = .start ∨ m = .glued ∨ m = .word ∨ m = .name

theorem unclosed_plain {c r m s b} (hm : PlainMode m) : unclosed (c :: r) m s b =
    if marks (c :: r) ∨ c = b%'\r' ∨ c = b%'#' ∨ c = 0 then false
    else if c = b%'[' then unclosed r .start (s + 1) b
    else if c = b%'{' then unclosed r .start s (b + 1)
    else if c = b%']' then
      if 1 < s + b then unclosed r .glued (s - 1) b else decide (0 < s - 1 ∨ 0 < b) && r.all (bs!" \t\n".contains ·)
    else if c = b%'}' then
      if 1 < s + b then unclosed r .glued s (b - 1) else decide (0 < s ∨ 0 < b - 1) && r.all (bs!" \t\n".contains ·)
    else if c = b%',' then unclosed r .start s b
    else if c = b%':' ∧ ends r then unclosed r .start s b
    else if m = .word then unclosed r .word s b
    else if c = b%' ' ∨ c = b%'\t' ∨ c = b%'\n' then unclosed r .start s b
    else if m = .name then unclosed r .name s b
    else if c = b%':' then decide (m = .glued) && unclosed r .start s b
    else if c = b%'"' then unclosed r .double s b
    else if c = b%'\'' then unclosed r .single s b
    else if c = b%'&' ∨ c = b%'*' then unclosed r .name s b
    else if c = b%'?' ∧ r.head?.all (bs!" \t\n".contains ·) then unclosed r .start s b
    else if c = b%'!' ∨ c = b%'%' then false
    else unclosed r .word s b := by
  rcases hm with rfl | rfl | rfl | rfl <;> rfl

theorem unclosed_clean {c r m s b} (hm : PlainMode m) (h : unclosed (c :: r) m s b = true) : marks (c :: r) = false ∧ c ≠ 13 ∧ c ≠ 35 ∧ c ≠ 0 := by
  rw [unclosed_plain hm] at h
  by_cases hx : marks (c :: r) = true ∨ c = 13 ∨ c = 35 ∨ c = 0
  · rw [if_pos hx] at h; cases h
  · simp only [not_or, Bool.not_eq_true] at hx
    exact hx

/-- white space -/
theorem unclosed_blank {c r m s b} (hm : PlainMode m) (hw : m ≠ .word) (hc : c = 32 ∨ c = 9 ∨ c = 10) (h : unclosed (c :: r) m s b = true) : unclosed r .start s b = true := by
  have h0 := unclosed_clean hm h
  rw [unclosed_plain hm] at h
  rcases hc with rfl | rfl | rfl <;> simpa [h0, hw] using h

theorem unclosed_blank_word {c r s b} (hc : c = 32 ∨ c = 9 ∨ c = 10) (h : unclosed (c :: r) .word s b = true) : unclosed r .word s b = true := by
  have h0 := unclosed_clean (.inr (.inr (.inl rfl))) h
  rw [unclosed_plain (.inr (.inr (.inl rfl)))] at h
  rcases hc with rfl | rfl | rfl <;> simpa [h0] using h

/-- after a bracket a `:` is allowed to be close -/
theorem unclosed_glued {u s b} (h : unclosed u .start s b = true) : unclosed u .glued s b = true := by
  cases u with
  | nil => simpa [unclosed] using h
  | cons c r =>
    have h0 := unclosed_clean (.inl rfl) h
    rw [unclosed_plain (.inl rfl)] at h
    rw [unclosed_plain (.inr (.inl rfl))]
    by_cases hc : c = 58
    · subst hc
      simp [h0] at h
      simp [h0, h]
    · simp [hc] at h ⊢
      exact h

theorem unclosed_start {u s b} (h : unclosed u .glued s b = true) (hc : u.head? ≠ some 58) : unclosed u .start s b = true := by
  cases u with
  | nil => simpa [unclosed] using h
  | cons c r =>
    have hc : c ≠ 58 := by simpa using hc
    rw [unclosed_plain (.inr (.inl rfl))] at h
    rw [unclosed_plain (.inl rfl)]
    simp [hc] at h ⊢
    exact h

/-- after a quotation mark, white space does not matter -/
theorem unclosed_quoted {c r s b} (h : unclosed (c :: r) .quoted s b = true) :
    (marks (c :: r) = false ∧ c ≠ 13 ∧ c ≠ 35 ∧ c ≠ 0) ∧ if c = 32 ∨ c = 9 ∨ c = 10 then unclosed r .quoted s b = true else unclosed (c :: r) .glued s b = true := by
  unfold unclosed at h
  have h0 : marks (c :: r) = false ∧ c ≠ 13 ∧ c ≠ 35 ∧ c ≠ 0 := by
    by_cases hx : marks (c :: r) = true ∨ c = 13 ∨ c = 35 ∨ c = 0
    · rw [if_pos hx] at h; cases h
    · simp only [not_or, Bool.not_eq_true] at hx
      exact hx
  refine ⟨h0, ?_⟩
  split
  · rename_i hc
    rcases hc with rfl | rfl | rfl <;> simpa [h0] using h
  · rename_i hc
    rw [unclosed_plain (.inr (.inl rfl))]
    simpa [hc] using h

theorem quoted_glued {u s b} (h : unclosed u .quoted s b = true) (hc : (u[0]?).getD 0 ≠ 9 ∧ (u[0]?).getD 0 ≠ 32 ∧ (u[0]?).getD 0 ≠ 10) : unclosed u .glued s b = true := by
  cases u with
  | nil => simpa [unclosed] using h
  | cons c r =>
    have := (unclosed_quoted h).2
    rw [if_neg (by simp at hc; omega)] at this
    exact this

/-- where a word or a name ends -/
theorem unclosed_ends {u m s b} (hm : PlainMode m) (h : unclosed u m s b = true) (hc : ∀ c r, u = c :: r → isFlow c = true ∨ c = 58 ∧ ends r = true) : unclosed u .start s b = true := by
  cases u with
  | nil => simpa [unclosed] using h
  | cons c r =>
    have h0 := unclosed_clean hm h
    rw [unclosed_plain hm] at h
    rw [unclosed_plain (.inl rfl)]
    rcases hc c r rfl with hx | ⟨rfl, hx⟩
    · simp [isFlow] at hx
      rcases hx with (((rfl | rfl) | rfl) | rfl) | rfl <;> simp [h0] at h ⊢ <;> exact h
    · simp [h0, hx] at h ⊢
      exact h

/-! ## The logic -/

/-- what does not change inside a token -/
structure Fr (s s' : SSt) : Prop where
  tokens : s'.tokens = s.tokens
  level : s'.flowLevel = s.flowLevel
  states : s'.implicitFlowMappingStates = s.implicitFlowMappingStates
  adj : s'.adjacentValueAllowedAt = s.adjacentValueAllowedAt
  parsed : s'.tokensParsed = s.tokensParsed
  started : s'.streamStartProduced = s.streamStartProduced
  reached : s'.streamEndReached = s.streamEndReached
  produced : s'.streamEndProduced = s.streamEndProduced

theorem Fr.rfl {s} : Fr s s := ⟨Eq.refl _, Eq.refl _, Eq.refl _, Eq.refl _, Eq.refl _, Eq.refl _, Eq.refl _, Eq.refl _⟩

macro "fr" : tactic => `(tactic| exact ⟨by rfl, by rfl, by rfl, by rfl, by rfl, by rfl, by rfl, by rfl⟩)

theorem Fr.trans {a b c} (h : Fr a b) (g : Fr b c) : Fr a c :=
  ⟨g.tokens.trans h.tokens, g.level.trans h.level, g.states.trans h.states, g.adj.trans h.adj, g.parsed.trans h.parsed, g.started.trans h.started,
    g.reached.trans h.reached, g.produced.trans h.produced⟩

def HdL (lv : Nat) {α} (P : List Byte → Prop) (m : SM α) (Q : α → List Byte → Prop) : Prop :=
  ∀ s a s', lv ≤ s.flowLevel → P s.src.rest → m s = (.ok a, s') → Fr s s' ∧ Q a s'.src.rest

abbrev Hd {α} (P : List Byte → Prop) (m : SM α) (Q : α → List Byte → Prop) : Prop := HdL 1 P m Q

variable {lv : Nat} {P P' : List Byte → Prop}

theorem hd_pure {α} {a : α} {Q : α → List Byte → Prop} (h : ∀ r, P r → Q a r) : HdL lv P (pure a) Q :=
  fun s b s' _ hs e => by cases e; exact ⟨.rfl, h _ hs⟩

theorem hd_bind {α β} {m : SM α} {f : α → SM β} {Q : α → List Byte → Prop} {R : β → List Byte → Prop} (hm : HdL lv P m Q) (hf : ∀ a, HdL lv (Q a) (f a) R) :
    HdL lv P (m >>= f) R := by
  intro s b s' hl hs e
  obtain ⟨a, s1, h1, h2⟩ := bind_ok e
  obtain ⟨f1, q1⟩ := hm _ _ _ hl hs h1
  obtain ⟨f2, q2⟩ := hf a _ _ _ (by rw [f1.level]; exact hl) q1 h2
  exact ⟨f1.trans f2, q2⟩

theorem hd_gets {α} {f : SSt → α} {Q : α → List Byte → Prop} (h : ∀ s, lv ≤ s.flowLevel → P s.src.rest → Q (f s) s.src.rest) : HdL lv P (gets f) Q :=
  fun s b s' hl hs e => by cases e; exact ⟨.rfl, h _ hl hs⟩

theorem hd_any {α} {f : SSt → α} : HdL lv P (gets f) fun _ => P := hd_gets fun _ _ h => h

theorem hd_upd {f : SSt → SSt} {Q : Unit → List Byte → Prop} (hf : ∀ s, Fr s (f s)) (h : ∀ s, P s.src.rest → Q () (f s).src.rest) : HdL lv P (upd f) Q :=
  fun s b s' _ hs e => by cases e; exact ⟨hf s, h _ hs⟩

theorem hd_fail {α} {m msg} {Q : α → List Byte → Prop} : HdL lv P (fail m msg) Q := fun _ _ _ _ _ e => by cases e
theorem hd_panic {α} {Q : α → List Byte → Prop} : HdL lv P (panic (α := α)) Q := fun _ _ _ _ _ e => by cases e

theorem hd_failIf {c m msg} : HdL lv P (failIf c m msg) fun _ r => P r ∧ c = false := by
  unfold failIf
  split
  · exact hd_fail
  · exact hd_pure fun _ h => ⟨h, eq_false_of_ne_true ‹_›⟩

theorem hd_pass {c m msg} : HdL lv P (failIf c m msg) fun _ => P := fun s a s' hl hs e => ⟨(hd_failIf s a s' hl hs e).1, (hd_failIf s a s' hl hs e).2.1⟩

theorem hd_ite {α} {c : Prop} [Decidable c] {m n : SM α} {Q : α → List Byte → Prop} (hm : c → HdL lv P m Q) (hn : ¬ c → HdL lv P n Q) : HdL lv P (if c then m else n) Q := by
  split
  · exact hm ‹_›
  · exact hn ‹_›

theorem hd_pre {α} {m : SM α} {Q : α → List Byte → Prop} (hm : HdL lv P' m Q) (h : ∀ r, P r → P' r) : HdL lv P m Q := fun s a s' hl hs e => hm s a s' hl (h _ hs) e
theorem hd_post {α} {m : SM α} {Q Q' : α → List Byte → Prop} (hm : HdL lv P m Q) (h : ∀ a r, Q a r → Q' a r) : HdL lv P m Q' :=
  fun s a s' hl hs e => ⟨(hm s a s' hl hs e).1, h _ _ (hm s a s' hl hs e).2⟩

theorem hd_loop {σ α} {body : σ → SM (Loop σ α)} {Q : α → List Byte → Prop}
    (h : ∀ x, HdL lv P (body x) (Laps P Q)) : ∀ n x, HdL lv P (loopM body n x) Q
  | 0, _ => fun _ _ _ _ _ e => by cases e
  | n + 1, x => by
    rw [loopM]
    refine hd_bind (h x) fun r => ?_
    cases r with
    | next y => exact hd_loop h n y
    | done a => exact hd_pure fun _ h => h

theorem hd_when {c m} {Q : Unit → List Byte → Prop} (hm : c = true → HdL lv P m Q) (hn : ∀ r, P r → Q () r) : HdL lv P (when c m) Q := by
  unfold when
  exact hd_ite hm fun _ => hd_pure hn

theorem hd_getMark : HdL lv P getMark fun _ => P := hd_any
theorem hd_peekz {n} : HdL lv P (peekz n) fun c r => P r ∧ c = (r[n]?).getD 0 := hd_gets fun _ _ h => ⟨h, rfl⟩
theorem hd_atEof : HdL lv P atEof fun c r => P r ∧ c = r.isEmpty := hd_gets fun _ _ h => ⟨h, rfl⟩
theorem hd_allowed {b} : HdL lv P (setAllowed b) fun _ => P := hd_upd (fun _ => by fr) fun _ h => h

theorem hd_skipN {n} {Q : Unit → List Byte → Prop} (h : ∀ r, P r → Q () (r.drop n)) : HdL lv P (skipN n) Q :=
  hd_upd (fun _ => by fr) fun s hs => by show Q () (s.src.skip n).rest; rw [rest_skip]; exact h _ hs

theorem hd_skipNonBlank {Q : Unit → List Byte → Prop} (h : ∀ r, P r → Q () (r.drop 1)) : HdL lv P skipNonBlank Q :=
  hd_upd (fun _ => by fr) fun s hs => by show Q () (s.src.skip 1).rest; rw [rest_skip]; exact h _ hs

theorem hd_skipBlank {Q : Unit → List Byte → Prop} (h : ∀ r, P r → Q () (r.drop 1)) : HdL lv P skipBlank Q :=
  hd_upd (fun _ => by fr) fun s hs => by show Q () (s.src.skip 1).rest; rw [rest_skip]; exact h _ hs

theorem hd_skipLinebreak {Q : Unit → List Byte → Prop} (h : ∀ r, P r → r[0]? ≠ some 13 → r[0]? = some 10 → Q () (r.drop 1)) (h2 : ∀ r, P r → r[0]? ≠ some 10 → r[0]? ≠ some 13 → Q () r)
    (h3 : ∀ r, P r → r[0]? = some 13 → Q () r ∧ (r[1]? = some 10 → Q () (r.drop 2))) : HdL lv P skipLinebreak Q := by
  refine hd_upd (fun s => ?_) fun s hs => ?_
  · split
    · fr
    · split <;> fr
  · have key : ∀ n x, x ≠ 0 → s.src.peekz n = x → s.src.rest[n]? = some x := by
      intro n x hx hp
      unfold Src.peekz at hp
      cases hr : s.src.rest[n]? with
      | none => rw [hr] at hp; exact absurd hp.symm hx
      | some y => rw [hr] at hp; simpa using hp
    split
    · rename_i hx
      show Q () (s.src.skip 2).rest
      rw [rest_skip]
      exact (h3 _ hs (key _ _ (by decide) hx.1)).2 (key _ _ (by decide) hx.2)
    · rename_i hx
      split
      · rename_i hy
        show Q () (s.src.skip 1).rest
        rw [rest_skip]
        have := key _ _ (by decide) hy
        exact h _ hs (by rw [this]; decide) this
      · rename_i hy
        by_cases hz : s.src.rest[0]? = some 13
        · exact (h3 _ hs hz).1
        · refine h2 _ hs (fun hx => hy ?_) hz
          unfold Src.peekz
          rw [hx]
          rfl

/-! ## White space -/

/-- closed under leaving out blanks; no comments -/
structure Wsp (P : List Byte → Prop) : Prop where
  blank : ∀ c r, (c = 32 ∨ c = 9) → P (c :: r) → P r
  hash : ∀ r, ¬ P (35 :: r)

/-- and line feeds -/
structure Wsl (P : List Byte → Prop) : Prop extends Wsp P where
  line : ∀ r, P (10 :: r) → P r
  cr : ∀ r, ¬ P (13 :: r)

theorem ws_drop {P} (h : Wsp P) {t} : ∀ u a w, P u → P (u.drop (wsToEol t u a w).1)
  | [], a, w, hu => hu
  | c :: r, a, w, hu => by
    rw [wsToEol]
    split
    · rename_i hc
      exact ws_drop h r a true (h.blank c r (.inl hc) hu)
    · split
      · rename_i hc
        exact ws_drop h r true w (h.blank c r (.inr hc.1) hu)
      · split
        · rename_i hc
          subst hc
          exact absurd hu (h.hash r)
        · exact hu

theorem hd_skipWs {a w} (h : Wsp P) : HdL lv P (skipWsToEol a w) fun _ => P := by
  intro s x s' _ hs e
  unfold skipWsToEol at e
  dsimp only at e
  have : (s.src.skipWsToEol a w).2.2.rest = s.src.rest.drop (wsToEol a s.src.rest false w).1 := by
    unfold Src.skipWsToEol
    exact rest_skip
  split at e
  · cases e
    refine ⟨by fr, ?_⟩
    show P (s.src.skipWsToEol a w).2.2.rest
    rw [this]
    exact ws_drop h _ _ _ hs
  · cases e

theorem head_of {r : List Byte} {n c : Nat} (h : c = (r[n]?).getD 0) (h0 : c ≠ 0) : r[n]? = some c := by
  cases hr : r[n]? with
  | none => rw [hr] at h; exact absurd h h0
  | some y => rw [hr] at h; simp at h; rw [h]

theorem cons_of {r : List Byte} {c : Nat} (h : c = (r[0]?).getD 0) (h0 : c ≠ 0) : ∃ r', r = c :: r' := by
  have := head_of h h0
  cases r with
  | nil => simp at this
  | cons x r => simp at this; exact ⟨r, by rw [this]⟩

theorem hd_linebreak (h : Wsl P) : HdL lv P skipLinebreak fun _ => P := by
  refine hd_skipLinebreak ?_ ?_ ?_
  · intro r hr _ h1
    cases r with
    | nil => simp at h1
    | cons c r => simp at h1; subst h1; exact h.line r hr
  · intro r hr _ _; exact hr
  · intro r hr h1
    cases r with
    | nil => simp at h1
    | cons c r => simp at h1; subst h1; exact absurd hr (h.cr r)

theorem hd_comment (h : ∀ r, ¬ P (35 :: r)) {Q : Unit → List Byte → Prop} : HdL lv (fun r => P r ∧ 35 = (r[0]?).getD 0) (skipCounted Src.skipWhileNonBreakz) Q := by
  rintro s a s' _ ⟨h1, h2⟩ _
  obtain ⟨r', hr⟩ := cons_of h2 (by decide)
  rw [hr] at h1
  exact absurd h1 (h r')

theorem hd_skipToNextToken {cfg} (h : Wsl P) : HdL lv P (skipToNextToken cfg) fun _ r => P r ∧ ((r[0]?).getD 0 ≠ 9 ∧ (r[0]?).getD 0 ≠ 32 ∧ (r[0]?).getD 0 ≠ 10 ∧ (r[0]?).getD 0 ≠ 13 ∧ (r[0]?).getD 0 ≠ 35) := by
  unfold skipToNextToken
  refine hd_loop (fun _ => ?_) _ _
  unfold skipToNextTokenBody
  refine hd_bind hd_peekz fun c => hd_bind hd_any fun ti => hd_ite (fun h1 => ?_) fun h1 => hd_ite (fun h2 => ?_) fun h2 => hd_ite (fun h3 => ?_) fun h3 => hd_ite (fun h4 => ?_) fun h4 => ?_
  · refine hd_pre (P' := P) ?_ fun r hr => hr.1
    exact hd_bind (hd_skipWs h.toWsp) fun _ => hd_bind hd_any fun _ => hd_bind hd_any fun _ => hd_bind hd_pass fun _ => hd_pure fun _ h => h
  · refine hd_bind (Q := fun _ => P) (hd_skipBlank fun r hr => ?_) fun _ => hd_pure fun _ h => h
    obtain ⟨r', rfl⟩ := cons_of hr.2 (by rcases h2 with rfl | rfl <;> decide)
    exact h.blank c r' (h2.symm) hr.1
  · refine hd_pre (P' := P) ?_ fun r hr => hr.1
    exact hd_bind (hd_linebreak h) fun _ => hd_bind hd_any fun _ => hd_bind (hd_when (fun _ => hd_allowed) fun _ h => h) fun _ => hd_pure fun _ h => h
  · subst h4
    exact hd_bind (hd_comment (Q := fun _ => P) h.hash) fun _ => hd_pure fun _ h => h
  · refine hd_pure fun r hr => ⟨hr.1, ?_⟩
    rw [← hr.2]
    refine ⟨fun hx => h2 (.inl hx), fun hx => h2 (.inr hx), fun hx => h3 (.inl hx), fun hx => h3 (.inr hx), h4⟩

theorem hd_skipYamlWhitespace {cfg} (h : Wsl P) : HdL lv P (skipYamlWhitespace cfg) fun _ => P := by
  unfold skipYamlWhitespace
  refine hd_bind (Q := fun _ => P) (hd_loop (fun _ => ?_) _ _) fun _ => hd_bind hd_any fun _ => hd_pass
  unfold skipYamlWhitespaceBody
  refine hd_bind hd_peekz fun c => hd_ite (fun h2 => ?_) fun h2 => hd_ite (fun h3 => ?_) fun h3 => hd_ite (fun h4 => ?_) fun h4 => ?_
  · refine hd_bind (Q := fun _ => P) (hd_skipBlank fun r hr => ?_) fun _ => hd_pure fun _ h => h
    obtain ⟨r', rfl⟩ := cons_of hr.2 (by subst h2; decide)
    exact h.blank c r' (.inl h2) hr.1
  · refine hd_pre (P' := P) ?_ fun r hr => hr.1
    exact hd_bind (hd_linebreak h) fun _ => hd_bind hd_any fun _ => hd_bind (hd_when (fun _ => hd_allowed) fun _ h => h) fun _ => hd_pure fun _ h => h
  · subst h4
    exact hd_bind (hd_comment (Q := fun _ => P) h.hash) fun _ => hd_pure fun _ h => h
  · exact hd_pure fun r hr => hr.1

theorem wsl_start {sa b} : Wsl (unclosed · .start sa b = true) :=
  { blank := fun c r hc h => unclosed_blank (.inl rfl) (by decide) (hc.imp_right .inl) h
    line := fun r h => unclosed_blank (.inl rfl) (by decide) (.inr (.inr rfl)) h
    hash := fun r h => (unclosed_clean (.inl rfl) h).2.2.1 rfl
    cr := fun r h => (unclosed_clean (.inl rfl) h).2.1 rfl }

theorem wsl_glued {sa b} : Wsl (unclosed · .glued sa b = true) :=
  { blank := fun c r hc h => unclosed_glued (unclosed_blank (.inr (.inl rfl)) (by decide) (hc.imp_right .inl) h)
    line := fun r h => unclosed_glued (unclosed_blank (.inr (.inl rfl)) (by decide) (.inr (.inr rfl)) h)
    hash := fun r h => (unclosed_clean (.inr (.inl rfl)) h).2.2.1 rfl
    cr := fun r h => (unclosed_clean (.inr (.inl rfl)) h).2.1 rfl }

theorem wsl_quoted {sa b} : Wsl (unclosed · .quoted sa b = true) :=
  { blank := fun c r hc h => by have := (unclosed_quoted h).2; rwa [if_pos (hc.imp_right .inl)] at this
    line := fun r h => by have := (unclosed_quoted h).2; rwa [if_pos (.inr (.inr rfl))] at this
    hash := fun r h => (unclosed_quoted h).1.2.2.1 rfl
    cr := fun r h => (unclosed_quoted h).1.2.1 rfl }

theorem plain_word : PlainMode .word := .inr (.inr (.inl rfl))

theorem wsl_word {sa b} : Wsl (unclosed · .word sa b = true) :=
  { blank := fun c r hc h => unclosed_blank_word (hc.imp_right .inl) h
    line := fun r h => unclosed_blank_word (.inr (.inr rfl)) h
    hash := fun r h => (unclosed_clean plain_word h).2.2.1 rfl
    cr := fun r h => (unclosed_clean plain_word h).2.1 rfl }

/-- a token that is neither a bracket nor the end -/
def Neutral (t : TokenType) : Prop := t ≠ .streamEnd ∧ sqOf [t] = 0 ∧ brOf [t] = 0

theorem neutral_scalar {st v} : Neutral (.scalar st v) := by simp [Neutral, sqOf, brOf]
theorem neutral_anchor {n} : Neutral (.anchor n) := by simp [Neutral, sqOf, brOf]
theorem neutral_alias {n} : Neutral (.alias n) := by simp [Neutral, sqOf, brOf]

/-! ## Plain scalars -/

/-- where a plain scalar has to stop -/
def Halts (r : List Byte) : Prop := ∀ c r', r = c :: r' → isFlow c = true ∨ c = 58 ∧ ends r' = true

theorem hd_can : Hd P (gets fun s => s.src.nextCanBePlainScalar (decide (s.flowLevel > 0))) fun can r => P r ∧ can = (⟨r, 0, 0⟩ : Src).nextCanBePlainScalar true :=
  hd_gets fun s hl h => ⟨h, by rw [decide_eq_true (show s.flowLevel > 0 from hl)]; rfl⟩

theorem word_step {c r sa b} (h : unclosed (c :: r) .word sa b = true) (hc : (⟨c :: r, 0, 0⟩ : Src).nextCanBePlainScalar true = true) : unclosed r .word sa b = true := by
  have h0 := unclosed_clean plain_word h
  rw [unclosed_plain plain_word] at h
  have hn : ¬ (c = 58 ∧ ends r = true) := by
    rintro ⟨rfl, he⟩
    cases r with
    | nil => exact absurd hc (by decide)
    | cons x r =>
      simp [ends] at he
      rcases he with rfl | rfl | rfl | rfl | rfl | rfl | rfl | rfl <;> simp [Src.nextCanBePlainScalar, Src.peekz, isBlankOrBreakz, isBlank, isBreak, isFlow] at hc
  have hf : isFlow c = false := by
    cases hx : isFlow c with
    | false => rfl
    | true =>
      have h58 : c ≠ 58 := by rintro rfl; exact absurd hx (by decide)
      simp [Src.nextCanBePlainScalar, Src.peekz, hx, h58] at hc
  simp [isFlow] at hf
  simpa [h0, hf, hn] using h

theorem word_halts {r sa b} (h : unclosed r .word sa b = true) (hc : (⟨r, 0, 0⟩ : Src).nextCanBePlainScalar true = false) : Halts r := by
  rintro c r' rfl
  by_cases hf : isFlow c = true
  · exact .inl hf
  right
  have h58 : c = 58 := by
    refine Classical.byContradiction fun hx => ?_
    simp [Src.nextCanBePlainScalar, Src.peekz, hf, hx] at hc
  subst h58
  refine ⟨rfl, ?_⟩
  have h0 := unclosed_clean plain_word h
  cases r' with
  | nil => rfl
  | cons x r =>
    refine Classical.byContradiction fun hx => ?_
    rw [unclosed_plain plain_word] at h
    simp [h0, hx] at h
    have h1 := unclosed_clean plain_word h
    simp [ends] at hx
    simp [Src.nextCanBePlainScalar, Src.peekz, isBlankOrBreakz, isBlank, isBreak, isFlow, h1, hx] at hc

/-- a blank or a line feed is next -/
def Gaps (r : List Byte) : Prop := ∃ c r', r = c :: r' ∧ (c = 32 ∨ c = 9 ∨ c = 10)

theorem word_gap {r sa b} (h : unclosed r .word sa b = true) (hc : isBlankOrBreakz ((r[0]?).getD 0) = true) : Gaps r ∨ Halts r := by
  cases r with
  | nil => right; rintro c r' e; cases e
  | cons c r =>
    have h0 := unclosed_clean plain_word h
    simp [isBlankOrBreakz, isBlank, isBreak, h0] at hc
    exact .inl ⟨c, r, rfl, by rcases hc with (h | h) | h <;> simp [h]⟩

theorem document_marks {s : Src} (h : s.nextIsDocumentIndicator = true) : marks s.rest = true := by
  obtain ⟨u, p, l⟩ := s
  rcases u with _ | ⟨a, _ | ⟨b, _ | ⟨c, u⟩⟩⟩
  · cases h
  · simp [Src.nextIsDocumentIndicator, Src.nextIsThree, Src.peekz] at h
  · simp [Src.nextIsDocumentIndicator, Src.nextIsThree, Src.peekz] at h
  · simp only [Src.nextIsDocumentIndicator, Src.nextIsThree, Src.peekz, Bool.and_eq_true, Bool.or_eq_true, beq_iff_eq] at h
    obtain ⟨h1, h2⟩ := h
    simp at h1
    have : (u.head?.all ((0 :: bs!" \t\n\r").contains ·)) = true := by
      cases u with
      | nil => rfl
      | cons d u =>
        simp [isBlankOrBreakz, isBlank, isBreak] at h2
        rcases h2 with (h | h | h) | h | h <;> simp [h]
    simp only [marks]
    rcases h1 with ⟨⟨rfl, rfl⟩, rfl⟩ | ⟨⟨rfl, rfl⟩, rfl⟩ <;> simpa using this

theorem hd_scanPlainScalar {cfg sa b} : Hd (unclosed · .word sa b = true) (scanPlainScalar cfg) fun t r => Neutral t.tt ∧ unclosed r .start sa b = true := by
  have after : ∀ indent start p, Hd (fun r => unclosed r .word sa b = true ∧ (Gaps r ∨ Halts r)) (plainAfter cfg indent start p)
      (Laps (unclosed · .word sa b = true) fun _ r => unclosed r .word sa b = true ∧ Halts r) := by
    intro indent start p
    unfold plainAfter
    refine hd_bind hd_peekz fun c => hd_ite (fun h1 => ?_) fun h1 => ?_
    · refine hd_pre (P' := (unclosed · .word sa b = true)) ?_ fun r hr => hr.1.1
      refine hd_bind (Q := fun _ r => unclosed r .word sa b = true) (hd_loop (fun p => ?_) _ _) fun p => ?_
      · unfold plainBlankBody
        have ws : ∀ {α} {x : α}, Hd (fun r => unclosed r .word sa b = true ∧ ∃ c, isBlank c = true ∧ c = (r[0]?).getD 0) (skipBlank >>= fun _ => (pure (.next x) : SM (Loop α α)))
            (Laps (unclosed · .word sa b = true) fun _ r => unclosed r .word sa b = true) := by
          intro α x
          refine hd_bind (Q := fun _ r => unclosed r .word sa b = true) (hd_skipBlank fun r hr => ?_) fun _ => hd_pure fun _ h => h
          obtain ⟨h1, c, h2, h3⟩ := hr
          simp [isBlank] at h2
          obtain ⟨r', rfl⟩ := cons_of h3 (by rcases h2 with rfl | rfl <;> decide)
          exact wsl_word.blank c r' h2 h1
        refine hd_bind hd_peekz fun c => hd_bind hd_any fun lw => hd_bind hd_any fun m => hd_ite (fun h1 => ?_) fun h1 => hd_ite (fun h2 => ?_) fun h2 => hd_ite (fun h3 => ?_) fun h3 => ?_
        · exact hd_pure fun r hr => hr.1
        · refine hd_ite (fun h3 => hd_pre ws fun r hr => ⟨hr.1, c, h2, hr.2⟩) fun h3 => hd_ite (fun h4 => ?_) fun h4 => hd_pre ws fun r hr => ⟨hr.1, c, h2, hr.2⟩
          refine hd_pre (P' := (unclosed · .word sa b = true)) ?_ fun r hr => hr.1
          exact hd_bind (hd_skipWs wsl_word.toWsp) fun _ => hd_bind hd_any fun _ => hd_bind hd_pass fun _ => hd_pure fun _ h => h
        · refine hd_pre (P' := (unclosed · .word sa b = true)) ?_ fun r hr => hr.1
          exact hd_bind (hd_linebreak wsl_word) fun _ => hd_pure fun _ h => h
        · refine hd_pre (P' := (unclosed · .word sa b = true)) ?_ fun r hr => hr.1
          exact hd_bind (hd_linebreak wsl_word) fun _ => hd_bind (Q := fun _ r => unclosed r .word sa b = true) (hd_upd (fun _ => by fr) fun _ h => h) fun _ => hd_pure fun _ h => h
      · refine hd_bind (Q := fun out r => unclosed r .word sa b = true ∧ out = false) (hd_gets fun s hl h => ⟨h, ?_⟩) fun out => ?_
        · simp; intro hx; omega
        · refine hd_ite (fun h => ?_) fun _ => hd_pure fun r hr => hr.1
          intro s a s' _ hs _
          rw [h] at hs
          exact absurd hs.2 (by decide)
    · refine hd_pure fun r hr => ⟨hr.1.1, hr.1.2.resolve_left ?_⟩
      rintro ⟨x, r', rfl, hx⟩
      refine h1 ?_
      rw [hr.2]
      rcases hx with rfl | rfl | rfl <;> rfl
  unfold scanPlainScalar
  refine hd_bind (Q := fun _ r => unclosed r .word sa b = true) (hd_upd (fun _ => by fr) fun _ h => h) fun _ => hd_bind hd_any fun _ => hd_bind hd_any fun _ => hd_bind hd_any fun _ =>
    hd_bind hd_pass fun _ => hd_bind (Q := fun _ r => unclosed r .word sa b = true ∧ Halts r) (hd_loop (fun p => ?_) _ _) fun _ => ?_
  · unfold plainBody
    refine hd_bind (Q := fun stop r => unclosed r .word sa b = true ∧ stop = false) (hd_gets fun s hl h => ⟨h, ?_⟩) fun stop => ?_
    · refine Classical.byContradiction fun hx => ?_
      rw [Bool.not_eq_false, Bool.or_eq_true, Bool.and_eq_true] at hx
      rcases hx with ⟨-, hx⟩ | hx
      · have := document_marks hx
        cases hr : s.src.rest with
        | nil => rw [hr] at this; cases this
        | cons c r =>
          rw [hr] at h this
          rw [(unclosed_clean plain_word h).1] at this
          cases this
      · simp at hx
        obtain ⟨r', hr⟩ := cons_of (r := s.src.rest) hx.symm (by decide)
        rw [hr] at h
        exact wsl_word.hash _ h
    refine hd_ite (fun h => ?_) fun _ => ?_
    · intro s a s' _ hs _
      rw [h] at hs
      exact absurd hs.2 (by decide)
    refine hd_pre (P' := (unclosed · .word sa b = true)) ?_ fun r hr => hr.1
    refine hd_bind hd_any fun _ => hd_bind hd_any fun _ => hd_bind hd_pass fun _ => hd_bind (Q := fun content r => unclosed r .word sa b = true ∧
      content = (!isBlankOrBreakz ((r[0]?).getD 0) && (⟨r, 0, 0⟩ : Src).nextCanBePlainScalar true)) (hd_gets fun s hl h => ⟨h, by rw [decide_eq_true (show s.flowLevel > 0 from hl)]; rfl⟩) fun content => ?_
    refine hd_ite (fun h1 => ?_) fun h1 => ?_
    · refine hd_bind ?_ fun p => after _ _ p
      unfold plainContent
      refine hd_bind hd_any fun _ => hd_bind hd_peekz fun c => hd_bind (Q := fun _ r => unclosed r .word sa b = true) (hd_skipNonBlank fun r hr => ?_) fun _ =>
        hd_bind (Q := fun _ r => unclosed r .word sa b = true ∧ (Gaps r ∨ Halts r)) (hd_loop (fun x => ?_) _ _) fun _ => hd_bind hd_any fun _ => hd_pure fun _ h => h
      · obtain ⟨⟨hu, hc⟩, h2⟩ := hr
        rw [h1] at hc
        cases r with
        | nil => cases hc
        | cons c r =>
          simp only [eq_comm (a := true), Bool.and_eq_true] at hc
          exact word_step hu hc.2
      · unfold plainRunBody
        refine hd_bind hd_peekz fun c => hd_bind hd_can fun can => hd_ite (fun h2 => ?_) fun h2 => ?_
        · refine hd_pure fun r hr => ⟨hr.1.1, ?_⟩
          rw [Bool.or_eq_true] at h2
          rcases h2 with h2 | h2
          · exact word_gap hr.1.1 (by rw [← hr.1.2]; exact h2)
          · exact .inr (word_halts hr.1.1 (by rw [← hr.2]; simpa using h2))
        · refine hd_bind (Q := fun _ r => unclosed r .word sa b = true) (hd_skipNonBlank fun r hr => ?_) fun _ => hd_pure fun _ h => h
          simp at h2
          cases r with
          | nil => have := hr.1.2; simp at this; subst this; exact absurd h2.1 (by decide)
          | cons x r => exact word_step hr.1.1 (hr.2.symm.trans h2.2)
    · refine hd_pre (after _ _ p) fun r hr => ⟨hr.1, ?_⟩
      have hc := hr.2
      rw [eq_false_of_ne_true h1] at hc
      cases hz : isBlankOrBreakz ((r[0]?).getD 0) with
      | true => exact word_gap hr.1 hz
      | false =>
        rw [hz] at hc
        simp only [Bool.not_false, Bool.true_and] at hc
        exact .inr (word_halts hr.1 hc.symm)
  · refine hd_pre (P' := (unclosed · .start sa b = true)) ?_ fun r hr => unclosed_ends plain_word hr.1 hr.2
    exact hd_bind hd_any fun _ => hd_bind (hd_when (fun _ => hd_allowed) fun _ h => h) fun _ => hd_bind hd_pass fun _ => hd_pure fun _ h => ⟨neutral_scalar, h⟩

/-! ## Quotation marks -/

/-- the mode and the mark -/
def qMode (single : Bool) : Mode := if single then .single else .double
def qMark (single : Bool) : Byte := if single then 39 else 34

theorem quoted_step {single c r sa b} (h : unclosed (c :: r) (qMode single) sa b = true) (h1 : c ≠ qMark single) (h2 : single = false → c ≠ 92) :
    unclosed r (qMode single) sa b = true := by
  cases single with
  | true =>
    have h1 : c ≠ 39 := h1
    simpa [qMode, unclosed, h1] using h
  | false =>
    have h1 : c ≠ 34 := h1
    simpa [qMode, unclosed, h1, h2 rfl] using h

theorem quoted_pair {r sa b} (h : unclosed (39 :: 39 :: r) .single sa b = true) : unclosed r .single sa b = true := by
  simpa [unclosed] using h

theorem quoted_escape {c r sa b} (h : unclosed (92 :: c :: r) .double sa b = true) : unclosed r .double sa b = true := by
  simpa [unclosed] using h

theorem quoted_closed {single r sa b} (h : unclosed (qMark single :: r) (qMode single) sa b = true) (h1 : single = true → r[0]? ≠ some 39) : unclosed r .quoted sa b = true := by
  cases single with
  | true =>
    have : r.head? ≠ some 39 := by rw [List.head?_eq_getElem?]; exact h1 rfl
    simpa [qMode, qMark, unclosed, this] using h
  | false => simpa [qMode, qMark, unclosed] using h

theorem hex_drop {sa b} : ∀ (n : Nat) (r : List Byte) (i v w : Nat) (src : Src), src.rest.drop i = r → hexValue src n i v = some (some w) → unclosed r .double sa b = true →
    unclosed (r.drop n) .double sa b = true
  | 0, _, _, _, _, _, _, _, h => h
  | n + 1, r, i, v, w, src, hr, hv, h => by
    have h0 : src.peekz i = (r[0]?).getD 0 := by simp [Src.peekz, ← hr]
    rw [hexValue] at hv
    split at hv
    · rename_i hx
      split at hv
      · cases r with
        | nil => rw [h0] at hx; exact absurd hx (by decide)
        | cons c r =>
          have hc : src.peekz i = c := h0
          rw [hc] at hx
          have hrr : src.rest.drop (i + 1) = r := by rw [← List.drop_drop, hr]; rfl
          refine hex_drop n r (i + 1) _ w src hrr hv (quoted_step (single := false) h ?_ fun _ => ?_)
          · rintro rfl; exact absurd hx (by decide)
          · rintro rfl; exact absurd hx (by decide)
      · cases hv
    · cases hv

theorem hd_hexEscape {len start sa b} : Hd (fun r => ∃ x r', r = 92 :: x :: r' ∧ unclosed r .double sa b = true) (hexEscape len start) fun _ r => unclosed r .double sa b = true := by
  unfold hexEscape
  refine hd_bind (Q := fun _ r => unclosed r .double sa b = true) (hd_skipN ?_) fun _ => ?_
  · rintro r ⟨x, r', rfl, h⟩
    exact quoted_escape h
  refine hd_bind (Q := fun v r => unclosed r .double sa b = true ∧ ∀ w, v = some (some w) → unclosed (r.drop len) .double sa b = true)
    (hd_gets fun s _ h => ⟨h, fun w hw => hex_drop len _ 0 0 w s.src (by simp) hw h⟩) fun v => ?_
  rcases v with _ | _ | v
  · exact hd_panic
  · exact hd_fail
  · show Hd _ (match Utf8.charFromU32 v with
      | none => fail start "while parsing a quoted scalar, found invalid Unicode character escape code"
      | some ch => do
        skipN len
        pure ch) _
    cases Utf8.charFromU32 v with
    | none => exact hd_fail
    | some ch => exact hd_bind (hd_skipN fun r hr => hr.2 _ rfl) fun _ => hd_pure fun _ h => h

theorem hd_resolveEscape {start sa b} : Hd (fun r => ∃ x r', r = 92 :: x :: r' ∧ unclosed r .double sa b = true) (resolveEscape start) fun _ r => unclosed r .double sa b = true := by
  unfold resolveEscape
  refine hd_bind hd_peekz fun c => ?_
  refine hd_pre (P' := fun r => ∃ x r', r = 92 :: x :: r' ∧ unclosed r .double sa b = true) ?_ fun r hr => hr.1
  cases simpleEscape c with
  | some ch =>
    refine hd_bind (Q := fun _ r => unclosed r .double sa b = true) (hd_skipN ?_) fun _ => hd_pure fun _ h => h
    rintro r ⟨x, r', rfl, h⟩
    exact quoted_escape h
  | none => exact hd_ite (fun _ => hd_hexEscape) fun _ => hd_ite (fun _ => hd_hexEscape) fun _ => hd_ite (fun _ => hd_hexEscape) fun _ => hd_fail

theorem quoted_break {single sa b} {α} {x : α} (f : SM α) (hf : f = (skipLinebreak >>= fun _ => pure x)) :
    Hd (unclosed · (qMode single) sa b = true) f fun _ r => unclosed r (qMode single) sa b = true := by
  subst hf
  refine hd_bind (Q := fun _ r => unclosed r (qMode single) sa b = true) (hd_skipLinebreak ?_ (fun r hr _ _ => hr) ?_) fun _ => hd_pure fun _ h => h
  · intro r hr _ h1
    cases r with
    | nil => simp at h1
    | cons c r =>
      simp at h1; subst h1
      exact quoted_step hr (by cases single <;> decide) (fun _ => by decide)
  · intro r hr h1
    refine ⟨hr, fun h2 => ?_⟩
    rcases r with _ | ⟨c, _ | ⟨d, r⟩⟩
    · simp at h1
    · simp at h2
    · simp at h1 h2; subst h1 h2
      exact quoted_step (quoted_step hr (by cases single <;> decide) (fun _ => by decide)) (by cases single <;> decide) (fun _ => by decide)

theorem hd_flowChars {single start sa b} (x : List Byte) : Hd (unclosed · (qMode single) sa b = true) (flowCharsBody single start x)
    (Laps (unclosed · (qMode single) sa b = true) fun _ r => unclosed r (qMode single) sa b = true ∧ (single = true → r[0]? = some 39 → r[1]? ≠ some 39)) := by
  unfold flowCharsBody
  refine hd_bind hd_peekz fun c => hd_bind hd_peekz fun nc => hd_ite (fun h1 => ?_) fun h1 => hd_ite (fun h2 => ?_) fun h2 => hd_ite (fun h3 => ?_) fun h3 => hd_ite (fun h4 => ?_) fun h4 =>
    hd_ite (fun h5 => ?_) fun h5 => hd_ite (fun h6 => ?_) fun h6 => ?_
  · refine hd_pure fun r hr => ⟨hr.1.1, fun _ hx => ?_⟩
    rw [hr.1.2, hx] at h1
    exact absurd h1 (by decide)
  · obtain ⟨rfl, rfl, rfl⟩ := h2
    refine hd_bind (Q := fun _ r => unclosed r (qMode true) sa b = true) (hd_skipN fun r hr => ?_) fun _ => hd_pure fun _ h => h
    obtain ⟨r', rfl⟩ := cons_of hr.1.2 (by decide)
    have h3 := head_of hr.2 (by decide)
    cases r' with
    | nil => simp at h3
    | cons d r' => simp at h3; subst h3; exact quoted_pair hr.1.1
  · refine hd_pure fun r hr => ⟨hr.1.1, fun hs hx hy => h2 ⟨h3.1, ?_, hs⟩⟩
    rw [hr.2, hy]
    rfl
  · refine hd_pure fun r hr => ⟨hr.1.1, fun hs => ?_⟩
    rw [h4.2] at hs; cases hs
  · obtain ⟨rfl, rfl, hb⟩ := h5
    refine hd_bind (Q := fun _ r => (unclosed r .double sa b = true ∨ ∃ c r', r = c :: r' ∧ isBreak c = true ∧ unclosed r' .double sa b = true)) (hd_skipNonBlank fun r hr => ?_) fun _ => ?_
    · obtain ⟨r', rfl⟩ := cons_of hr.1.2 (by decide)
      have hn : nc ≠ 0 := by rintro rfl; exact absurd hb (by decide)
      have h3 := head_of hr.2 hn
      cases r' with
      | nil => simp at h3
      | cons d r' => simp at h3; subst h3; exact .inr ⟨_, _, rfl, hb, quoted_escape hr.1.1⟩
    · refine hd_pre (P' := (unclosed · (qMode false) sa b = true)) ?_ fun r hr => ?_
      · refine hd_bind (Q := fun _ r => unclosed r (qMode false) sa b = true) ?_ fun _ => hd_pure fun _ h => ⟨h, fun hx => by cases hx⟩
        exact quoted_break (x := ()) skipLinebreak rfl
      · rcases hr with hr | ⟨c, r', rfl, hc, hr⟩
        · exact hr
        · simp [isBreak] at hc
          rcases hc with rfl | rfl <;> simpa [qMode, unclosed] using hr
  · obtain ⟨rfl, rfl⟩ := h6
    refine hd_bind (Q := fun _ r => unclosed r .double sa b = true) ?_ fun _ => hd_pure fun _ h => h
    intro s a s' hl hs e
    obtain ⟨⟨h1, h2⟩, h3⟩ := hs
    obtain ⟨r', hr⟩ := cons_of h2 (by decide)
    cases r' with
    | nil =>
      unfold resolveEscape at e
      rw [peekz_bind] at e
      have hp : s.src.peekz 1 = 0 := by simp [Src.peekz, hr]
      rw [hp] at e
      cases e
    | cons x r' => exact hd_resolveEscape _ _ _ hl ⟨x, r', hr, h1⟩ e
  · refine hd_bind (Q := fun _ r => unclosed r (qMode single) sa b = true) (hd_skipNonBlank fun r hr => ?_) fun _ => hd_pure fun _ h => h
    cases r with
    | nil => exact hr.1.1
    | cons d r =>
      have hd : c = d := hr.1.2
      subst hd
      refine quoted_step hr.1.1 (fun hx => ?_) fun hs hx => h6 ⟨hx, hs⟩
      cases single with
      | true => exact h3 ⟨hx, rfl⟩
      | false => exact h4 ⟨hx, rfl⟩

theorem hd_flowBlank {single sa b} (p : FlowSt) : Hd (unclosed · (qMode single) sa b = true) (flowBlankBody p)
    (Laps (unclosed · (qMode single) sa b = true) fun _ r => unclosed r (qMode single) sa b = true) := by
  have sk : ∀ {c : Byte}, isBlank c = true → ∀ r, unclosed r (qMode single) sa b = true ∧ c = (r[0]?).getD 0 → unclosed (r.drop 1) (qMode single) sa b = true := by
    rintro c hc r ⟨h1, h2⟩
    simp [isBlank] at hc
    obtain ⟨r', rfl⟩ := cons_of h2 (by rcases hc with rfl | rfl <;> decide)
    refine quoted_step h1 ?_ fun _ => ?_
    · rcases hc with rfl | rfl <;> cases single <;> decide
    · rcases hc with rfl | rfl <;> decide
  unfold flowBlankBody
  refine hd_bind hd_peekz fun c => hd_ite (fun h1 => hd_ite (fun h2 => ?_) fun h2 => ?_) fun h1 => hd_ite (fun h2 => ?_) fun h2 => ?_
  · exact hd_bind hd_any fun _ => hd_bind hd_any fun _ => hd_bind hd_pass fun _ => hd_bind (Q := fun _ r => unclosed r (qMode single) sa b = true) (hd_skipBlank (sk h1)) fun _ => hd_pure fun _ h => h
  · exact hd_bind (Q := fun _ r => unclosed r (qMode single) sa b = true) (hd_skipBlank (sk h1)) fun _ => hd_pure fun _ h => h
  · refine hd_pre (P' := (unclosed · (qMode single) sa b = true)) ?_ fun r hr => hr.1
    exact hd_ite (fun _ => hd_bind (quoted_break _ rfl) fun _ => hd_pure fun _ h => h) fun _ => hd_bind (quoted_break _ rfl) fun _ => hd_pure fun _ h => h
  · exact hd_pure fun r hr => hr.1

theorem hd_scanFlowScalar {cfg single sa b} : Hd (fun r => unclosed (r.drop 1) (qMode single) sa b = true) (scanFlowScalar cfg single) fun t r => Neutral t.tt ∧ unclosed r .quoted sa b = true := by
  unfold scanFlowScalar
  refine hd_bind hd_any fun _ => hd_bind (Q := fun _ r => unclosed r (qMode single) sa b = true) (hd_skipNonBlank fun _ h => h) fun _ =>
    hd_bind (Q := fun _ r => unclosed (r.drop 1) .quoted sa b = true) (hd_loop (fun p => ?_) _ _) fun _ => hd_bind (Q := fun _ r => unclosed r .quoted sa b = true) (hd_skipNonBlank fun _ h => h) fun _ =>
    hd_bind (hd_skipWs wsl_quoted.toWsp) fun _ => hd_bind hd_any fun _ => hd_bind hd_any fun _ => hd_bind hd_pass fun _ => hd_pure fun _ h => ⟨neutral_scalar, h⟩
  unfold flowBody
  refine hd_bind hd_any fun _ => hd_bind hd_pass fun _ => hd_bind hd_any fun _ => hd_bind hd_pass fun _ => hd_bind hd_any fun _ => hd_bind hd_pass fun _ =>
    hd_bind (hd_loop hd_flowChars _ _) fun _ => hd_bind hd_peekz fun c => hd_ite (fun h1 => ?_) fun h1 => ?_
  · refine hd_pure fun r hr => ?_
    have hq : c = qMark single := by
      rcases h1 with ⟨rfl, hs⟩ | ⟨rfl, hs⟩ <;> rw [hs] <;> rfl
    obtain ⟨r', rfl⟩ := cons_of hr.2 (by rw [hq]; cases single <;> decide)
    subst hq
    refine quoted_closed hr.1.1 fun hs => ?_
    have := hr.1.2 hs (by rw [hs]; rfl)
    simpa using this
  · refine hd_pre (P' := (unclosed · (qMode single) sa b = true)) ?_ fun r hr => hr.1.1
    exact hd_bind (hd_loop hd_flowBlank _ _) fun _ => hd_pure fun _ h => h

/-! ## Names -/

theorem hd_scanAnchor {cfg al sa b} : Hd (fun r => unclosed (r.drop 1) .name sa b = true) (scanAnchor cfg al) fun t r => Neutral t.tt ∧ unclosed r .start sa b = true := by
  have pn : PlainMode .name := .inr (.inr (.inr rfl))
  unfold scanAnchor
  refine hd_bind hd_any fun _ => hd_bind (Q := fun _ r => unclosed r .name sa b = true ∨ unclosed r .start sa b = true ∧ ends r = true) (hd_skipNonBlank fun _ h => .inl h) fun _ =>
    hd_bind (Q := fun _ r => unclosed r .start sa b = true) (hd_loop (fun p => ?_) _ _) fun _ => hd_bind hd_pass fun _ => hd_bind hd_any fun _ => hd_pure fun _ h => ⟨by cases al <;> first | exact neutral_anchor | exact neutral_alias, h⟩
  unfold anchorBody
  refine hd_bind hd_peekz fun c => hd_ite (fun h1 => ?_) fun h1 => ?_
  · refine hd_bind (Q := fun _ r => unclosed r .name sa b = true ∨ unclosed r .start sa b = true ∧ ends r = true) (hd_skipNonBlank fun r hr => ?_) fun _ => hd_pure fun _ h => h
    obtain ⟨r', rfl⟩ := cons_of hr.2 (by rintro rfl; exact absurd h1 (by decide))
    simp only [isAnchorChar, isYamlNonSpace, isBlank, isBreak, isFlow, Bool.and_eq_true, Bool.not_eq_true', Bool.or_eq_false_iff, beq_eq_false_iff_ne, bne_iff_ne] at h1
    rcases hr.1 with h2 | ⟨-, h2⟩
    · have h0 := unclosed_clean pn h2
      rw [unclosed_plain pn] at h2
      by_cases hc : c = 58 ∧ ends r' = true
      · right
        obtain ⟨rfl, he⟩ := hc
        simp [h0, he] at h2
        exact ⟨h2, he⟩
      · left
        simpa [h0, h1, hc] using h2
    · simp [ends, h1] at h2
  · refine hd_pure fun r hr => ?_
    show unclosed r .start sa b = true
    rcases hr.1 with h2 | h2
    · cases r with
      | nil => simpa [unclosed] using h2
      | cons d r =>
        have hd : c = d := hr.2
        subst hd
        have h0 := unclosed_clean pn h2
        by_cases hf : isFlow c = true
        · exact unclosed_ends pn h2 fun c' r' e => by cases e; exact .inl hf
        · have hb : c = 32 ∨ c = 9 ∨ c = 10 := by
            simp [isAnchorChar, isYamlNonSpace, isBlank, isBreak, hf, h0] at h1
            omega
          have := unclosed_blank pn (by decide) hb h2
          rw [unclosed_plain (.inl rfl)]
          rcases hb with rfl | rfl | rfl <;> simpa [h0] using this
    · exact h2.1

end Verif.Scanner
