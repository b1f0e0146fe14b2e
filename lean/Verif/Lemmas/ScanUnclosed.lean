import Verif.Lemmas.ScanOpen
/-!
# Scanning a flow collection that is not closed

`Open pre s`: the scanner is in a flow collection that will not be closed, or has come to the end of the text with more brackets opened than closed. `pre`: the
tokens that have already been taken. Whatever succeeds keeps it.
-/
namespace Verif.Scanner
open Verif Verif.CharUtils Verif.Source Verif.Spec Verif.Spec.Faults

abbrev typesOf (s : SSt) : List TokenType := s.tokens.map (·.tt)

def insideOf (l : List ImplicitMappingState) : Int := l.count .inside

theorem insideOf_nonneg (l) : 0 ≤ insideOf l := by unfold insideOf; omega

/-- flags that change only when a token is taken -/
def marksOf (s : SSt) : Bool × Bool × Bool × Nat := (s.streamStartProduced, s.streamEndReached, s.streamEndProduced, s.tokensParsed)

/-- the flags of a scanner that runs -/
def Runs (s : SSt) : Prop := s.streamStartProduced = true ∧ (s.streamEndProduced = true → s.streamEndReached = true)

theorem Runs.of {s s'} (h : Runs s) (e : marksOf s' = marksOf s) : Runs s' := by
  simp only [marksOf, Prod.mk.injEq] at e
  unfold Runs
  rw [e.1, e.2.1, e.2.2.1]
  exact h

theorem Fr.marks {s s'} (h : Fr s s') : marksOf s' = marksOf s := by
  simp [marksOf, h.started, h.reached, h.produced, h.parsed]

theorem Fr.types {s s'} (h : Fr s s') : typesOf s' = typesOf s := by simp [typesOf, h.tokens]

/-! What is true of every beginning of the tokens, wanted only where the flow collection is the first thing in the text. -/

/-- whether it is wanted -/
class Pfx where
  on : Prop

instance (priority := low) pfxOff : Pfx := ⟨False⟩

/-- more opened than closed, of one kind -/
def Exceeds (l : List TokenType) : Prop := 0 < sqOf l ∨ 0 < brOf l

/-- in every beginning of the list brackets are open, unless there is no bracket yet; and in the whole list -/
def Ever (l : List TokenType) : Prop := (∀ d e, l = d ++ e → (∀ t ∈ d, t = .streamStart ∨ t = .key ∨ t = .blockEnd) ∨ Exceeds d) ∧ Exceeds l

theorem Ever.push {l t} (h : Ever l) (ht : Exceeds (l ++ [t])) : Ever (l ++ [t]) := by
  refine ⟨fun d e hd => ?_, ht⟩
  rcases List.append_eq_append_iff.1 hd with ⟨x, h1, h2⟩ | ⟨x, h1, h2⟩
  · cases x with
    | nil => rw [List.append_nil] at h1; rw [h1]; exact .inr h.2
    | cons y x =>
      simp at h2
      obtain ⟨rfl, rfl, -⟩ := h2
      rw [h1]; exact .inr ht
  · exact h.1 d x h1

theorem Ever.neutral {l t} (h : Ever l) (h1 : sqOf [t] = 0) (h2 : brOf [t] = 0) : Ever (l ++ [t]) := by
  refine h.push ?_
  have := h.2
  unfold Exceeds at *
  rw [sqOf_append, brOf_append, h1, h2]; simpa using this

theorem Ever.opened {l t} (h : Ever l) (ht : t = .flowSequenceStart ∨ t = .flowMappingStart) : Ever (l ++ [t]) := by
  refine h.push ?_
  have := h.2
  unfold Exceeds at *
  rw [sqOf_append, brOf_append]
  have e : 0 ≤ sqOf [t] ∧ 0 ≤ brOf [t] := by rcases ht with rfl | rfl <;> decide
  omega

theorem Ever.insert {a b t} (h : Ever (a ++ b)) (ht : t = .key ∨ t = .flowMappingStart) : Ever (a ++ t :: b) := by
  have hx : ∀ {a b}, Exceeds (a ++ b) → Exceeds (a ++ t :: b) := by
    intro a b h
    unfold Exceeds at *
    rw [sqOf_append, brOf_append, sqOf_cons, brOf_cons]
    rw [sqOf_append, brOf_append] at h
    have e : sqOf [t] = 0 ∧ 0 ≤ brOf [t] := by rcases ht with rfl | rfl <;> decide
    omega
  refine ⟨fun d e hd => ?_, hx h.2⟩
  have big : ∀ d', a ++ d' ++ e = a ++ b → (∀ t' ∈ a ++ t :: d', t' = .streamStart ∨ t' = .key ∨ t' = .blockEnd) ∨ Exceeds (a ++ t :: d') := by
    intro d' hd'
    rcases h.1 (a ++ d') e hd'.symm with h' | h'
    · rcases ht with rfl | rfl
      · left
        intro t' ht'
        simp only [List.mem_append, List.mem_cons] at ht'
        rcases ht' with h1 | h1 | h1
        · exact h' t' (by simp [h1])
        · exact .inr (.inl h1)
        · exact h' t' (by simp [h1])
      · right
        right
        have hz : brOf (a ++ d') = 0 := by
          unfold brOf
          rw [List.count_eq_zero.2 (fun hm => by rcases h' _ hm with h | h | h <;> cases h), List.count_eq_zero.2 (fun hm => by rcases h' _ hm with h | h | h <;> cases h)]
          rfl
        rw [brOf_append] at hz
        rw [brOf_append, brOf_cons, show brOf [TokenType.flowMappingStart] = 1 by decide]
        omega
    · exact .inr (hx h')
  rcases List.append_eq_append_iff.1 hd with ⟨x, h1, h2⟩ | ⟨x, h1, h2⟩
  · cases x with
    | nil =>
      rw [List.append_nil] at h1
      rw [h1]
      exact h.1 a b rfl
    | cons y x =>
      simp at h2
      obtain ⟨rfl, h2⟩ := h2
      rw [h1]
      exact big x (by rw [h2]; simp)
  · exact h.1 d (x ++ b) (by rw [h1]; simp)

section
variable [Pfx]

/-- in a flow collection, with `sa` more `[` than `]` and `b` more `{` than `}` -/
structure InFlow (pre : List TokenType) (s : SSt) (sa b : Int) : Prop where
  noEnd : .streamEnd ∉ pre ++ typesOf s
  sq : sqOf (pre ++ typesOf s) = sa
  br : b + insideOf s.implicitFlowMappingStates ≤ brOf (pre ++ typesOf s)
  lvl : (s.flowLevel : Int) = sa + b
  pos : 0 < s.flowLevel
  runs : Runs s
  ever : Pfx.on → Ever (pre ++ typesOf s)

/-- at a token, or before white space -/
def Ahead (sa b : Int) (s : SSt) : Prop :=
  unclosed s.src.rest .start sa b = true ∨ unclosed s.src.rest .glued sa b = true ∧ s.mark.pos = s.adjacentValueAllowedAt

/-- more opened than closed, before the end of the stream -/
def Excess (l : List TokenType) : Prop := ∃ a c, l = a ++ c ∧ .streamEnd ∉ a ∧ (0 < sqOf a ∨ 0 < brOf a) ∧ (c = [] ∨ ∃ d, c = .streamEnd :: d)

def White (r : List Byte) : Prop := ∀ c ∈ r, c = 32 ∨ c = 9 ∨ c = 10

inductive Open (pre : List TokenType) (s : SSt) : Prop
  | flow {sa b} : InFlow pre s sa b → Ahead sa b s → Open pre s
  | over : Runs s → White s.src.rest → Excess (pre ++ typesOf s) → (Pfx.on → Ever (pre ++ typesOf s)) → Open pre s

theorem InFlow.perm {pre s sa b s' sa' b'} (h : InFlow pre s sa b) (x : List TokenType) (hp : (typesOf s').Perm (typesOf s ++ x)) (hx : .streamEnd ∉ x) (h1 : sa' = sa + sqOf x)
    (h2 : b' + insideOf s'.implicitFlowMappingStates ≤ b + insideOf s.implicitFlowMappingStates + brOf x) (h3 : (s'.flowLevel : Int) = sa' + b') (h4 : 0 < s'.flowLevel)
    (h5 : marksOf s' = marksOf s) (h6 : Ever (pre ++ typesOf s) → Ever (pre ++ typesOf s')) : InFlow pre s' sa' b' := by
  have hp' : (pre ++ typesOf s').Perm (pre ++ (typesOf s ++ x)) := hp.append_left pre
  have e1 : sqOf (pre ++ typesOf s') = sqOf (pre ++ (typesOf s ++ x)) := by unfold sqOf; rw [hp'.count_eq, hp'.count_eq]
  have e2 : brOf (pre ++ typesOf s') = brOf (pre ++ (typesOf s ++ x)) := by unfold brOf; rw [hp'.count_eq, hp'.count_eq]
  have hs := h.sq
  have hb := h.br
  simp only [sqOf_append, brOf_append] at e1 e2 hs hb
  refine ⟨fun hm => ?_, ?_, ?_, h3, h4, h.runs.of h5, fun ho => h6 (h.ever ho)⟩
  · have := hp'.mem_iff.1 hm
    rw [← List.append_assoc, List.mem_append] at this
    exact this.elim h.noEnd hx
  · rw [sqOf_append]; omega
  · rw [brOf_append]; omega

theorem InFlow.frame {pre s sa b s'} (h : InFlow pre s sa b) (f : Fr s s') : InFlow pre s' sa b :=
  h.perm [] (by rw [f.types]; simp) (by simp) (by simp) (by rw [f.states]; simp) (by rw [f.level]; exact h.lvl) (by rw [f.level]; exact h.pos) f.marks
    (by rw [f.types]; exact id)

end

theorem Ever.blocks {l} (h : Ever l) (n : Nat) : Ever (l ++ List.replicate n .blockEnd) := by
  induction n with
  | zero => simpa using h
  | succ n ih =>
    rw [List.replicate_succ', ← List.append_assoc]
    exact ih.neutral (by decide) (by decide)

theorem Excess.end {l} (h : Excess l) : Excess (l ++ [.streamEnd]) := by
  obtain ⟨a, c, rfl, h1, h2, h3⟩ := h
  refine ⟨a, c ++ [.streamEnd], by simp, h1, h2, .inr ?_⟩
  rcases h3 with rfl | ⟨d, rfl⟩
  · exact ⟨[], rfl⟩
  · exact ⟨d ++ [.streamEnd], rfl⟩

theorem Excess.blocks {l} (h : Excess l) (n : Nat) : Excess (l ++ List.replicate n .blockEnd) := by
  obtain ⟨a, c, rfl, h1, h2, h3⟩ := h
  rcases h3 with rfl | ⟨d, rfl⟩
  · refine ⟨a ++ List.replicate n .blockEnd, [], by simp, ?_, ?_, .inl rfl⟩
    · simp [h1, List.mem_replicate]
    · have e1 : sqOf (List.replicate n TokenType.blockEnd) = 0 := by simp [sqOf, List.count_replicate]
      have e2 : brOf (List.replicate n TokenType.blockEnd) = 0 := by simp [brOf, List.count_replicate]
      rw [sqOf_append, brOf_append, e1, e2]
      simpa using h2
  · exact ⟨a, .streamEnd :: (d ++ List.replicate n .blockEnd), by simp, h1, h2, .inr ⟨_, rfl⟩⟩

/-! ## The small steps -/

theorem hd_save {lv} {P : List Byte → Prop} : HdL lv P saveSimpleKey fun _ => P := by
  unfold saveSimpleKey
  refine hd_upd (fun s => ?_) fun s h => ?_
  · split <;> fr
  · split <;> exact h

theorem hd_remove {lv} {P : List Byte → Prop} : HdL lv P removeSimpleKey fun _ => P := by
  intro s a s' _ hs e
  unfold removeSimpleKey at e
  split at e
  · cases e
  · split at e
    · cases e
    · cases e; exact ⟨by fr, hs⟩

theorem hd_rollOne {lv} {P : List Byte → Prop} : HdL lv P rollOneColIndent fun _ => P := by
  unfold rollOneColIndent
  refine hd_upd (fun s => ?_) fun s h => ?_
  · split
    · split <;> fr
    · fr
  · split
    · split <;> exact h
    · exact h

theorem skipNonBlank_open {s a s'} (e : skipNonBlank s = (.ok a, s')) : Fr s s' ∧ s'.src.rest = s.src.rest.drop 1 := by
  cases e
  exact ⟨by fr, rest_skip⟩

theorem stale_fr {s a s'} (e : staleSimpleKeys s = (.ok a, s')) : Fr s s' ∧ s'.src = s.src ∧ s'.mark = s.mark := by
  unfold staleSimpleKeys at e
  split at e
  · cases e
  · cases e; exact ⟨by fr, rfl, rfl⟩

theorem skipWs_ok {x w s a s'} (e : skipWsToEol x w s = (.ok a, s')) : Fr s s' ∧ s'.src.rest = s.src.rest.drop (wsToEol x s.src.rest false w).1 := by
  unfold skipWsToEol at e
  dsimp only at e
  split at e
  · cases e
    refine ⟨by fr, ?_⟩
    unfold Src.skipWsToEol
    exact rest_skip
  · cases e

theorem white_wsp : Wsl White :=
  { blank := fun c r _ h x hx => h x (by simp [hx])
    line := fun r h x hx => h x (by simp [hx])
    hash := fun r h => by have := h 35 (by simp); revert this; decide
    cr := fun r h => by have := h 13 (by simp); revert this; decide }

theorem push_types {sp tt s a s'} (e : push sp tt s = (.ok a, s')) : typesOf s' = typesOf s ++ [tt] ∧ s'.src = s.src ∧ s'.mark = s.mark ∧ s'.flowLevel = s.flowLevel ∧
    s'.implicitFlowMappingStates = s.implicitFlowMappingStates ∧ marksOf s' = marksOf s ∧ s'.adjacentValueAllowedAt = s.adjacentValueAllowedAt := by
  cases e
  simp [typesOf, marksOf]

theorem unrollIndent_ok {c s a s'} (e : unrollIndent c s = (.ok a, s')) : ∃ n, typesOf s' = typesOf s ++ List.replicate n .blockEnd ∧ (0 < s.flowLevel → s' = s) ∧ s'.src = s.src ∧
    marksOf s' = marksOf s := by
  unfold unrollIndent at e
  split at e
  · cases e; exact ⟨0, by simp, fun _ => rfl, rfl, rfl⟩
  · split at e
    · cases e
    · rename_i h0 _ is i n _
      cases e
      exact ⟨n, by simp [typesOf], fun h => absurd h h0, rfl, rfl⟩

theorem streamEnd_ok {s a s'} (e : fetchStreamEnd s = (.ok a, s')) : ∃ n, typesOf s' = typesOf s ++ List.replicate n .blockEnd ++ [.streamEnd] ∧ s'.src = s.src ∧
    marksOf s' = marksOf s := by
  unfold fetchStreamEnd at e
  rw [upd_bind] at e
  generalize hq : (if s.mark.col ≠ 0 then { s with mark := (⟨s.mark.pos, 1, s.mark.line + 1⟩ : Marker) } else s) = q at e
  have q1 : typesOf q = typesOf s ∧ q.src = s.src ∧ marksOf q = marksOf s := by rw [← hq]; split <;> exact ⟨rfl, rfl, rfl⟩
  rw [getMark_bind, gets_bind] at e
  obtain ⟨_, s1, e1, e⟩ := bind_ok e
  have r1 : s1 = q := by
    unfold failIf at e1
    split at e1
    · cases e1
    · cases e1; rfl
  subst r1
  rw [upd_bind] at e
  obtain ⟨_, s2, e2, e⟩ := bind_ok e
  obtain ⟨n, n1, -, n2, n3⟩ := unrollIndent_ok e2
  obtain ⟨_, s3, e3, e⟩ := bind_ok e
  have f3 := hd_remove (P := fun r => r = s2.src.rest) (lv := 0) _ _ _ (Nat.zero_le _) rfl e3
  have g3 : s3.src = s2.src := by
    unfold removeSimpleKey at e3
    split at e3
    · cases e3
    · split at e3
      · cases e3
      · cases e3; rfl
  obtain ⟨_, s4, e4, e⟩ := bind_ok e
  cases e4
  obtain ⟨p1, p2, -, -, -, p3, -⟩ := push_types e
  refine ⟨n, ?_, ?_, ?_⟩
  · rw [p1]
    show typesOf s3 ++ _ = _
    rw [f3.1.types, n1, ← q1.1]
  · rw [p2]
    show s3.src = _
    rw [g3, n2, ← q1.2.1]
  · rw [p3]
    show marksOf s3 = _
    rw [f3.1.marks, n3, ← q1.2.2]
    rfl

theorem endImplicit_ok {m s a s'} (e : endImplicitMapping m s = (.ok a, s')) : ∃ x, typesOf s' = typesOf s ++ x ∧ .streamEnd ∉ x ∧ sqOf x = 0 ∧
    insideOf s'.implicitFlowMappingStates = insideOf s.implicitFlowMappingStates + brOf x ∧ s'.src = s.src ∧ s'.mark = s.mark ∧ s'.flowLevel = s.flowLevel ∧ marksOf s' = marksOf s ∧
    ∀ l, Ever l → Exceeds (l ++ x) → Ever (l ++ x) := by
  unfold endImplicitMapping at e
  cases e
  dsimp only
  split
  · rename_i xs hx
    refine ⟨[.flowMappingEnd], by simp [typesOf], by simp, by decide, ?_, rfl, rfl, rfl, rfl, fun l h hx => h.push hx⟩
    rw [hx]
    simp [insideOf, brOf]
    omega
  · exact ⟨[], by simp, by simp, rfl, by simp, rfl, rfl, rfl, rfl, fun l h _ => by simpa using h⟩

theorem insert_ok {n sp tt s a s'} (e : insertToken n sp tt s = (.ok a, s')) : (typesOf s').Perm (typesOf s ++ [tt]) ∧ s'.src = s.src ∧ s'.mark = s.mark ∧ s'.flowLevel = s.flowLevel ∧
    s'.implicitFlowMappingStates = s.implicitFlowMappingStates ∧ marksOf s' = marksOf s ∧ ∀ pre, tt = .key ∨ tt = .flowMappingStart → Ever (pre ++ typesOf s) → Ever (pre ++ typesOf s') := by
  unfold insertToken at e
  split at e
  · cases e
  · cases e
    refine ⟨?_, rfl, rfl, rfl, rfl, rfl, ?_⟩
    rotate_left
    · intro pre ht h
      generalize n - s.tokensParsed = k
      simp only [typesOf, List.map_append, List.map_cons]
      rw [← List.append_assoc]
      refine Ever.insert ?_ ht
      rw [List.append_assoc, ← List.map_append, List.take_append_drop]
      exact h
    generalize n - s.tokensParsed = k
    simp only [typesOf, List.map_append, List.map_cons]
    refine List.perm_middle.trans ?_
    rw [← List.map_append, List.take_append_drop]
    exact (List.perm_append_singleton _ _).symm

theorem failIf_open {c m msg s a s'} (e : failIf c m msg s = (.ok a, s')) : s' = s ∧ c = false := by
  unfold failIf at e
  split at e
  · cases e
  · cases e; exact ⟨rfl, eq_false_of_ne_true ‹_›⟩

/-! ## Fetching one token in a flow collection -/

variable [Pfx] {cfg : Cfg} {pre : List TokenType} {sa b : Int}

/-- a token that is no bracket, after which a token may begin -/
theorem open_push {s : SSt} {m : SM Unit} {sp tt s1 s'} (h : InFlow pre s sa b) (f : Fr s s1) (hn : Neutral tt) (hr : unclosed s1.src.rest .start sa b = true)
    (e : push sp tt s1 = (.ok (), s')) : Open pre s' := by
  obtain ⟨p1, p2, p3, p4, p5, p6, p7⟩ := push_types e
  refine .flow (h.perm [tt] ?_ ?_ ?_ ?_ ?_ ?_ ?_ ?_ (sa' := sa) (b' := b)) (.inl (by rw [p2]; exact hr))
  · rw [p1, f.types]
  · simpa using hn.1.symm
  · rw [hn.2.1]; omega
  · rw [p5, f.states, hn.2.2]; omega
  · rw [p4, f.level]; exact h.lvl
  · rw [p4, f.level]; exact h.pos
  · rw [p6, f.marks]
  · rw [p1, f.types, ← List.append_assoc]; exact fun ho => ho.neutral hn.2.1 hn.2.2

theorem plain_open {s s' u} (h : InFlow pre s sa b) (hu : unclosed s.src.rest .word sa b = true) (e : fetchPlainScalar cfg s = (.ok u, s')) : Open pre s' := by
  unfold fetchPlainScalar at e
  obtain ⟨_, s1, e1, e⟩ := bind_ok e
  obtain ⟨f1, q1⟩ := hd_save (lv := 1) (P := (unclosed · .word sa b = true)) _ _ _ h.pos hu e1
  obtain ⟨_, s2, e2, e⟩ := bind_ok e
  obtain ⟨f2, q2⟩ := hd_allowed (lv := 1) (P := (unclosed · .word sa b = true)) _ _ _ (by rw [f1.level]; exact h.pos) q1 e2
  obtain ⟨t, s3, e3, e⟩ := bind_ok e
  obtain ⟨f3, q3, q4⟩ := hd_scanPlainScalar _ _ _ (by rw [f2.level, f1.level]; exact h.pos) q2 e3
  exact open_push (m := pure ()) h ((f1.trans f2).trans f3) q3 q4 e

theorem anchor_open {s s' al u} (h : InFlow pre s sa b) (hu : unclosed (s.src.rest.drop 1) .name sa b = true) (e : fetchAnchor cfg al s = (.ok u, s')) : Open pre s' := by
  unfold fetchAnchor at e
  obtain ⟨_, s1, e1, e⟩ := bind_ok e
  obtain ⟨f1, q1⟩ := hd_save (lv := 1) (P := fun r => unclosed (r.drop 1) .name sa b = true) _ _ _ h.pos hu e1
  obtain ⟨_, s2, e2, e⟩ := bind_ok e
  obtain ⟨f2, q2⟩ := hd_allowed (lv := 1) (P := fun r => unclosed (r.drop 1) .name sa b = true) _ _ _ (by rw [f1.level]; exact h.pos) q1 e2
  obtain ⟨t, s3, e3, e⟩ := bind_ok e
  obtain ⟨f3, q3, q4⟩ := hd_scanAnchor _ _ _ (by rw [f2.level, f1.level]; exact h.pos) q2 e3
  exact open_push (m := pure ()) h ((f1.trans f2).trans f3) q3 q4 e

theorem quoted_open {s s' single u} (h : InFlow pre s sa b) (hu : unclosed (s.src.rest.drop 1) (qMode single) sa b = true) (e : fetchFlowScalar cfg single s = (.ok u, s')) :
    Open pre s' := by
  unfold fetchFlowScalar at e
  obtain ⟨_, s1, e1, e⟩ := bind_ok e
  obtain ⟨f1, q1⟩ := hd_save (lv := 1) (P := fun r => unclosed (r.drop 1) (qMode single) sa b = true) _ _ _ h.pos hu e1
  obtain ⟨_, s2, e2, e⟩ := bind_ok e
  obtain ⟨f2, q2⟩ := hd_allowed (lv := 1) (P := fun r => unclosed (r.drop 1) (qMode single) sa b = true) _ _ _ (by rw [f1.level]; exact h.pos) q1 e2
  obtain ⟨t, s3, e3, e⟩ := bind_ok e
  obtain ⟨f3, q3, q4⟩ := hd_scanFlowScalar _ _ _ (by rw [f2.level, f1.level]; exact h.pos) q2 e3
  obtain ⟨_, s4, e4, e⟩ := bind_ok e
  obtain ⟨f4, q5, q6⟩ := hd_skipToNextToken (lv := 0) wsl_quoted _ _ _ (Nat.zero_le _) q4 e4
  obtain ⟨_, s5, e5, e⟩ := bind_ok e
  have f := ((f1.trans f2).trans f3).trans f4
  cases e5
  obtain ⟨p1, p2, p3, p4, p5, p6, p7⟩ := push_types e
  refine .flow (h.perm [t.tt] ?_ ?_ ?_ ?_ ?_ ?_ ?_ ?_ (sa' := sa) (b' := b)) (.inr ⟨by rw [p2]; exact quoted_glued q5 ⟨q6.1, q6.2.1, q6.2.2.1⟩, by rw [p3, p7]⟩)
  · rw [p1]; show (typesOf s4 ++ _).Perm _; rw [f.types]
  · simpa using q3.1.symm
  · rw [q3.2.1]; omega
  · rw [p5]; show _ + insideOf s4.implicitFlowMappingStates ≤ _; rw [f.states, q3.2.2]; omega
  · rw [p4]; show ((s4.flowLevel : Nat) : Int) = _; rw [f.level]; exact h.lvl
  · rw [p4]; show 0 < s4.flowLevel; rw [f.level]; exact h.pos
  · rw [p6]; exact f.marks
  · rw [p1]; show _ → Ever (pre ++ (typesOf s4 ++ _)); rw [f.types, ← List.append_assoc]; exact fun ho => ho.neutral q3.2.1 q3.2.2

theorem entry_open {s s' u} (h : InFlow pre s sa b) (hu : unclosed (s.src.rest.drop 1) .start sa b = true) (e : fetchFlowEntry s = (.ok u, s')) : Open pre s' := by
  unfold fetchFlowEntry at e
  obtain ⟨_, s1, e1, e⟩ := bind_ok e
  obtain ⟨f1, q1⟩ := hd_remove (lv := 0) (P := fun r => r = s.src.rest) _ _ _ (Nat.zero_le _) rfl e1
  obtain ⟨_, s2, e2, e⟩ := bind_ok e
  obtain ⟨f2, q2⟩ := hd_allowed (lv := 0) (P := fun r => r = s.src.rest) _ _ _ (Nat.zero_le _) q1 e2
  rw [getMark_bind] at e
  obtain ⟨_, s3, e3, e⟩ := bind_ok e
  obtain ⟨x, x1, x2, x3, x4, x5, x6, x7, x8, x9⟩ := endImplicit_ok e3
  obtain ⟨_, s4, e4, e⟩ := bind_ok e
  obtain ⟨f4, q4⟩ := skipNonBlank_open e4
  obtain ⟨_, s5, e5, e⟩ := bind_ok e
  obtain ⟨f5, q5⟩ := skipWs_ok e5
  rw [getMark_bind] at e
  obtain ⟨p1, p2, p3, p4, p5, p6, p7⟩ := push_types e
  have f12 := f1.trans f2
  have f45 := f4.trans f5
  refine .flow (h.perm (x ++ [.flowEntry]) ?_ ?_ ?_ ?_ ?_ ?_ ?_ ?_ (sa' := sa) (b' := b)) (.inl ?_)
  · rw [p1, f45.types, x1, f12.types, List.append_assoc]
  · simp [x2]
  · rw [sqOf_append, x3]; show sa = sa + (0 + 0); omega
  · rw [p5, f45.states, x4, f12.states, brOf_append]; show b + _ ≤ _ + (_ + 0); omega
  · rw [p4, f45.level, x7, f12.level]; exact h.lvl
  · rw [p4, f45.level, x7, f12.level]; exact h.pos
  · rw [p6, f45.marks, x8, f12.marks]
  · rw [p1, f45.types, x1, f12.types, ← List.append_assoc, ← List.append_assoc]
    refine fun ho => Ever.neutral ?_ (by decide) (by decide)
    refine x9 _ ho ?_
    have hb := h.br
    have hs := h.sq
    have hl := h.lvl
    have hp := h.pos
    have hi := insideOf_nonneg s3.implicitFlowMappingStates
    rw [f12.states] at x4
    unfold Exceeds
    rw [sqOf_append, brOf_append, x3]
    omega
  · rw [p2, q5, q4, x5, q2]
    exact ws_drop wsl_start.toWsp _ _ _ hu

theorem key_open {s s' u} (h : InFlow pre s sa b) (hu : unclosed (s.src.rest.drop 1) .start sa b = true) (e : fetchKey cfg s = (.ok u, s')) : Open pre s' := by
  unfold fetchKey at e
  rw [getMark_bind] at e
  obtain ⟨_, s1, e1, e⟩ := bind_ok e
  have hk : HdL 1 (fun r => unclosed (r.drop 1) .start sa b = true) (fetchKeyStart s.mark) fun _ r => unclosed (r.drop 1) .start sa b = true := by
    unfold fetchKeyStart
    refine hd_bind (Q := fun fl r => unclosed (r.drop 1) .start sa b = true ∧ 0 < fl) (hd_gets fun s hl h => ⟨h, hl⟩) fun fl => hd_ite (fun h0 => ?_) fun _ => hd_upd (fun _ => by fr) fun _ h => h.1
    intro s a s' _ hs _
    rw [h0] at hs
    exact absurd hs.2 (by decide)
  obtain ⟨f1, q1⟩ := hk _ _ _ h.pos hu e1
  have hm : ∀ (start : Marker), HdL 1 (fun r => unclosed (r.drop 1) .start sa b = true) (do
      removeSimpleKey
      upd fun s => { s with simpleKeyAllowed := s.flowLevel == 0 }
      skipNonBlank
      skipYamlWhitespace cfg) fun _ r => unclosed r .start sa b = true := fun start =>
    hd_bind hd_remove fun _ => hd_bind (Q := fun _ r => unclosed (r.drop 1) .start sa b = true) (hd_upd (fun _ => by fr) fun _ h => h) fun _ =>
      hd_bind (Q := fun _ r => unclosed r .start sa b = true) (hd_skipNonBlank fun _ h => h) fun _ => hd_skipYamlWhitespace wsl_start
  obtain ⟨_, s2, e2, e⟩ := bind_ok e
  obtain ⟨f2, q2⟩ := hd_remove (lv := 0) (P := fun r => unclosed (r.drop 1) .start sa b = true) _ _ _ (Nat.zero_le _) q1 e2
  rw [upd_bind] at e
  obtain ⟨_, s3, e3, e⟩ := bind_ok e
  obtain ⟨f3, q3⟩ := skipNonBlank_open e3
  obtain ⟨_, s4, e4, e⟩ := bind_ok e
  obtain ⟨f4, q4⟩ := hd_skipYamlWhitespace (lv := 0) (wsl_start (sa := sa) (b := b)) _ _ _ (Nat.zero_le _) (by rw [q3]; exact q2) e4
  rw [peekz_bind, getMark_bind] at e
  obtain ⟨_, s5, e5, e⟩ := bind_ok e
  obtain ⟨rfl, -⟩ := failIf_open e5
  have f2' : Fr s2 { s2 with simpleKeyAllowed := s2.flowLevel == 0 } := by fr
  exact open_push (m := pure ()) h ((((f1.trans f2).trans f2').trans f3).trans f4) ⟨by decide, by decide, by decide⟩ q4 e

omit [Pfx] in
/-- what `:` does to the queue -/
theorem valueAfter_ok {sk start implicit s u s'} (hl : 0 < s.flowLevel) (e : valueAfterKey sk start implicit s = (.ok u, s')) :
    ∃ x, (typesOf s').Perm (typesOf s ++ x) ∧ .streamEnd ∉ x ∧ sqOf x = 0 ∧ (brOf x = if implicit then 1 else 0) ∧ s'.src = s.src ∧ s'.flowLevel = s.flowLevel ∧
      s'.implicitFlowMappingStates = s.implicitFlowMappingStates ∧ marksOf s' = marksOf s ∧ ∀ pre, Ever (pre ++ typesOf s) → Ever (pre ++ typesOf s') := by
  have rollOne_src : ∀ {s u s'}, rollOneColIndent s = (.ok u, s') → s'.src = s.src := by
    intro s u s' e
    unfold rollOneColIndent at e
    cases e
    dsimp only
    split
    · split <;> rfl
    · rfl
  unfold valueAfterKey at e
  split at e
  · unfold valueAfterSimpleKey at e
    obtain ⟨_, s1, e1, e⟩ := bind_ok e
    obtain ⟨i1, i2, i3, i4, i5, i6, i7⟩ := insert_ok e1
    obtain ⟨_, s2, e2, e⟩ := bind_ok e
    obtain ⟨y, y1, y2, y3, y4, y5, y6, y7, y8, y9⟩ : ∃ y, (typesOf s2).Perm (typesOf s1 ++ y) ∧ .streamEnd ∉ y ∧ sqOf y = 0 ∧ (brOf y = if implicit then 1 else 0) ∧ s2.src = s1.src ∧ s2.flowLevel = s1.flowLevel ∧
      s2.implicitFlowMappingStates = s1.implicitFlowMappingStates ∧ marksOf s2 = marksOf s1 ∧ ∀ pre, Ever (pre ++ typesOf s1) → Ever (pre ++ typesOf s2) := by
      unfold when at e2
      split at e2
      · rename_i hi
        obtain ⟨_, s3, e3, e2'⟩ := bind_ok e2
        obtain ⟨z3, -⟩ := failIf_open e3
        rw [z3] at e2'
        obtain ⟨j1, j2, j3, j4, j5, j6, j7⟩ := insert_ok e2'
        exact ⟨_, j1, by simp, by decide, by rw [if_pos hi]; decide, j2, j4, j5, j6, fun pre => j7 pre (.inr rfl)⟩
      · rename_i hi
        cases e2
        exact ⟨[], by simp, by simp, rfl, by rw [if_neg hi]; rfl, rfl, rfl, rfl, rfl, fun _ => id⟩
    obtain ⟨_, s3, e3, e⟩ := bind_ok e
    have r3 : s3 = s2 := by
      unfold rollIndent at e3
      rw [gets_bind, if_pos (by rw [y6, i4]; exact hl)] at e3
      cases e3; rfl
    rw [r3] at e
    obtain ⟨_, s4, e4, e⟩ := bind_ok e
    obtain ⟨f4, -⟩ := hd_rollOne (lv := 0) (P := fun _ => True) _ _ _ (Nat.zero_le _) trivial e4
    have g4 := rollOne_src e4
    cases e
    refine ⟨[.key] ++ y, ?_, by simp [y2], by rw [sqOf_append, y3]; decide, by rw [brOf_append, y4]; show (0 : Int) + _ = _; omega, ?_, ?_, ?_, ?_, ?_⟩
    · show (typesOf s4).Perm _
      rw [f4.types]
      refine y1.trans ?_
      rw [← List.append_assoc]
      exact i1.append_right y
    · show s4.src = _
      rw [g4, y5, i2]
    · show s4.flowLevel = _
      rw [f4.level, y6, i4]
    · show s4.implicitFlowMappingStates = _
      rw [f4.states, y7, i5]
    · show marksOf s4 = _
      rw [f4.marks, y8, i6]
    · intro pre ho
      show Ever (pre ++ typesOf s4)
      rw [f4.types]
      exact y9 pre (i7 pre (.inl rfl) ho)
  · unfold valueAfterComplexKey at e
    obtain ⟨_, s2, e2, e⟩ := bind_ok e
    obtain ⟨y, y1, y2, y3, y4, y5, y6, y7, y8, y9⟩ : ∃ y, typesOf s2 = typesOf s ++ y ∧ .streamEnd ∉ y ∧ sqOf y = 0 ∧ (brOf y = if implicit then 1 else 0) ∧ s2.src = s.src ∧ s2.flowLevel = s.flowLevel ∧
      s2.implicitFlowMappingStates = s.implicitFlowMappingStates ∧ marksOf s2 = marksOf s ∧ ∀ pre, Ever (pre ++ typesOf s) → Ever (pre ++ typesOf s2) := by
      unfold when at e2
      split at e2
      · rename_i hi
        obtain ⟨p1, p2, p3, p4, p5, p6, p7⟩ := push_types e2
        exact ⟨_, p1, by simp, by decide, by rw [if_pos hi]; decide, p2, p4, p5, p6, fun pre ho => by rw [p1, ← List.append_assoc]; exact ho.opened (.inr rfl)⟩
      · rename_i hi
        cases e2
        exact ⟨[], by simp, by simp, rfl, by rw [if_neg hi]; rfl, rfl, rfl, rfl, rfl, fun _ => id⟩
    rw [gets_bind] at e
    obtain ⟨_, s3, e3, e⟩ := bind_ok e
    have r3 : s3 = s2 := by
      unfold when at e3
      rw [if_neg (by rw [y6]; simp; omega)] at e3
      cases e3; rfl
    rw [r3] at e
    obtain ⟨_, s4, e4, e⟩ := bind_ok e
    obtain ⟨f4, -⟩ := hd_rollOne (lv := 0) (P := fun _ => True) _ _ _ (Nat.zero_le _) trivial e4
    have g4 := rollOne_src e4
    cases e
    refine ⟨y, ?_, y2, y3, y4, ?_, ?_, ?_, ?_, ?_⟩
    · show (typesOf s4).Perm _
      rw [f4.types, y1]
    · show s4.src = _
      rw [g4, y5]
    · show s4.flowLevel = _
      rw [f4.level, y6]
    · show s4.implicitFlowMappingStates = _
      rw [f4.states, y7]
    · show marksOf s4 = _
      rw [f4.marks, y8]
    · intro pre ho
      show Ever (pre ++ typesOf s4)
      rw [f4.types]
      exact y9 pre ho

theorem value_open {s s' u} (h : InFlow pre s sa b) (hu : unclosed (s.src.rest.drop 1) .start sa b = true) (e : fetchValue s = (.ok u, s')) : Open pre s' := by
  unfold fetchValue at e
  rw [gets_bind] at e
  cases hk : s.simpleKeys with
  | nil => rw [hk] at e; cases e
  | cons sk ks =>
    rw [hk] at e
    dsimp only at e
    rw [getMark_bind, gets_bind] at e
    generalize himp : (!s.implicitFlowMappingStates.isEmpty && !s.flowMappingStarted) = implicit at e
    obtain ⟨_, s1, e1, e⟩ := bind_ok e
    obtain ⟨w1, w2, w3, w4, w5⟩ : typesOf s1 = typesOf s ∧ s1.src = s.src ∧ s1.flowLevel = s.flowLevel ∧ marksOf s1 = marksOf s ∧
        insideOf s1.implicitFlowMappingStates ≤ insideOf s.implicitFlowMappingStates + if implicit then 1 else 0 := by
      unfold when at e1
      split at e1
      · rename_i hi
        cases e1
        refine ⟨rfl, rfl, rfl, rfl, ?_⟩
        show insideOf (_ :: s.implicitFlowMappingStates.tail) ≤ _
        rw [if_pos hi]
        cases s.implicitFlowMappingStates with
        | nil => decide
        | cons a as => simp only [insideOf, List.tail_cons, List.count_cons]; split <;> simp <;> omega
      · rename_i hi
        cases e1
        exact ⟨rfl, rfl, rfl, rfl, by rw [if_neg hi]; omega⟩
    obtain ⟨_, s2, e2, e⟩ := bind_ok e
    have hc : HdL 1 (fun r => unclosed (r.drop 1) .start sa b = true) skipColon fun _ r => unclosed r .start sa b = true := by
      unfold skipColon
      refine hd_bind (Q := fun _ r => unclosed r .start sa b = true) (hd_skipNonBlank fun _ h => h) fun _ => hd_bind hd_peekz fun c => ?_
      refine hd_pre (P' := (unclosed · .start sa b = true)) ?_ fun r hr => hr.1
      exact hd_ite (fun _ => hd_bind (hd_skipWs wsl_start.toWsp) fun _ => hd_bind hd_any fun _ => hd_bind hd_any fun _ => hd_pass) fun _ => hd_pure fun _ h => h
    obtain ⟨f2, q2⟩ := hc _ _ _ (by rw [w3]; exact h.pos) (by rw [w2]; exact hu) e2
    obtain ⟨_, s3, e3, e⟩ := bind_ok e
    obtain ⟨x, x1, x2, x3, x4, x5, x6, x7, x8, x9⟩ := valueAfter_ok (by rw [f2.level, w3]; exact h.pos) e3
    obtain ⟨p1, p2, p3, p4, p5, p6, p7⟩ := push_types e
    refine .flow (h.perm (x ++ [.value]) ?_ ?_ ?_ ?_ ?_ ?_ ?_ ?_ (sa' := sa) (b' := b)) (.inl ?_)
    · rw [p1, ← List.append_assoc]
      refine List.Perm.append_right _ ?_
      rw [← w1, ← f2.types]
      exact x1
    · simp [x2]
    · rw [sqOf_append, x3]; show sa = sa + (0 + 0); omega
    · rw [p5, x7, f2.states, brOf_append, x4]; show b + _ ≤ _ + (_ + 0); omega
    · rw [p4, x6, f2.level, w3]; exact h.lvl
    · rw [p4, x6, f2.level, w3]; exact h.pos
    · rw [p6, x8, f2.marks, w4]
    · rw [p1, ← List.append_assoc]
      refine fun ho => (x9 pre ?_).neutral (by decide) (by decide)
      rw [f2.types, w1]; exact ho
    · rw [p2, x5]; exact q2

omit [Pfx] in
/-- the state after an opening bracket -/
theorem flowStart_ok {tt s u s'} (e : fetchFlowStart tt s = (.ok u, s')) : typesOf s' = typesOf s ++ [tt] ∧ s'.flowLevel = s.flowLevel + 1 ∧ marksOf s' = marksOf s ∧
    insideOf s'.implicitFlowMappingStates = insideOf s.implicitFlowMappingStates ∧ s'.src.rest = (s.src.rest.drop 1).drop (wsToEol true (s.src.rest.drop 1) false false).1 := by
  unfold fetchFlowStart at e
  obtain ⟨_, s1, e1, e⟩ := bind_ok e
  obtain ⟨f1, q1⟩ := hd_save (lv := 0) (P := fun r => r = s.src.rest) _ _ _ (Nat.zero_le _) rfl e1
  obtain ⟨_, s2, e2, e⟩ := bind_ok e
  obtain ⟨f2, q2⟩ := hd_rollOne (lv := 0) (P := fun r => r = s.src.rest) _ _ _ (Nat.zero_le _) q1 e2
  have f := f1.trans f2
  obtain ⟨_, s3, e3, e⟩ := bind_ok e
  cases e3
  obtain ⟨_, s4, e4, e⟩ := bind_ok e
  cases e4
  rw [getMark_bind] at e
  obtain ⟨_, s5, e5, e⟩ := bind_ok e
  obtain ⟨f5, q5⟩ := skipNonBlank_open e5
  obtain ⟨_, s6, e6, e⟩ := bind_ok e
  have h6 : typesOf s6 = typesOf s5 ∧ s6.src = s5.src ∧ s6.flowLevel = s5.flowLevel ∧ marksOf s6 = marksOf s5 ∧ insideOf s6.implicitFlowMappingStates = insideOf s5.implicitFlowMappingStates := by
    unfold noteFlowStart at e6
    split at e6 <;> cases e6
    · exact ⟨rfl, rfl, rfl, rfl, rfl⟩
    · refine ⟨rfl, rfl, rfl, rfl, ?_⟩
      simp [insideOf]
  obtain ⟨_, s7, e7, e⟩ := bind_ok e
  obtain ⟨f7, q7⟩ := skipWs_ok e7
  rw [getMark_bind] at e
  obtain ⟨p1, p2, p3, p4, p5, p6, p7⟩ := push_types e
  refine ⟨?_, ?_, ?_, ?_, ?_⟩
  · rw [p1, f7.types, h6.1, f5.types]
    show typesOf s2 ++ _ = _
    rw [f.types]
  · rw [p4, f7.level, h6.2.2.1, f5.level]
    show s2.flowLevel + 1 = _
    rw [f.level]
  · rw [p6, f7.marks, h6.2.2.2.1, f5.marks]
    exact f.marks
  · rw [p5, f7.states, h6.2.2.2.2, f5.states]
    show insideOf s2.implicitFlowMappingStates = _
    rw [f.states]
  · rw [p2, q7, h6.2.1, q5]
    show (s2.src.rest.drop 1).drop _ = _
    rw [q2]

omit [Pfx] in
/-- the state after a closing bracket -/
theorem flowEnd_ok {tt s u s'} (h0 : 0 < s.flowLevel) (e : fetchFlowEnd tt s = (.ok u, s')) : ∃ x, typesOf s' = typesOf s ++ x ++ [tt] ∧ .streamEnd ∉ x ∧ sqOf x = 0 ∧
    insideOf s'.implicitFlowMappingStates ≤ insideOf s.implicitFlowMappingStates + brOf x ∧ s'.flowLevel = s.flowLevel - 1 ∧ marksOf s' = marksOf s ∧
    s'.src.rest = (s.src.rest.drop 1).drop (wsToEol true (s.src.rest.drop 1) false false).1 ∧ (0 < s'.flowLevel → s'.mark.pos = s'.adjacentValueAllowedAt) ∧ ∀ l, Ever l → Exceeds (l ++ x) → Ever (l ++ x) := by
  unfold fetchFlowEnd at e
  obtain ⟨_, s1, e1, e⟩ := bind_ok e
  obtain ⟨f1, q1⟩ := hd_remove (lv := 0) (P := fun r => r = s.src.rest) _ _ _ (Nat.zero_le _) rfl e1
  obtain ⟨_, s2, e2, e⟩ := bind_ok e
  have h2 : typesOf s2 = typesOf s1 ∧ s2.src = s1.src ∧ s2.flowLevel = s1.flowLevel - 1 ∧ marksOf s2 = marksOf s1 ∧ s2.implicitFlowMappingStates = s1.implicitFlowMappingStates := by
    unfold decreaseFlowLevel at e2
    rw [if_pos (by rw [f1.level]; exact h0)] at e2
    split at e2
    · cases e2
    · cases e2; exact ⟨rfl, rfl, rfl, rfl, rfl⟩
  obtain ⟨_, s3, e3, e⟩ := bind_ok e
  cases e3
  rw [getMark_bind] at e
  obtain ⟨_, s4, e4, e⟩ := bind_ok e
  obtain ⟨x, x1, x2, x3, x4, x5, x6, x7, x9⟩ : ∃ x, typesOf s4 = typesOf s2 ++ x ∧ .streamEnd ∉ x ∧ sqOf x = 0 ∧
      insideOf s4.implicitFlowMappingStates ≤ insideOf s2.implicitFlowMappingStates + brOf x ∧ s4.src = s2.src ∧ s4.flowLevel = s2.flowLevel ∧ marksOf s4 = marksOf s2 ∧
      ∀ l, Ever l → Exceeds (l ++ x) → Ever (l ++ x) := by
    unfold when at e4
    split at e4
    · obtain ⟨_, s5, e5, e4⟩ := bind_ok e4
      obtain ⟨x, x1, x2, x3, x4, x5, x6, x7, x8, x9⟩ := endImplicit_ok e5
      cases e4
      refine ⟨x, x1, x2, x3, ?_, x5, x7, x8, x9⟩
      refine Int.le_trans ?_ (Int.le_of_eq x4)
      show insideOf s5.implicitFlowMappingStates.tail ≤ _
      cases s5.implicitFlowMappingStates with
      | nil => exact Int.le_refl _
      | cons a as => simp only [insideOf, List.tail_cons, List.count_cons]; omega
    · cases e4
      exact ⟨[], by simp [typesOf], by simp, rfl, by simp, rfl, rfl, rfl, fun l h _ => by simpa using h⟩
  obtain ⟨_, s5, e5, e⟩ := bind_ok e
  obtain ⟨f5, q5⟩ := skipNonBlank_open e5
  obtain ⟨_, s6, e6, e⟩ := bind_ok e
  obtain ⟨f6, q6⟩ := skipWs_ok e6
  rw [upd_bind, getMark_bind] at e
  obtain ⟨p1, p2, p3, p4, p5, p6, p7⟩ := push_types e
  have k : typesOf (if s6.flowLevel > 0 then { s6 with adjacentValueAllowedAt := s6.mark.pos } else s6) = typesOf s6 ∧
      (if s6.flowLevel > 0 then { s6 with adjacentValueAllowedAt := s6.mark.pos } else s6).src = s6.src ∧
      (if s6.flowLevel > 0 then { s6 with adjacentValueAllowedAt := s6.mark.pos } else s6).flowLevel = s6.flowLevel ∧
      marksOf (if s6.flowLevel > 0 then { s6 with adjacentValueAllowedAt := s6.mark.pos } else s6) = marksOf s6 ∧
      (if s6.flowLevel > 0 then { s6 with adjacentValueAllowedAt := s6.mark.pos } else s6).implicitFlowMappingStates = s6.implicitFlowMappingStates ∧
      (0 < s6.flowLevel → (if s6.flowLevel > 0 then { s6 with adjacentValueAllowedAt := s6.mark.pos } else s6).mark.pos =
        (if s6.flowLevel > 0 then { s6 with adjacentValueAllowedAt := s6.mark.pos } else s6).adjacentValueAllowedAt) := by
    split
    · exact ⟨rfl, rfl, rfl, rfl, rfl, fun _ => rfl⟩
    · exact ⟨rfl, rfl, rfl, rfl, rfl, fun h => absurd h ‹_›⟩
  have f56 := f5.trans f6
  have hlv : s'.flowLevel = s6.flowLevel := by rw [p4, k.2.2.1]
  refine ⟨x, ?_, x2, x3, ?_, ?_, ?_, ?_, fun hp => ?_, x9⟩
  · rw [p1, k.1, f56.types, x1, h2.1, f1.types]
  · rw [p5, k.2.2.2.2.1, f56.states, ← f1.states, ← h2.2.2.2.2]; exact x4
  · rw [hlv, f56.level, x6, h2.2.2.1, f1.level]
  · rw [p6, k.2.2.2.1, f56.marks, x7, h2.2.2.2.1, f1.marks]
  · rw [p2, k.2.1, q6, q5, x5, h2.2.1, q1]
  · rw [p3, p7]
    exact k.2.2.2.2.2 (by rw [← hlv]; exact hp)

theorem start_open {s s' u} (h : InFlow pre s sa b) {c} (hc : c = 91 ∧ unclosed (s.src.rest.drop 1) .start (sa + 1) b = true ∧ TokenType.flowSequenceStart = tt ∨
      c = 123 ∧ unclosed (s.src.rest.drop 1) .start sa (b + 1) = true ∧ TokenType.flowMappingStart = tt) (e : fetchFlowStart tt s = (.ok u, s')) : Open pre s' := by
  obtain ⟨h1, h2, h3, h4, h5⟩ := flowStart_ok e
  rcases hc with ⟨-, hu, rfl⟩ | ⟨-, hu, rfl⟩
  · refine .flow (h.perm [.flowSequenceStart] (by rw [h1]) (by simp) (by rw [show sqOf [TokenType.flowSequenceStart] = 1 by decide]) ?_ ?_ (by omega) h3 (by rw [h1, ← List.append_assoc]; exact fun ho => ho.opened (.inl rfl)) (b' := b)) (.inl ?_)
    · rw [h4, show brOf [TokenType.flowSequenceStart] = 0 by decide]; omega
    · have := h.lvl
      rw [h2]; omega
    · rw [h5]; exact ws_drop wsl_start.toWsp _ _ _ hu
  · refine .flow (h.perm [.flowMappingStart] (by rw [h1]) (by simp) (by rw [show sqOf [TokenType.flowMappingStart] = 0 by decide]; omega) ?_ ?_ (by omega) h3 (by rw [h1, ← List.append_assoc]; exact fun ho => ho.opened (.inr rfl)) (sa' := sa) (b' := b + 1)) (.inl ?_)
    · rw [h4, show brOf [TokenType.flowMappingStart] = 1 by decide]; omega
    · have := h.lvl
      rw [h2]; omega
    · rw [h5]; exact ws_drop wsl_start.toWsp _ _ _ hu

theorem end_open {tt s s' u} (h : InFlow pre s sa b) {sa' b'} (hs : sa' = sa + sqOf [tt]) (hb : b' = b + brOf [tt]) (h1 : sa' + b' = sa + b - 1) (ht : tt ≠ .streamEnd)
    (hu : if 1 < sa + b then unclosed (s.src.rest.drop 1) .glued sa' b' = true else (0 < sa' ∨ 0 < b') ∧ White (s.src.rest.drop 1)) (e : fetchFlowEnd tt s = (.ok u, s')) : Open pre s' := by
  obtain ⟨x, x1, x2, x3, x4, x5, x6, x7, x8, x9⟩ := flowEnd_ok h.pos e
  have hl := h.lvl
  have hp := h.pos
  have hev : Exceeds (pre ++ typesOf s') → Ever (pre ++ typesOf s) → Ever (pre ++ typesOf s') := by
    intro hx ho
    rw [x1, ← List.append_assoc, ← List.append_assoc] at hx ⊢
    refine (x9 _ ho ?_).push hx
    have hb' := h.br
    have hs' := h.sq
    have hi := insideOf_nonneg s'.implicitFlowMappingStates
    unfold Exceeds
    rw [sqOf_append, brOf_append, x3]
    omega
  split at hu
  · refine .flow (h.perm (x ++ [tt]) (by rw [x1, List.append_assoc]) (by simp [x2, ht.symm]) ?_ ?_ ?_ ?_ x6 (hev ?_) (sa' := sa') (b' := b')) (.inr ⟨?_, x8 (by omega)⟩)
    · rw [sqOf_append, x3]; omega
    · rw [brOf_append]; omega
    · omega
    · omega
    · have h2 := h.sq
      have h3 := h.br
      have h4 := insideOf_nonneg s'.implicitFlowMappingStates
      unfold Exceeds
      rw [x1]
      simp only [sqOf_append, brOf_append] at h2 h3 ⊢
      omega
    · rw [x7]; exact ws_drop wsl_glued.toWsp _ _ _ hu
  · have hx : Exceeds (pre ++ typesOf s') := by
      have h2 := h.sq
      have h3 := h.br
      have h4 := insideOf_nonneg s'.implicitFlowMappingStates
      unfold Exceeds
      rw [x1]
      simp only [sqOf_append, brOf_append] at h2 h3 ⊢
      omega
    refine .over (h.runs.of x6) (by rw [x7]; exact ws_drop white_wsp.toWsp _ _ _ hu.2) ⟨pre ++ typesOf s', [], by simp, ?_, hx, .inl rfl⟩ fun ho => hev hx (h.ever ho)
    · rw [x1]
      have := h.noEnd
      simp only [List.mem_append, not_or, List.mem_singleton] at this ⊢
      exact ⟨this.1, ⟨⟨this.2, x2⟩, ht.symm⟩⟩

omit [Pfx] in
/-- where a word begins -/
theorem unclosed_to_word {c r m} (hm : m = .start ∨ m = .glued) (hc : c ≠ 9 ∧ c ≠ 10 ∧ c ≠ 32 ∧ c ≠ 58 ∧ c ≠ 34 ∧ c ≠ 39 ∧ c ≠ 38 ∧ c ≠ 42)
    (hq : ¬ (c = 63 ∧ r.head?.all (bs!" \t\n".contains ·) = true)) (h : unclosed (c :: r) m sa b = true) : unclosed (c :: r) .word sa b = true := by
  have hp : PlainMode m := hm.elim (fun h => .inl h) fun h => .inr (.inl h)
  rw [unclosed_plain hp] at h
  rw [unclosed_plain plain_word]
  obtain ⟨c1, c2, c3, c4, c5, c6, c7, c8⟩ := hc
  have hw : m ≠ .word := by rcases hm with rfl | rfl <;> decide
  have hn : m ≠ .name := by rcases hm with rfl | rfl <;> decide
  rw [if_neg (show ¬ (m = .word) from hw), if_neg (show ¬ (c = 32 ∨ c = 9 ∨ c = 10) by simp [c1, c2, c3]), if_neg (show ¬ (m = .name) from hn), if_neg (show ¬ (c = 58) from c4), if_neg (show ¬ (c = 34) from c5),
    if_neg (show ¬ (c = 39) from c6), if_neg (show ¬ (c = 38 ∨ c = 42) by simp [c7, c8]), if_neg hq] at h
  rw [if_pos (show Mode.word = Mode.word from rfl)]
  by_cases hx : c = 33 ∨ c = 37
  · rw [if_pos hx] at h
    rcases hx with rfl | rfl
    · simp at h
    · simp at h
  · rw [if_neg hx] at h
    exact h

omit [Pfx] in
theorem white_all {r : List Byte} (h : r.all (bs!" \t\n".contains ·) = true) : White r := by
  intro c hc
  have := List.all_eq_true.1 h c hc
  simp at this
  omega

/-- at a token in a flow collection -/
theorem main_open {s s' u c r} (h : InFlow pre s sa b) (hr : s.src.rest = c :: r) (hb : c ≠ 9 ∧ c ≠ 32 ∧ c ≠ 10) (ha : Ahead sa b s) (e : fetchMain cfg s = (.ok u, s')) : Open pre s' := by
  obtain ⟨m, hm, hu, hadj⟩ : ∃ m, (m = .start ∨ m = .glued) ∧ unclosed (c :: r) m sa b = true ∧ (m = .glued → s.mark.pos = s.adjacentValueAllowedAt) := by
    rw [Ahead, hr] at ha
    rcases ha with ha | ha
    · exact ⟨_, .inl rfl, ha, fun h => by cases h⟩
    · exact ⟨_, .inr rfl, ha.1, fun _ => ha.2⟩
  have hp : PlainMode m := hm.elim (fun h => .inl h) fun h => .inr (.inl h)
  have hw : m ≠ .word := by rcases hm with rfl | rfl <;> decide
  have hn : m ≠ .name := by rcases hm with rfl | rfl <;> decide
  have h0 := unclosed_clean hp hu
  have hd : s.src.rest.drop 1 = r := by rw [hr]; rfl
  have hdirty : ∀ {x r'} {m'}, PlainMode m' → r = x :: r' → (x = 0 ∨ x = 13) → unclosed r m' sa b = true → False := by
    intro x r' m' hp' hx hx' hy
    rw [hx] at hy
    have := unclosed_clean hp' hy
    omega
  have hpe : s.src.peekz 1 = r.head?.getD 0 := by
    unfold Src.peekz
    rw [hr]
    cases r <;> rfl
  have hpc : s.src.peekz 0 = c := by unfold Src.peekz; rw [hr]; rfl
  unfold fetchMain at e
  rw [peekz_bind, peekz_bind, gets_bind, gets_bind, hpc, hpe] at e
  have hU := hu
  rw [unclosed_plain hp] at hU
  rw [if_neg (by simpa [not_or] using h0)] at hU
  by_cases c1 : c = 91
  · rw [if_pos c1] at e hU
    exact start_open h (.inl ⟨c1, by rw [hd]; exact hU, rfl⟩) e
  rw [if_neg c1] at e hU
  by_cases c2 : c = 123
  · rw [if_pos c2] at e hU
    exact start_open h (.inr ⟨c2, by rw [hd]; exact hU, rfl⟩) e
  rw [if_neg c2] at e hU
  by_cases c3 : c = 93
  · rw [if_pos c3] at e hU
    refine end_open h (sa' := sa - 1) (b' := b) (by rw [show sqOf [TokenType.flowSequenceEnd] = -1 by decide]; omega) (by rw [show brOf [TokenType.flowSequenceEnd] = 0 by decide]; omega) (by omega) (by decide) ?_ e
    rw [hd]
    split
    · rename_i h1; rw [if_pos h1] at hU; exact hU
    · rename_i h1
      rw [if_neg h1, Bool.and_eq_true, decide_eq_true_eq] at hU
      exact ⟨hU.1, white_all hU.2⟩
  rw [if_neg c3] at e hU
  by_cases c4 : c = 125
  · rw [if_pos c4] at e hU
    refine end_open h (sa' := sa) (b' := b - 1) (by rw [show sqOf [TokenType.flowMappingEnd] = 0 by decide]; omega) (by rw [show brOf [TokenType.flowMappingEnd] = -1 by decide]; omega) (by omega) (by decide) ?_ e
    rw [hd]
    split
    · rename_i h1; rw [if_pos h1] at hU; exact hU
    · rename_i h1
      rw [if_neg h1, Bool.and_eq_true, decide_eq_true_eq] at hU
      exact ⟨hU.1, white_all hU.2⟩
  rw [if_neg c4] at e hU
  by_cases c5 : c = 44
  · rw [if_pos c5] at e hU
    exact entry_open h (by rw [hd]; exact hU) e
  rw [if_neg c5] at e hU
  by_cases c6 : c = 45 ∧ isBlankOrBreakz (r.head?.getD 0) = true
  · rw [if_pos c6] at e
    unfold fetchBlockEntry at e
    rw [getMark_bind, gets_bind, show decide (s.flowLevel > 0) = true from decide_eq_true h.pos] at e
    cases e
  rw [if_neg c6] at e
  by_cases c7 : c = 63 ∧ isBlankOrBreakz (r.head?.getD 0) = true
  · rw [if_pos c7] at e
    obtain ⟨rfl, c7⟩ := c7
    refine key_open h ?_ e
    rw [hd]
    simp [hw, hn] at hU
    cases r with
    | nil => simpa using hU
    | cons x r' =>
      by_cases hx : x = 32 ∨ x = 9 ∨ x = 10
      · simpa [hx] using hU
      · exfalso
        simp [hx] at hU
        refine hdirty plain_word rfl ?_ hU
        simp [isBlankOrBreakz, isBlank, isBreak] at c7
        omega
  rw [if_neg c7] at e
  have hcolon : c = 58 → (isBlankOrBreakz (r.head?.getD 0) = true ∨ isFlow (r.head?.getD 0) = true ∨ (s.mark.pos == s.adjacentValueAllowedAt) = true) → unclosed r .start sa b = true := by
    rintro rfl hx
    by_cases hy : ends r = true
    · simpa [hy] using hU
    · simp [hy, hw, hn] at hU
      exact hU.2
  by_cases c8 : c = 58 ∧ isBlankOrBreakz (r.head?.getD 0) = true
  · rw [if_pos c8] at e
    exact value_open h (by rw [hd]; exact hcolon c8.1 (.inl c8.2)) e
  rw [if_neg c8] at e
  by_cases c9 : c = 58 ∧ s.flowLevel > 0 ∧ (isFlow (r.head?.getD 0) = true ∨ (s.mark.pos == s.adjacentValueAllowedAt) = true)
  · rw [if_pos c9] at e
    unfold fetchFlowValue at e
    rw [peekz_bind, getMark_bind, gets_bind] at e
    obtain ⟨_, s1, e1, e⟩ := bind_ok e
    obtain ⟨z, -⟩ := failIf_open e1
    rw [z] at e
    exact value_open h (by rw [hd]; exact hcolon c9.1 (.inr c9.2.2)) e
  rw [if_neg c9] at e
  have c58 : c ≠ 58 := by
    rintro rfl
    by_cases hy : ends r = true
    · cases r with
      | nil => exact c8 ⟨rfl, by decide⟩
      | cons x r' =>
        simp [ends] at hy
        simp [isBlankOrBreakz, isBlank, isBreak] at c8
        simp [isFlow, h.pos] at c9
        omega
    · simp [hy, hw, hn] at hU
      exact c9 ⟨rfl, h.pos, .inr (by simpa using hadj hU.1)⟩
  rw [if_neg (show ¬ (c = 58 ∧ ends r = true) from fun hx => c58 hx.1), if_neg (show ¬ (m = .word) from hw), if_neg (show ¬ (c = 32 ∨ c = 9 ∨ c = 10) by omega), if_neg (show ¬ (m = .name) from hn), if_neg c58] at hU
  by_cases d1 : c = 42
  · rw [if_pos d1] at e
    subst d1
    exact anchor_open h (by rw [hd]; simpa using hU) e
  rw [if_neg d1] at e
  by_cases d2 : c = 38
  · rw [if_pos d2] at e
    subst d2
    exact anchor_open h (by rw [hd]; simpa using hU) e
  rw [if_neg d2] at e
  by_cases d3 : c = 33
  · subst d3
    simp at hU
  rw [if_neg d3] at e
  have hz : s.flowLevel ≠ 0 := by have := h.pos; omega
  rw [if_neg (fun hx => hz hx.2), if_neg (fun hx => hz hx.2)] at e
  by_cases d4 : c = 39
  · rw [if_pos d4] at e
    subst d4
    exact quoted_open h (by rw [hd]; simpa [qMode] using hU) e
  rw [if_neg d4] at e
  by_cases d5 : c = 34
  · rw [if_pos d5] at e
    subst d5
    exact quoted_open h (by rw [hd]; simpa [qMode] using hU) e
  rw [if_neg d5] at e
  have hword : unclosed s.src.rest .word sa b = true := by
    rw [hr]
    refine unclosed_to_word hm (by omega) ?_ hu
    rintro ⟨rfl, hx⟩
    refine c7 ⟨rfl, ?_⟩
    cases r with
    | nil => decide
    | cons x r' =>
      simp at hx
      simp [isBlankOrBreakz, isBlank, isBreak]
      omega
  split at e
  · exact plain_open h hword e
  rw [if_neg (fun hx => hz hx.2.2)] at e
  split at e
  · unfold unexpectedChar at e
    rw [gets_bind, getMark_bind] at e
    split at e <;> cases e
  · exact plain_open h hword e

/-- a fetch that succeeds does not leave the flow collection -/
theorem fetch_open {s s' u} (h : Open pre s) (e : fetchNextToken cfg s = (.ok u, s')) : Open pre s' := by
  have hrun : Runs s := by cases h with | flow h _ => exact h.runs | over h => exact h
  unfold fetchNextToken at e
  rw [gets_bind, if_pos hrun.1] at e
  obtain ⟨_, s1, e1, e⟩ := bind_ok e
  obtain ⟨_, s2, e2, e⟩ := bind_ok e
  rw [getMark_bind] at e
  obtain ⟨_, s3, e3, e⟩ := bind_ok e
  rw [atEof_bind] at e
  obtain ⟨f2, g2, m2⟩ := stale_fr e2
  obtain ⟨n, n1, n2, n3, n4⟩ := unrollIndent_ok e3
  cases h with
  | over hr hw hx hev =>
    obtain ⟨f1, q1, q2⟩ := hd_skipToNextToken (lv := 0) white_wsp _ _ _ (Nat.zero_le _) hw e1
    have hnil : s3.src.rest = [] := by
      rw [n3, g2]
      rcases hq : s1.src.rest with _ | ⟨c, r⟩
      · rfl
      · exfalso
        rw [hq] at q1 q2
        have := q1 c (by simp)
        simp at q2
        omega
    rw [if_pos (by simp [Src.bufIsEmpty, hnil])] at e
    obtain ⟨k, k1, k2, k3⟩ := streamEnd_ok e
    refine .over (hr.of ?_) (by rw [k2, hnil]; exact fun c hc => by cases hc) ?_ ?_
    · rw [k3, n4, f2.marks, f1.marks]
    · rw [k1, n1, f2.types, f1.types, ← List.append_assoc, ← List.append_assoc, ← List.append_assoc]
      exact ((hx.blocks n).blocks k).end
    · rw [k1, n1, f2.types, f1.types, ← List.append_assoc, ← List.append_assoc, ← List.append_assoc]
      exact fun ho => (((hev ho).blocks n).blocks k).neutral (by decide) (by decide)
  | @flow sa b hi ha =>
    obtain ⟨f1, ha1, hne⟩ : Fr s s1 ∧ Ahead sa b s1 ∧ ((s1.src.rest[0]?).getD 0 ≠ 9 ∧ (s1.src.rest[0]?).getD 0 ≠ 32 ∧ (s1.src.rest[0]?).getD 0 ≠ 10) := by
      by_cases hc : s.src.rest.head? = some 58
      · have hpc : s.src.peekz 0 = 58 := by
          unfold Src.peekz
          rcases hq : s.src.rest with _ | ⟨c, r⟩
          · rw [hq] at hc; cases hc
          · rw [hq] at hc; simpa using hc
        have hs : s1 = s := by
          unfold skipToNextToken at e1
          rcases hcf : cfg.fuel with _ | k
          · rw [hcf] at e1; cases e1
          · rw [hcf, loop_done (b := ()) (s1 := s)] at e1
            · cases e1; rfl
            · unfold skipToNextTokenBody
              ev [hpc]
              simp
        rw [hs]
        refine ⟨.rfl, ha, ?_⟩
        rcases hq : s.src.rest with _ | ⟨c, r⟩
        · rw [hq] at hc; cases hc
        · rw [hq] at hc
          simp at hc
          subst hc
          simp
      · have hs : unclosed s.src.rest .start sa b = true := by
          rcases ha with ha | ha
          · exact ha
          · exact unclosed_start ha.1 hc
        obtain ⟨f1, q1, q2⟩ := hd_skipToNextToken (lv := 0) wsl_start _ _ _ (Nat.zero_le _) hs e1
        exact ⟨f1, .inl q1, q2.1, q2.2.1, q2.2.2.1⟩
    have i2 : InFlow pre s2 sa b := hi.frame (f1.trans f2)
    have ha2 : Ahead sa b s2 := by
      unfold Ahead
      rw [g2, m2, f2.adj]
      exact ha1
    have hs3 : s3 = s2 := n2 i2.pos
    rw [hs3] at e
    split at e
    · rename_i he
      have hnil : s2.src.rest = [] := by simpa [Src.bufIsEmpty] using he
      obtain ⟨k, k1, k2, k3⟩ := streamEnd_ok e
      refine .over (i2.runs.of k3) (by rw [k2, hnil]; exact fun c hc => by cases hc) ?_ ?_
      rotate_left
      · rw [k1, ← List.append_assoc, ← List.append_assoc]
        exact fun ho => ((i2.ever ho).blocks k).neutral (by decide) (by decide)
      rw [k1, ← List.append_assoc, ← List.append_assoc]
      refine Excess.end (Excess.blocks ⟨pre ++ typesOf s2, [], by simp, i2.noEnd, ?_, .inl rfl⟩ k)
      have h1 := i2.sq
      have h2 := i2.br
      have h3 := insideOf_nonneg s2.implicitFlowMappingStates
      have h4 : 0 < sa ∨ 0 < b := by
        unfold Ahead at ha2
        rw [hnil] at ha2
        simp [unclosed] at ha2
        rcases ha2 with h | h
        · exact h
        · exact h.1
      omega
    · rename_i he
      rcases hq : s2.src.rest with _ | ⟨c, r⟩
      · exact absurd (by simp [Src.bufIsEmpty, hq]) he
      have hu : ∃ m, PlainMode m ∧ unclosed (c :: r) m sa b = true := by
        unfold Ahead at ha2
        rw [hq] at ha2
        rcases ha2 with h | h
        · exact ⟨_, .inl rfl, h⟩
        · exact ⟨_, .inr (.inl rfl), h.1⟩
      obtain ⟨m, hm, hu⟩ := hu
      have h0 := unclosed_clean hm hu
      unfold fetchAtToken at e
      rw [getMark_bind, gets_bind, gets_bind, gets_bind] at e
      have hmk : ∀ x, x = 45 ∨ x = 46 → (s2.mark.col == 1 && (s2.src.nextIsThree x && isBlankOrBreakz (s2.src.peekz 3))) = false := by
        intro x hx
        rw [← Bool.not_eq_true]
        intro hy
        simp only [Bool.and_eq_true] at hy
        have := document_marks (s := s2.src) (by
          unfold Src.nextIsDocumentIndicator
          rcases hx with rfl | rfl <;> simp [hy.2])
        rw [hq, h0.1] at this
        cases this
      have hpct : (s2.mark.col == 1 && s2.src.peekz 0 == 37) = false := by
        rw [← Bool.not_eq_true]
        intro hy
        simp only [Bool.and_eq_true, beq_iff_eq] at hy
        have hc : c = 37 := by
          have := hy.2
          unfold Src.peekz at this
          rw [hq] at this
          exact this
        subst hc
        unfold Ahead at ha2
        rw [hq] at ha2
        rcases ha2 with h | ⟨h, -⟩
        · rw [unclosed_plain (.inl rfl)] at h
          simp at h
        · rw [unclosed_plain (.inr (.inl rfl))] at h
          simp at h
      rw [hpct, show (s2.mark.col == 1 && nextIsDocumentStart s2) = false from hmk 45 (.inl rfl), show (s2.mark.col == 1 && nextIsDocumentEnd s2) = false from hmk 46 (.inr rfl),
        if_neg Bool.false_ne_true, if_neg Bool.false_ne_true, if_neg Bool.false_ne_true, gets_bind] at e
      obtain ⟨_, s4, e4, e⟩ := bind_ok e
      obtain ⟨z, -⟩ := failIf_open e4
      rw [z] at e
      refine main_open i2 hq ?_ ha2 e
      rw [g2] at hq
      rw [hq] at hne
      simpa using hne

end Verif.Scanner
