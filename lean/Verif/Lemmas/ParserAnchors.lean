import Verif.Model.ParserLoad
import Verif.Lemmas.ParserRun
/-!
# A parser that knows more anchors behaves the same, but for aliases to the others
-/
namespace Verif.Parser
open Verif

/-- every anchor in `a` is in `b` -/
def Knows (a b : List (List Byte × Nat)) : Prop := ∀ n id, mapGet a n = some id → mapGet b n = some id

/-- the error of an alias whose anchor is not known -/
def UnknownAnchor (e : YErr) : Prop := ∃ m, e = .scanner m "while parsing node, found unknown anchor"

/-- with more anchors, `m` does the same, unless it meets an unknown anchor -/
def Sim {α} (m : PM α) : Prop := ∀ s A, Knows s.anchors A →
  (∃ B, Knows (m s).2.anchors B ∧ m { s with anchors := A } = ((m s).1, { (m s).2 with anchors := B })) ∨
  ∃ e, (m s).1 = .err e ∧ UnknownAnchor e

theorem Sim.pure {α} {a : α} : Sim (pure a) := fun _ A h => .inl ⟨A, h, rfl⟩
theorem Sim.throwAt {α} {sp msg} : Sim (throwAt sp msg : PM α) := fun _ A h => .inl ⟨A, h, rfl⟩
theorem Sim.panic {α} : Sim (panic : PM α) := fun _ A h => .inl ⟨A, h, rfl⟩
theorem Sim.hang {α} : Sim (fun s => (.hang, s) : PM α) := fun _ A h => .inl ⟨A, h, rfl⟩

theorem Sim.bind {α β} {m : PM α} {f : α → PM β} (hm : Sim m) (hf : ∀ a, Sim (f a)) : Sim (m >>= f) := by
  intro s A h
  have key : ∀ s, (m >>= f) s = match m s with
    | (.ok a, s') => f a s'
    | (.err e, s') => (.err e, s')
    | (.panic, s') => (.panic, s')
    | (.hang, s') => (.hang, s') := fun _ => rfl
  rw [key, key]
  rcases hm s A h with ⟨B, hB, he⟩ | ⟨e, he, hu⟩
  · rw [he]
    rcases hs : m s with ⟨r, s1⟩
    rw [hs] at hB
    cases r with
    | ok a => exact hf a s1 B hB
    | err e => exact .inl ⟨B, hB, rfl⟩
    | panic => exact .inl ⟨B, hB, rfl⟩
    | hang => exact .inl ⟨B, hB, rfl⟩
  · rcases hs : m s with ⟨r, s1⟩
    rw [hs] at he
    simp only at he
    subst he
    exact .inr ⟨e, rfl, hu⟩

theorem Sim.gets {α} {f : PSt → α} (hf : ∀ s A, f { s with anchors := A } = f s) : Sim (gets f) := by
  intro s A h
  refine .inl ⟨A, h, ?_⟩
  simp [Parser.gets, hf]

theorem Sim.modify {f : PSt → PSt} (hf : ∀ s A, f { s with anchors := A } = { f s with anchors := A }) (ha : ∀ s, (f s).anchors = s.anchors) :
    Sim (modify f) := by
  intro s A h
  refine .inl ⟨A, ?_, ?_⟩
  · show Knows (f s).anchors A
    rw [ha]; exact h
  · show (Res.ok (), f { s with anchors := A }) = _
    rw [hf]; rfl

theorem Sim.skip : Sim skip := Sim.modify (fun _ _ => rfl) (fun _ => rfl)
theorem Sim.pushState {st} : Sim (pushState st) := Sim.modify (fun _ _ => rfl) (fun _ => rfl)
theorem Sim.setState {st} : Sim (setState st) := Sim.modify (fun _ _ => rfl) (fun _ => rfl)

theorem Sim.peekToken : Sim peekToken := by
  intro s A h
  refine .inl ⟨A, ?_⟩
  obtain ⟨toks, tail, em, st, en, states, state, token, cur, an, cnt, tags, se, kt⟩ := s
  cases token with
  | some t => exact ⟨h, rfl⟩
  | none =>
    cases toks with
    | cons t ts => exact ⟨h, rfl⟩
    | nil => cases tail <;> exact ⟨h, rfl⟩

theorem Sim.fetchToken : Sim fetchToken := by
  intro s A h
  refine .inl ⟨A, ?_⟩
  obtain ⟨toks, tail, em, st, en, states, state, token, cur, an, cnt, tags, se, kt⟩ := s
  cases token <;> exact ⟨h, rfl⟩

theorem Sim.popState : Sim popState := by
  intro s A h
  refine .inl ⟨A, ?_⟩
  obtain ⟨toks, tail, em, st, en, states, state, token, cur, an, cnt, tags, se, kt⟩ := s
  cases states <;> exact ⟨h, rfl⟩

theorem Sim.resolveTagM {sp a b} : Sim (resolveTagM sp a b) := fun _ A h => .inl ⟨A, h, rfl⟩

theorem Sim.registerAnchor {n} : Sim (registerAnchor n) := by
  intro s A h
  refine .inl ⟨mapInsert A n s.anchorIdCount, ?_, rfl⟩
  show Knows (mapInsert s.anchors n s.anchorIdCount) _
  intro k id hk
  rw [mapGet_insert] at hk ⊢
  split
  · rename_i hx; rw [if_pos hx] at hk; exact hk
  · rename_i hx; rw [if_neg hx] at hk; exact h _ _ hk

/-- an alias is the only place where the anchors are read -/
theorem Sim.lookup {n sp} : Sim (Parser.gets (·.anchors) >>= fun a => match mapGet a n with
    | none => Parser.throwAt sp "while parsing node, found unknown anchor"
    | some id => (Pure.pure (.alias id, sp) : PM (Event × Span))) := by
  intro s A h
  cases hg : mapGet s.anchors n with
  | none =>
    right
    refine ⟨.scanner sp.start "while parsing node, found unknown anchor", ?_, ⟨_, rfl⟩⟩
    simp only [Bind.bind, Parser.gets, hg]
    rfl
  | some id =>
    left
    refine ⟨A, ?_⟩
    simp only [Bind.bind, Parser.gets, hg, h _ _ hg]
    exact ⟨h, rfl⟩

theorem Sim.elim {α} {m : PM α} (hm : Sim m) {s A} (h : Knows s.anchors A) :
    (∃ B, Knows (m s).2.anchors B ∧ m { s with anchors := A } = ((m s).1, { (m s).2 with anchors := B })) ∨
    ∃ e, (m s).1 = .err e ∧ UnknownAnchor e := hm s A h

theorem Sim.intro {α} {m : PM α} (h : ∀ s : PSt, ∃ n : PM α, Sim n ∧ ∀ A, m { s with anchors := A } = n { s with anchors := A }) : Sim m := by
  intro s A hA
  obtain ⟨n, hn, he⟩ := h s
  rw [he A, show m s = n s from he s.anchors]
  exact hn s A hA

attribute [irreducible] Sim

/-- one step of the proofs below -/
macro "sim1" : tactic => `(tactic| first
  | with_reducible first
    | exact Sim.pure | exact Sim.throwAt | exact Sim.panic | exact Sim.hang | exact Sim.skip | exact Sim.pushState | exact Sim.setState
    | exact Sim.peekToken | exact Sim.fetchToken | exact Sim.popState | exact Sim.resolveTagM | exact Sim.registerAnchor
    | assumption
    | (refine Sim.bind ?_ ?_)
  | with_reducible intro x
  | exact Sim.gets (fun _ _ => rfl) | exact Sim.modify (fun _ _ => rfl) (fun _ => rfl)
  | dsimp only
  | split)

macro "sims" : tactic => `(tactic| repeat' sim1)

theorem Sim.parseNodeContent {b i id tag} : Sim (parseNodeContent b i id tag) := by
  unfold Parser.parseNodeContent
  sims

theorem Sim.parseNode {b i} : Sim (parseNode b i) := by
  unfold Parser.parseNode
  repeat' first | exact Sim.lookup | with_reducible exact Sim.parseNodeContent | sim1

theorem Sim.streamStart : Sim streamStart := by
  unfold Parser.streamStart
  sims

theorem Sim.processDirectivesLoop {k v} : Sim (processDirectivesLoop k v) := by
  induction k generalizing v with
  | zero => exact Sim.hang
  | succ k ih =>
    unfold Parser.processDirectivesLoop
    repeat' first | with_reducible exact ih | sim1

theorem Sim.processDirectives : Sim processDirectives := Sim.intro fun s => ⟨_, Sim.processDirectivesLoop (k := s.toks.length + 2) (v := false), fun _ => rfl⟩

theorem Sim.explicitDocumentStart : Sim explicitDocumentStart := by
  have := @Sim.processDirectives
  unfold Parser.explicitDocumentStart
  sims

theorem Sim.skipDocumentEnds {k} : Sim (skipDocumentEnds k) := by
  induction k with
  | zero => exact Sim.hang
  | succ k ih =>
    unfold Parser.skipDocumentEnds
    sims

theorem Sim.documentStart {i} : Sim (documentStart i) := by
  have h1 := @Sim.processDirectives
  have h2 := @Sim.explicitDocumentStart
  have h3 := @Sim.skipDocumentEnds
  unfold Parser.documentStart
  repeat' first | with_reducible exact h3 | sim1

theorem Sim.documentContent : Sim documentContent := by
  unfold Parser.documentContent
  repeat' first | with_reducible exact Sim.parseNode | sim1

theorem Sim.documentEnd : Sim documentEnd := by
  unfold Parser.documentEnd
  sims

theorem Sim.blockMappingKey {f} : Sim (blockMappingKey f) := by
  unfold Parser.blockMappingKey
  repeat' first | with_reducible exact Sim.parseNode | sim1

theorem Sim.blockMappingValue {f} : Sim (blockMappingValue f) := by
  unfold Parser.blockMappingValue
  repeat' first | with_reducible exact Sim.parseNode | sim1

theorem Sim.flowMappingKey {f} : Sim (flowMappingKey f) := by
  unfold Parser.flowMappingKey
  cases f <;> simp only [beq_self_eq_true, if_true, reduceCtorEq, beq_eq_false_iff_ne, ne_eq, not_false_eq_true, bne, beq_iff_eq, if_false, Bool.not_eq_true', Bool.not_true, Bool.false_eq_true] <;> repeat' first | with_reducible exact Sim.parseNode | sim1

theorem Sim.flowMappingValue {f} : Sim (flowMappingValue f) := by
  unfold Parser.flowMappingValue
  repeat' first | with_reducible exact Sim.parseNode | sim1

theorem Sim.flowSequenceEntryRest : Sim flowSequenceEntryRest := by
  unfold Parser.flowSequenceEntryRest
  repeat' first | with_reducible exact Sim.parseNode | sim1

theorem Sim.flowSequenceEntry {f} : Sim (flowSequenceEntry f) := by
  unfold Parser.flowSequenceEntry
  cases f <;> repeat' first | with_reducible exact Sim.flowSequenceEntryRest | sim1

theorem Sim.indentlessSequenceEntry : Sim indentlessSequenceEntry := by
  unfold Parser.indentlessSequenceEntry
  repeat' first | with_reducible exact Sim.parseNode | sim1

theorem Sim.blockSequenceEntry {f} : Sim (blockSequenceEntry f) := by
  unfold Parser.blockSequenceEntry
  repeat' first | with_reducible exact Sim.parseNode | sim1

theorem Sim.flowSequenceEntryMappingKey : Sim flowSequenceEntryMappingKey := by
  unfold Parser.flowSequenceEntryMappingKey
  repeat' first | with_reducible exact Sim.parseNode | sim1

theorem Sim.flowSequenceEntryMappingValue : Sim flowSequenceEntryMappingValue := by
  unfold Parser.flowSequenceEntryMappingValue
  repeat' first | with_reducible exact Sim.parseNode | sim1

theorem Sim.flowSequenceEntryMappingEnd {m} : Sim (flowSequenceEntryMappingEnd m) := by
  unfold Parser.flowSequenceEntryMappingEnd
  sims

theorem Sim.dispatch {st} : Sim (dispatch st) := by
  unfold Parser.dispatch
  split
  all_goals first
    | exact Sim.streamStart | exact Sim.documentStart | exact Sim.documentContent | exact Sim.documentEnd | exact Sim.parseNode
    | exact Sim.blockMappingKey | exact Sim.blockMappingValue | exact Sim.blockSequenceEntry | exact Sim.flowSequenceEntry
    | exact Sim.flowMappingKey | exact Sim.flowMappingValue | exact Sim.indentlessSequenceEntry | exact Sim.flowSequenceEntryMappingKey
    | exact Sim.flowSequenceEntryMappingValue | exact Sim.flowSequenceEntryMappingEnd | exact Sim.panic

theorem Sim.nextEventImpl : Sim nextEventImpl := by
  refine Sim.intro fun s => ?_
  unfold Parser.nextEventImpl
  cases hc : s.current with
  | some v =>
    refine ⟨Parser.modify (fun s => { s with current := none }) >>= fun _ => Pure.pure v, ?_, fun A => ?_⟩
    · sims
    · simp only [hc]; rfl
  | none =>
    unfold parse stateMachine
    by_cases he : s.state == .endState
    · refine ⟨Parser.gets (·.endMark) >>= fun m => Pure.pure (.streamEnd, .empty m), ?_, fun A => ?_⟩
      · sims
      · simp only [hc, he, if_true]; rfl
    · exact ⟨_, Sim.dispatch, fun A => by simp only [hc, he]; rfl⟩

end Verif.Parser
