import Verif.Lemmas.LoadDocs
import Verif.Lemmas.ParserPush
/-!
# Aliases to anchors of their own document are the same when pushed
-/
namespace Verif.Parser
open Verif Verif.Spec Verif.Grammar

/-- `m` neither reads nor changes the anchors -/
def Quiet {α} (m : PM α) : Prop := ∀ s A, m { s with anchors := A } = ((m s).1, { (m s).2 with anchors := A })

theorem Quiet.keeps {α} {m : PM α} (h : Quiet m) (s : PSt) : (m s).2.anchors = s.anchors := by
  have := congrArg (fun x => x.2.anchors) (h s s.anchors)
  exact this

theorem Quiet.pure {α} {a : α} : Quiet (pure a) := fun _ _ => rfl
theorem Quiet.throwAt {α} {sp msg} : Quiet (throwAt sp msg : PM α) := fun _ _ => rfl
theorem Quiet.panic {α} : Quiet (panic : PM α) := fun _ _ => rfl
theorem Quiet.hang {α} : Quiet (fun s => (.hang, s) : PM α) := fun _ _ => rfl

theorem pm_bind {α β} (m : PM α) (f : α → PM β) (s : PSt) : (m >>= f) s = match m s with
    | (.ok a, s') => f a s'
    | (.err e, s') => (.err e, s')
    | (.panic, s') => (.panic, s')
    | (.hang, s') => (.hang, s') := rfl

theorem Quiet.bind {α β} {m : PM α} {f : α → PM β} (hm : Quiet m) (hf : ∀ a, Quiet (f a)) : Quiet (m >>= f) := by
  intro s A
  rw [pm_bind, pm_bind, hm s A]
  rcases hx : m s with ⟨r, s1⟩
  cases r with
  | ok a => exact hf a s1 A
  | _ => rfl

theorem Quiet.gets {α} {f : PSt → α} (hf : ∀ s A, f { s with anchors := A } = f s) : Quiet (gets f) := by
  intro s A
  simp [Parser.gets, hf]

theorem Quiet.modify {f : PSt → PSt} (hf : ∀ s A, f { s with anchors := A } = { f s with anchors := A }) : Quiet (modify f) := by
  intro s A
  show (Res.ok (), f { s with anchors := A }) = _
  rw [hf]
  rfl

theorem Quiet.skip : Quiet skip := Quiet.modify (fun _ _ => rfl)
theorem Quiet.pushState {st} : Quiet (pushState st) := Quiet.modify (fun _ _ => rfl)
theorem Quiet.setState {st} : Quiet (setState st) := Quiet.modify (fun _ _ => rfl)

theorem Quiet.peekToken : Quiet peekToken := by
  intro s A
  obtain ⟨toks, tail, em, st, en, states, state, token, cur, an, cnt, tags, se, kt⟩ := s
  cases token with
  | some t => rfl
  | none =>
    cases toks with
    | cons t ts => rfl
    | nil => cases tail <;> rfl

theorem Quiet.fetchToken : Quiet fetchToken := by
  intro s A
  obtain ⟨toks, tail, em, st, en, states, state, token, cur, an, cnt, tags, se, kt⟩ := s
  cases token <;> rfl

theorem Quiet.popState : Quiet popState := by
  intro s A
  obtain ⟨toks, tail, em, st, en, states, state, token, cur, an, cnt, tags, se, kt⟩ := s
  cases states <;> rfl

theorem Quiet.resolveTagM {sp a b} : Quiet (resolveTagM sp a b) := fun _ _ => rfl

theorem Quiet.intro {α} {m : PM α} (h : ∀ s : PSt, ∃ n : PM α, Quiet n ∧ ∀ A, m { s with anchors := A } = n { s with anchors := A }) : Quiet m := by
  intro s A
  obtain ⟨n, hn, he⟩ := h s
  rw [he A, show m s = n s from he s.anchors]
  exact hn s A

/-- with more anchors, `m` does the same, unless it meets an alias to one of these -/
def Back (m : PM (Event × Span)) : Prop := ∀ s A, Knows s.anchors A →
  (∃ B, Knows (m s).2.anchors B ∧ m { s with anchors := A } = ((m s).1, { (m s).2 with anchors := B })) ∨
  ∃ n, mapGet s.anchors n = none ∧ ∀ r s', m { s with anchors := A } = (.ok r, s') → ∃ id, mapGet A n = some id ∧ r.1 = .alias id

theorem Back.quiet {m : PM (Event × Span)} (h : Quiet m) : Back m := fun s A hA => .inl ⟨A, by rw [h.keeps]; exact hA, h s A⟩

theorem Back.bind {α} {m : PM α} {f : α → PM (Event × Span)} (hm : Quiet m) (hf : ∀ a, Back (f a)) : Back (m >>= f) := by
  intro s A hA
  rw [pm_bind, pm_bind, hm s A]
  have hk := hm.keeps s
  rcases hx : m s with ⟨r, s1⟩
  rw [hx] at hk
  simp only at hk
  cases r with
  | ok a =>
    have := hf a s1 A (by rw [hk]; exact hA)
    rw [hk] at this
    exact this
  | err e => exact .inl ⟨A, by simpa [hk] using hA, rfl⟩
  | panic => exact .inl ⟨A, by simpa [hk] using hA, rfl⟩
  | hang => exact .inl ⟨A, by simpa [hk] using hA, rfl⟩

theorem knows_insert {a A : List (List Byte × Nat)} {n id} (h : Knows a A) : Knows (mapInsert a n id) (mapInsert A n id) := by
  intro k i hk
  rw [mapGet_insert] at hk ⊢
  split
  · rename_i he; simpa [he] using hk
  · rename_i he; simp [he] at hk; exact h _ _ hk

theorem Back.register {n} {f : Nat → PM (Event × Span)} (hf : ∀ a, Quiet (f a)) : Back (registerAnchor n >>= f) := by
  intro s A hA
  left
  refine ⟨mapInsert A n s.anchorIdCount, ?_, ?_⟩
  · rw [show (registerAnchor n >>= f) s = f s.anchorIdCount { s with anchorIdCount := s.anchorIdCount + 1, anchors := mapInsert s.anchors n s.anchorIdCount } from rfl, (hf _).keeps]
    exact knows_insert hA
  · rw [show (registerAnchor n >>= f) s = f s.anchorIdCount { s with anchorIdCount := s.anchorIdCount + 1, anchors := mapInsert s.anchors n s.anchorIdCount } from rfl,
      show (registerAnchor n >>= f) { s with anchors := A } = f s.anchorIdCount { s with anchorIdCount := s.anchorIdCount + 1, anchors := mapInsert A n s.anchorIdCount } from rfl]
    exact hf _ { s with anchorIdCount := s.anchorIdCount + 1, anchors := mapInsert s.anchors n s.anchorIdCount } _

theorem Back.lookup {n sp} : Back (Parser.gets (·.anchors) >>= fun a => match mapGet a n with
    | none => Parser.throwAt sp "while parsing node, found unknown anchor"
    | some id => (Pure.pure (.alias id, sp) : PM (Event × Span))) := by
  intro s A h
  cases hg : mapGet s.anchors n with
  | none =>
    right
    refine ⟨n, hg, fun r s' hr => ?_⟩
    simp only [Bind.bind, Parser.gets] at hr
    cases hA : mapGet A n with
    | none => rw [hA] at hr; cases hr
    | some id => rw [hA] at hr; cases hr; exact ⟨id, rfl, rfl⟩
  | some id =>
    left
    refine ⟨A, ?_⟩
    simp only [Bind.bind, Parser.gets, hg, h _ _ hg]
    exact ⟨h, rfl⟩

theorem Back.intro {m : PM (Event × Span)} (h : ∀ s : PSt, ∃ n : PM (Event × Span), Back n ∧ ∀ A, m { s with anchors := A } = n { s with anchors := A }) : Back m := by
  intro s A hA
  obtain ⟨n, hn, he⟩ := h s
  rw [he A, show m s = n s from he s.anchors]
  exact hn s A hA

theorem Back.elim {m : PM (Event × Span)} (hm : Back m) {s A} (h : Knows s.anchors A) :
    (∃ B, Knows (m s).2.anchors B ∧ m { s with anchors := A } = ((m s).1, { (m s).2 with anchors := B })) ∨
    ∃ n, mapGet s.anchors n = none ∧ ∀ r s', m { s with anchors := A } = (.ok r, s') → ∃ id, mapGet A n = some id ∧ r.1 = .alias id := hm s A h

attribute [irreducible] Quiet Back

/-- one step of the proofs below -/
macro "quiet1" : tactic => `(tactic| first
  | with_reducible first
    | exact Quiet.pure | exact Quiet.throwAt | exact Quiet.panic | exact Quiet.hang | exact Quiet.skip | exact Quiet.pushState | exact Quiet.setState
    | exact Quiet.peekToken | exact Quiet.fetchToken | exact Quiet.popState | exact Quiet.resolveTagM
    | assumption
    | (refine Quiet.bind ?_ ?_)
  | with_reducible intro x
  | exact Quiet.gets (fun _ _ => rfl) | exact Quiet.modify (fun _ _ => rfl)
  | dsimp only
  | split)

macro "quiets" : tactic => `(tactic| repeat' quiet1)

theorem Quiet.parseNodeContent {b i id tag} : Quiet (parseNodeContent b i id tag) := by
  unfold Parser.parseNodeContent
  quiets

/-- the same for `Back` -/
macro "back1" : tactic => `(tactic| first
  | with_reducible first
    | exact Back.quiet Quiet.pure | exact Back.quiet Quiet.throwAt | exact Back.quiet Quiet.panic | exact Back.quiet Quiet.hang
    | (refine Back.bind ?_ ?_)
  | quiet1)

macro "backs" : tactic => `(tactic| repeat' back1)

theorem Back.parseNode {b i} : Back (parseNode b i) := by
  have hc := @Quiet.parseNodeContent
  unfold Parser.parseNode
  repeat' first
    | exact Back.lookup
    | (refine Back.register fun a => ?_)
    | with_reducible exact Back.quiet Quiet.parseNodeContent
    | with_reducible exact Quiet.parseNodeContent
    | back1

theorem Quiet.streamStart : Quiet streamStart := by
  unfold Parser.streamStart
  quiets

theorem Quiet.processDirectivesLoop {k v} : Quiet (processDirectivesLoop k v) := by
  induction k generalizing v with
  | zero => exact Quiet.hang
  | succ k ih =>
    unfold Parser.processDirectivesLoop
    repeat' first | with_reducible exact ih | quiet1

theorem Quiet.processDirectives : Quiet processDirectives := Quiet.intro fun s => ⟨_, Quiet.processDirectivesLoop (k := s.toks.length + 2) (v := false), fun _ => rfl⟩

theorem Quiet.explicitDocumentStart : Quiet explicitDocumentStart := by
  have := @Quiet.processDirectives
  unfold Parser.explicitDocumentStart
  quiets

theorem Quiet.skipDocumentEnds {k} : Quiet (skipDocumentEnds k) := by
  induction k with
  | zero => exact Quiet.hang
  | succ k ih =>
    unfold Parser.skipDocumentEnds
    quiets

theorem Quiet.documentStart {i} : Quiet (documentStart i) := by
  have h1 := @Quiet.processDirectives
  have h2 := @Quiet.explicitDocumentStart
  have h3 := @Quiet.skipDocumentEnds
  unfold Parser.documentStart
  repeat' first | with_reducible exact h3 | quiet1

theorem Back.documentContent : Back documentContent := by
  unfold Parser.documentContent
  repeat' first | with_reducible exact Back.parseNode | back1

theorem Quiet.documentEnd : Quiet documentEnd := by
  unfold Parser.documentEnd
  quiets

theorem Back.blockMappingKey {f} : Back (blockMappingKey f) := by
  unfold Parser.blockMappingKey
  repeat' first | with_reducible exact Back.parseNode | back1

theorem Back.blockMappingValue {f} : Back (blockMappingValue f) := by
  unfold Parser.blockMappingValue
  repeat' first | with_reducible exact Back.parseNode | back1

theorem Back.flowMappingKey {f} : Back (flowMappingKey f) := by
  unfold Parser.flowMappingKey
  cases f <;> simp only [beq_self_eq_true, if_true, reduceCtorEq, beq_eq_false_iff_ne, ne_eq, not_false_eq_true, bne, beq_iff_eq, if_false, Bool.not_eq_true', Bool.not_true, Bool.false_eq_true] <;> repeat' first | with_reducible exact Back.parseNode | back1

theorem Back.flowMappingValue {f} : Back (flowMappingValue f) := by
  unfold Parser.flowMappingValue
  repeat' first | with_reducible exact Back.parseNode | back1

theorem Back.flowSequenceEntryRest : Back flowSequenceEntryRest := by
  unfold Parser.flowSequenceEntryRest
  repeat' first | with_reducible exact Back.parseNode | back1

theorem Back.flowSequenceEntry {f} : Back (flowSequenceEntry f) := by
  unfold Parser.flowSequenceEntry
  cases f <;> repeat' first | with_reducible exact Back.flowSequenceEntryRest | back1

theorem Back.indentlessSequenceEntry : Back indentlessSequenceEntry := by
  unfold Parser.indentlessSequenceEntry
  repeat' first | with_reducible exact Back.parseNode | back1

theorem Back.blockSequenceEntry {f} : Back (blockSequenceEntry f) := by
  unfold Parser.blockSequenceEntry
  repeat' first | with_reducible exact Back.parseNode | back1

theorem Back.flowSequenceEntryMappingKey : Back flowSequenceEntryMappingKey := by
  unfold Parser.flowSequenceEntryMappingKey
  repeat' first | with_reducible exact Back.parseNode | back1

theorem Back.flowSequenceEntryMappingValue : Back flowSequenceEntryMappingValue := by
  unfold Parser.flowSequenceEntryMappingValue
  repeat' first | with_reducible exact Back.parseNode | back1

theorem Quiet.flowSequenceEntryMappingEnd {m} : Quiet (flowSequenceEntryMappingEnd m) := by
  unfold Parser.flowSequenceEntryMappingEnd
  quiets

theorem Back.dispatch {st} : Back (dispatch st) := by
  unfold Parser.dispatch
  split
  all_goals first
    | exact Back.quiet Quiet.streamStart | exact Back.quiet Quiet.documentStart | exact Back.documentContent | exact Back.quiet Quiet.documentEnd | exact Back.parseNode
    | exact Back.blockMappingKey | exact Back.blockMappingValue | exact Back.blockSequenceEntry | exact Back.flowSequenceEntry
    | exact Back.flowMappingKey | exact Back.flowMappingValue | exact Back.indentlessSequenceEntry | exact Back.flowSequenceEntryMappingKey
    | exact Back.flowSequenceEntryMappingValue | exact Back.quiet Quiet.flowSequenceEntryMappingEnd | exact Back.quiet Quiet.panic

theorem Back.nextEventImpl : Back nextEventImpl := by
  refine Back.intro fun s => ?_
  unfold Parser.nextEventImpl
  cases hc : s.current with
  | some v =>
    refine ⟨Parser.modify (fun s => { s with current := none }) >>= fun _ => Pure.pure v, ?_, fun A => ?_⟩
    · backs
    · simp only [hc]; rfl
  | none =>
    unfold parse stateMachine
    by_cases he : s.state == .endState
    · refine ⟨Parser.gets (·.endMark) >>= fun m => Pure.pure (.streamEnd, .empty m), ?_, fun A => ?_⟩
      · backs
      · simp only [hc, he, if_true]; rfl
    · exact ⟨_, Back.dispatch, fun A => by simp only [hc, he]; rfl⟩


/-! ## Pushing and pulling in step -/

/-- `q` pushes and `p` pulls: `p` may know more anchors, but none of those with numbers in `d` -/
structure Twin (d : List Nat) (q p : PSt) : Prop where
  eq : p = { q with anchors := p.anchors }
  knows : Knows q.anchors p.anchors
  loc : ∀ n id, mapGet p.anchors n = some id → id ∈ d → id ≠ 0 → mapGet q.anchors n = some id
  lt : ∀ n id, mapGet p.anchors n = some id → id < p.anchorIdCount
  inv : InvC q
  bot : Bottom (frames q)

theorem Twin.less {d d' q p} (h : Twin d q p) (hd : ∀ x ∈ d', x ∈ d) : Twin d' q p :=
  ⟨h.eq, h.knows, fun n id h1 h2 => h.loc n id h1 (hd id h2), h.lt, h.inv, h.bot⟩

/-- at the start of a document all anchors are forgotten -/
theorem Twin.clear {d q p} (h : Twin d q p) : Twin [] { q with anchors := [] } p :=
  ⟨h.eq, knows_nil _, by simp, h.lt, ⟨⟨h.inv.inv.good, h.inv.inv.head, h.inv.inv.nocont⟩, h.inv.cur, h.inv.pos⟩, h.bot⟩

theorem Twin.next {d q p e p1} (h : Twin d q p) (hs : nextEventImpl p = (.ok e, p1)) (ha : ∀ id, e.1 = .alias id → id ≠ 0 ∧ id ∈ d) :
    ∃ q1, nextEventImpl q = (.ok e, q1) ∧ (e.1 ≠ .streamEnd → Twin (definedAnchor e.1 :: d) q1 p1) := by
  have hq := h.eq
  generalize hA : p.anchors = A at hq
  rcases Back.nextEventImpl.elim h.knows with ⟨B, hB, he⟩ | ⟨n, h1, h2⟩
  · rw [← h.eq, hs] at he
    rcases hx : nextEventImpl q with ⟨r, q1⟩
    rw [hx] at he hB
    simp only [Prod.mk.injEq] at he hB
    obtain ⟨rfl, rfl⟩ := he
    refine ⟨q1, rfl, fun hne => ?_⟩
    obtain ⟨so, io⟩ := step_facts h.inv h.bot.ne hx
    have hip : InvC p := by
      rw [hq]
      exact ⟨⟨h.inv.inv.good, h.inv.inv.head, h.inv.inv.nocont⟩, h.inv.cur, h.inv.pos⟩
    have hfp : frames p = frames q := by rw [hq]; rfl
    obtain ⟨so', -⟩ := step_facts hip (by rw [hfp]; exact h.bot.ne) hs
    obtain ⟨u, hu, -, hau, -⟩ := so.toks
    obtain ⟨u', hu', -, hau', -⟩ := so'.toks
    have hpp : pend p = pend q := by rw [hq]; rfl
    have huu : u' = u := by
      rw [hpp, hu] at hu'
      exact (List.append_cancel_right hu').symm
    subst huu
    have hc : p.anchorIdCount = q.anchorIdCount := by rw [hq]
    have hpos := h.inv.pos
    rw [← evAnchor_eq]
    refine ⟨rfl, hB, ?_, ?_, io, h.bot.step so.gram hne⟩
    · intro n id h1 h2 h3
      rcases hau' with ⟨e1, e2, e3, e4⟩ | ⟨m, e1, e2, e3, e4⟩
      · rcases hau with ⟨f1, f2, f3, f4⟩ | ⟨m, f1, -⟩
        · rw [e3] at h1
          rw [f3]
          rw [e2] at h2
          exact h.loc n id h1 ((List.mem_cons.1 h2).resolve_left h3) h3
        · rw [e1] at f1; cases f1
      · rcases hau with ⟨f1, -⟩ | ⟨m', f1, f2, f3, f4⟩
        · rw [e1] at f1; cases f1
        · rw [e1] at f1
          simp only [List.cons.injEq, and_true] at f1
          subst f1
          rw [e3, mapGet_insert] at h1
          rw [f3, mapGet_insert]
          split at h1
          · rename_i hm
            rw [if_pos hm, ← hc]; exact h1
          · rename_i hm
            rw [if_neg hm]
            have := h.lt n id h1
            rw [e2] at h2
            exact h.loc n id h1 ((List.mem_cons.1 h2).resolve_left (by omega)) h3
    · intro n id h1
      rcases hau' with ⟨e1, e2, e3, e4⟩ | ⟨m, e1, e2, e3, e4⟩
      · rw [e3] at h1; rw [e4]; exact h.lt n id h1
      · rw [e3, mapGet_insert] at h1
        rw [e4]
        split at h1
        · cases h1; omega
        · have := h.lt n id h1; omega
  · rw [← h.eq] at h2
    obtain ⟨id, h3, h4⟩ := h2 _ _ hs
    obtain ⟨h5, h6⟩ := ha id h4
    have := h.loc n id h3 h6 h5
    rw [h1] at this
    cases this

theorem twin_run {p es p2} (hr : Run p es p2) : ∀ {d q}, Twin d q p → AliasesLocal d (es.map (·.1)) → (∀ e ∈ es, e.1 ≠ .streamEnd) →
    ∃ q2, Run q es q2 ∧ Twin (docDefs d (es.map (·.1))) q2 p2 := by
  induction hr with
  | nil => exact fun h _ _ => ⟨_, .nil, h⟩
  | @cons p e p1 es p2 h1 _ ih =>
    intro d q h hl hne
    obtain ⟨hl1, hl2⟩ := hl
    obtain ⟨q1, hq, ht⟩ := h.next h1 hl1
    have ht1 : Twin (defsAfter d e.1) q1 p1 := (ht (hne e (by simp))).less (fun x hx => by
      unfold defsAfter at hx
      split at hx
      · cases hx
      · exact hx)
    obtain ⟨q2, hr2, ht2⟩ := ih ht1 hl2 (fun e he => hne e (by simp [he]))
    exact ⟨q2, .cons hq hr2, ht2⟩

/-- the loop of `load` over documents whose aliases stay in their document -/
theorem loop_local {spe p'} : ∀ {ds : List (Bool × List Event)} {es D p q fuel out}, (∀ d ∈ ds, Node d.2) → es.map (·.1) = docEvents ds → .streamEnd ∉ docEvents ds →
    AliasesLocal D (docEvents ds) → Run p (es ++ [(.streamEnd, spe)]) p' → Twin D q p → 2 * es.length + 1 ≤ fuel →
    ∃ q', loadLoop true fuel ⟨q, out⟩ = (.ok (), ⟨q', out ++ es ++ [(.streamEnd, spe)]⟩) := by
  intro ds
  induction ds with
  | nil =>
    intro es D p q fuel out _ hes _ _ hr ht hf
    obtain rfl : es = [] := by simpa [docEvents] using hes
    obtain ⟨fuel, rfl⟩ : ∃ j, fuel = j + 1 := ⟨fuel - 1, by omega⟩
    cases hr with
    | cons h1 hr =>
      cases hr
      obtain ⟨q1, h2, -⟩ := ht.next h1 (by simp)
      exact ⟨q1, by rw [loadLoop, lift_bind h2]; simp [onEvent]⟩
  | cons d ds ih =>
    intro es D p q fuel out hn hes hnn hal hr ht hf
    obtain ⟨b, n⟩ := d
    obtain ⟨fuel, rfl⟩ : ∃ j, fuel = j + 1 := ⟨fuel - 1, by omega⟩
    rw [docEvents] at hes hnn hal
    cases es with
    | nil => simp at hes
    | cons e1 es =>
      obtain ⟨e1, sp1⟩ := e1
      simp at hes
      obtain ⟨rfl, hes⟩ := hes
      obtain ⟨rn, re, rfl, rfl, he⟩ := map_split hes
      cases re with
      | nil => simp at he
      | cons e2 re =>
        obtain ⟨e2, sp2⟩ := e2
        simp at he
        obtain ⟨rfl, he⟩ := he
        have hnode : Node (rn.map (·.1)) := hn _ List.mem_cons_self
        cases hr with
        | @cons _ _ p1 _ _ h1 hr =>
          obtain ⟨q1, hq1, ht1⟩ := ht.next h1 (by simp)
          have ht1 := (ht1 (by simp)).clear
          have hal1 := hal.2
          rw [show defsAfter D (.documentStart b) = [] from rfl] at hal1
          obtain ⟨hal2, hal3⟩ := (aliasesLocal_append _ _ _).1 hal1
          have hr : Run p1 (rn ++ ((.documentEnd, sp2) :: (re ++ [(.streamEnd, spe)]))) p' := by simpa using hr
          obtain ⟨p2, hrn, hq⟩ := hr.split
          obtain ⟨q2, hrq, ht2⟩ := twin_run hrn ht1 hal2 (by
            intro e hx h
            apply hnn
            simp
            exact .inl ⟨_, by rw [← h]; exact hx⟩)
          cases hq with
          | @cons _ _ p3 _ _ h2 hq =>
            obtain ⟨q3, hq3, ht3⟩ := ht2.next h2 (by simp)
            have ht3 := ht3 (by simp)
            cases rn with
            | nil => obtain ⟨e, r, h⟩ := node_cons hnode; simp at h
            | cons r rn =>
              obtain ⟨ev, sp⟩ := r
              cases hrq with
              | @cons _ _ pe _ _ h3 hrq =>
                simp at hf
                have hnd := (load_runs fuel).1 ev sp rn pe q2 (out ++ [(.documentStart b, sp1)]) hnode hrq (by omega)
                have hdoc : loadDocument fuel (.documentStart b) sp1 ⟨{ q1 with anchors := [] }, out⟩ =
                    (.ok (), ⟨q3, out ++ [(.documentStart b, sp1)] ++ (ev, sp) :: rn ++ [(.documentEnd, sp2)]⟩) := by
                  rw [loadDocument, emit_bind, lift_bind h3]
                  dsimp only
                  rw [step_bind hnd, lift_bind hq3]
                  rfl
                obtain ⟨q', hq'⟩ := ih (out := out ++ [(.documentStart b, sp1)] ++ (ev, sp) :: rn ++ [(.documentEnd, sp2)]) (fuel := fuel)
                  (fun d hd => hn d (List.mem_cons_of_mem _ hd)) he (fun hx => hnn (by simp [hx])) hal3.2 hq ht3 (by omega)
                refine ⟨q', ?_⟩
                rw [loadLoop, lift_bind hq1]
                dsimp only
                rw [if_neg (by simp), lift_bind (m := modify _) (a := ()) (p' := { q1 with anchors := [] }) rfl]
                rw [step_bind hdoc, if_pos rfl, hq']
                simp

/-- what is pulled is what is pushed, if aliases stay in their document -/
theorem load_local {toks tail m k ds s} (hn : ∀ d ∈ ds, Node d.2) (ha : AliasesLocal [] (docEvents ds))
    (h : Delivers (new toks tail m k) (.streamStart :: (docEvents ds ++ [.streamEnd])) s) (hnn : .streamEnd ∉ docEvents ds) :
    ∃ out, load true ⟨new toks tail m k, []⟩ = (.ok (), out) ∧ out.out.map (·.1) = .streamStart :: (docEvents ds ++ [.streamEnd]) := by
  have hlen := Props.C39_bounded h
  simp at hlen
  have h' : Delivers (new toks tail m k) ((.streamStart :: docEvents ds) ++ [.streamEnd]) s := by simpa using h
  obtain ⟨es, spe, p', hes, hr⟩ := delivers_run_end h' (by simp [hnn])
  cases es with
  | nil => simp at hes
  | cons e1 es =>
    obtain ⟨e1, sp1⟩ := e1
    simp at hes
    obtain ⟨rfl, hes⟩ := hes
    cases hr with
    | @cons _ _ p1 _ _ h1 hr =>
      have ht : Twin [] (new toks tail m k) (new toks tail m k) :=
        ⟨rfl, fun _ _ h => h, by simp, by simp [new, mapGet], (new_facts toks tail m k).invc, by simp [Bottom, frames, new, fr, frStack]⟩
      obtain ⟨q1, hq1, ht1⟩ := ht.next h1 (by simp)
      rw [h1] at hq1
      cases hq1
      have hel : es.length = (docEvents ds).length := by rw [← hes]; simp
      obtain ⟨q', this⟩ := loop_local (out := [(.streamStart, sp1)]) (fuel := loadFuel (new toks tail m k)) hn hes hnn ha hr ((ht1 (by simp)).less (by simp)) (by simp [loadFuel, new]; omega)
      refine ⟨⟨q', [(.streamStart, sp1)] ++ es ++ [(.streamEnd, spe)]⟩, ?_, ?_⟩
      · rw [load, if_neg (by simp [new])]
        rw [lift_bind h1]
        dsimp only
        rw [if_neg (by simp), emit_bind]
        rw [loadRest, lift_bind (a := false) (p' := p1) (by simp [gets, first_live h1])]
        rw [if_neg (by simp)]
        exact this
      · simp [hes]

end Verif.Parser
