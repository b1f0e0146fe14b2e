import Verif.Model.Loader
import Verif.Spec.PullRuns
/-!
# The places of events

An event stands where a token stands that the parser took or looked at while making it; the one exception is the end of a mapping of one pair in a
flow sequence.
-/
namespace Verif.Parser.Order
open Verif Verif.Spec Verif.Parser

/-- the tokens that are not used yet -/
def ahead (s : PSt) : List Token := s.token.toList ++ s.toks

variable {T : Token → Prop} {tl : Tail} {em : Marker}

/-- a state that is not the last one, with the end of such a token -/
def Kept (T : Token → Prop) (st : PState) : Prop := st ≠ .endState ∧ ∀ m, st = .flowSequenceEntryMappingEnd m → ∃ x, T x ∧ m = x.span.stop

/-- `T` holds of the tokens that are left, of the tokens whose ends are kept, and of those in view (`C`) -/
structure Fair (T : Token → Prop) (tl : Tail) (em : Marker) (C : List (List Token)) (s : PSt) : Prop where
  toks : ∀ x ∈ ahead s, T x
  marks : ∀ st ∈ s.state :: s.states, Kept T st
  ctx : ∀ l ∈ C, ahead s <:+ l ∧ ∀ x ∈ l, T x
  tail : s.tail = tl
  mark : s.endMark = em
  cur : s.current = none

/-- the errors -/
def Blames (T : Token → Prop) (tl : Tail) (em : Marker) (e : YErr) : Prop :=
  (∃ x msg, T x ∧ e = .scanner x.span.start msg) ∨ tl = .error e ∨ tl = .ended ∧ e = .scanner em "unexpected eof"

/-- steps that make no event -/
def Go (T : Token → Prop) (tl : Tail) (em : Marker) (C : List (List Token)) {α} (m : PM α) : Prop := ∀ s, Fair T tl em C s →
  match m s with
  | (.ok _, s') => Fair T tl em C s' ∧ ahead s' <:+ ahead s
  | (.err e, _) => Blames T tl em e
  | _ => True

/-- where the event stands -/
def Stands (T : Token → Prop) (C : List (List Token)) (r : Event × Span) (l l' : List Token) : Prop :=
  (∃ x b, r.2 = x.span ∧ l' <:+ x :: b ∧ (x :: b ∈ C ∨ x :: b <:+ l)) ∨ r.1 = .mappingEnd ∧ ∃ x, T x ∧ r.2 = .empty x.span.stop

/-- steps that make an event -/
def Ev (T : Token → Prop) (tl : Tail) (em : Marker) (C : List (List Token)) (m : PM (Event × Span)) : Prop := ∀ s, Fair T tl em C s →
  match m s with
  | (.ok r, s') => (Fair T tl em C s' ∨ r.1 = .streamEnd) ∧ ahead s' <:+ ahead s ∧ Stands T C r (ahead s) (ahead s')
  | (.err e, _) => Blames T tl em e
  | _ => True

variable {C : List (List Token)}

theorem Fair.less {C' s} (h : Fair T tl em C' s) (hc : ∀ l ∈ C, l ∈ C') : Fair T tl em C s :=
  ⟨h.toks, h.marks, fun l hl => h.ctx l (hc l hl), h.tail, h.mark, h.cur⟩

theorem Fair.step {s s'} (h : Fair T tl em C s) (h1 : ahead s' <:+ ahead s) (h2 : s'.state = s.state) (h3 : s'.states = s.states) (h4 : s'.tail = s.tail)
    (h5 : s'.endMark = s.endMark) (h6 : s'.current = s.current) : Fair T tl em C s' :=
  ⟨fun x hx => h.toks x (h1.mem hx), by rw [h2, h3]; exact h.marks, fun l hl => ⟨h1.trans (h.ctx l hl).1, (h.ctx l hl).2⟩, h4.trans h.tail, h5.trans h.mark, h6.trans h.cur⟩

theorem peek_cases {s} (h : Fair T tl em C s) :
    (∃ t b s', peekToken s = (.ok t, s') ∧ ahead s = t :: b ∧ ahead s' = t :: b ∧ Fair T tl em ((t :: b) :: C) s') ∨
    (∃ e s', peekToken s = (.err e, s') ∧ Blames T tl em e) ∨ (∃ s', peekToken s = (.panic, s')) ∨ ∃ s', peekToken s = (.hang, s') := by
  unfold peekToken
  cases ht : s.token with
  | some t =>
    have ha : ahead s = t :: s.toks := by simp [ahead, ht]
    refine .inl ⟨t, s.toks, s, rfl, ha, ha, ⟨h.toks, h.marks, fun l hl => ?_, h.tail, h.mark, h.cur⟩⟩
    rcases List.mem_cons.mp hl with rfl | hl
    · exact ⟨by rw [ha]; exact List.suffix_refl _, by rw [← ha]; exact h.toks⟩
    · exact h.ctx l hl
  | none =>
    simp only
    unfold scanNextToken
    cases hk : s.toks with
    | cons t ts =>
      have ha : ahead s = t :: ts := by simp [ahead, ht, hk]
      refine .inl ⟨t, ts, _, rfl, ha, rfl, ⟨fun x hx => h.toks x (by rw [ha]; exact hx), h.marks, fun l hl => ?_, h.tail, h.mark, h.cur⟩⟩
      rcases List.mem_cons.mp hl with rfl | hl
      · exact ⟨List.suffix_refl _, by rw [← ha]; exact h.toks⟩
      · exact ⟨by have := (h.ctx l hl).1; rw [ha] at this; exact this, (h.ctx l hl).2⟩
    | nil =>
      refine .inr ?_
      have htl := h.tail
      cases hT : s.tail with
      | error e => exact .inl ⟨e, _, rfl, .inr (.inl (by rw [← htl, hT]))⟩
      | ended => exact .inl ⟨_, _, rfl, .inr (.inr ⟨by rw [← htl, hT], by rw [← h.mark]⟩)⟩
      | panic => exact .inr (.inl ⟨_, rfl⟩)
      | hang => exact .inr (.inr ⟨_, rfl⟩)

theorem pm_run {α β} (m : PM α) (f : α → PM β) (s : PSt) : (m >>= f) s = match m s with
    | (.ok a, s') => f a s'
    | (.err e, s') => (.err e, s')
    | (.panic, s') => (.panic, s')
    | (.hang, s') => (.hang, s') := rfl

theorem go_pure {α} {a : α} : Go T tl em C (pure a) := fun s h => ⟨h, List.suffix_refl _⟩
theorem go_hang {α} : Go T tl em C (fun s => (.hang, s) : PM α) := fun s h => trivial
theorem go_throw {α t b msg} (ht : t :: b ∈ C) : Go T tl em C (throwAt t.span msg : PM α) := fun s h =>
  .inl ⟨t, msg, (h.ctx _ ht).2 t (List.mem_cons_self ..), rfl⟩
theorem go_gets {α} {f : PSt → α} : Go T tl em C (gets f) := fun s h => ⟨h, List.suffix_refl _⟩
theorem go_modify {f : PSt → PSt} (hf : ∀ s, (f s).token = s.token ∧ (f s).toks = s.toks ∧ (f s).state = s.state ∧ (f s).states = s.states ∧
    (f s).tail = s.tail ∧ (f s).endMark = s.endMark ∧ (f s).current = s.current) : Go T tl em C (modify f) := fun s h => by
  obtain ⟨h1, h2, h3, h4, h5, h6, h7⟩ := hf s
  have ha : ahead (f s) = ahead s := by simp [ahead, h1, h2]
  have hs : ahead (f s) <:+ ahead s := by rw [ha]; exact List.suffix_refl _
  exact ⟨h.step hs h3 h4 h5 h6 h7, hs⟩
theorem go_skip : Go T tl em C skip := fun s h => by
  have hs : ahead { s with token := none } <:+ ahead s := by simp only [ahead, Option.toList, List.nil_append]; exact List.suffix_append _ _
  exact ⟨h.step hs rfl rfl rfl rfl rfl, hs⟩
theorem go_fetch : Go T tl em C fetchToken := fun s h => by
  unfold fetchToken
  cases ht : s.token with
  | none => trivial
  | some t =>
    have hs : ahead { s with token := none } <:+ ahead s := by simp only [ahead, Option.toList, List.nil_append]; exact List.suffix_append _ _
    exact ⟨h.step hs rfl rfl rfl rfl rfl, hs⟩
theorem go_pop : Go T tl em C popState := fun s h => by
  unfold popState
  cases hs : s.states with
  | nil => trivial
  | cons st sts =>
    refine ⟨⟨h.toks, fun x hx => h.marks x ?_, h.ctx, h.tail, h.mark, h.cur⟩, List.suffix_refl _⟩
    rw [hs]
    exact List.mem_cons_of_mem _ hx
theorem go_keep {st} {s : PSt} {sts} (h : Fair T tl em C s) (hst : Kept T st) (hs : ∀ x ∈ sts, Kept T x) : Fair T tl em C { s with state := st, states := sts } :=
  ⟨h.toks, fun x hx => by
    rcases List.mem_cons.mp hx with rfl | hx
    · exact hst
    · exact hs x hx, h.ctx, h.tail, h.mark, h.cur⟩
theorem go_set' {st} (hst : ∀ {s}, Fair T tl em C s → Kept T st) : Go T tl em C (setState st) := fun s h =>
  ⟨go_keep h (hst h) fun x hx => h.marks x (List.mem_cons_of_mem _ hx), List.suffix_refl _⟩
theorem go_push' {st} (hst : ∀ {s}, Fair T tl em C s → Kept T st) : Go T tl em C (pushState st) := fun s h =>
  ⟨go_keep h (h.marks _ (List.mem_cons_self ..)) fun x hx => by
    rcases List.mem_cons.mp hx with rfl | hx
    · exact hst h
    · exact h.marks x (List.mem_cons_of_mem _ hx), List.suffix_refl _⟩
theorem go_set {st} (hst : Kept T st) : Go T tl em C (setState st) := go_set' fun _ => hst
theorem go_push {st} (hst : Kept T st) : Go T tl em C (pushState st) := go_push' fun _ => hst
theorem kept_end {s t b} (ht : t :: b ∈ C) (h : Fair T tl em C s) : Kept T (.flowSequenceEntryMappingEnd t.span.stop) :=
  ⟨by simp, fun m hm => by cases hm; exact ⟨t, (h.ctx _ ht).2 t (List.mem_cons_self ..), rfl⟩⟩
theorem go_setEnd {t b} (ht : t :: b ∈ C) : Go T tl em C (setState (.flowSequenceEntryMappingEnd t.span.stop)) := go_set' (kept_end ht)
theorem go_pushEnd {t b} (ht : t :: b ∈ C) : Go T tl em C (pushState (.flowSequenceEntryMappingEnd t.span.stop)) := go_push' (kept_end ht)
theorem go_register {n} : Go T tl em C (registerAnchor n) := fun s h => ⟨h.step (List.suffix_refl _) rfl rfl rfl rfl rfl, List.suffix_refl _⟩
theorem go_resolve {t b x y} (ht : t :: b ∈ C) : Go T tl em C (resolveTagM t.span x y) := fun s h => by
  unfold resolveTagM
  have hb : ∀ e, resolveTag s.tags t.span x y = .err e → Blames T tl em e := by
    intro e he
    unfold resolveTag at he
    split at he
    · cases he
    split at he
    · split at he <;> cases he
    split at he
    · cases he
    split at he
    · cases he
      exact .inl ⟨t, _, (h.ctx _ ht).2 t (List.mem_cons_self ..), rfl⟩
    · cases he
  cases hr : resolveTag s.tags t.span x y with
  | ok a => exact ⟨h, List.suffix_refl _⟩
  | err e => exact hb e hr
  | panic => trivial
  | hang => trivial

theorem go_bind {α β} {m : PM α} {f : α → PM β} (hm : Go T tl em C m) (hf : ∀ a, Go T tl em C (f a)) : Go T tl em C (m >>= f) := fun s h => by
  have h1 := hm s h
  rw [pm_run]
  rcases hr : m s with ⟨r, s1⟩
  rw [hr] at h1
  cases r with
  | ok a =>
    have h2 := hf a s1 h1.1
    simp only
    rcases hr2 : f a s1 with ⟨r, s2⟩
    rw [hr2] at h2
    cases r with
    | ok b => exact ⟨h2.1, h2.2.trans h1.2⟩
    | err e => exact h2
    | panic => trivial
    | hang => trivial
  | err e => exact h1
  | panic => trivial
  | hang => trivial

theorem go_peek {β} {f : Token → PM β} (hf : ∀ t b, Go T tl em ((t :: b) :: C) (f t)) : Go T tl em C (peekToken >>= f) := fun s h => by
  rw [pm_run]
  rcases peek_cases h with ⟨t, b, s1, h1, h2, h3, h4⟩ | ⟨e, s1, h1, h2⟩ | ⟨s1, h1⟩ | ⟨s1, h1⟩
  · have h5 := hf t b s1 h4
    rw [h1]
    simp only
    rcases hr2 : f t s1 with ⟨r, s2⟩
    rw [hr2] at h5
    cases r with
    | ok b => exact ⟨h5.1.less fun l hl => List.mem_cons_of_mem _ hl, by rw [h2, ← h3]; exact h5.2⟩
    | err e => exact h5
    | panic => trivial
    | hang => trivial
  · rw [h1]; exact h2
  · rw [h1]; trivial
  · rw [h1]; trivial

theorem go_ite {α} {c : Prop} [Decidable c] {m n : PM α} (hm : Go T tl em C m) (hn : Go T tl em C n) : Go T tl em C (if c then m else n) := by
  split
  · exact hm
  · exact hn

theorem ev_pure {ev t b} (ht : t :: b ∈ C) : Ev T tl em C (pure (ev, t.span)) := fun s h =>
  ⟨.inl h, List.suffix_refl _, .inl ⟨t, b, rfl, (h.ctx _ ht).1, .inl ht⟩⟩
theorem ev_end {t b} (ht : t :: b ∈ C) : Ev T tl em C (setState .endState >>= fun _ => skip >>= fun _ => pure (.streamEnd, t.span)) := fun s h => by
  have hs : ahead { s with state := .endState, token := none } <:+ ahead s := by simp only [ahead, Option.toList, List.nil_append]; exact List.suffix_append _ _
  exact ⟨.inr rfl, hs, .inl ⟨t, b, rfl, hs.trans (h.ctx _ ht).1, .inl ht⟩⟩
theorem ev_throw {t b msg} (ht : t :: b ∈ C) : Ev T tl em C (throwAt t.span msg) := fun s h =>
  .inl ⟨t, msg, (h.ctx _ ht).2 t (List.mem_cons_self ..), rfl⟩
theorem ev_throwB {α t b msg} {f : α → PM (Event × Span)} (ht : t :: b ∈ C) : Ev T tl em C (throwAt t.span msg >>= f) := fun s h =>
  .inl ⟨t, msg, (h.ctx _ ht).2 t (List.mem_cons_self ..), rfl⟩
theorem ev_panic : Ev T tl em C panic := fun s h => trivial

theorem ev_bind {α} {m : PM α} {f : α → PM (Event × Span)} (hm : Go T tl em C m) (hf : ∀ a, Ev T tl em C (f a)) : Ev T tl em C (m >>= f) := fun s h => by
  have h1 := hm s h
  rw [pm_run]
  rcases hr : m s with ⟨r, s1⟩
  rw [hr] at h1
  cases r with
  | ok a =>
    have h2 := hf a s1 h1.1
    simp only
    rcases hr2 : f a s1 with ⟨r, s2⟩
    rw [hr2] at h2
    cases r with
    | ok r =>
      refine ⟨h2.1, h2.2.1.trans h1.2, ?_⟩
      rcases h2.2.2 with ⟨x, b, g1, g2, g3⟩ | g
      · exact .inl ⟨x, b, g1, g2, g3.imp id fun g => g.trans h1.2⟩
      · exact .inr g
    | err e => exact h2
    | panic => trivial
    | hang => trivial
  | err e => exact h1
  | panic => trivial
  | hang => trivial

theorem ev_peek {f : Token → PM (Event × Span)} (hf : ∀ t b, Ev T tl em ((t :: b) :: C) (f t)) : Ev T tl em C (peekToken >>= f) := fun s h => by
  rw [pm_run]
  rcases peek_cases h with ⟨t, b, s1, h1, h2, h3, h4⟩ | ⟨e, s1, h1, h2⟩ | ⟨s1, h1⟩ | ⟨s1, h1⟩
  · have h5 := hf t b s1 h4
    rw [h1]
    simp only
    rcases hr2 : f t s1 with ⟨r, s2⟩
    rw [hr2] at h5
    cases r with
    | ok r =>
      refine ⟨h5.1.imp (fun g => g.less fun l hl => List.mem_cons_of_mem _ hl) id, by rw [h2, ← h3]; exact h5.2.1, ?_⟩
      rcases h5.2.2 with ⟨x, b', g1, g2, g3⟩ | g
      · refine .inl ⟨x, b', g1, g2, ?_⟩
        rcases g3 with g3 | g3
        · rcases List.mem_cons.mp g3 with g3 | g3
          · exact .inr (by rw [g3, h2]; exact List.suffix_refl _)
          · exact .inl g3
        · exact .inr (by rw [h2, ← h3]; exact g3)
      · exact .inr g
    | err e => exact h5
    | panic => trivial
    | hang => trivial
  · rw [h1]; exact h2
  · rw [h1]; trivial
  · rw [h1]; trivial

theorem ev_ite {c : Prop} [Decidable c] {m n : PM (Event × Span)} (hm : Ev T tl em C m) (hn : Ev T tl em C n) : Ev T tl em C (if c then m else n) := by
  split
  · exact hm
  · exact hn

/-- a token in view -/
macro "inview" : tactic => `(tactic| first
  | with_reducible exact List.mem_cons_self ..
  | with_reducible exact List.mem_cons_of_mem _ (List.mem_cons_self ..)
  | with_reducible exact List.mem_cons_of_mem _ (List.mem_cons_of_mem _ (List.mem_cons_self ..))
  | with_reducible exact List.mem_cons_of_mem _ (List.mem_cons_of_mem _ (List.mem_cons_of_mem _ (List.mem_cons_self ..)))
  | with_reducible exact List.mem_cons_of_mem _ (List.mem_cons_of_mem _ (List.mem_cons_of_mem _ (List.mem_cons_of_mem _ (List.mem_cons_self ..)))))

/-- one step -/
macro "ev1" : tactic => `(tactic| first
  | with_reducible assumption
  | with_reducible exact ev_panic
  | with_reducible exact go_pure
  | with_reducible exact go_hang
  | with_reducible exact go_skip
  | with_reducible exact go_fetch
  | with_reducible exact go_pop
  | with_reducible exact go_gets
  | with_reducible exact go_register
  | ((with_reducible apply ev_end); inview)
  | ((with_reducible apply ev_pure); inview)
  | ((with_reducible apply ev_throw); inview)
  | ((with_reducible apply ev_throwB); inview)
  | ((with_reducible apply go_throw); inview)
  | ((with_reducible apply go_resolve); inview)
  | ((with_reducible apply go_setEnd); inview)
  | ((with_reducible apply go_pushEnd); inview)
  | ((with_reducible refine go_set ?_); exact ⟨by simp, by simp⟩)
  | ((with_reducible refine go_push ?_); exact ⟨by simp, by simp⟩)
  | ((with_reducible refine go_modify ?_); intro _; exact ⟨rfl, rfl, rfl, rfl, rfl, rfl, rfl⟩)
  | ((with_reducible refine ev_peek ?_); intro _ _)
  | ((with_reducible refine go_peek ?_); intro _ _)
  | ((with_reducible refine ev_bind ?_ (fun _ => ?_)))
  | ((with_reducible refine go_bind ?_ (fun _ => ?_)))
  | (with_reducible refine ev_ite ?_ ?_)
  | (with_reducible refine go_ite ?_ ?_)
  | dsimp only
  | split)

theorem ev_streamStart : Ev T tl em C streamStart := by unfold streamStart; repeat' ev1

theorem go_directivesLoop : ∀ n v {C}, Go T tl em C (processDirectivesLoop n v) := by
  intro n
  induction n with
  | zero => intro v C; exact go_hang
  | succ n ih =>
    intro v C
    unfold processDirectivesLoop
    repeat' (first | with_reducible exact ih _ | ev1)

theorem go_directives : Go T tl em C processDirectives := fun s h => go_directivesLoop _ _ s h

theorem go_skipEnds : ∀ n {C}, Go T tl em C (skipDocumentEnds n) := by
  intro n
  induction n with
  | zero => intro C; exact go_hang
  | succ n ih =>
    intro C
    unfold skipDocumentEnds
    repeat' (first | with_reducible exact ih | ev1)

theorem ev_explicit : Ev T tl em C explicitDocumentStart := by
  unfold explicitDocumentStart
  refine ev_bind go_directives fun _ => ?_
  repeat' ev1

theorem ev_documentStart {i} : Ev T tl em C (documentStart i) := by
  unfold documentStart
  refine ev_bind go_gets fun n => ev_bind (go_skipEnds _) fun _ => ?_
  repeat' (first | with_reducible exact ev_explicit | with_reducible exact go_directives | ev1)

theorem ev_nodeContent {x y i t} : Ev T tl em C (parseNodeContent x y i t) := by
  unfold parseNodeContent
  repeat' ev1

theorem ev_node {x y} : Ev T tl em C (parseNode x y) := by
  unfold parseNode
  repeat' (first | with_reducible exact ev_nodeContent | ev1)

theorem ev_documentContent : Ev T tl em C documentContent := by
  unfold documentContent
  repeat' (first | with_reducible exact ev_node | ev1)

theorem ev_documentEnd : Ev T tl em C documentEnd := by
  unfold documentEnd
  repeat' (first | with_reducible exact ev_node | ev1)

theorem ev_blockMappingKey {x} : Ev T tl em C (blockMappingKey x) := by
  unfold blockMappingKey
  repeat' (first | with_reducible exact ev_node | ev1)

theorem ev_blockMappingValue {x} : Ev T tl em C (blockMappingValue x) := by
  unfold blockMappingValue
  repeat' (first | with_reducible exact ev_node | ev1)

theorem ev_flowMappingKey {x} : Ev T tl em C (flowMappingKey x) := by
  unfold flowMappingKey
  repeat' (first | with_reducible exact ev_node | ev1)

theorem ev_flowMappingValue {x} : Ev T tl em C (flowMappingValue x) := by
  unfold flowMappingValue
  repeat' (first | with_reducible exact ev_node | ev1)

theorem ev_flowRest : Ev T tl em C flowSequenceEntryRest := by
  unfold flowSequenceEntryRest
  repeat' (first | with_reducible exact ev_node | ev1)

theorem ev_flowEntry {x} : Ev T tl em C (flowSequenceEntry x) := by
  unfold flowSequenceEntry
  repeat' (first | with_reducible exact ev_flowRest | ev1)

theorem ev_indentless : Ev T tl em C indentlessSequenceEntry := by
  unfold indentlessSequenceEntry
  repeat' (first | with_reducible exact ev_node | ev1)

theorem ev_blockSequence {x} : Ev T tl em C (blockSequenceEntry x) := by
  unfold blockSequenceEntry
  repeat' (first | with_reducible exact ev_node | ev1)

theorem ev_pairKey : Ev T tl em C flowSequenceEntryMappingKey := by
  unfold flowSequenceEntryMappingKey
  repeat' (first | with_reducible exact ev_node | ev1)

theorem ev_pairValue : Ev T tl em C flowSequenceEntryMappingValue := by
  unfold flowSequenceEntryMappingValue
  repeat' (first | with_reducible exact ev_node | ev1)

/-! ## Pulling events -/

theorem ev_machine {s : PSt} (h : Fair T tl em [] s) : match stateMachine s with
    | (.ok r, s') => (Fair T tl em [] s' ∨ r.1 = .streamEnd) ∧ ahead s' <:+ ahead s ∧ Stands T [] r (ahead s) (ahead s')
    | (.err e, _) => Blames T tl em e
    | _ => True := by
  unfold stateMachine
  cases hs : s.state with
  | streamStart => exact ev_streamStart s h
  | implicitDocumentStart => exact ev_documentStart (i := true) s h
  | documentStart => exact ev_documentStart (i := false) s h
  | documentContent => exact ev_documentContent s h
  | documentEnd => exact ev_documentEnd s h
  | blockNode => exact ev_node (x := true) (y := false) s h
  | blockMappingFirstKey => exact ev_blockMappingKey (x := true) s h
  | blockMappingKey => exact ev_blockMappingKey (x := false) s h
  | blockMappingValue => exact ev_blockMappingValue (x := true) s h
  | blockMappingValueCont => exact ev_blockMappingValue (x := false) s h
  | blockSequenceFirstEntry => exact ev_blockSequence (x := true) s h
  | blockSequenceEntry => exact ev_blockSequence (x := false) s h
  | flowSequenceFirstEntry => exact ev_flowEntry (x := true) s h
  | flowSequenceEntry => exact ev_flowEntry (x := false) s h
  | flowMappingFirstKey => exact ev_flowMappingKey (x := .firstKey) s h
  | flowMappingFirstKeyCont => exact ev_flowMappingKey (x := .firstKeyContinue) s h
  | flowMappingKey => exact ev_flowMappingKey (x := .nonFirstKey) s h
  | flowMappingValue => exact ev_flowMappingValue (x := false) s h
  | indentlessSequenceEntry => exact ev_indentless s h
  | flowSequenceEntryMappingKey => exact ev_pairKey s h
  | flowSequenceEntryMappingValue => exact ev_pairValue s h
  | flowSequenceEntryMappingEnd m =>
    obtain ⟨x, hx, rfl⟩ := (h.marks _ (List.mem_cons_self ..)).2 m hs
    exact ⟨.inl (go_keep h ⟨by simp, by simp⟩ fun x hx => h.marks x (List.mem_cons_of_mem _ hx)), List.suffix_refl _, .inr ⟨rfl, x, hx, rfl⟩⟩
  | flowMappingEmptyValue => exact ev_flowMappingValue (x := true) s h
  | endState => trivial

/-- an event at one of the tokens, or the end of a mapping at the end of one -/
def Placed (T : Token → Prop) (l : List Token) (r : Event × Span) : Prop :=
  (∃ x ∈ l, r.2 = x.span) ∨ r.1 = .mappingEnd ∧ ∃ x, T x ∧ r.2 = .empty x.span.stop

theorem after_end {k} {s : PSt} (h : s.streamEndEmitted = true) : (pullAll k s).1 = [] ∧ ∀ e, (pullAll k s).2 ≠ .failed e := by
  cases k with
  | zero => exact ⟨rfl, fun e h => by cases h⟩
  | succ k =>
    rw [pullAll]
    unfold nextEvent
    rw [if_pos h]
    exact ⟨rfl, fun e h => by cases h⟩

/-- Events that are pulled stand at tokens, one after the other. -/
theorem pulled_places : ∀ (k : Nat) {s : PSt}, Fair T tl em [] s →
    (∀ r ∈ (pullAll k s).1, Placed T (ahead s) r) ∧
    (∀ e, (pullAll k s).2 = .failed e → Blames T tl em e) ∧
    ((ahead s).Pairwise (fun t u => t.span.start.pos ≤ u.span.start.pos) →
      ((pullAll k s).1.filter fun r => r.1 ≠ .mappingEnd).Pairwise fun r q => r.2.start.pos ≤ q.2.start.pos) := by
  intro k
  induction k with
  | zero =>
    intro s h
    exact ⟨fun r hr => (by cases hr), fun e he => (by cases he), fun _ => .nil⟩
  | succ k ih =>
    intro s h
    by_cases hse : s.streamEndEmitted = true
    · have := after_end (k := k + 1) hse
      rw [this.1]
      exact ⟨fun r hr => (by cases hr), fun e he => absurd he (this.2 e), fun _ => .nil⟩
    have h1 := ev_machine h
    have hn : nextEventImpl s = stateMachine s := by
      unfold nextEventImpl
      rw [h.cur]
      simp only
      unfold parse
      rw [if_neg]
      simpa using (h.marks s.state (List.mem_cons_self ..)).1
    rw [pullAll]
    unfold nextEvent
    rw [if_neg hse, hn]
    rcases hr : stateMachine s with ⟨r, s1⟩
    rw [hr] at h1
    cases r with
    | ok r =>
      obtain ⟨ev, sp⟩ := r
      obtain ⟨hf, hsuf, hst⟩ := h1
      have hhead : Placed T (ahead s) (ev, sp) := by
        rcases hst with ⟨x, b, g1, g2, g3⟩ | g
        · rcases g3 with g3 | g3
          · cases g3
          · exact .inl ⟨x, g3.mem (List.mem_cons_self ..), g1⟩
        · exact .inr g
      dsimp only
      by_cases he : ev = .streamEnd
      · rw [if_pos he]
        have := after_end (k := k) (s := { s1 with streamEndEmitted := true }) rfl
        rw [this.1]
        refine ⟨fun r hr => ?_, fun e he => absurd he (this.2 e), fun _ => ?_⟩
        · rw [List.mem_singleton.mp hr]
          exact hhead
        · subst he
          exact List.pairwise_singleton ..
      · rw [if_neg he]
        obtain ⟨i1, i2, i3⟩ := ih (hf.resolve_right he)
        have hsub : ∀ r, Placed T (ahead s1) r → Placed T (ahead s) r := fun r hr =>
          hr.imp (fun ⟨x, hx, e⟩ => ⟨x, hsuf.mem hx, e⟩) id
        refine ⟨fun r hr => ?_, i2, fun hp => ?_⟩
        · rcases List.mem_cons.mp hr with rfl | hr
          · exact hhead
          · exact hsub r (i1 r hr)
        · have hp1 := hp.sublist hsuf.sublist
          by_cases hm : ev = .mappingEnd
          · rw [List.filter_cons_of_neg (by simp [hm])]
            exact i3 hp1
          · rw [List.filter_cons_of_pos (by simp [hm])]
            refine .cons (fun q hq => ?_) (i3 hp1)
            have hq' := List.mem_filter.mp hq
            rcases hst with ⟨x, b, g1, g2, g3⟩ | g
            · rcases i1 q hq'.1 with ⟨y, hy, e⟩ | g'
              · rw [e, g1]
                have hxb : (x :: b).Pairwise (fun t u : Token => t.span.start.pos ≤ u.span.start.pos) := by
                  rcases g3 with g3 | g3
                  · cases g3
                  · exact hp.sublist g3.sublist
                rcases List.mem_cons.mp (g2.mem hy) with rfl | hy
                · exact Nat.le_refl _
                · exact List.rel_of_pairwise_cons hxb hy
              · simp [g'.1] at hq'
            · exact absurd g.1 hm
    | err e => exact ⟨fun r hr => (by cases hr), fun e he => (by cases he; exact h1), fun _ => .nil⟩
    | panic => exact ⟨fun r hr => (by cases hr), fun e he => (by cases he), fun _ => .nil⟩
    | hang => exact ⟨fun r hr => (by cases hr), fun e he => (by cases he), fun _ => .nil⟩

theorem fair_new {toks : List Token} {k} : Fair (· ∈ toks) tl em [] (Parser.new toks tl em k) :=
  ⟨fun x hx => hx, fun st hst => (by
    have : st = .streamStart := by simpa [Parser.new] using hst
    subst this
    exact ⟨by simp, by simp⟩), fun l hl => (by cases hl), rfl, rfl, rfl⟩

end Verif.Parser.Order
