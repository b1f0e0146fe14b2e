import Verif.Lemmas.ParserRun
/-!
# C13–C19, C39, C40: the event parser

The parser is started on an arbitrary list of tokens `toks`, followed by an arbitrary behaviour `tail` of the scanner.
-/
namespace Verif.Props
open Verif Verif.Parser Verif.Spec Verif.Grammar

theorem pull_delivers {n s evs s'} (h : pull n s = some (evs, s')) : Delivers s evs s' := by
  induction n generalizing evs s' with
  | zero => simp only [pull, Option.some.injEq, Prod.mk.injEq] at h; rw [← h.1, ← h.2]; exact .nil
  | succ n ih =>
    simp only [pull] at h
    split at h
    · cases h
    · rename_i evs1 s1 hp
      split at h
      · rename_i ev sp s2 hn
        simp only [Option.some.injEq, Prod.mk.injEq] at h
        rw [← h.1, ← h.2]
        exact .snoc (ih hp) hn
      · cases h

theorem pull_run {n s evs} (h : (pull n s).map (·.1) = some evs) : ∃ s', Delivers s evs s' := by
  simp only [Option.map_eq_some_iff] at h
  obtain ⟨⟨a, s'⟩, h, rfl⟩ := h
  exact ⟨s', pull_delivers h⟩

theorem delivers_facts {toks tail m k evs s} (h : Delivers (new toks tail m k) evs s) :
    RunFacts (new toks tail m k) evs s := run_facts (new_facts _ _ _ _) h

theorem delivers_trans {s0 evs s evs' s'} (h : Delivers s0 evs s) (h' : Delivers s evs' s') : Delivers s0 (evs ++ evs') s' := by
  induction h' with
  | nil => simpa using h
  | snoc _ hn ih => rw [← List.append_assoc]; exact .snoc ih hn

/-! ## Examples used below -/

/-- a token at an unimportant position -/
def tk (t : TokenType) : Token := ⟨.empty .default, t⟩

/-- `&a [x, {y: *a}]`, then `--- *a` -/
def exToks : List Token := [.streamStart, .anchor bs!"a", .flowSequenceStart, .scalar .plain bs!"x", .flowEntry, .flowMappingStart, .key,
  .scalar .plain bs!"y", .value, .alias bs!"a", .flowMappingEnd, .flowSequenceEnd, .documentStart, .alias bs!"a", .streamEnd].map tk

/-- the events of `exToks` -/
def exEvents : List Event := [.streamStart, .documentStart false, .sequenceStart 1 none, .scalar ⟨bs!"x", .plain, 0, none⟩,
  .mappingStart 0 none, .scalar ⟨bs!"y", .plain, 0, none⟩, .alias 1, .mappingEnd, .sequenceEnd, .documentEnd, .documentStart true,
  .alias 1, .documentEnd, .streamEnd]

theorem exRun : ∃ s, Delivers (new exToks .ended .default false) exEvents s :=
  pull_run (n := 14) (by decide +kernel)

/-! ## C13 -/

/-- C13: the events delivered so far are the beginning of a well-formed stream, whatever the tokens are. -/
theorem C13_prefix {toks tail m k evs s} (h : Delivers (new toks tail m k) evs s) : StreamPrefix evs :=
  streamPrefix_of_steps (delivers_facts h).gram

/-- C13: once `StreamEnd` has been delivered, they are a complete well-formed stream. -/
theorem C13_complete {toks tail m k evs s} (h : Delivers (new toks tail m k) (evs ++ [.streamEnd]) s) :
    Stream (evs ++ [.streamEnd]) := by
  cases hx : evs ++ [.streamEnd] with
  | nil => simp at hx
  | cons e es =>
    rw [hx] at h
    rw [← hx] at h ⊢
    have hd := delivers_facts h
    generalize hl : evs ++ [.streamEnd] = l at h
    cases h with
    | nil => simp at hl
    | snoc h1 hn =>
      obtain ⟨rfl, he⟩ := List.append_inj' hl rfl
      simp only [List.cons.injEq, and_true] at he
      subst he
      have hf := delivers_facts h1
      obtain ⟨-, s1, -, -, -, -, hs⟩ := next_facts hf.invc hf.live hn
      rw [if_pos rfl] at hs
      have := hd.dead (by rw [hs])
      exact stream_of_steps (by rw [hd.gram, this.1])

example : Stream exEvents := C13_complete (evs := exEvents.dropLast) exRun.choose_spec

/-- what happens at the start of `load` on a fresh parser -/
theorem load_new {multi toks tail m k} :
    lw (load multi) (fun _ s' => LoadPost 0 [.streamStart] multi s') (GErr 0 [.streamStart]) ⟨new toks tail m k, []⟩ := by
  have hi := (new_facts toks tail m k).invc
  have hg : GInv 0 [.streamStart] [] ⟨new toks tail m k, []⟩ := ⟨by simp, rfl, trivial, by simp [new]⟩
  have hf : frames (new toks tail m k) = [.streamStart] := rfl
  have : lw (do
      let (ev, sp) ← liftP nextEventImpl
      if ev ≠ .streamStart then liftP (throwAt sp "did not find expected <stream-start>")
      else do
        onEvent ev sp
        loadRest multi (loadFuel (new toks tail m k)) : LM Unit)
      (fun _ s' => LoadPost 0 [.streamStart] multi s') (GErr 0 [.streamStart]) ⟨new toks tail m k, []⟩ := by
    apply lw_bind; apply lw_lift
    have hend : wp nextEventImpl (fun r s' => r.1 = .streamStart → s'.ended = false) (fun _ => True) (new toks tail m k) := by
      have : wp streamStart (fun r s' => r.1 = .streamStart → s'.ended = false) (fun _ => True) (new toks tail m k) := by
        unfold streamStart
        unfold wp
        cases toks with
        | nil => cases tail <;> simp [new, peekToken, scanNextToken, Bind.bind]
        | cons t ts =>
          obtain ⟨sp, tt⟩ := t
          cases tt <;> simp [new, peekToken, scanNextToken, Bind.bind, throwAt, Parser.throw, setState, skip, Parser.modify, Pure.pure]
          all_goals first | rfl | decide
      unfold wp at *
      simpa [nextEventImpl, parse, stateMachine, dispatch, new] using this
    refine wp_mono (wp_and (wp_nextEventImpl hi (by rw [hf]; simp)) hend) ?_ (fun _ h => hg.err h.1)
    rintro ⟨ev, sp⟩ p1 ⟨⟨ho, hi1⟩, he⟩
    have hgr := ho.gram
    rw [hf] at hgr
    have hev : ev = .streamStart ∧ frames p1 = [.docStart] := by
      cases ev <;> simp [step, after] at hgr ⊢
      exact hgr.symm
    obtain ⟨rfl, hf1⟩ := hev
    dsimp only
    rw [if_neg (by simp)]
    apply lw_bind; apply lw_onEvent
    unfold loadRest
    apply lw_bind; apply lw_lift; apply wp_gets
    dsimp only
    rw [he rfl]
    simp only [Bool.false_eq_true, if_false]
    refine lw_mono (loadLoop_lw _ _ hi1 (hg.next hi.pos ho (by simp)).emit hf1 ?_) (fun _ _ h => h) (fun _ h => h)
    have hm := ho.meas
    have hp : measure (new toks tail m k) ≤ 10 * toks.length + 10 := by
      simp [Parser.measure, new, pend, wcur, wst, wstack]
    simp only [loadFuel, new] at *
    omega
  unfold lw at *
  simpa [load, new] using this

/-- C13 for the push API: whatever `load` has sent to its receiver is the beginning of a well-formed stream. If it
succeeds, it is a complete stream, or (when only one document was asked for) all but the end of one. -/
theorem C13_load {multi toks tail m k r s'} (h : load multi ⟨new toks tail m k, []⟩ = (r, s')) (h1 : tail ≠ .panic) (h2 : tail ≠ .hang) :
    StreamPrefix (s'.out.map (·.1)) ∧
    (r = .ok () → Stream (s'.out.map (·.1)) ∨ (multi = false ∧ Stream (s'.out.map (·.1) ++ [.streamEnd]))) := by
  have hl := load_new (multi := multi) (toks := toks) (tail := tail) (m := m) (k := k)
  unfold lw at hl
  rw [h] at hl
  obtain ⟨-, hl⟩ := hl
  have hs : since 0 s' = s'.out.map (·.1) := by simp [since]
  cases r with
  | ok u =>
    obtain ⟨⟨-, hg, -, -⟩, -, hf⟩ := hl
    rw [hs, List.append_nil] at hg
    refine ⟨streamPrefix_of_steps hg, fun _ => ?_⟩
    rcases hf with hf | ⟨rfl, hf⟩
    · left; exact stream_of_steps (by rw [hg, hf])
    · right
      refine ⟨rfl, stream_of_steps ?_⟩
      rw [steps_append, hg, hf]; rfl
  | err e =>
    obtain ⟨-, ⟨fs, hg⟩, -⟩ := hl
    rw [hs] at hg
    exact ⟨streamPrefix_of_steps hg, by simp⟩
  | panic => exact absurd hl h1
  | hang => exact absurd hl h2

example : ((load true ⟨new (exToks.take 13 ++ [tk .streamEnd]) .ended .default false, []⟩).1 = .ok ()) ∧
    (load true ⟨new (exToks.take 13 ++ [tk .streamEnd]) .ended .default false, []⟩).2.out.length = 14 := by decide +kernel

/-! ## C14 -/

/-- C14: after any calls whatsoever (pulling, peeking, loading; successful or failed), no call panics, and every call
returns, unless the scanner itself panics or does not return. -/
theorem C14_no_panic {toks tail m k s} (h : AfterCalls (new toks tail m k) s) (c : Call) :
    ((call c s).1 = .panic → tail = .panic) ∧ ((call c s).1 = .hang → tail = .hang) := by
  have hr := afterCalls_reachable (new_facts toks tail m k).invc.rinv.reach h
  have hc := call_reachable (c := c) hr.1
  have ht : s.tail = tail := hr.2
  rw [ht] at hc
  cases hx : call c s with
  | mk r s' =>
    rw [hx] at hc
    cases r <;> simp at hc ⊢ <;> exact hc.2

/-- an error, and calls after it -/
example : ∃ s, AfterCalls (new exToks (.error .noDocument) .default false) s ∧ (call (.load true) s).1 ≠ .panic :=
  ⟨_, .err (c := .load false) (s' := (call (.load false) (call (.load false) (new exToks (.error .noDocument) .default false)).2).2)
    (e := .scanner .default "while parsing node, found unknown anchor")
    (.ok (c := .load false) .start (s' := (call (.load false) (new exToks (.error .noDocument) .default false)).2) (by decide +kernel)) (by decide +kernel), by decide +kernel⟩

/-! ## C15 -/

/-- C15 where peeking succeeds: the event peeked at is the one delivered next; peeking again gives it again and changes
nothing; and after the delivery the parser is in the state it would be in without peeking. -/
theorem C15_peek_partial {toks tail m k s x s1} (h : AfterCalls (new toks tail m k) s) (hp : peek s = (.ok x, s1)) :
    peek s1 = (.ok x, s1) ∧ ∃ s2, nextEvent s1 = (.ok x, s2) ∧ nextEvent s = (.ok x, s2) := by
  have hr := (afterCalls_reachable (new_facts toks tail m k).invc.rinv.reach h).1
  unfold peek at hp
  cases hc : s.current with
  | some v =>
    obtain ⟨ev, sp⟩ := v
    simp only [hc, Prod.mk.injEq, Res.ok.injEq] at hp
    obtain ⟨rfl, rfl⟩ := hp
    have he : s.streamEndEmitted = false := by
      cases he : s.streamEndEmitted with
      | false => rfl
      | true => simp [hr.emit he] at hc
    refine ⟨by simp [peek, hc], ?_⟩
    simp [nextEvent, he, nextEventImpl, hc]
  | none =>
    simp only [hc] at hp
    cases he : s.streamEndEmitted with
    | true =>
      simp only [he, if_true, Prod.mk.injEq, Res.ok.injEq] at hp
      obtain ⟨rfl, rfl⟩ := hp
      simp [peek, nextEvent, hc, he]
    | false =>
      simp only [he, Bool.false_eq_true, if_false] at hp
      have hw := wp_nextEventImpl_any hr
      unfold wp at hw
      cases hn : nextEventImpl s with
      | mk r s' =>
        rw [hn] at hp hw
        cases r <;> simp only [Prod.mk.injEq, Res.ok.injEq, reduceCtorEq, false_and] at hp hw
        obtain ⟨rfl, rfl⟩ := hp
        rename_i v
        obtain ⟨ev, sp⟩ := v
        have hcur := hw.2.1.cur
        have hem := hw.2.2.2.1
        refine ⟨by simp [peek], if ev = .streamEnd then { s' with streamEndEmitted := true } else s', ?_, by simp [nextEvent, he, hn]⟩
        have hem' : s'.streamEndEmitted = false := by rw [hem, he]
        obtain ⟨a1, a2, a3, a4, a5, a6, a7, a8, a9, a10, a11, a12, a13, a14⟩ := s'
        simp only at hcur hem'
        subst hcur hem'
        simp [nextEvent, nextEventImpl]

/-- C15, the rest: where peeking fails, it fails exactly as pulling would have, and leaves the parser as pulling would have. -/
theorem C15_peek_error_partial {s e s1} (hp : peek s = (.err e, s1)) : nextEvent s = (.err e, s1) := by
  unfold peek at hp
  cases hc : s.current with
  | some v => simp [hc] at hp
  | none =>
    simp only [hc] at hp
    cases he : s.streamEndEmitted with
    | true => simp [he] at hp
    | false =>
      simp only [he, Bool.false_eq_true, if_false] at hp
      cases hn : nextEventImpl s with
      | mk r s' =>
        rw [hn] at hp
        cases r <;> simp at hp
        simp [nextEvent, he, hn, hp]

/-- C15 is false as stated: a peek that fails has consumed the failing token, so what is delivered afterwards differs from
what would have been delivered without peeking. Witness: `*a` with no anchor `a`. Pulling gives an error; peeking and then
pulling gives the document end. -/
theorem C15_peek_false : ¬ ∀ toks tail m k s, AfterCalls (new toks tail m k) s →
    (nextEvent (peek s).2).1 = (nextEvent s).1 := by
  intro h
  let toks := [TokenType.streamStart, .alias bs!"a", .streamEnd].map tk
  have h1 := h toks .ended .default false (call .next (call .next (new toks .ended .default false)).2).2
    (.ok (c := .next) (.ok (c := .next) .start rfl) rfl)
  have h2 : (nextEvent (peek (call .next (call .next (new toks .ended .default false)).2).2).2).1 ≠
      (nextEvent (call .next (call .next (new toks .ended .default false)).2).2).1 := by decide +kernel
  exact h2 h1

/-- peeking at the sequence start of `exToks` -/
example : (peek (call .next (call .next (new exToks .ended .default false)).2).2).1 =
    .ok (some (.sequenceStart 1 none, .empty .default)) := by decide +kernel

/-! ## C16 -/

/-- C16: once `StreamEnd` has been delivered, pulling and peeking give `None` and change nothing (so this holds for ever). -/
theorem C16_final {toks tail m k s sp s'} (h : AfterCalls (new toks tail m k) s)
    (hn : nextEvent s = (.ok (some (.streamEnd, sp)), s')) : nextEvent s' = (.ok none, s') ∧ peek s' = (.ok none, s') := by
  have hr := (afterCalls_reachable (new_facts toks tail m k).invc.rinv.reach h).1
  have hw := wp_nextEventImpl_any hr
  unfold wp at hw
  unfold nextEvent at hn
  cases he : s.streamEndEmitted with
  | true => simp [he] at hn
  | false =>
    simp only [he, Bool.false_eq_true, if_false] at hn
    cases hx : nextEventImpl s with
    | mk r s1 =>
      rw [hx] at hn hw
      cases r <;> simp at hn hw
      obtain ⟨⟨h1, h2⟩, h3⟩ := hn
      rw [if_pos h1] at h3
      have hcur := hw.2.1.cur
      subst h3
      simp [nextEvent, peek, hcur]

/-- C16: conversely, pulling gives `None` only after `StreamEnd`. -/
theorem C16_only_after_end {toks tail m k evs s s'} (h : Delivers (new toks tail m k) evs s) (hn : nextEvent s = (.ok none, s')) :
    ∃ l, evs = l ++ [.streamEnd] := by
  have hf := delivers_facts h
  unfold nextEvent at hn
  cases he : s.streamEndEmitted with
  | true => exact (hf.dead he).2
  | false =>
    simp only [he, Bool.false_eq_true, if_false] at hn
    cases hx : nextEventImpl s with
    | mk r s1 => rw [hx] at hn; cases r <;> simp at hn

example : ∃ s, Delivers (new exToks .ended .default false) exEvents s ∧ (nextEvent s).1 = .ok none := by
  obtain ⟨s, h⟩ := exRun
  refine ⟨s, h, ?_⟩
  have hf := delivers_facts h
  cases he : s.streamEndEmitted with
  | true => simp [nextEvent, he]
  | false => have := hf.gram; have h2 := hf.live he; simp [exEvents, steps, step, after] at this; rw [this] at h2; simp [DocBottom] at h2

/-! ## C17 -/

/-- C17: the anchors defined by the events delivered so far are numbered 1, 2, 3, … in order, one for each anchor token read. -/
theorem C17_numbering {toks tail m k evs s} (h : Delivers (new toks tail m k) evs s) :
    ∃ used, toks = used ++ remaining s ∧ eventAnchors evs = List.range' 1 (tokenAnchors used).length := by
  obtain ⟨used, hp, -, -, -, ha⟩ := (delivers_facts h).toks
  exact ⟨used, hp, by rw [tokenAnchors_eq]; exact ha⟩

/-- C17: an alias event carries the number of the most recent definition of the name of the alias token just read; in
particular there is one. -/
theorem C17_alias {toks tail m k evs id s} (h : Delivers (new toks tail m k) (evs ++ [.alias id]) s) :
    ∃ used n, toks = used ++ remaining s ∧ (tokenAliases used).getLast? = some n ∧ lastDef (tokenAnchors used) n = some id := by
  generalize hl : evs ++ [.alias id] = l at h
  cases h with
  | nil => simp at hl
  | @snoc evs' s1 ev sp s' h1 hn =>
    obtain ⟨rfl, he⟩ := List.append_inj' hl rfl
    simp only [List.cons.injEq, and_true] at he
    subst he
    have hf := delivers_facts h1
    obtain ⟨-, s2, -, ho, -, -, hs⟩ := next_facts hf.invc hf.live hn
    rw [if_neg (by simp)] at hs
    subst hs
    obtain ⟨used, hp, -, hmap, -, -⟩ := hf.toks
    obtain ⟨u, hu, -, ha, ⟨n, hal, hget⟩, -⟩ := ho.toks
    refine ⟨used ++ u, n, ?_, ?_, ?_⟩
    · have : toks = pend (new toks tail m k) := rfl
      rw [this, hp, hu, List.append_assoc]; rfl
    · rw [tokenAliases_eq, aliasNames_append, hal]; simp
    · rw [tokenAnchors_eq, anchorNames_append]
      rcases ha with ⟨h, -, -, -⟩ | ⟨n', -, h, -⟩
      · rw [h, List.append_nil, ← hmap]; exact hget
      · simp [evAnchor] at h
        have := hf.invc.pos
        omega

example : ∃ s, Delivers (new exToks .ended .default false) (exEvents.take 6 ++ [.alias 1]) s :=
  pull_run (n := 7) (by decide +kernel)

/-! ## C18 -/

/-- C18 is false for the pull API: in `exToks` the second document's alias refers to an anchor of the first. -/
theorem C18_leak_false : ¬ ∀ toks tail m k evs s, Delivers (new toks tail m k) evs s → AliasesLocal [] evs := by
  intro h
  obtain ⟨s, hs⟩ := exRun
  have := h _ _ _ _ _ _ hs
  simp [exEvents, AliasesLocal, defsAfter, definedAnchor] at this

/-- C18 for the push API: in what `load` sends, every alias refers to an anchor defined earlier in the same document. -/
theorem C18_load_partial {multi toks tail m k r s'} (h : load multi ⟨new toks tail m k, []⟩ = (r, s')) (h1 : tail ≠ .panic)
    (h2 : tail ≠ .hang) : AliasesLocal [] (s'.out.map (·.1)) := by
  have hl := load_new (multi := multi) (toks := toks) (tail := tail) (m := m) (k := k)
  unfold lw at hl
  rw [h] at hl
  obtain ⟨-, hl⟩ := hl
  have hs : since 0 s' = s'.out.map (·.1) := by simp [since]
  cases r with
  | ok u => obtain ⟨⟨-, -, hl, -⟩, -⟩ := hl; rw [hs, List.append_nil] at hl; exact hl
  | err e => obtain ⟨-, -, hl⟩ := hl; rw [hs] at hl; exact hl
  | panic => exact absurd hl h1
  | hang => exact absurd hl h2

/-- `exToks` given to `load` -/
example : (load true ⟨new exToks .ended .default false, []⟩).2.out.map (·.1) = exEvents.take 11 := by decide +kernel

/-! ## C19 -/

theorem mapGet_dirTags (tags) (dirs : List Token) (hd : tags = [] ∨ dirs ≠ []) (h : List Byte) :
    mapGet (dirTags tags dirs) h = lastDirective dirs h := by
  induction dirs generalizing tags with
  | nil => simp at hd; simp [dirTags, lastDirective, hd, mapGet]
  | cons d ds ih =>
    cases ds with
    | nil =>
      obtain ⟨sp, tt⟩ := d
      cases tt <;> simp [dirTags, lastDirective, mapGet, List.find?_cons]
      rename_i h' p
      by_cases hx : h' = h
      · simp [hx]
      · have : (h' == h) = false := by simpa using hx
        simp [hx, this]
    | cons e es =>
      rw [dirTags, ih _ (.inr (by simp))]
      simp [lastDirective]

theorem resolveTag_reads {tags sp h sf t} (hr : resolveTag tags sp h sf = .ok t) : ReadsAs (mapGet tags) h sf t := by
  unfold resolveTag at hr
  split at hr
  · rename_i hh
    have : h = bs!"!!" := by simpa using hh
    subst this
    cases hm : mapGet tags bs!"!!" with
    | none => rw [hm] at hr; cases hr; exact .secondary hm
    | some p => rw [hm] at hr; cases hr; exact .declared hm
  · rename_i hh
    have hne : h ≠ bs!"!!" := by simpa using hh
    split at hr
    · rename_i h2
      simp only [Bool.and_eq_true, List.isEmpty_iff, beq_iff_eq] at h2
      obtain ⟨rfl, -⟩ := h2
      split at hr
      · rename_i hm; cases hr; exact .declared hm
      · rename_i hm; cases hr; exact .other hm hne (by simp)
    · split at hr
      · rename_i hm; cases hr; exact .declared hm
      · rename_i hm
        split at hr
        · cases hr
        · rename_i h3; cases hr; exact .other hm hne h3

theorem versions_pairwise {ds : List Token} (h : versions ds ≤ 1) : AtMostOneVersion ds := by
  induction ds with
  | nil => exact .nil
  | cons d ds ih =>
    have hle : versions ds ≤ versions (d :: ds) := by simp [versions, List.countP_cons]
    refine .cons ?_ (ih (by omega))
    rintro e he ⟨⟨a, b, hd⟩, ⟨a', b', he'⟩⟩
    have hv : versions (d :: ds) = versions ds + 1 := by simp [versions, hd]
    have h0 : versions ds = 0 := by omega
    simp only [versions, List.countP_eq_zero] at h0
    have := h0 e he
    simp [he'] at this

/-- tags do not change inside a document -/
theorem tags_const {toks tail m k evs0 s2 evs s3} (h0 : Delivers (new toks tail m k) evs0 s2)
    (hb : ∃ l, frames s2 = l ++ [.docEnd] ∧ ∀ x ∈ l, (after x).isSome = true)
    (h : Delivers s2 evs s3) (hne : Event.documentEnd ∉ evs) :
    s3.tags = s2.tags ∧ ∃ l, frames s3 = l ++ [.docEnd] ∧ ∀ x ∈ l, (after x).isSome = true := by
  induction h with
  | nil => exact ⟨rfl, hb⟩
  | @snoc evs s ev sp s' hd hn ih =>
    simp only [List.mem_append, List.mem_singleton, not_or] at hne
    obtain ⟨ht, l, hl, hla⟩ := ih hne.1
    have hf := delivers_facts (delivers_trans h0 hd)
    obtain ⟨he, s1, -, ho, -, -, hs⟩ := next_facts hf.invc hf.live hn
    have hb' := docBottom_step (hf.live he) ho.gram
    have hnd : docLevel s.state = false := by
      cases hdl : docLevel s.state with
      | false => rfl
      | true =>
        exfalso
        have hg := hf.invc.inv.good
        simp only [Good, hdl, if_true] at hg
        have hfr : frames s = fr s.state := by simp [frames, hg, frStack]
        have hgr := ho.gram
        rw [hfr] at hl hgr
        cases hst : s.state <;> simp [hst, docLevel] at hdl <;> simp [hst, fr] at hl hgr
        · have := congrArg List.getLast? hl; simp at this
        · have := congrArg List.getLast? hl; simp at this
        · have := congrArg List.getLast? hl; simp at this
        · cases ev <;> simp [step, after] at hgr hne
    have hs' : s'.tags = s1.tags ∧ frames s' = frames s1 := by rw [hs]; split <;> exact ⟨rfl, rfl⟩
    rw [hs'.1, hs'.2, ho.tags hnd]
    refine ⟨ht, ?_⟩
    rcases hb' with ⟨_, h, _⟩ | ⟨_, h, _⟩ | ⟨h, _⟩ | ⟨_, h⟩
    · rw [h] at hl; have := congrArg List.getLast? hl; simp at this
    · rw [h] at hl; have := congrArg List.getLast? hl; simp at this
    · exact absurd h.symm hne.2
    · exact h

/-- C19, what is true: the directives read with a document start contain at most one `%YAML`; they are followed by `---`
unless there are none; and in that document every tag is read with the prefix of the *last* directive if that is a `%TAG` for
its handle, all others being ignored. Without `keep_tags`, or when there are directives, nothing carries over from before. -/
theorem C19_directives_partial {toks tail m k evs0 s1 b sp s2 evs s3 ev sp' s4}
    (h0 : Delivers (new toks tail m k) evs0 s1) (hd : nextEvent s1 = (.ok (some (.documentStart b, sp)), s2))
    (hin : Delivers s2 evs s3) (hne : Event.documentEnd ∉ evs) (hn : nextEvent s3 = (.ok (some (ev, sp')), s4)) :
    ∃ ends dirs fin, remaining s1 = ends ++ dirs ++ fin ++ remaining s2 ∧ (∀ t ∈ ends, t.tt = .documentEnd) ∧
      (∀ t ∈ dirs, IsDirective t) ∧ AtMostOneVersion dirs ∧
      ((b = true ∧ fin.map (·.tt) = [.documentStart]) ∨ (b = false ∧ fin = [] ∧ dirs = [])) ∧
      (k = false ∨ dirs ≠ [] → ∃ used, remaining s3 = used ++ remaining s4 ∧
        ((tokenTags used = [] ∧ eventTag ev = none) ∨
         ∃ h sf t, tokenTags used = [(h, sf)] ∧ eventTag ev = some t ∧ ReadsAs (lastDirective dirs) h sf t)) := by
  have hf1 := delivers_facts h0
  obtain ⟨he1, s1', -, ho1, -, ht1, hs1⟩ := next_facts hf1.invc hf1.live hd
  rw [if_neg (by simp)] at hs1
  rw [← hs1] at ho1 ht1
  obtain ⟨ends, dirs, fin, hp, hends, hdirs, hv, htags, hcase⟩ := ht1.start b rfl
  have hcase' : (b = true ∧ fin.map (·.tt) = [.documentStart]) ∨ (b = false ∧ fin = [] ∧ dirs = []) := by
    rcases hcase with ⟨h, h'⟩ | ⟨h, h'⟩ | ⟨h, _⟩
    · left; simp at h; exact ⟨h, h'⟩
    · right; simp at h; exact ⟨h, h'⟩
    · simp at h
  refine ⟨ends, dirs, fin, by simp only [List.append_assoc]; exact hp, hends, ?_, versions_pairwise hv, hcase', ?_⟩
  · intro t ht
    have := hdirs t ht
    unfold isDirective at this
    split at this
    · rename_i a b h; exact .inl ⟨a, b, h⟩
    · rename_i a b h; exact .inr ⟨a, b, h⟩
    · simp at this
  · intro hk
    have hdl2 := Delivers.snoc h0 hd
    have hb := docBottom_step (hf1.live he1) ho1.gram
    have hb2 : ∃ l, frames s2 = l ++ [.docEnd] ∧ ∀ x ∈ l, (after x).isSome = true := by
      rcases hb with ⟨h, _⟩ | ⟨h, _⟩ | ⟨h, _⟩ | ⟨_, h⟩
      · simp at h
      · simp at h
      · simp at h
      · exact h
    have hc := (tags_const hdl2 hb2 hin hne).1
    have hf3 := delivers_facts (delivers_trans hdl2 hin)
    obtain ⟨he3, s3', -, ho3, -, -, hs3⟩ := next_facts hf3.invc hf3.live hn
    obtain ⟨u, hu, -, -, -, htg⟩ := ho3.toks
    have hrem : remaining s4 = pend s3' := by rw [hs3]; split <;> rfl
    refine ⟨u, by rw [hrem]; exact hu, ?_⟩
    rw [tokenTags_eq, eventTag_eq]
    rcases htg with ⟨h1, h2⟩ | ⟨h, sf, sp, t, h1, h2, h3⟩
    · left; exact ⟨h1, h2⟩
    · right
      refine ⟨h, sf, t, h1, h3, ?_⟩
      have h4 := resolveTag_reads h2
      have h5 : mapGet s3.tags = lastDirective dirs := by
        funext n
        rw [hc, htags]
        refine mapGet_dirTags _ _ ?_ n
        rcases hk with hk | hk
        · left
          have hgr := ho1.gram
          refine hf1.clean (by rw [hf1.keep]; exact hk) ?_
          rcases hf1.live he1 with h | h | ⟨l, h, hl⟩
          · exact .inl h
          · exact .inr h
          · exfalso
            rw [h] at hgr
            cases l with
            | nil => simp [step] at hgr
            | cons x xs =>
              have := hl x (by simp)
              cases x <;> simp [step, after] at hgr this
        · exact .inr hk
      rw [h5] at h4
      exact h4

/-- `%TAG !a! p`, `---`, `!a!x y`, read as `!<px> y` -/
example : ∃ s, Delivers (new ([TokenType.streamStart, .tagDirective bs!"!a!" bs!"p", .documentStart, .tag bs!"!a!" bs!"x", .scalar .plain bs!"y",
    .streamEnd].map tk) .ended .default false)
    [.streamStart, .documentStart true, .scalar ⟨bs!"y", .plain, 0, some ⟨bs!"p", bs!"x"⟩⟩, .documentEnd, .streamEnd] s :=
  pull_run (n := 5) (by decide +kernel)

/-- C19 is false as stated: with `%TAG !a! p` followed by `%TAG !b! q`, the tag `!a!x` is rejected although its handle was
declared: the node cannot be pulled. -/
theorem C19_all_apply_false : ¬ ∀ (d1 d2 : List Byte × List Byte) (h sf : List Byte), d1.1 ≠ d2.1 →
    (declared [tk (.tagDirective d1.1 d1.2), tk (.tagDirective d2.1 d2.2)] h).isSome →
    (pull 3 (new ([TokenType.streamStart, .tagDirective d1.1 d1.2, .tagDirective d2.1 d2.2, .documentStart, .tag h sf,
      .scalar .plain [], .streamEnd].map tk) .ended .default false)).isSome := by
  intro h
  have := h (bs!"!a!", bs!"p") (bs!"!b!", bs!"q") bs!"!a!" bs!"x" (by decide) (by decide)
  revert this
  decide +kernel

/-- C19 is false as stated: two directives for one handle are accepted. -/
theorem C19_duplicates_false : ¬ ∀ (h p q : List Byte) (evs : List Event) (s : PSt),
    Delivers (new (tk .streamStart :: tk (.tagDirective h p) :: tk (.tagDirective h q) :: [tk .documentStart, tk (.scalar .plain []), tk .streamEnd]) .ended .default false)
      evs s → evs.length ≤ 1 := by
  intro h
  obtain ⟨s, hs⟩ := pull_run (n := 5) (evs := [.streamStart, .documentStart true, .scalar .empty, .documentEnd, .streamEnd])
    (s := new (tk .streamStart :: tk (.tagDirective bs!"!a!" bs!"p") :: tk (.tagDirective bs!"!a!" bs!"q") :: [tk .documentStart, tk (.scalar .plain []), tk .streamEnd]) .ended .default false)
    (by decide +kernel)
  have := h _ _ _ _ _ hs
  simp at this

/-! ## C39, C40 -/

/-- C39: a finite input gives finitely many events, at most ten for every token. -/
theorem C39_bounded {toks tail m k evs s} (h : Delivers (new toks tail m k) evs s) : evs.length ≤ 10 * toks.length + 1 := by
  have := (delivers_facts h).meas
  have hm : measure (new toks tail m k) = 10 * toks.length + 1 := by simp [Parser.measure, new, pend, wcur, wst, wstack]
  omega

/-- C40: the scalar events are the scalar tokens read so far, in order, with the same style and text, apart from inserted
empty plain scalars. None is lost, duplicated, reordered or altered. -/
theorem C40_scalars {toks tail m k evs s} (h : Delivers (new toks tail m k) evs s) :
    ∃ used, toks = used ++ remaining s ∧ WithEmpties (tokenScalars used) (eventScalars evs) := by
  obtain ⟨used, hp, ht, -⟩ := (delivers_facts h).toks
  exact ⟨used, hp, by rw [tokenScalars_eq]; exact ht⟩

example : eventScalars exEvents = [(.plain, bs!"x"), (.plain, bs!"y")] := by decide

end Verif.Props
