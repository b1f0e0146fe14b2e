import Verif.Lemmas.ParserPush
import Verif.Spec.PullRuns
import Verif.Model.LoadText
import Verif.Props.Parser
/-!
# C47: the push interface sends what the pull interface gives
-/
namespace Verif.Props
open Verif Verif.Spec Verif.Parser

/-- the end of a `load` in the terms of pulling -/
def loadStop : Res Unit → PullStop
  | .ok _ => .ended
  | .err e => .failed e
  | .panic => .panicked
  | .hang => .hung

/-- C47, the full statement: for every token stream, what `load` sends to its receiver for all documents is what pulling gives, event by event with the
spans, and both end in the same way. -/
def C47_full : Prop := ∀ toks tail m keep, tail ≠ .panic → tail ≠ .hang →
  ∃ n, pullAll n (new toks tail m keep) = ((load true ⟨new toks tail m keep, []⟩).2.out, loadStop (load true ⟨new toks tail m keep, []⟩).1)

/-- the error of an alias to an anchor that is not known -/
def IsUnknownAnchor (e : YErr) : Prop := ∃ m, e = .scanner m "while parsing node, found unknown anchor"

theorem pullAll_run {p es q} (h : Run p es q) (hr : Reachable p) (he : p.streamEndEmitted = false) (ho : Open es) :
    Reachable q ∧ q.streamEndEmitted = false ∧ ∀ n, pullAll (es.length + n) p = (es ++ (pullAll n q).1, (pullAll n q).2) := by
  induction h with
  | nil => exact ⟨hr, he, fun n => by simp⟩
  | @cons p e p1 es p2 h1 h2 ih =>
    have hw := wp_nextEventImpl_any hr
    unfold wp at hw
    rw [h1] at hw
    obtain ⟨-, hri, -, hse, -⟩ := hw
    obtain ⟨h3, h4, h5⟩ := ih hri.reach (by rw [hse, he]) (fun x hx => ho x (by simp [hx]))
    refine ⟨h3, h4, fun n => ?_⟩
    have hne : e.1 ≠ .streamEnd := ho e (by simp)
    have hn : nextEvent p = (.ok (some e), p1) := by
      unfold nextEvent
      simp only [he, Bool.false_eq_true, if_false, h1, if_neg hne]
    rw [show (e :: es).length + n = es.length + n + 1 by simp; omega]
    simp only [pullAll, hn, h5]
    simp

/-- what `load` has sent when it succeeds is what pulling gives up to its end -/
theorem load_pulled {toks : List Token} {tail : Tail} {m : Marker} {keep : Bool} {r} (h : load true ⟨new toks tail m keep, []⟩ = r) (hr : r.1 = .ok ()) :
    pullAll (r.2.out.length + 1) (new toks tail m keep) = (r.2.out, .ended) := by
  have hreach : Reachable (new toks tail m keep) := (new_facts toks tail m keep).invc.rinv.reach
  have hs := pulls_new (multi := true) (toks := toks) (tail := tail) (m := m) (k := keep)
  rw [h] at hs
  let p := new toks tail m keep
  show pullAll _ p = _
  have hs' : LoopSent true p [] [] r := hs
  unfold LoopSent at hs'
  rw [hr] at hs'
  obtain ⟨es, ho, hw, q, hq⟩ := hs'
  rcases hw with ⟨es0, sp, rfl, hop⟩ | ⟨h, -⟩
  · obtain ⟨q0, hq0, hq1⟩ := hq.split
    obtain ⟨h3, h4, h5⟩ := pullAll_run (p := p) hq0 hreach rfl hop
    cases hq1 with
    | @cons _ _ q1 _ _ h6 h7 =>
      rw [ho]
      have hn : nextEvent q0 = (.ok (some (.streamEnd, sp)), { q1 with streamEndEmitted := true }) := by
        unfold nextEvent
        simp only [h4, Bool.false_eq_true, if_false, h6, if_true]
      rw [show (([] : List (Event × Span)) ++ (es0 ++ [(Event.streamEnd, sp)])).length + 1 = es0.length + 2 by simp]
      rw [h5 2]
      have hn2 : nextEvent { q1 with streamEndEmitted := true } = (.ok none, { q1 with streamEndEmitted := true }) := rfl
      simp [pullAll, hn, hn2]
  · cases h

/-- C47 but for aliases to anchors of earlier documents, which `load` refuses and pulling does not. When `load` succeeds, pulling gives the same events
and ends as well. When it fails, pulling gives the same events and then fails with the same error, unless the error is an unknown anchor. And when
pulling reaches the end of the stream, `load` has sent the same events, unless it met an unknown anchor. -/
theorem C47_push_pull_partial (toks : List Token) (tail : Tail) (m : Marker) (keep : Bool) (h1 : tail ≠ .panic) (h2 : tail ≠ .hang) :
    let p := new toks tail m keep
    let r := load true ⟨p, []⟩
    (r.1 = .ok () → pullAll (r.2.out.length + 1) p = (r.2.out, .ended)) ∧
    (∀ e, r.1 = .err e → (pullAll r.2.out.length p).1 = r.2.out ∧ (IsUnknownAnchor e ∨ pullAll (r.2.out.length + 1) p = (r.2.out, .failed e))) ∧
    (∀ n evs, pullAll n p = (evs, .ended) → (r.1 = .ok () ∧ r.2.out = evs) ∨ ∃ e, r.1 = .err e ∧ IsUnknownAnchor e) := by
  intro p r
  have hreach : Reachable p := (new_facts toks tail m keep).invc.rinv.reach
  have hs := pulls_new (multi := true) (toks := toks) (tail := tail) (m := m) (k := keep)
  have hok : r.1 = .ok () → pullAll (r.2.out.length + 1) p = (r.2.out, .ended) := load_pulled rfl
  have herr : ∀ e, r.1 = .err e → (pullAll r.2.out.length p).1 = r.2.out ∧ (IsUnknownAnchor e ∨ pullAll (r.2.out.length + 1) p = (r.2.out, .failed e)) := by
    intro e hr
    have hs' : LoopSent true p [] [] r := hs
    unfold LoopSent at hs'
    rw [hr] at hs'
    obtain ⟨es, ho, hw, q, hq, hx⟩ := hs'
    obtain ⟨h3, h4, h5⟩ := pullAll_run (p := p) hq hreach rfl hw
    rw [ho]
    simp only [List.nil_append]
    refine ⟨by simpa [pullAll] using congrArg Prod.fst (h5 0), ?_⟩
    rcases hx with hx | hx
    · right
      rw [h5 1]
      have hn : (nextEvent q).1 = .err e := by
        unfold nextEvent
        simp only [h4, Bool.false_eq_true, if_false]
        rcases hy : nextEventImpl q with ⟨r', q'⟩
        rw [hy] at hx
        simp only at hx
        subst hx
        rfl
      rcases hy : nextEvent q with ⟨r', q'⟩
      rw [hy] at hn
      simp only at hn
      subst hn
      simp [pullAll, hy]
    · exact .inl hx
  refine ⟨hok, herr, ?_⟩
  -- pulling more does not change what has ended
  have longer : ∀ {n m s a b}, pullAll n s = a → pullAll m s = b → a.2 ≠ .more → b.2 ≠ .more → a = b := by
    intro n
    induction n with
    | zero => intro m s a b h; subst h; simp [pullAll]
    | succ n ih =>
      intro m s a b ha hb hna hnb
      cases m with
      | zero => subst hb; simp [pullAll] at hnb
      | succ m =>
        subst ha hb
        simp only [pullAll] at *
        rcases hy : nextEvent s with ⟨r', q'⟩
        rw [hy] at hna hnb
        cases r' with
        | ok o =>
          cases o with
          | none => rfl
          | some e =>
            simp only at hna hnb ⊢
            rw [ih rfl rfl hna hnb]
        | _ => rfl
  intro n evs hp
  cases hr : r.1 with
  | ok u =>
    left
    have := longer hp (hok hr) (by simp) (by simp)
    simp only [Prod.mk.injEq, and_true] at this
    exact ⟨rfl, this.symm⟩
  | err e =>
    right
    refine ⟨e, rfl, ?_⟩
    rcases (herr e hr).2 with h | h
    · exact h
    · have := longer hp h (by simp) (by simp)
      simp at this
  | panic =>
    exfalso
    refine h1 ((C14_no_panic (k := keep) (m := m) (toks := toks) (tail := tail) .start (.load true)).1 ?_)
    exact hr
  | hang =>
    exfalso
    refine h2 ((C14_no_panic (k := keep) (m := m) (toks := toks) (tail := tail) .start (.load true)).2 ?_)
    exact hr

theorem pullAll_longer {n s} (h : (pullAll n s).2 ≠ .more) {m} (hm : n ≤ m) : pullAll m s = pullAll n s := by
  induction n generalizing s m with
  | zero => simp [pullAll] at h
  | succ n ih =>
    obtain ⟨m, rfl⟩ : ∃ j, m = j + 1 := ⟨m - 1, by omega⟩
    simp only [pullAll] at *
    rcases hy : nextEvent s with ⟨r', q'⟩
    rw [hy] at h
    cases r' with
    | ok o =>
      cases o with
      | none => rfl
      | some e =>
        simp only at h ⊢
        rw [ih h (m := m) (by omega)]
    | _ => rfl

/-- the tokens of two documents; the second refers to an anchor of the first -/
def leakToks : List Token := (scanInput ⟨40, false⟩ bs!"--- &a x\n--- *a\n" 40).1

/-- C47 is false: `load` refuses an alias to an anchor of an earlier document, pulling delivers it. -/
theorem C47_push_pull_false : ¬ C47_full := by
  intro h
  have h0 := h leakToks .ended .default false (by simp) (by simp)
  have h1 : (load true ⟨new leakToks .ended .default false, []⟩).1 =
      .err (.scanner ⟨13, 5, 2⟩ "while parsing node, found unknown anchor") := by decide +kernel
  have h2 : (pullAll 9 (new leakToks .ended .default false)).2 = .ended := by decide +kernel
  clear h
  generalize new leakToks .ended .default false = p at h0 h1 h2
  obtain ⟨n, hn⟩ := h0
  have h3 := congrArg Prod.snd hn
  simp only [h1, loadStop] at h3
  have h4 := pullAll_longer (m := 9 + n) (by rw [h2]; simp) (by omega)
  have h5 := pullAll_longer (m := 9 + n) (by rw [h3]; simp) (by omega)
  rw [h4] at h5
  rw [← h5, h2] at h3
  cases h3

/-- the two documents without the alias are sent and pulled alike -/
example : (load true ⟨new (scanInput ⟨40, false⟩ bs!"--- &a x\n--- [b, {c: d}]\n" 40).1 .ended .default false, []⟩).1 = .ok () ∧
    (load true ⟨new (scanInput ⟨40, false⟩ bs!"--- &a x\n--- [b, {c: d}]\n" 40).1 .ended .default false, []⟩).2.out.length = 14 := by
  decide +kernel

/-- a document with an error: `{a: b` -/
example : ∃ e, (load true ⟨new (scanInput ⟨40, false⟩ bs!"{a: b" 40).1 .ended .default false, []⟩).1 = .err e ∧ ¬ IsUnknownAnchor e :=
  ⟨.scanner ⟨5, 1, 2⟩ "while parsing a flow mapping, did not find expected ',' or '}'", by decide +kernel, by simp [IsUnknownAnchor]⟩

end Verif.Props
