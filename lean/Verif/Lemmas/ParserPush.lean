import Verif.Lemmas.ParserAnchors
import Verif.Lemmas.LoadRun
/-!
# What `load` sends is what pulling gives
-/
namespace Verif.Parser
open Verif Verif.Spec Verif.Grammar

/-- no stream end -/
def Open (es : List (Event × Span)) : Prop := ∀ e ∈ es, e.1 ≠ .streamEnd

/-- `m`, started when the events `x` have been parsed but not sent, sends them and then what parsing gives, even when more anchors are known; no promise
when it panics or hangs -/
def PullsOk (x : List (Event × Span)) (m : LM Unit) : Prop := ∀ p out A, Knows p.anchors A →
  match (m ⟨p, out⟩).1 with
    | .ok _ => ∃ es, (m ⟨p, out⟩).2.out = out ++ (x ++ es) ∧ Open (x ++ es) ∧ ∃ B, Knows (m ⟨p, out⟩).2.p.anchors B ∧ Run { p with anchors := A } es { (m ⟨p, out⟩).2.p with anchors := B }
    | .err e => ∃ es, (m ⟨p, out⟩).2.out = out ++ (x ++ es) ∧ Open (x ++ es) ∧ ∃ t, Run { p with anchors := A } es t ∧ ((nextEventImpl t).1 = .err e ∨ UnknownAnchor e)
    | _ => True

theorem Open.append {a b} (ha : Open a) (hb : Open b) : Open (a ++ b) := by
  intro e he
  rcases List.mem_append.1 he with h | h
  · exact ha e h
  · exact hb e h

theorem bind_eq {α β} (m : LM α) (f : α → LM β) (s : LSt) : (m >>= f) s = match m s with
    | (.ok a, s') => f a s'
    | (.err e, s') => (.err e, s')
    | (.panic, s') => (.panic, s')
    | (.hang, s') => (.hang, s') := rfl

theorem PullsOk.send {ev sp} (hne : ev ≠ .streamEnd) : PullsOk [(ev, sp)] (onEvent ev sp) := fun p out A h => ⟨[], rfl, by simpa [Open] using hne, A, h, .nil⟩

theorem PullsOk.sends {ev sp} {m : LM Unit} (hne : ev ≠ .streamEnd) (h : PullsOk [] m) : PullsOk [(ev, sp)] (onEvent ev sp >>= fun _ => m) := by
  intro p out A hA
  rw [show (onEvent ev sp >>= fun _ => m) ⟨p, out⟩ = m ⟨p, out ++ [(ev, sp)]⟩ from rfl]
  have := h p (out ++ [(ev, sp)]) A hA
  rcases hm : m ⟨p, out ++ [(ev, sp)]⟩ with ⟨r, s⟩
  rw [hm] at this
  cases r with
  | ok a =>
    obtain ⟨es, h1, h2, h3⟩ := this
    exact ⟨es, by simpa using h1, by simpa [Open, hne] using h2, h3⟩
  | err a =>
    obtain ⟨es, h1, h2, h3⟩ := this
    exact ⟨es, by simpa using h1, by simpa [Open, hne] using h2, h3⟩
  | panic => trivial
  | hang => trivial

/-- first `m`, then `m'` -/
theorem PullsOk.andThen {x} {m m' : LM Unit} (h : PullsOk x m) (h' : PullsOk [] m') : PullsOk x (m >>= fun _ => m') := by
  intro p out A hA
  rw [bind_eq]
  have h1 := h p out A hA
  rcases hm : m ⟨p, out⟩ with ⟨r, ⟨q, out'⟩⟩
  rw [hm] at h1
  cases r with
  | ok a =>
    simp only at h1 ⊢
    obtain ⟨es, rfl, ho, B, hB, hr⟩ := h1
    have h2 := h' q (out ++ (x ++ es)) B hB
    rcases hm' : m' ⟨q, out ++ (x ++ es)⟩ with ⟨r', s'⟩
    rw [hm'] at h2
    cases r' with
    | ok a =>
      simp only at h2 ⊢
      obtain ⟨es', h3, ho', C, hC, hr'⟩ := h2
      exact ⟨es ++ es', by simp [h3], by rw [← List.append_assoc]; exact ho.append (by simpa using ho'), C, hC, hr.append hr'⟩
    | err e =>
      simp only at h2 ⊢
      obtain ⟨es', h3, ho', t, ht, he⟩ := h2
      exact ⟨es ++ es', by simp [h3], by rw [← List.append_assoc]; exact ho.append (by simpa using ho'), t, hr.append ht, he⟩
    | panic => trivial
    | hang => trivial
  | err e => exact h1
  | panic => trivial
  | hang => trivial

/-- parse an event and go on with it -/
theorem PullsOk.pull {f : Event × Span → LM Unit} (h : ∀ e, PullsOk [e] (f e)) : PullsOk [] (liftP nextEventImpl >>= f) := by
  intro p out A hA
  rw [bind_eq]
  have hl : liftP nextEventImpl ⟨p, out⟩ = ((nextEventImpl p).1, ⟨(nextEventImpl p).2, out⟩) := rfl
  rw [hl]
  have hs := Sim.nextEventImpl.elim hA
  rcases hn : nextEventImpl p with ⟨r, q⟩
  rw [hn] at hs
  cases r with
  | ok e =>
    simp only at hs ⊢
    rcases hs with ⟨B, hB, he⟩ | ⟨_, h1, -⟩
    · have h1 := h e q out B hB
      rcases hm : f e ⟨q, out⟩ with ⟨r', s'⟩
      rw [hm] at h1
      cases r' with
      | ok a =>
        simp only at h1 ⊢
        obtain ⟨es, h3, ho, C, hC, hr⟩ := h1
        exact ⟨e :: es, by simpa using h3, ho, C, hC, .cons he hr⟩
      | err e' =>
        simp only at h1 ⊢
        obtain ⟨es, h3, ho, t, ht, hx⟩ := h1
        exact ⟨e :: es, by simpa using h3, ho, t, .cons he ht, hx⟩
      | panic => trivial
      | hang => trivial
    · cases h1
  | err e =>
    simp only at hs ⊢
    refine ⟨[], by simp, by simp [Open], _, .nil, ?_⟩
    rcases hs with ⟨B, hB, he⟩ | ⟨_, h1, hu⟩
    · rw [he]; exact .inl rfl
    · cases h1; exact .inr hu
  | panic => trivial
  | hang => trivial

theorem pulls_load (fuel : Nat) : (∀ ev sp, PullsOk [(ev, sp)] (loadNode fuel ev sp)) ∧ PullsOk [] (loadMapping fuel) ∧ PullsOk [] (loadSequence fuel) := by
  induction fuel with
  | zero => exact ⟨fun _ _ _ _ _ _ => trivial, fun _ _ _ _ => trivial, fun _ _ _ _ => trivial⟩
  | succ fuel ih =>
    obtain ⟨ihn, ihm, ihs⟩ := ih
    refine ⟨?_, ?_, ?_⟩
    · intro ev sp
      unfold loadNode
      split
      · exact .send (by simp)
      · exact .send (by simp)
      · exact .sends (by simp) ihs
      · exact .sends (by simp) ihm
      · exact fun _ _ _ _ => trivial
    · unfold loadMapping
      refine .pull fun e => ?_
      obtain ⟨ev, sp⟩ := e
      dsimp only
      split
      · rename_i he
        exact .send (by simp [he])
      · exact (ihn ev sp).andThen (.pull fun e => (ihn e.1 e.2).andThen ihm)
    · unfold loadSequence
      refine .pull fun e => ?_
      obtain ⟨ev, sp⟩ := e
      dsimp only
      split
      · rename_i he
        exact .send (by simp [he])
      · exact (ihn ev sp).andThen ihs

theorem pulls_document {fuel b sp} : PullsOk [(.documentStart b, sp)] (loadDocument fuel (.documentStart b) sp) := by
  refine .sends (by simp) (.pull fun e => ((pulls_load fuel).1 e.1 e.2).andThen (.pull fun e => ?_))
  obtain ⟨ev, sp⟩ := e
  dsimp only
  split
  · rename_i he
    exact .send (by simp [he])
  · exact fun _ _ _ _ => trivial

/-- events to the end of the stream, or not to the end -/
def Whole (multi : Bool) (es : List (Event × Span)) : Prop :=
  (∃ es0 sp, es = es0 ++ [(.streamEnd, sp)] ∧ Open es0) ∨ (multi = false ∧ Open es)

/-- what `load` has sent since `out` from the state `p`, compared with pulling -/
def LoopSent (multi : Bool) (p : PSt) (out : List (Event × Span)) (A : List (List Byte × Nat)) (x : Res Unit × LSt) : Prop :=
  match x.1 with
  | .ok _ => ∃ es, x.2.out = out ++ es ∧ Whole multi es ∧ ∃ q, Run { p with anchors := A } es q
  | .err e => ∃ es, x.2.out = out ++ es ∧ Open es ∧ ∃ t, Run { p with anchors := A } es t ∧ ((nextEventImpl t).1 = .err e ∨ UnknownAnchor e)
  | _ => True

theorem knows_nil (A) : Knows [] A := by
  intro n id h
  simp [mapGet] at h

theorem Whole.cons {multi a es} (ha : Open a) (h : Whole multi es) : Whole multi (a ++ es) := by
  rcases h with ⟨es0, sp, rfl, ho⟩ | ⟨hm, ho⟩
  · exact .inl ⟨a ++ es0, sp, by simp, ha.append ho⟩
  · exact .inr ⟨hm, ha.append ho⟩

theorem pulls_loop {d F0 multi} (fuel : Nat) : ∀ p out A, Knows p.anchors A → InvC p → GInv d F0 [] ⟨p, out⟩ → frames p = [.docStart] →
    2 * measure p + 2 < fuel → LoopSent multi p out A (loadLoop multi fuel ⟨p, out⟩) := by
  induction fuel with
  | zero => intros; omega
  | succ fuel ih =>
    intro p out A hA hi hg hf hm
    unfold loadLoop
    rw [bind_eq]
    have hl : liftP nextEventImpl ⟨p, out⟩ = ((nextEventImpl p).1, ⟨(nextEventImpl p).2, out⟩) := rfl
    rw [hl]
    have hs := Sim.nextEventImpl.elim hA
    rcases hn : nextEventImpl p with ⟨r, p1⟩
    rw [hn] at hs
    cases r with
    | err e =>
      simp only at hs ⊢
      refine ⟨[], by simp, by simp [Open], _, .nil, ?_⟩
      rcases hs with ⟨B, hB, he⟩ | ⟨_, h1, hu⟩
      · rw [he]; exact .inl rfl
      · cases h1; exact .inr hu
    | panic => trivial
    | hang => trivial
    | ok e =>
      obtain ⟨ev, sp⟩ := e
      simp only at hs ⊢
      rcases hs with ⟨B, hB, he⟩ | ⟨_, h1, -⟩
      · obtain ⟨ho, hi1⟩ := step_facts hi (by rw [hf]; simp) hn
        have hg1 := ho.gram
        have hmeas := ho.meas
        rw [hf] at hg1
        rcases step_docStart hg1 with ⟨b, rfl, h⟩ | ⟨rfl, h⟩
        · rw [if_neg (by simp), bind_eq]
          rw [show liftP (modify fun s => { s with anchors := [] }) ⟨p1, out⟩ = (Res.ok (), ⟨{ p1 with anchors := [] }, out⟩) from rfl]
          simp only
          rw [bind_eq]
          have hd := loadDocument_lw (sp := sp) (fuel := fuel) (fs := []) (s := ⟨{ p1 with anchors := [] }, out⟩)
            ⟨⟨hi1.inv.good, hi1.inv.head, hi1.inv.nocont⟩, hi1.cur, hi1.pos⟩ (hg.nextDoc ho) h
            (by have : measure { p1 with anchors := [] } = measure p1 := rfl
                dsimp only at this ⊢
                rw [this]; omega)
          unfold lw at hd
          have hp := pulls_document (fuel := fuel) (b := b) (sp := sp) { p1 with anchors := [] } out B (knows_nil B)
          rcases hx : loadDocument fuel (.documentStart b) sp ⟨{ p1 with anchors := [] }, out⟩ with ⟨r, ⟨p2, out2⟩⟩
          rw [hx] at hd hp
          cases r with
          | panic => trivial
          | hang => trivial
          | err e =>
            simp only at hp ⊢
            obtain ⟨es, h3, hop, t, ht, hx⟩ := hp
            exact ⟨_, h3, hop, t, .cons he ht, hx⟩
          | ok a =>
            simp only at hp hd ⊢
            obtain ⟨es, rfl, hop, C, hC, hr⟩ := hp
            obtain ⟨-, ⟨hg2, hi2, hf2, -⟩, hm2⟩ := hd
            have hme : measure { p1 with anchors := [] } = measure p1 := rfl
            dsimp only at hme hm2 hi2 hf2
            rw [hme] at hm2
            cases multi with
            | false =>
              simp only [Bool.false_eq_true, if_false]
              exact ⟨_, rfl, .inr ⟨rfl, hop⟩, _, .cons he hr⟩
            | true =>
              simp only [if_true]
              have h4 := ih p2 _ C hC hi2 hg2 hf2 (by omega)
              rcases hy : loadLoop true fuel ⟨p2, out ++ ([(.documentStart b, sp)] ++ es)⟩ with ⟨r, s3⟩
              rw [hy] at h4
              show LoopSent _ _ _ _ (loadLoop true fuel ⟨p2, out ++ ([(.documentStart b, sp)] ++ es)⟩)
              rw [hy]
              cases r with
              | panic => trivial
              | hang => trivial
              | ok a =>
                obtain ⟨es', h5, h6, q, h7⟩ := h4
                exact ⟨[(.documentStart b, sp)] ++ es ++ es', by simpa using h5, h6.cons hop, q, .cons he (hr.append h7)⟩
              | err e =>
                obtain ⟨es', h5, h6, q, h7, h8⟩ := h4
                exact ⟨[(.documentStart b, sp)] ++ es ++ es', by simpa using h5, hop.append h6, q, .cons he (hr.append h7), h8⟩
        · rw [if_pos rfl]
          exact ⟨[(.streamEnd, sp)], rfl, .inl ⟨[], sp, rfl, by simp [Open]⟩, _, .cons he .nil⟩
      · cases h1

theorem pulls_new {multi toks tail m k} : LoopSent multi (new toks tail m k) [] [] (load multi ⟨new toks tail m k, []⟩) := by
  have hi := (new_facts toks tail m k).invc
  have hg : GInv 0 [.streamStart] [] ⟨new toks tail m k, []⟩ := ⟨by simp, rfl, trivial, by simp [new]⟩
  have hf : frames (new toks tail m k) = [.streamStart] := rfl
  rw [load, if_neg (by simp [new]), bind_eq]
  have hl : liftP nextEventImpl ⟨new toks tail m k, []⟩ = ((nextEventImpl (new toks tail m k)).1, ⟨(nextEventImpl (new toks tail m k)).2, []⟩) := rfl
  rw [hl]
  rcases hn : nextEventImpl (new toks tail m k) with ⟨r, p1⟩
  have hself : ({ new toks tail m k with anchors := [] } : PSt) = new toks tail m k := rfl
  cases r with
  | err e => exact ⟨[], by simp, by simp [Open], _, .nil, .inl (by rw [hself, hn])⟩
  | panic => trivial
  | hang => trivial
  | ok e =>
    obtain ⟨ev, sp⟩ := e
    obtain ⟨ho, hi1⟩ := step_facts hi (by rw [hf]; simp) hn
    have hg1 := ho.gram
    rw [hf] at hg1
    have hev : ev = .streamStart ∧ frames p1 = [.docStart] := by
      cases ev <;> simp [step, after] at hg1 ⊢
      exact hg1.symm
    obtain ⟨rfl, hf1⟩ := hev
    simp only
    rw [if_neg (by simp), emit_bind]
    unfold loadRest
    rw [lift_bind (m := gets (·.ended)) (a := p1.ended) (p' := p1) rfl, first_live hn]
    simp only [Bool.false_eq_true, if_false]
    have h4 := pulls_loop (d := 0) (F0 := [.streamStart]) (multi := multi) (loadFuel (new toks tail m k)) p1 [(.streamStart, sp)] p1.anchors (fun _ _ h => h) hi1
      (hg.next hi.pos ho (by simp)).emit hf1 (by
        have hm := ho.meas
        have hp : measure (new toks tail m k) ≤ 10 * toks.length + 10 := by
          simp [Parser.measure, new, pend, wcur, wst, wstack]
        simp only [loadFuel, new] at *
        omega)
    simp only [List.nil_append]
    have hop : Open [(.streamStart, sp)] := by simp [Open]
    rcases hy : loadLoop multi (loadFuel (new toks tail m k)) ⟨p1, [(.streamStart, sp)]⟩ with ⟨r, s3⟩
    rw [hy] at h4
    cases r with
    | panic => trivial
    | hang => trivial
    | ok a =>
      obtain ⟨es', h5, h6, q, h7⟩ := h4
      exact ⟨_, by simpa using h5, h6.cons hop, q, .cons hn h7⟩
    | err e =>
      obtain ⟨es', h5, h6, q, h7, h8⟩ := h4
      exact ⟨_, by simpa using h5, hop.append h6, q, .cons hn h7, h8⟩

end Verif.Parser
