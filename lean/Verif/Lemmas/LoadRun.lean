import Verif.Model.ParserLoad
import Verif.Spec.ParserRuns
import Verif.Spec.Events
import Verif.Lemmas.ParserRun
/-!
# Pushing a document's events is pulling them
-/
namespace Verif.Parser
open Verif Verif.Spec Verif.Grammar

/-- parsing the events `es` one after the other leads from `p` to `p'` -/
inductive Run : PSt → List (Event × Span) → PSt → Prop
  | nil {p} : Run p [] p
  | cons {p e p1 es p2} : nextEventImpl p = (.ok e, p1) → Run p1 es p2 → Run p (e :: es) p2

theorem Run.append {p a m} (h : Run p a m) : ∀ {b q}, Run m b q → Run p (a ++ b) q := by
  induction h with
  | nil => exact fun h => h
  | cons h1 _ ih => exact fun h => .cons h1 (ih h)

theorem Run.split {a : List (Event × Span)} : ∀ {p b q}, Run p (a ++ b) q → ∃ m, Run p a m ∧ Run m b q := by
  induction a with
  | nil => exact fun h => ⟨_, .nil, h⟩
  | cons e a ih =>
    intro p b q h
    cases h with
    | cons h1 h2 => obtain ⟨m, h3, h4⟩ := ih h2; exact ⟨m, .cons h1 h3, h4⟩

/-- pulling without reaching the end is parsing -/
theorem delivers_run {p evs s} (h : Delivers p evs s) (hne : .streamEnd ∉ evs) : ∃ es, es.map (·.1) = evs ∧ Run p es s := by
  induction h with
  | nil => exact ⟨[], rfl, .nil⟩
  | @snoc evs s ev sp s' _ h2 ih =>
    simp at hne
    obtain ⟨es, h3, h4⟩ := ih hne.1
    refine ⟨es ++ [(ev, sp)], by simp [h3], h4.append (.cons ?_ .nil)⟩
    unfold nextEvent at h2
    split at h2
    · simp at h2
    · revert h2
      cases nextEventImpl s with
      | mk r s1 =>
        cases r with
        | ok e =>
          intro h2
          simp at h2
          obtain ⟨⟨h5, h6⟩, h7⟩ := h2
          rw [if_neg (fun h => hne.2 (h5 ▸ h).symm)] at h7
          rw [h7, ← h5, ← h6]
        | _ => simp

/-- pulling to the end is parsing to the end -/
theorem delivers_run_end {p evs s} (h : Delivers p (evs ++ [.streamEnd]) s) (hne : .streamEnd ∉ evs) :
    ∃ es sp s', es.map (·.1) = evs ∧ Run p (es ++ [(.streamEnd, sp)]) s' := by
  generalize hx : evs ++ [.streamEnd] = x at h
  cases h with
  | nil => simp at hx
  | @snoc evs' s1 ev sp _ h1 h2 =>
    obtain ⟨rfl, he⟩ := List.append_inj' hx rfl
    simp at he
    subst he
    obtain ⟨es, h3, h4⟩ := delivers_run h1 hne
    unfold nextEvent at h2
    split at h2
    · simp at h2
    · revert h2
      cases hn : nextEventImpl s1 with
      | mk r s2 =>
        cases r with
        | ok e =>
          intro h2
          simp at h2
          refine ⟨es, sp, s2, h3, h4.append (.cons (hn.trans ?_) .nil)⟩
          obtain ⟨⟨h5, h6⟩, -⟩ := h2
          rw [← h5, ← h6]
        | _ => simp

theorem lift_bind {α β} {m : PM α} {a : α} {p p' : PSt} {out} {f : α → LM β} (h : m p = (.ok a, p')) :
    (liftP m >>= f) ⟨p, out⟩ = f a ⟨p', out⟩ := by
  show (match liftP m ⟨p, out⟩ with | (.ok a, s') => f a s' | (.err e, s') => (.err e, s') | (.panic, s') => (.panic, s') | (.hang, s') => (.hang, s')) = _
  simp only [liftP, h]

theorem step_bind {α β} {m : LM α} {a : α} {s s' : LSt} {f : α → LM β} (h : m s = (.ok a, s')) : (m >>= f) s = f a s' := by
  show (match m s with | (.ok a, s') => f a s' | (.err e, s') => (.err e, s') | (.panic, s') => (.panic, s') | (.hang, s') => (.hang, s')) = _
  simp only [h]

theorem emit_bind {β} {ev sp p out} {f : Unit → LM β} : (onEvent ev sp >>= f) ⟨p, out⟩ = f () ⟨p, out ++ [(ev, sp)]⟩ := rfl

theorem node_ne {e es} (h : Node (e :: es)) : e ≠ .sequenceEnd ∧ e ≠ .mappingEnd := by
  cases h <;> simp

theorem node_cons {es} (h : Node es) : ∃ e r, es = e :: r := by
  cases h <;> exact ⟨_, _, rfl⟩

theorem map_split {rs : List (Event × Span)} : ∀ {a b}, rs.map (·.1) = a ++ b → ∃ ra rb, rs = ra ++ rb ∧ ra.map (·.1) = a ∧ rb.map (·.1) = b := by
  induction rs with
  | nil =>
    intro a b h
    simp at h
    exact ⟨[], [], rfl, by simp [h], by simp [h]⟩
  | cons r rs ih =>
    intro a b h
    cases a with
    | nil => exact ⟨[], r :: rs, rfl, rfl, h⟩
    | cons e a =>
      simp at h
      obtain ⟨ra, rb, h1, h2, h3⟩ := ih h.2
      exact ⟨r :: ra, rb, by simp [h1], by simp [h.1, h2], h3⟩

theorem load_runs (fuel : Nat) :
    (∀ ev sp rs p1 p2 out, Node (ev :: rs.map (·.1)) → Run p1 rs p2 → 2 * rs.length + 2 ≤ fuel →
      loadNode fuel ev sp ⟨p1, out⟩ = (.ok (), ⟨p2, out ++ (ev, sp) :: rs⟩)) ∧
    (∀ sp rs p1 p2 out, Nodes (rs.map (·.1)) → Run p1 (rs ++ [(.sequenceEnd, sp)]) p2 → 2 * rs.length + 1 ≤ fuel →
      loadSequence fuel ⟨p1, out⟩ = (.ok (), ⟨p2, out ++ (rs ++ [(.sequenceEnd, sp)])⟩)) ∧
    (∀ sp rs p1 p2 out, Pairs (rs.map (·.1)) → Run p1 (rs ++ [(.mappingEnd, sp)]) p2 → 2 * rs.length + 1 ≤ fuel →
      loadMapping fuel ⟨p1, out⟩ = (.ok (), ⟨p2, out ++ (rs ++ [(.mappingEnd, sp)])⟩)) := by
  induction fuel with
  | zero => exact ⟨by omega, by omega, by omega⟩
  | succ fuel ih =>
    obtain ⟨ihn, ihs, ihm⟩ := ih
    -- one node whose first event is parsed here
    have one : ∀ rn p1 p2 out, Node (rn.map (·.1)) → Run p1 rn p2 → 2 * rn.length ≤ fuel →
        ∃ ev sp pe, ev ≠ .sequenceEnd ∧ ev ≠ .mappingEnd ∧ nextEventImpl p1 = (.ok (ev, sp), pe) ∧
          loadNode fuel ev sp ⟨pe, out⟩ = (.ok (), ⟨p2, out ++ rn⟩) := by
      intro rn p1 p2 out hn hr hf
      cases rn with
      | nil => obtain ⟨e, r, h⟩ := node_cons hn; simp at h
      | cons r rn =>
        obtain ⟨ev, sp⟩ := r
        cases hr with
        | cons h1 h2 =>
          exact ⟨ev, sp, _, (node_ne hn).1, (node_ne hn).2, h1, ihn ev sp rn _ p2 out hn h2 (by simp at hf; omega)⟩
    refine ⟨?_, ?_, ?_⟩
    · intro ev sp rs p1 p2 out hn hr hf
      generalize hx : ev :: rs.map (·.1) = x at hn
      cases hn with
      | scalar v =>
        simp at hx
        obtain ⟨rfl, rfl⟩ := hx
        cases hr
        rfl
      | alias id =>
        simp at hx
        obtain ⟨rfl, rfl⟩ := hx
        cases hr
        rfl
      | seq a t hb =>
        simp at hx
        obtain ⟨rfl, hx⟩ := hx
        obtain ⟨ra, rb, rfl, rfl, h3⟩ := map_split hx
        cases rb with
        | nil => simp at h3
        | cons r rb =>
          obtain ⟨e, sp'⟩ := r
          simp at h3
          obtain ⟨rfl, rfl⟩ := h3
          rw [loadNode]
          exact (ihs sp' ra p1 p2 _ hb hr (by simp at hf; omega)).trans (by simp)
      | map a t hb =>
        simp at hx
        obtain ⟨rfl, hx⟩ := hx
        obtain ⟨ra, rb, rfl, rfl, h3⟩ := map_split hx
        cases rb with
        | nil => simp at h3
        | cons r rb =>
          obtain ⟨e, sp'⟩ := r
          simp at h3
          obtain ⟨rfl, rfl⟩ := h3
          rw [loadNode]
          exact (ihm sp' ra p1 p2 _ hb hr (by simp at hf; omega)).trans (by simp)
    · intro sp rs p1 p2 out hn hr hf
      generalize hx : rs.map (·.1) = x at hn
      cases hn with
      | nil =>
        simp at hx
        subst hx
        cases hr with
        | cons h1 h2 =>
          cases h2
          rw [loadSequence, lift_bind h1]
          rfl
      | cons h1 h2 =>
        obtain ⟨ra, rb, rfl, rfl, rfl⟩ := map_split hx
        rw [List.append_assoc] at hr
        obtain ⟨pm, hra, hrb⟩ := hr.split
        have hlen : 1 ≤ ra.length := by
          obtain ⟨e, r, h⟩ := node_cons h1
          have := congrArg List.length h
          simp at this
          omega
        obtain ⟨ev, sp', pe, hne, -, h3, h4⟩ := one ra p1 pm out h1 hra (by simp at hf; omega)
        rw [loadSequence, lift_bind h3]
        dsimp only
        rw [if_neg hne, step_bind h4]
        exact (ihs sp rb pm p2 _ h2 hrb (by simp at hf; omega)).trans (by simp)
    · intro sp rs p1 p2 out hn hr hf
      generalize hx : rs.map (·.1) = x at hn
      cases hn with
      | nil =>
        simp at hx
        subst hx
        cases hr with
        | cons h1 h2 =>
          cases h2
          rw [loadMapping, lift_bind h1]
          rfl
      | cons h1 h1' h2 =>
        obtain ⟨ra, rb', rfl, rfl, hx2⟩ := map_split hx
        obtain ⟨rv, rb, rfl, rfl, rfl⟩ := map_split hx2
        rw [List.append_assoc] at hr
        obtain ⟨pm, hra, hrb'⟩ := hr.split
        rw [List.append_assoc] at hrb'
        obtain ⟨pm', hrv, hrb⟩ := hrb'.split
        have hlen : 1 ≤ ra.length := by
          obtain ⟨e, r, h⟩ := node_cons h1
          have := congrArg List.length h
          simp at this
          omega
        obtain ⟨ev, sp', pe, -, hne, h3, h4⟩ := one ra p1 pm out h1 hra (by simp at hf; omega)
        obtain ⟨ev', sp'', pe', -, -, h5, h6⟩ := one rv pm pm' (out ++ ra) h1' hrv (by simp at hf; omega)
        rw [loadMapping, lift_bind h3]
        dsimp only
        rw [if_neg hne, step_bind h4, lift_bind h5]
        dsimp only
        rw [step_bind h6]
        exact (ihm sp rb pm' p2 _ h2 hrb (by simp at hf; omega)).trans (by simp)

theorem step_facts {s r s'} (hi : InvC s) (hf : frames s ≠ []) (h : nextEventImpl s = (.ok r, s')) : StepOut s r.1 s' ∧ InvC s' := by
  have := wp_nextEventImpl hi hf
  unfold wp at this
  rw [h] at this
  exact this.2

theorem first_live {toks tail m k e p} (h : nextEventImpl (new toks tail m k) = (.ok e, p)) : p.ended = false := by
  simp only [nextEventImpl, new, parse, stateMachine, dispatch] at h
  simp at h
  revert h
  cases toks with
  | nil => cases tail <;> simp [streamStart, Bind.bind, peekToken, scanNextToken]
  | cons t ts =>
    cases ht : t.tt <;> simp [streamStart, Bind.bind, peekToken, scanNextToken, ht, throwAt, throw, setState, modify, skip, pure]
    rintro - rfl
    rfl

/-- a stream of one document: what is pulled is what is pushed -/
theorem load_one (multi : Bool) {toks tail m k b n s} (hn : Node n)
    (h : Delivers (new toks tail m k) (.streamStart :: .documentStart b :: (n ++ [.documentEnd, .streamEnd])) s)
    (hl : n.length ≤ 10 * toks.length) (hnn : .streamEnd ∉ n) :
    ∃ out, load multi ⟨new toks tail m k, []⟩ = (.ok (), out) ∧
      out.out.map (·.1) = .streamStart :: .documentStart b :: (n ++ .documentEnd :: (if multi then [.streamEnd] else [])) := by
  have h' : Delivers (new toks tail m k) ((.streamStart :: .documentStart b :: (n ++ [.documentEnd])) ++ [.streamEnd]) s := by simpa using h
  obtain ⟨es, spe, p', hes, hr⟩ := delivers_run_end h' (by simp [hnn])
  cases es with
  | nil => simp at hes
  | cons e1 es =>
    cases es with
    | nil => simp at hes
    | cons e2 es =>
      obtain ⟨e1, sp1⟩ := e1
      obtain ⟨e2, sp2⟩ := e2
      simp at hes
      obtain ⟨rfl, rfl, hes⟩ := hes
      obtain ⟨rn, re, rfl, rfl, he⟩ := map_split hes
      cases re with
      | nil => simp at he
      | cons e3 re =>
        obtain ⟨e3, sp3⟩ := e3
        simp at he
        obtain ⟨rfl, rfl⟩ := he
        have hr0 := hr
        cases hr with
        | @cons _ _ p1 _ _ h1 hr =>
          cases hr with
          | @cons _ _ p2 _ _ h2 hr =>
            have hr : Run p2 (rn ++ ([(.documentEnd, sp3)] ++ [(.streamEnd, spe)])) p' := by simpa using hr
            obtain ⟨p3, hrn, hq⟩ := hr.split
            clear hr
            have hfacts := new_facts toks tail m k
            obtain ⟨s1, i1⟩ := step_facts hfacts.invc (by simp [frames, new, fr]) h1
            have hf1 : frames p1 = [.docStart] := by
              have := s1.gram
              simp [frames, new, fr, frStack, step] at this
              exact this.symm
            obtain ⟨s2, -⟩ := step_facts i1 (by simp [hf1]) h2
            have ha1 : p1.anchors = [] := by
              obtain ⟨u, -, -, ha, -⟩ := s1.toks
              rcases ha with ⟨_, _, h, _⟩ | ⟨n, _, h, _⟩
              · exact h
              · simp [evAnchor, new] at h
            have ha2 : p2.anchors = [] := by
              obtain ⟨u, -, -, ha, -⟩ := s2.toks
              rcases ha with ⟨_, _, h, _⟩ | ⟨n, _, h, _⟩
              · rw [h, ha1]
              · have := i1.pos
                simp [evAnchor] at h
                omega
            have hcl : ({ p2 with anchors := [] } : PSt) = p2 := by rw [← ha2]
            cases rn with
            | nil => obtain ⟨e, r, h⟩ := node_cons hn; simp at h
            | cons r rn =>
              obtain ⟨ev, sp⟩ := r
              cases hrn with
              | @cons _ _ pe _ _ h3 hrn =>
                cases hq with
                | @cons _ _ p4 _ _ h4 hq =>
                  cases hq with
                  | @cons _ _ p5 _ _ h5 hq =>
                    cases hq
                    refine ⟨⟨if multi then p' else p4, [(.streamStart, sp1), (.documentStart b, sp2)] ++ (ev, sp) :: rn ++ (.documentEnd, sp3) :: (if multi then [(.streamEnd, spe)] else [])⟩, ?_, by cases multi <;> simp⟩
                    have hlf : loadFuel (new toks tail m k) = (20 * toks.length + 198) + 2 := by simp [loadFuel, new]; omega
                    rw [load, if_neg (by simp [new])]
                    rw [lift_bind h1]
                    dsimp only
                    rw [if_neg (by simp), emit_bind]
                    rw [loadRest, lift_bind (a := false) (p' := p1) (by simp [gets, first_live h1])]
                    rw [if_neg (by simp), hlf, loadLoop, lift_bind h2]
                    dsimp only
                    rw [if_neg (by simp), lift_bind (m := modify _) (a := ()) (p' := p2) (by simp only [modify, hcl])]
                    simp at hl
                    have hnode := (load_runs (20 * toks.length + 198 + 1)).1 ev sp rn pe p3 [(.streamStart, sp1), (.documentStart b, sp2)] hn hrn (by omega)
                    have hdoc : loadDocument (20 * toks.length + 198 + 1) (.documentStart b) sp2 ⟨p2, [(.streamStart, sp1)]⟩ =
                        (.ok (), ⟨p4, [(.streamStart, sp1), (.documentStart b, sp2)] ++ (ev, sp) :: rn ++ [(.documentEnd, sp3)]⟩) := by
                      rw [loadDocument, emit_bind, lift_bind h3]
                      dsimp only
                      rw [show ([(.streamStart, sp1)] ++ [(.documentStart b, sp2)] : List (Event × Span)) = [(.streamStart, sp1), (.documentStart b, sp2)] from rfl, step_bind hnode, lift_bind h4]
                      rfl
                    rw [show ([] ++ [(.streamStart, sp1)] : List (Event × Span)) = [(.streamStart, sp1)] from rfl, step_bind hdoc]
                    cases multi with
                    | true =>
                      rw [if_pos rfl, loadLoop, lift_bind h5]
                      simp [onEvent]
                    | false => rfl

end Verif.Parser
