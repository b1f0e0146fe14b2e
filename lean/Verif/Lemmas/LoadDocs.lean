import Verif.Lemmas.LoadRun
import Verif.Props.Parser
/-!
# Loading a stream of several documents without anchors
-/
namespace Verif.Parser
open Verif Verif.Spec Verif.Grammar

/-- the events of documents -/
def docEvents : List (Bool × List Event) → List Event
  | [] => []
  | (b, n) :: ds => .documentStart b :: (n ++ .documentEnd :: docEvents ds)

/-- the last frame is that of the stream -/
def Bottom (fs : List Frame) : Prop := fs.getLast? = some .docStart ∨ fs.getLast? = some .docEnd ∨ fs.getLast? = some .streamStart

theorem Bottom.ne {fs} (h : Bottom fs) : fs ≠ [] := by
  rintro rfl
  simp [Bottom] at h

theorem Bottom.step {fs fs' e} (h : Bottom fs) (hs : Grammar.step fs e = some fs') (he : e ≠ .streamEnd) : Bottom fs' := by
  have key : ∀ (f : Frame) (x y : List Frame), Bottom (f :: x) → x ≠ [] → Bottom (y ++ x) := by
    intro f x y hb hx
    obtain ⟨z, w, rfl⟩ : ∃ z w, x = z ++ [w] := by
      rcases List.eq_nil_or_concat x with h | ⟨a, b, h⟩
      · exact absurd h hx
      · exact ⟨a, b, by simpa using h⟩
    unfold Bottom at *
    rw [← List.cons_append, List.getLast?_concat] at hb
    rw [← List.append_assoc, List.getLast?_concat]
    exact hb
  have base : ∀ f, Bottom [f] → f = .docStart ∨ f = .docEnd ∨ f = .streamStart := by
    intro f hf
    simpa [Bottom] using hf
  cases fs with
  | nil => exact absurd rfl h.ne
  | cons f x =>
    by_cases hx : x = []
    · subst hx
      rcases base f h with rfl | rfl | rfl <;> cases e <;> simp [Grammar.step, after] at hs he <;> subst hs <;> simp [Bottom]
    · cases f <;> cases e <;> simp [Grammar.step, after] at hs he <;> subst hs <;>
        first
        | exact key _ _ _ h hx
        | exact key _ x [] h hx
        | exact key _ x [_] h hx
        | exact key _ x [_, _] h hx
        | exact key _ x [_, _, _] h hx

/-- between events, with nothing declared and no anchor to come -/
structure Bare (p : PSt) : Prop where
  inv : InvC p
  bot : Bottom (frames p)
  none : p.anchors = []
  names : anchorNames (pend p) = []

theorem Bare.step {p e p1} (h : Bare p) (he : e.1 ≠ .streamEnd) (hs : nextEventImpl p = (.ok e, p1)) : Bare p1 := by
  obtain ⟨s, i⟩ := step_facts h.inv h.bot.ne hs
  obtain ⟨u, hu, -, ha, -⟩ := s.toks
  have hn := h.names
  rw [hu, anchorNames_append, List.append_eq_nil_iff] at hn
  refine ⟨i, h.bot.step s.gram he, ?_, hn.2⟩
  rcases ha with ⟨-, -, ha, -⟩ | ⟨n, hx, -⟩
  · rw [ha, h.none]
  · rw [hn.1] at hx; cases hx

theorem Bare.run {p es q} (hr : Run p es q) : Bare p → (∀ e ∈ es, e.1 ≠ .streamEnd) → Bare q := by
  induction hr with
  | nil => exact fun h _ => h
  | cons h1 _ ih => exact fun h he => ih (h.step (he _ (by simp)) h1) (fun e hx => he e (by simp [hx]))

/-- the loop of `load` over documents -/
theorem loop_docs {spe p'} : ∀ {ds : List (Bool × List Event)} {es p fuel out}, (∀ d ∈ ds, Node d.2) → es.map (·.1) = docEvents ds → .streamEnd ∉ docEvents ds →
    Run p (es ++ [(.streamEnd, spe)]) p' → Bare p → 2 * es.length + 1 ≤ fuel →
    loadLoop true fuel ⟨p, out⟩ = (.ok (), ⟨p', out ++ es ++ [(.streamEnd, spe)]⟩) := by
  intro ds
  induction ds with
  | nil =>
    intro es p fuel out _ hes _ hr _ hf
    obtain rfl : es = [] := by simpa [docEvents] using hes
    obtain ⟨fuel, rfl⟩ : ∃ j, fuel = j + 1 := ⟨fuel - 1, by omega⟩
    cases hr with
    | cons h1 hr =>
      cases hr
      rw [loadLoop, lift_bind h1]
      simp [onEvent]
  | cons d ds ih =>
    intro es p fuel out hn hes hnn hr hb hf
    obtain ⟨b, n⟩ := d
    obtain ⟨fuel, rfl⟩ : ∃ j, fuel = j + 1 := ⟨fuel - 1, by omega⟩
    rw [docEvents] at hes hnn
    cases es with
    | nil => simp at hes
    | cons e1 es =>
      obtain ⟨e1, sp1⟩ := e1
      simp at hes
      obtain ⟨rfl, hes⟩ := hes
      obtain ⟨rn, re, rfl, rfl, he⟩ := map_split hes
      cases re with
      | nil => simp at he
      | cons e2 re =>
        obtain ⟨e2, sp2⟩ := e2
        simp at he
        obtain ⟨rfl, he⟩ := he
        have hnode : Node (rn.map (·.1)) := hn _ List.mem_cons_self
        cases hr with
        | @cons _ _ p1 _ _ h1 hr =>
          have hb1 := hb.step (by simp) h1
          have hr : Run p1 (rn ++ ((.documentEnd, sp2) :: (re ++ [(.streamEnd, spe)]))) p' := by simpa using hr
          obtain ⟨p2, hrn, hq⟩ := hr.split
          have hb2 := hb1.run hrn (by
            intro e hx h
            apply hnn
            simp
            exact .inl ⟨_, by rw [← h]; exact hx⟩)
          cases hq with
          | @cons _ _ p3 _ _ h2 hq =>
            have hb3 := hb2.step (by simp) h2
            cases rn with
            | nil => obtain ⟨e, r, h⟩ := node_cons hnode; simp at h
            | cons r rn =>
              obtain ⟨ev, sp⟩ := r
              cases hrn with
              | @cons _ _ pe _ _ h3 hrn =>
                simp at hf
                have hcl : ({ p1 with anchors := [] } : PSt) = p1 := by rw [← hb1.none]
                rw [loadLoop, lift_bind h1]
                dsimp only
                rw [if_neg (by simp), lift_bind (m := modify _) (a := ()) (p' := p1) (by simp only [modify, hcl])]
                have hnd := (load_runs fuel).1 ev sp rn pe p2 (out ++ [(.documentStart b, sp1)]) hnode hrn (by omega)
                have hdoc : loadDocument fuel (.documentStart b) sp1 ⟨p1, out⟩ =
                    (.ok (), ⟨p3, out ++ [(.documentStart b, sp1)] ++ (ev, sp) :: rn ++ [(.documentEnd, sp2)]⟩) := by
                  rw [loadDocument, emit_bind, lift_bind h3]
                  dsimp only
                  rw [step_bind hnd, lift_bind h2]
                  rfl
                rw [step_bind hdoc, if_pos rfl, ih (fun d hd => hn d (List.mem_cons_of_mem _ hd)) he (fun hx => hnn (by simp [hx])) hq hb3 (by omega)]
                simp

/-- what is pulled is what is pushed -/
theorem load_docs {toks tail m k ds s} (hn : ∀ d ∈ ds, Node d.2) (ha : anchorNames toks = [])
    (h : Delivers (new toks tail m k) (.streamStart :: (docEvents ds ++ [.streamEnd])) s) (hnn : .streamEnd ∉ docEvents ds) :
    ∃ out, load true ⟨new toks tail m k, []⟩ = (.ok (), out) ∧ out.out.map (·.1) = .streamStart :: (docEvents ds ++ [.streamEnd]) := by
  have hlen := Props.C39_bounded h
  simp at hlen
  have h' : Delivers (new toks tail m k) ((.streamStart :: docEvents ds) ++ [.streamEnd]) s := by simpa using h
  obtain ⟨es, spe, p', hes, hr⟩ := delivers_run_end h' (by simp [hnn])
  cases es with
  | nil => simp at hes
  | cons e1 es =>
    obtain ⟨e1, sp1⟩ := e1
    simp at hes
    obtain ⟨rfl, hes⟩ := hes
    cases hr with
    | @cons _ _ p1 _ _ h1 hr =>
      have hbare : Bare (new toks tail m k) := by
        refine ⟨(new_facts toks tail m k).invc, ?_, rfl, ?_⟩
        · simp [Bottom, frames, new, fr, frStack]
        · simpa [pend, new] using ha
      have hb1 := hbare.step (by simp) h1
      have hel : es.length = (docEvents ds).length := by rw [← hes]; simp
      have := loop_docs (out := [(.streamStart, sp1)]) (fuel := loadFuel (new toks tail m k)) hn hes hnn hr hb1 (by simp [loadFuel, new]; omega)
      refine ⟨⟨p', [(.streamStart, sp1)] ++ es ++ [(.streamEnd, spe)]⟩, ?_, ?_⟩
      · rw [load, if_neg (by simp [new])]
        rw [lift_bind h1]
        dsimp only
        rw [if_neg (by simp), emit_bind]
        rw [loadRest, lift_bind (a := false) (p' := p1) (by simp [gets, first_live h1])]
        rw [if_neg (by simp)]
        exact this
      · simp [hes]

end Verif.Parser
