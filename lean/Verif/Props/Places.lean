import Verif.Lemmas.LoadPlaces
/-!
# Property C50: the parser and the loader do not look at the places of the tokens
-/
namespace Verif.Props
open Verif Verif.Spec Verif.Parser Verif.Loader
variable {F : Type}

private theorem moved (f : Marker → Marker) (toks : List Token) (tail : Tail) (m : Marker) (keep : Bool) :
    Parser.new (toks.map (Token.mapM f)) (tailMapM f tail) (f m) keep = mapSt f (Parser.new toks tail m keep) := rfl

/-- C50: When all tokens (and the error behind them) are moved to other places by any function `f`, then pulling gives the same events,
moved by `f`, and ends in the same way. -/
theorem C50_moved_events (f : Marker → Marker) (toks : List Token) (tail : Tail) (m : Marker) (keep : Bool) (n : Nat) :
    pullAll n (Parser.new (toks.map (Token.mapM f)) (tailMapM f tail) (f m) keep) =
      ((pullAll n (Parser.new toks tail m keep)).1.map (evMapM f), PullStop.mapM f (pullAll n (Parser.new toks tail m keep)).2) := by
  rw [moved]
  exact same_pullAll n _

/-- C50: the events sent by `load` are the same, moved by `f`, too. -/
theorem C50_moved_load (f : Marker → Marker) (toks : List Token) (tail : Tail) (m : Marker) (keep multi : Bool) :
    (load multi ⟨Parser.new (toks.map (Token.mapM f)) (tailMapM f tail) (f m) keep, []⟩).1 =
      resMapM f (load multi ⟨Parser.new toks tail m keep, []⟩).1 ∧
    (load multi ⟨Parser.new (toks.map (Token.mapM f)) (tailMapM f tail) (f m) keep, []⟩).2.out =
      (load multi ⟨Parser.new toks tail m keep, []⟩).2.out.map (evMapM f) := by
  rw [moved]
  have h := same_load (f := f) (multi := multi) ⟨Parser.new toks tail m keep, []⟩
  rw [show mapLSt f ⟨Parser.new toks tail m keep, []⟩ = ⟨mapSt f (Parser.new toks tail m keep), []⟩ from rfl] at h
  rw [h]
  refine ⟨?_, rfl⟩
  cases (load multi ⟨Parser.new toks tail m keep, []⟩).1 <;> rfl

private theorem kinds_moved {toks toks' : List Token} (h : toks.map (·.tt) = toks'.map (·.tt)) :
    toks.map (Token.mapM fun _ => ⟨0, 0, 0⟩) = toks'.map (Token.mapM fun _ => ⟨0, 0, 0⟩) := by
  have key : ∀ l : List Token, l.map (Token.mapM fun _ => ⟨0, 0, 0⟩) = (l.map (·.tt)).map fun t => ⟨⟨⟨0, 0, 0⟩, ⟨0, 0, 0⟩⟩, t⟩ := by
    intro l; simp [Token.mapM, Span.mapM, Function.comp_def]
  rw [key, key, h]

/-- C50: Two runs of tokens that are the same but for their places give the same events but for their places, and the same documents:
where the tokens stand in the text (how deep they are indented, on which lines they are) does not matter any more. -/
theorem C50_kinds_decide (fo : FloatOps F) {toks toks' : List Token} (h : toks.map (·.tt) = toks'.map (·.tt)) (m m' : Marker) (keep : Bool) (n : Nat) :
    (pullAll n (Parser.new toks .ended m keep)).1.map (·.1) = (pullAll n (Parser.new toks' .ended m' keep)).1.map (·.1) ∧
    (∀ xs, loadFromParser fo (Parser.new toks .ended m keep) = .ok xs → loadFromParser fo (Parser.new toks' .ended m' keep) = .ok xs) ∧
    (∀ x, loadSingleFromParser fo (Parser.new toks .ended m keep) = .ok x → loadSingleFromParser fo (Parser.new toks' .ended m' keep) = .ok x) := by
  have hk := kinds_moved h
  have e : mapSt (fun _ => ⟨0, 0, 0⟩) (Parser.new toks .ended m keep) = mapSt (fun _ => ⟨0, 0, 0⟩) (Parser.new toks' .ended m' keep) := by
    rw [← moved, ← moved, hk]
  refine ⟨?_, ?_, ?_⟩
  · have h1 := same_pullAll (f := fun _ => ⟨0, 0, 0⟩) n (Parser.new toks .ended m keep)
    rw [e, same_pullAll] at h1
    have h2 := congrArg (fun p => p.1.map (·.1)) h1
    simpa [evMapM, Function.comp_def] using h2.symm
  · intro xs hx
    have h1 := same_loadFromParser (f := fun _ => ⟨0, 0, 0⟩) fo (Parser.new toks .ended m keep)
    rw [e, same_loadFromParser, hx] at h1
    revert h1
    cases loadFromParser fo (Parser.new toks' .ended m' keep) with
    | ok a => exact fun h => h
    | err _ => exact fun h => by cases h
    | panic => exact fun h => by cases h
    | hang => exact fun h => by cases h
  · intro xs hx
    have h1 := same_loadSingleFromParser (f := fun _ => ⟨0, 0, 0⟩) fo (Parser.new toks .ended m keep)
    rw [e, same_loadSingleFromParser, hx] at h1
    revert h1
    cases loadSingleFromParser fo (Parser.new toks' .ended m' keep) with
    | ok a => exact fun h => h
    | err _ => exact fun h => by cases h
    | panic => exact fun h => by cases h
    | hang => exact fun h => by cases h

/-- `- a` and `-   a` on a later line, more indented, have the same tokens at different places -/
example : (scanInput ⟨50, false⟩ bs!"- a" 9).1 ≠ (scanInput ⟨50, false⟩ bs!"\n  -   a" 9).1 ∧
    (scanInput ⟨50, false⟩ bs!"- a" 9).1.map (·.tt) = (scanInput ⟨50, false⟩ bs!"\n  -   a" 9).1.map (·.tt) ∧
    (scanInput ⟨50, false⟩ bs!"- a" 9).1.length = 6 := by decide +kernel

end Verif.Props
