import Verif.Lemmas.ParserPlaces
import Verif.Spec.PullRuns
/-!
# The push interface and the loader do not look at places
-/
namespace Verif.Parser
open Verif Verif.Spec

variable {f : Marker → Marker}

theorem same_nextEvent : Same f (Option.map (evMapM f)) nextEvent nextEvent := by
  intro s
  unfold nextEvent
  rw [show (mapSt f s).streamEndEmitted = s.streamEndEmitted from rfl]
  split
  · rfl
  · rw [same_nextEventImpl s]
    rcases nextEventImpl s with ⟨r, t⟩
    cases r with
    | ok x =>
      obtain ⟨ev, sp⟩ := x
      simp only [mapRes, evMapM, Option.map_some, Prod.mk.injEq, true_and]
      split <;> rfl
    | _ => rfl

theorem same_peekEvent : Same f (Option.map (evMapM f)) peek peek := by
  intro s
  unfold peek
  cases h : s.current with
  | some v =>
    have h1 : (mapSt f s).current = some (evMapM f v) := by simp [mapSt, h]
    rw [h1]
    rfl
  | none =>
    have h1 : (mapSt f s).current = none := by simp [mapSt, h]
    rw [h1]
    simp only
    rw [show (mapSt f s).streamEndEmitted = s.streamEndEmitted from rfl]
    split
    · rfl
    · rw [same_nextEventImpl s]
      rcases nextEventImpl s with ⟨r, t⟩
      cases r <;> rfl

theorem same_pullAll : ∀ n (s : PSt), pullAll n (mapSt f s) = ((pullAll n s).1.map (evMapM f), PullStop.mapM f (pullAll n s).2) := by
  intro n
  induction n with
  | zero => intro s; rfl
  | succ n ih =>
    intro s
    unfold pullAll
    rw [same_nextEvent s]
    rcases nextEvent s with ⟨r, t⟩
    cases r with
    | ok x =>
      cases x with
      | none => rfl
      | some e => simp only [mapRes, Option.map_some, ih, List.map_cons]
    | _ => rfl

def mapLSt (f : Marker → Marker) (s : LSt) : LSt := ⟨mapSt f s.p, s.out.map (evMapM f)⟩

def SameL (f : Marker → Marker) (m m' : LM Unit) : Prop := ∀ s, m' (mapLSt f s) = (mapRes f id (m s).1, mapLSt f (m s).2)

theorem SameL.bind {m m' : LM Unit} {k k' : Unit → LM Unit} (hm : SameL f m m') (hk : ∀ a, SameL f (k a) (k' a)) :
    SameL f (m >>= k) (m' >>= k') := by
  intro s
  have h1 := hm s
  simp only [Bind.bind]
  rcases e : m s with ⟨r, t⟩
  rw [e] at h1
  rw [h1]
  cases r with
  | ok a => exact hk a t
  | _ => rfl

theorem SameL.lift {α} {g : α → α} {m m' : PM α} {k k' : α → LM Unit} (hm : Same f g m m') (hk : ∀ a, SameL f (k a) (k' (g a))) :
    SameL f (liftP m >>= k) (liftP m' >>= k') := by
  intro s
  have h1 := hm s.p
  simp only [Bind.bind, liftP]
  rw [show (mapLSt f s).p = mapSt f s.p from rfl, h1]
  rcases e : m s.p with ⟨r, t⟩
  cases r with
  | ok a => exact hk a ⟨t, s.out⟩
  | _ => rfl

theorem SameL.last {m m' : PM Unit} (hm : Same f id m m') : SameL f (liftP m) (liftP m') := by
  intro s
  have h1 := hm s.p
  simp only [liftP]
  rw [show (mapLSt f s).p = mapSt f s.p from rfl, h1]
  rfl

theorem SameL.on {ev sp sp'} (h : sp' = Span.mapM f sp) : SameL f (onEvent ev sp) (onEvent ev sp') := by
  intro s
  subst h
  simp [onEvent, mapLSt, mapRes, evMapM]

theorem SameL.hang : SameL f (fun s => (.hang, s)) (fun s => (.hang, s)) := fun _ => rfl

theorem SameL.ite {c : Prop} [Decidable c] {m n m' n' : LM Unit} (h1 : SameL f m m') (h2 : SameL f n n') :
    SameL f (if c then m else n) (if c then m' else n') := by
  split
  · exact h1
  · exact h2

theorem same_load_parts : ∀ n, (∀ ev sp, SameL f (loadNode n ev sp) (loadNode n ev (Span.mapM f sp)))
    ∧ SameL f (loadMapping n) (loadMapping n) ∧ SameL f (loadSequence n) (loadSequence n) := by
  intro n
  induction n with
  | zero =>
    refine ⟨fun ev sp => ?_, ?_, ?_⟩
    · unfold loadNode; exact SameL.hang
    · unfold loadMapping; exact SameL.hang
    · unfold loadSequence; exact SameL.hang
  | succ n ih =>
    obtain ⟨i1, i2, i3⟩ := ih
    refine ⟨fun ev sp => ?_, ?_, ?_⟩
    · unfold loadNode
      cases ev with
      | alias _ => exact SameL.on rfl
      | scalar _ => exact SameL.on rfl
      | sequenceStart _ _ => exact SameL.bind (SameL.on rfl) fun _ => i3
      | mappingStart _ _ => exact SameL.bind (SameL.on rfl) fun _ => i2
      | _ => exact SameL.last Same.panic
    · unfold loadMapping
      refine SameL.lift same_nextEventImpl ?_
      rintro ⟨ev, sp⟩
      refine SameL.ite (SameL.on rfl) ?_
      refine SameL.bind (i1 _ _) fun _ => SameL.lift same_nextEventImpl ?_
      rintro ⟨ev, sp⟩
      exact SameL.bind (i1 _ _) fun _ => i2
    · unfold loadSequence
      refine SameL.lift same_nextEventImpl ?_
      rintro ⟨ev, sp⟩
      refine SameL.ite (SameL.on rfl) ?_
      exact SameL.bind (i1 _ _) fun _ => i3

theorem same_loadDocument {n ev sp} : SameL f (loadDocument n ev sp) (loadDocument n ev (Span.mapM f sp)) := by
  unfold loadDocument
  cases ev with
  | documentStart _ =>
    refine SameL.bind (SameL.on rfl) fun _ => SameL.lift same_nextEventImpl ?_
    rintro ⟨ev, sp⟩
    refine SameL.bind ((same_load_parts n).1 _ _) fun _ => SameL.lift same_nextEventImpl ?_
    rintro ⟨ev, sp⟩
    exact SameL.ite (SameL.on rfl) (SameL.last Same.panic)
  | _ => exact SameL.last (Same.throwAt rfl)

theorem same_loadLoop {multi} : ∀ n, SameL f (loadLoop multi n) (loadLoop multi n) := by
  intro n
  induction n with
  | zero => exact SameL.hang
  | succ n ih =>
    unfold loadLoop
    refine SameL.lift same_nextEventImpl ?_
    rintro ⟨ev, sp⟩
    refine SameL.ite (SameL.on rfl) ?_
    refine SameL.lift (g := id) (fun _ => rfl) fun _ => SameL.bind same_loadDocument fun _ => SameL.ite ih fun _ => rfl

theorem same_loadRest {multi n} : SameL f (loadRest multi n) (loadRest multi n) := by
  unfold loadRest
  exact SameL.lift (g := id) (fun _ => rfl) fun _ => SameL.ite (SameL.lift (g := f) (fun _ => rfl) fun _ => SameL.on rfl) (same_loadLoop n)

theorem same_load {multi} : SameL f (load multi) (load multi) := by
  intro s
  unfold load
  have h : (mapLSt f s).p.started = s.p.started := rfl
  have h2 : loadFuel (mapLSt f s).p = loadFuel s.p := by simp [loadFuel, mapLSt, mapSt]
  rw [h, h2]
  split
  · exact same_loadRest s
  · refine SameL.lift same_nextEventImpl ?_ s
    rintro ⟨ev, sp⟩
    exact SameL.ite (SameL.last (Same.throwAt rfl)) (SameL.bind (SameL.on rfl) fun _ => same_loadRest)

end Verif.Parser

namespace Verif.Loader
open Verif Verif.Spec Verif.Parser

variable {F : Type} {f : Marker → Marker}

theorem same_loadFromParser (fo : FloatOps F) (p : PSt) : loadFromParser fo (mapSt f p) = resMapM f (loadFromParser fo p) := by
  unfold loadFromParser
  rw [show (⟨mapSt f p, []⟩ : LSt) = mapLSt f ⟨p, []⟩ from rfl, same_load]
  rcases Parser.load true ⟨p, []⟩ with ⟨r, t⟩
  cases r with
  | ok a =>
    have h : (mapLSt f t).out.map (·.1) = t.out.map (·.1) := by simp [mapLSt, evMapM, Function.comp_def]
    simp only [mapRes, h]
    cases onEvents fo init (t.out.map (·.1)) <;> rfl
  | _ => rfl

theorem same_loadSingleFromParser (fo : FloatOps F) (p : PSt) :
    loadSingleFromParser fo (mapSt f p) = resMapM f (loadSingleFromParser fo p) := by
  unfold loadSingleFromParser
  rw [show (⟨mapSt f p, []⟩ : LSt) = mapLSt f ⟨p, []⟩ from rfl, same_load]
  rcases Parser.load false ⟨p, []⟩ with ⟨r, t⟩
  cases r with
  | ok a =>
    have h : (mapLSt f t).out.map (·.1) = t.out.map (·.1) := by simp [mapLSt, evMapM, Function.comp_def]
    simp only [mapRes, h]
    cases onEvents fo init (t.out.map (·.1)) with
    | none => rfl
    | some l => cases h : l.docs <;> simp only [h] <;> rfl
  | _ => rfl

end Verif.Loader
