import Verif.Lemmas.ParserText
import Verif.Model.ParserLoad
/-!
# The events that `load` sends are of valid UTF-8
-/
namespace Verif.Parser
open Verif Verif.Spec

/-- the parser holds valid texts, and so does everything that was sent -/
def Sent (s : LSt) : Prop := Holds s.p ∧ ∀ e ∈ s.out, TextEv e

def Snd {α} (Q : α → Prop) (m : LM α) : Prop := ∀ s, Sent s → Sent (m s).2 ∧ ∀ a, (m s).1 = .ok a → Q a

theorem Snd.bind {α β} {Q : α → Prop} {R : β → Prop} {m : LM α} {k : α → LM β} (hm : Snd Q m) (hk : ∀ a, Q a → Snd R (k a)) : Snd R (m >>= k) := by
  intro s h
  have h1 := hm s h
  simp only [Bind.bind]
  rcases e : m s with ⟨r, t⟩
  rw [e] at h1
  cases r with
  | ok a => exact hk a (h1.2 a rfl) t h1.1
  | err e => exact ⟨h1.1, fun _ h => by cases h⟩
  | panic => exact ⟨h1.1, fun _ h => by cases h⟩
  | hang => exact ⟨h1.1, fun _ h => by cases h⟩

theorem Snd.lift {α} {Q : α → Prop} {m : PM α} (h : Txt Q m) : Snd Q (liftP m) := fun s hs =>
  have h1 := h s.p hs.1
  ⟨⟨h1.1, hs.2⟩, h1.2⟩

theorem Snd.on {ev sp} (h : TextEv (ev, sp)) : Snd (fun _ => True) (onEvent ev sp) := fun s hs =>
  ⟨⟨hs.1, fun e he => by
    rcases List.mem_append.1 he with he | he
    · exact hs.2 e he
    · rw [List.mem_singleton.1 he]; exact h⟩, fun _ _ => trivial⟩

theorem Snd.hang {α} {Q : α → Prop} : Snd Q (fun s => (.hang, s) : LM α) := fun _ hs => ⟨hs, fun _ e => by cases e⟩
theorem Snd.pure {α} {Q : α → Prop} {a : α} (h : Q a) : Snd Q (Pure.pure a : LM α) := fun _ hs => ⟨hs, fun _ e => by cases e; exact h⟩

theorem snd_load : ∀ n, (∀ ev sp, TextEv (ev, sp) → Snd (fun _ => True) (loadNode n ev sp)) ∧ Snd (fun _ => True) (loadMapping n) ∧ Snd (fun _ => True) (loadSequence n) := by
  intro n
  induction n with
  | zero => exact ⟨fun _ _ _ => by unfold loadNode; exact Snd.hang, by unfold loadMapping; exact Snd.hang, by unfold loadSequence; exact Snd.hang⟩
  | succ n ih =>
    obtain ⟨i1, i2, i3⟩ := ih
    refine ⟨fun ev sp h => ?_, ?_, ?_⟩
    · unfold loadNode
      split
      · exact Snd.on h
      · exact Snd.on h
      · exact (Snd.on h).bind fun _ _ => i3
      · exact (Snd.on h).bind fun _ _ => i2
      · exact Snd.lift Txt.panic
    · unfold loadMapping
      refine (Snd.lift txt_nextEventImpl).bind ?_
      rintro ⟨kev, ksp⟩ hk
      dsimp only
      split
      · exact Snd.on hk
      · refine (i1 _ _ hk).bind fun _ _ => (Snd.lift txt_nextEventImpl).bind ?_
        rintro ⟨ev, sp⟩ h
        exact (i1 _ _ h).bind fun _ _ => i2
    · unfold loadSequence
      refine (Snd.lift txt_nextEventImpl).bind ?_
      rintro ⟨kev, ksp⟩ hk
      dsimp only
      split
      · exact Snd.on hk
      · exact (i1 _ _ hk).bind fun _ _ => i3

theorem snd_document {n ev sp} (h : TextEv (ev, sp)) : Snd (fun _ => True) (loadDocument n ev sp) := by
  unfold loadDocument
  split
  · refine (Snd.on h).bind fun _ _ => (Snd.lift txt_nextEventImpl).bind ?_
    rintro ⟨ev, sp⟩ h
    refine ((snd_load n).1 _ _ h).bind fun _ _ => (Snd.lift txt_nextEventImpl).bind ?_
    rintro ⟨ev, sp⟩ h
    dsimp only
    split
    · exact Snd.on h
    · exact Snd.lift Txt.panic
  · exact Snd.lift Txt.throwAt

theorem snd_loop {multi} : ∀ n, Snd (fun _ => True) (loadLoop multi n) := by
  intro n
  induction n with
  | zero => exact Snd.hang
  | succ n ih =>
    unfold loadLoop
    refine (Snd.lift txt_nextEventImpl).bind ?_
    rintro ⟨ev, sp⟩ h
    dsimp only
    split
    · exact Snd.on h
    · refine (Snd.lift (Q := fun _ => True) fun s h => ⟨⟨h.toks, h.token, h.tags, h.current⟩, fun _ _ => trivial⟩).bind fun _ _ => (snd_document h).bind fun _ _ => ?_
      split
      · exact ih
      · exact Snd.pure trivial

theorem snd_rest {multi n} : Snd (fun _ => True) (loadRest multi n) := by
  unfold loadRest
  refine (Snd.lift txt_gets).bind fun _ _ => ?_
  split
  · exact (Snd.lift txt_gets).bind fun _ _ => Snd.on trivial
  · exact snd_loop n

theorem snd_whole {multi} : Snd (fun _ => True) (load multi) := by
  intro s h
  unfold load
  split
  · exact snd_rest s h
  · refine (Snd.lift txt_nextEventImpl).bind (R := fun _ => True) ?_ s h
    rintro ⟨ev, sp⟩ h
    dsimp only
    split
    · exact Snd.lift Txt.throwAt
    · exact (Snd.on h).bind fun _ _ => snd_rest

theorem holds_new {toks tail m k} (h : ∀ t ∈ toks, TextTok t) : Holds (new toks tail m k) := ⟨h, fun _ e => (by cases e), fun _ e => (by cases e), fun _ e => (by cases e)⟩

end Verif.Parser
