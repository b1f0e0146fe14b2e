import Verif.Lemmas.ParserOrder
import Verif.Model.LoadText
import Verif.Props.Scanner
/-!
# C75: events stand in the text, one after the other

`Verif.Spec.Positions` says what the line and the column of a place in a text are, `Verif.Spec.PullRuns` what pulling events is.
-/
namespace Verif.Props
open Verif Verif.Spec Verif.Scanner Verif.Parser Verif.Parser.Order

/-- a place in the text, or the one where its end is reported -/
def InText (t : List Byte) (m : Marker) : Prop := m.pos ≤ t.length ∧ (Located t m ∨ m = streamEndMark t)

/-- **C75** Every event that is pulled from a text has a span that begins no later than it ends, and both ends are places in the text, with the right
line and column. -/
theorem C75_places {cfg : Cfg} {t : List Byte} {n k : Nat} (hf : t.length + 4 ≤ cfg.fuel) : ∀ r ∈ (pullAll k (Loader.parserOn cfg n t)).1,
    r.2.start.pos ≤ r.2.stop.pos ∧ InText t r.2.start ∧ InText t r.2.stop := by
  intro r hr
  have h1 := (C10_positions_exact cfg t n hf).2.1
  rcases (pulled_places k fair_new).1 r hr with ⟨x, hx, e⟩ | ⟨-, x, hx, e⟩
  · obtain ⟨g1, g2, g3, g4⟩ := h1 x hx
    rw [e]
    exact ⟨g1, ⟨Nat.le_trans g1 g2, g3⟩, g2, g4⟩
  · obtain ⟨g1, g2, g3, g4⟩ := h1 x hx
    rw [e]
    exact ⟨Nat.le_refl _, ⟨g2, g4⟩, g2, g4⟩

/-- **C75 (partial)** The events come in the order in which they stand. Partial: ends of mappings are left out, see `C75_order_false`. -/
theorem C75_order_partial {cfg : Cfg} {t : List Byte} {n k : Nat} (hf : t.length + 4 ≤ cfg.fuel) :
    ((pullAll k (Loader.parserOn cfg n t)).1.filter fun r => r.1 ≠ .mappingEnd).Pairwise fun r q => r.2.start.pos ≤ q.2.start.pos :=
  (pulled_places k fair_new).2.2 (C10_positions_exact cfg t n hf).1

/-- C75, the full statement about the order -/
def C75_order_full : Prop := ∀ (cfg : Cfg) (t : List Byte) (n k : Nat), t.length + 4 ≤ cfg.fuel →
  (pullAll k (Loader.parserOn cfg n t)).1.Pairwise fun r q => r.2.start.pos ≤ q.2.start.pos

/-- the places of the events of a pair in brackets -/
theorem pair_places : (pullAll 20 (Loader.parserOn ⟨20, true⟩ 20 bs!"[? a : [x]]")).1.map (fun r => r.2.start.pos) = [0, 0, 0, 1, 3, 7, 8, 9, 8, 10, 11, 11] := by
  decide +kernel

/-- C75 does not hold of the ends of mappings: in `[? a : [x]]` the mapping `? a : [x]` has its end right after the second `[`, before the `]` that was
pulled before it. -/
theorem C75_order_false : ¬ C75_order_full := by
  intro h
  have h1 := h ⟨20, true⟩ bs!"[? a : [x]]" 20 20 (by decide)
  rw [← List.pairwise_map (f := fun r : Event × Span => r.2.start.pos) (R := (· ≤ ·)), pair_places] at h1
  revert h1
  decide

/-- **C75** An error that ends the events is at a place in the text, too. -/
theorem C75_errors {cfg : Cfg} {t : List Byte} {n k : Nat} (hf : t.length + 4 ≤ cfg.fuel) {e} (he : (pullAll k (Loader.parserOn cfg n t)).2 = .failed e) :
    ∃ m msg, e = .scanner m msg ∧ InText t m := by
  have h1 := C10_positions_exact cfg t n hf
  rcases (pulled_places k fair_new).2.1 e he with ⟨x, msg, hx, rfl⟩ | h | ⟨h, rfl⟩
  · obtain ⟨g1, g2, g3, g4⟩ := h1.2.1 x hx
    exact ⟨_, _, rfl, Nat.le_trans g1 g2, g3⟩
  · have h2 : (scanInput cfg t n).2 = .failed e := by
      cases hs : (scanInput cfg t n).2 <;> rw [hs] at h <;> cases h
      rfl
    obtain ⟨m, msg, rfl, g1, g2⟩ := h1.2.2 e h2
    exact ⟨m, msg, rfl, g1, g2⟩
  · have h2 : (scanInput cfg t n).2 = .ended := by
      cases hs : (scanInput cfg t n).2 <;> rw [hs] at h <;> cases h
    refine ⟨_, _, rfl, ?_⟩
    rw [show (afterNext cfg n (Scanner.new t)).mark = streamEndMark t from scan_mark n (live_new cfg t hf) h2]
    exact ⟨Nat.le_refl _, .inr rfl⟩

/-! ## Texts it applies to -/

/-- the places of the events of a mapping in two lines -/
example : (pullAll 20 (Loader.parserOn ⟨20, true⟩ 20 bs!"a:\n  - b")).1.map (fun r => r.2.start) =
    [⟨0, 1, 1⟩, ⟨0, 1, 1⟩, ⟨0, 1, 1⟩, ⟨0, 1, 1⟩, ⟨5, 3, 2⟩, ⟨7, 5, 2⟩, ⟨8, 1, 3⟩, ⟨8, 1, 3⟩, ⟨8, 1, 3⟩, ⟨8, 1, 3⟩] := by decide +kernel

/-- and the place of an error -/
example : (pullAll 20 (Loader.parserOn ⟨20, true⟩ 20 bs!"- a\n- *b")).2 = .failed (.scanner ⟨6, 3, 2⟩ "while parsing node, found unknown anchor") := by decide +kernel

end Verif.Props
