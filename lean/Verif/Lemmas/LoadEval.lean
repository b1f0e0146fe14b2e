import Verif.Model.LoadText
/-!
# Evaluating a concrete load: the events first, then the tree
-/
namespace Verif.Loader
open Verif Verif.Scanner
variable {F : Type}

/-- the result of the parser on a text, and the events it has sent -/
def pushed (multi : Bool) (cfg : Cfg) (n : Nat) (i : List Byte) : Res Unit × List Event :=
  ((Parser.load multi ⟨parserOn cfg n i, []⟩).1, (Parser.load multi ⟨parserOn cfg n i, []⟩).2.out.map (·.1))

theorem load_ok {fo : FloatOps F} {cfg n i evs l} (h : pushed true cfg n i = (.ok (), evs)) (hl : onEvents fo init evs = some l) :
    loadFrom fo cfg n i = .ok l.docs := by
  unfold pushed at h
  unfold loadFrom loadFromParser
  simp only [Prod.mk.injEq] at h
  rcases h' : Parser.load true ⟨parserOn cfg n i, []⟩ with ⟨a, b⟩
  rw [h'] at h
  obtain ⟨rfl, rfl⟩ := h
  simp only [hl]

theorem load_err {fo : FloatOps F} {cfg n i e} (h : (pushed true cfg n i).1 = .err e) : loadFrom fo cfg n i = .err e := by
  unfold pushed at h
  unfold loadFrom loadFromParser
  rcases h' : Parser.load true ⟨parserOn cfg n i, []⟩ with ⟨a, b⟩
  rw [h'] at h
  obtain rfl := h
  rfl

end Verif.Loader
