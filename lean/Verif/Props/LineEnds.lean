import Verif.Lemmas.ScanSameRun
import Verif.Lemmas.LoadPlaces
import Verif.Lemmas.LoadEval
import Verif.Spec.LineEnds
import Verif.Model.LoadText
import Verif.Props.Limits
/-!
# Property C49: a text loads the same with either kind of line ends
-/
namespace Verif.Props
open Verif Verif.Spec Verif.Scanner Verif.Loader
variable {F : Type}

/-- C49: For every text without carriage returns: when its line feeds are written as carriage return and line feed, the scanner gives the
same tokens on the same lines and columns and ends in the same way, and loading gives the same documents, or the same error at the
same line and column. -/
def C49_full (fo : FloatOps F) : Prop :=
  ∀ (cfg : Cfg) (i : List Byte) (n : Nat), 13 ∉ i →
    (scanInput cfg (crlf i) n).1.map (Token.mapM lineCol) = (scanInput cfg i n).1.map (Token.mapM lineCol) ∧
    ScanStop.mapM lineCol (scanInput cfg (crlf i) n).2 = ScanStop.mapM lineCol (scanInput cfg i n).2 ∧
    resMapM lineCol (loadFrom fo cfg n (crlf i)) = resMapM lineCol (loadFrom fo cfg n i) ∧
    resMapM lineCol (loadSingle fo cfg n (crlf i)) = resMapM lineCol (loadSingle fo cfg n i)

private theorem down_zero : down 0 = lineCol := rfl

/-- C49 for all texts that do not make the scanner panic: the same tokens on the same lines and columns, and the same end. Missing: the
few texts on which the scanner panics (C08). -/
theorem C49_same_tokens_partial (cfg : Cfg) (i : List Byte) (n : Nat) (hi : 13 ∉ i) (hp : (scanInput cfg i n).2 ≠ .panicked) :
    (scanInput cfg (crlf i) n).1.map (Token.mapM lineCol) = (scanInput cfg i n).1.map (Token.mapM lineCol) ∧
    ScanStop.mapM lineCol (scanInput cfg (crlf i) n).2 = ScanStop.mapM lineCol (scanInput cfg i n).2 := by
  have h := scan_same n _ _ (rel_new hi) hp
  rw [down_zero] at h
  exact ⟨h.1, h.2.1⟩

private theorem parser_same {cfg : Cfg} {i : List Byte} {n : Nat} (hi : 13 ∉ i) (hp : (scanInput cfg i n).2 ≠ .panicked)
    (hh : (scanInput cfg i n).2 ≠ .hung) :
    Parser.mapSt lineCol (parserOn cfg n (crlf i)) = Parser.mapSt lineCol (parserOn cfg n i) := by
  have h := scan_same n _ _ (rel_new hi) hp
  rw [down_zero] at h
  obtain ⟨h1, h2, h3⟩ := h
  have ht : ∀ st, tailMapM lineCol (tailOf st) = tailOf (ScanStop.mapM lineCol st) := by intro st; cases st <;> rfl
  have hm : lineCol (afterNext cfg n (Scanner.new (crlf i))).mark = lineCol (afterNext cfg n (Scanner.new i)).mark := (h3 hh).eq
  simp only [parserOn, Parser.mapSt, Parser.new, ht, scanInput, h1, h2, hm]

/-- C49 for all texts on which the scanner neither panics nor loops for ever: all documents load the same, or with the same error at the
same line and column. Missing: as above. -/
theorem C49_same_documents_partial (fo : FloatOps F) (cfg : Cfg) (i : List Byte) (n : Nat) (hi : 13 ∉ i)
    (hp : (scanInput cfg i n).2 ≠ .panicked) (hh : (scanInput cfg i n).2 ≠ .hung) :
    resMapM lineCol (loadFrom fo cfg n (crlf i)) = resMapM lineCol (loadFrom fo cfg n i) ∧
    resMapM lineCol (loadSingle fo cfg n (crlf i)) = resMapM lineCol (loadSingle fo cfg n i) := by
  have h := parser_same hi hp hh
  refine ⟨?_, ?_⟩
  · rw [loadFrom, loadFrom, ← same_loadFromParser, ← same_loadFromParser, h]
  · rw [loadSingle, loadSingle, ← same_loadSingleFromParser, ← same_loadSingleFromParser, h]

/-- C49 for texts whose scan comes to the end of the stream: with one kind of line ends they load as some documents exactly when they do
with the other. -/
theorem C49_loads_same_partial (fo : FloatOps F) (cfg : Cfg) (i : List Byte) (n : Nat) (hi : 13 ∉ i) (hs : (scanInput cfg i n).2 = .ended) (xs : List (Yaml F)) :
    loadFrom fo cfg n (crlf i) = .ok xs ↔ loadFrom fo cfg n i = .ok xs := by
  have h := (C49_same_documents_partial fo cfg i n hi (by rw [hs]; simp) (by rw [hs]; simp)).1
  constructor
  · intro hx
    rw [hx] at h
    revert h
    cases loadFrom fo cfg n i with
    | ok a => exact fun h => h.symm
    | err _ => exact fun h => by cases h
    | panic => exact fun h => by cases h
    | hang => exact fun h => by cases h
  · intro hx
    rw [hx] at h
    revert h
    cases loadFrom fo cfg n (crlf i) with
    | ok a => exact fun h => h
    | err _ => exact fun h => by cases h
    | panic => exact fun h => by cases h
    | hang => exact fun h => by cases h

/-- a text with comments, folded plain, quoted and block scalars, whose scan ends -/
example : 13 ∉ bs!"# c\na:\n  - b\n\n    c # d\n  - \"e\n\n    f\\\n    g\"\n  - |\n    h\n\n     i\n  - >-\n   j\n   k\n...\n%YAML 1.2\n---\n? x\n: !t y\n" ∧
    (scanInput ⟨100, true⟩ bs!"# c\na:\n  - b\n\n    c # d\n  - \"e\n\n    f\\\n    g\"\n  - |\n    h\n\n     i\n  - >-\n   j\n   k\n...\n%YAML 1.2\n---\n? x\n: !t y\n" 60).2 = .ended :=
  ⟨by decide, by decide +kernel⟩

/-- a text whose scan fails on its second line, with either kind of line ends -/
example : (scanInput ⟨100, true⟩ bs!"a: b\n  c: d\n" 60).2 = .failed (.scanner ⟨8, 4, 2⟩ "mapping values are not allowed in this context") ∧
    (scanInput ⟨100, true⟩ (crlf bs!"a: b\n  c: d\n") 60).2 = .failed (.scanner ⟨9, 4, 2⟩ "mapping values are not allowed in this context") :=
  ⟨by decide +kernel, by decide +kernel⟩

/-- C49 fails for the texts of C08: `@` and two empty lines make the scanner panic with line feeds, but not with carriage returns. -/
theorem C49_line_ends_false (fo : FloatOps F) : ¬ C49_full fo := by
  intro h
  have h1 := (h ⟨50, false⟩ bs!"@\n\n" 5 (by decide)).2.1
  revert h1
  decide +kernel

end Verif.Props
