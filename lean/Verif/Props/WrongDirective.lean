import Verif.Lemmas.ScanWrong
import Verif.Props.Faults
/-!
# C73: a wrong directive is reported

What a wrong directive is, is in `Verif.Spec.Faults`: `WrongDirective`, `DirectiveText`.
-/
namespace Verif.Props
open Verif Verif.Spec Verif.Spec.Block Verif.Spec.Core Verif.Spec.Faults Verif.Scanner
variable {F : Type}

/-- C73, the full statement: a text whose first lines are directives and one of these is wrong gives an error. -/
def C73_full (fo : FloatOps F) : Prop :=
  ∀ t, DirectiveText t → ∀ cfg n, t.length + 4 ≤ cfg.fuel → 6 * t.length + 3 ≤ n → ∃ e, Loader.loadFrom fo cfg n t = .err e

/-- C73, the first part, whatever comes after the wrong directive: such a text never loads as documents, and pulling events from it never comes to the
end of the stream. The only condition is that there are iterations enough for the length of the text. -/
theorem C73_never {fo : FloatOps F} {t} (h : DirectiveText t) {cfg : Cfg} (hf : t.length < cfg.fuel) (n : Nat) :
    (∀ docs, Loader.loadFrom fo cfg n t ≠ .ok docs) ∧ ∀ k es, pullAll k (Loader.parserOn cfg n t) ≠ (es, .ended) := by
  have hl : 0 < t.length := by
    obtain ⟨a, d, ds, r, -, -, hr, rfl⟩ := h
    obtain ⟨r', rfl⟩ := wrong_first hr
    simp
    omega
  exact never_loads (scan_lost (by omega) (.inl (wrong_doomed h hf)) n)

/-- C73 without the texts on which the library does not come to an end or panics (C08 and C09). What is missing: those, for which the claim is false, and
escapes (`%21`) in the prefix of a tag. -/
theorem C73_error_partial {fo : FloatOps F} {t} (h : DirectiveText t) {cfg : Cfg} {n : Nat} (hf : t.length + 4 ≤ cfg.fuel)
    (hn : 6 * t.length + 3 ≤ n) (h1 : ¬ LoneCR t) (h2 : ¬ QuotedNul t) (h3 : ¬ (LongLine t ∧ HasBlockIndicator t)) (h4 : ¬ LateIndicator t)
    (h5 : cfg.debug = true → ¬ LongVersion t) : ∃ e, Loader.loadFrom fo cfg n t = .err e :=
  error_of_never (C73_never (fo := fo) h (cfg := cfg) (by omega) n).2 hf hn h1 h2 h3 h4 h5

/-- without carriage returns, NUL, other reserved characters and the indicators of block scalars, in a release build -/
theorem C73_simple {fo : FloatOps F} {t} (h : DirectiveText t) (hc : ∀ c ∈ t, c ≠ 13 ∧ c ≠ 0 ∧ c ∉ bs!"@`|>") (hl : 37 ∉ t.drop (t.length - 3)) {cfg : Cfg} (hd : cfg.debug = false) {n : Nat}
    (hf : t.length + 4 ≤ cfg.fuel) (hn : 6 * t.length + 3 ≤ n) : ∃ e, Loader.loadFrom fo cfg n t = .err e := by
  refine C73_error_partial h hf hn ?_ ?_ ?_ ?_ fun hx => by rw [hd] at hx; cases hx
  · rintro ⟨pre, post, rfl, -⟩
    exact (hc 13 (by simp)).1 rfl
  · rintro ⟨pre, post, rfl, -⟩
    exact (hc 0 (by simp)).2.1 rfl
  · rintro ⟨-, hb | hb⟩
    · exact absurd (hc _ hb).2.2 (by decide)
    · exact absurd (hc _ hb).2.2 (by decide)
  · rintro ⟨pre, c, post, rfl, h, hp⟩
    have := (hc c (by simp)).2.2
    rcases h with rfl | rfl | rfl
    · refine hl ?_
      rw [List.drop_append_of_le_length (by simp; omega)]
      simp
    · exact absurd this (by decide)
    · exact absurd this (by decide)

/-! ## Texts it applies to -/

theorem directiveText_wrong {r} (h : WrongDirective r) : DirectiveText r := ⟨[], [], [], r, .nil, .nil, h, rfl⟩

/-- no name; a name that goes on with a colon; no version; one number; no number after the point; something after the version; a comment that is not apart -/
theorem wrong_versions : (∀ t ∈ [bs!"% x\n---\na\n", bs!"%a: b\n---\na\n", bs!"%YAML\n---\na\n", bs!"%YAML\t1\n---\na\n", bs!"%YAML 1.\n---\na\n", bs!"%YAML 1.2 3\n---\na\n", bs!"%YAML 1.2#x\n---\na\n"], DirectiveText t) := by
  have hs : Sps bs!" " := by simp [Sps, Sp]
  have ht : Sps bs!"\t" := by simp [Sps, Sp]
  intro t h
  simp only [List.mem_cons, List.not_mem_nil, or_false] at h
  rcases h with rfl | rfl | rfl | rfl | rfl | rfl | rfl <;> apply directiveText_wrong
  · exact .noName (r := bs!" x\n---\na\n") (by simp [Stops, HandleByte])
  · exact .name (n := bs!"a") (r := bs!": b\n---\na\n") (by simp [HandleByte]) (by simp [Stops, HandleByte, Sp, Lb])
  · exact .noMajor (w := []) (r := bs!"\n---\na\n") ⟨by simp, fun _ => ⟨_, _, rfl, .inl rfl⟩⟩ (by simp [Stops, Dec, Sp])
  · exact .noPoint (w := bs!"\t") (ds := bs!"1") (r := bs!"\n---\na\n") ht (by simp) (by simp [Dec]) (by simp [Stops, Dec])
  · exact .noMinor (w := bs!" ") (ds := bs!"1") (r := bs!"\n---\na\n") hs (by simp [Dec]) (by simp [Stops, Dec])
  · exact .afterVersion (w := bs!" ") (ds := bs!"1") (es := bs!"2") (v := bs!" ") (r := bs!"3\n---\na\n") hs (by simp [Dec]) (by simp [Dec]) ⟨by simp [Sp], .inl (by simp [Stops, Sp, Lb])⟩ (by simp)
  · exact .afterVersion (w := bs!" ") (ds := bs!"1") (es := bs!"2") (v := []) (r := bs!"#x\n---\na\n") hs (by simp [Dec]) (by simp [Dec]) ⟨by simp, .inl (by simp [Stops, Sp, Lb])⟩ (by simp [Stops, Dec])

/-- no handle; a handle that is not closed; no prefix; something after the prefix; a directive at the end of the text -/
theorem wrong_tags : (∀ t ∈ [bs!"%TAG a b\n---\na\n", bs!"%TAG !a b\n---\na\n", bs!"%TAG !a!\n---\na\n", bs!"%TAG ! tag:x, y\n---\na\n", bs!"%other a b"], DirectiveText t) := by
  have hs : Sps bs!" " := by simp [Sps, Sp]
  intro t h
  simp only [List.mem_cons, List.not_mem_nil, or_false] at h
  rcases h with rfl | rfl | rfl | rfl | rfl <;> apply directiveText_wrong
  · exact .noHandle (w := bs!" ") (r := bs!"a b\n---\na\n") ⟨by simp [Sp], by simp⟩ (by simp [Stops, Sp])
  · exact .openHandle (w := bs!" ") (n := bs!"a") (r := bs!" b\n---\na\n") hs (by simp) (by simp [HandleByte]) (by simp [Stops, HandleByte])
  · exact .noPrefix (w := bs!" ") (h := bs!"!a!") (v := []) (r := bs!"\n---\na\n") hs (.inr ⟨bs!"a", by simp [HandleByte], rfl⟩) (by simp) (by simp [Stops, Sp, UriByte])
  · exact .afterPrefix (w := bs!" ") (h := bs!"!") (v := bs!" ") (c := b%'t') (p := bs!"ag:x,") (x := bs!" ") (r := bs!"y\n---\na\n") hs (.inl rfl) hs (by simp [UriByte])
      (by simp [PrefixByte, UriByte]) ⟨by simp [Sp], .inl (by simp [Stops, Sp, Lb])⟩ (by simp)
  · exact .last (n := bs!"other") (r := bs!" a b") (by decide) (by decide) (by simp [HandleByte]) (by simp [Stops, HandleByte]) (by simp [Lb])

/-- all of these are refused -/
example (fo : FloatOps F) {cfg : Cfg} {n} (hd : cfg.debug = false) (hf : 100 ≤ cfg.fuel) (hn : 200 ≤ n) :
    ∀ t ∈ [bs!"% x\n---\na\n", bs!"%a: b\n---\na\n", bs!"%YAML\n---\na\n", bs!"%YAML\t1\n---\na\n", bs!"%YAML 1.\n---\na\n", bs!"%YAML 1.2 3\n---\na\n", bs!"%YAML 1.2#x\n---\na\n"] ++
      [bs!"%TAG a b\n---\na\n", bs!"%TAG !a b\n---\na\n", bs!"%TAG !a!\n---\na\n", bs!"%TAG ! tag:x, y\n---\na\n", bs!"%other a b"], ∃ e, Loader.loadFrom fo cfg n t = .err e := by
  intro t ht
  have h1 : DirectiveText t := (List.mem_append.1 ht).elim (wrong_versions t) (wrong_tags t)
  have h2 : ∀ t ∈ [bs!"% x\n---\na\n", bs!"%a: b\n---\na\n", bs!"%YAML\n---\na\n", bs!"%YAML\t1\n---\na\n", bs!"%YAML 1.\n---\na\n", bs!"%YAML 1.2 3\n---\na\n", bs!"%YAML 1.2#x\n---\na\n"] ++
      [bs!"%TAG a b\n---\na\n", bs!"%TAG !a b\n---\na\n", bs!"%TAG !a!\n---\na\n", bs!"%TAG ! tag:x, y\n---\na\n", bs!"%other a b"],
      (∀ c ∈ t, c ≠ 13 ∧ c ≠ 0 ∧ c ∉ bs!"@`|>") ∧ 37 ∉ t.drop (t.length - 3) ∧ t.length ≤ 30 := by decide
  obtain ⟨a, b, c⟩ := h2 t ht
  exact C73_simple h1 a b hd (by omega) (by omega)

/-- after a comment and two directives that are right -/
example (fo : FloatOps F) {cfg : Cfg} {n} (hf : 100 ≤ cfg.fuel) : ∀ docs, Loader.loadFrom fo cfg n bs!"# c\n%YAML 1.2\n%a b\n%TAG x\n--- a\n" ≠ .ok docs := by
  refine (C73_never ⟨bs!"# c\n", bs!"%YAML 1.2\n%a b\n", [.version, .other], bs!"%TAG x\n--- a\n", ?_, ?_, ?_, rfl⟩ (by simp; omega) n).1
  · exact .cons (l := bs!"# c") (.inr ⟨0, bs!"# c", ⟨bs!" c", rfl, by simp⟩, rfl⟩) .nil
  · exact .cons (t := bs!"%YAML 1.2") (e := []) (ls := []) (r := bs!"%a b\n") (.version (n := 0) (d := b%'2') (by decide) (by decide)) (.inl ⟨0, rfl⟩) .nil
      (.cons (t := bs!"%a b") (e := []) (ls := []) (r := []) (.other (n := bs!"a") (r := bs!" b") (by simp) (by simp [HandleByte]) (by decide) (by decide) (.inr rfl) (by decide)) (.inl ⟨0, rfl⟩) .nil .nil)
  · exact .noHandle (w := bs!" ") (r := bs!"x\n--- a\n") ⟨by simp [Sp], by simp⟩ (by simp [Stops, Sp])

/-! ## What is false -/

/-- C73 is false: a debug build panics on a version that does not fit into eight bits. -/
theorem C73_error_false (fo : FloatOps F) : ¬ C73_full fo := by
  intro h
  have hd : DirectiveText bs!"%YAML 300 x" := directiveText_wrong (.noPoint (w := bs!" ") (ds := bs!"300") (r := bs!" x") (by simp [Sps, Sp]) (by simp) (by simp [Dec]) (by simp [Stops, Dec]))
  obtain ⟨e, he⟩ := h _ hd ⟨20, true⟩ 80 (by decide) (by decide)
  have hp : (match (Loader.pushed true ⟨20, true⟩ 80 bs!"%YAML 300 x").1 with | .err _ => false | _ => true) = true := by decide +kernel
  unfold Loader.pushed at hp
  unfold Loader.loadFrom Loader.loadFromParser at he
  rcases hx : Parser.load true ⟨Loader.parserOn ⟨20, true⟩ 80 bs!"%YAML 300 x", []⟩ with ⟨a, b⟩
  rw [hx] at hp he
  cases a with
  | err e => simp at hp
  | panic => cases he
  | hang => cases he
  | ok u =>
    refine absurd (load_pulled hx rfl) ?_
    exact (C73_never (fo := fo) hd (by decide) 80).2 _ _

end Verif.Props
