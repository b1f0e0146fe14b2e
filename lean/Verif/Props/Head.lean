import Verif.Lemmas.ScanStray
import Verif.Props.Faults
import Verif.Props.Directives
/-!
# C74: directives belong to a document that begins with `---`

What such directives look like is in `Verif.Spec.Block`, what is wrong with them in `Verif.Spec.Head`.
-/
namespace Verif.Props
open Verif Verif.Spec Verif.Spec.Block Verif.Spec.Core Verif.Spec.Faults Verif.Scanner Verif.Parser
variable {F : Type}

/-- tokens that begin with such directives: one event, and then an error, whoever asks -/
theorem refused_error {fo : FloatOps F} {cfg : Cfg} {t n} (h : ∃ ss ds x r, (scanInput cfg t n).1 = ss :: (ds ++ x :: r) ∧ ss.tt = .streamStart ∧
      (∀ d ∈ ds, isDirectiveTok d.tt = true) ∧ Refused ds x) :
    ∃ e, Loader.loadFrom fo cfg n t = .err e ∧ Loader.loadSingle fo cfg n t = .err e ∧
      ∀ k, ∃ sp, pullAll (k + 2) (Loader.parserOn cfg n t) = ([(.streamStart, sp)], .failed e) := by
  obtain ⟨ss, ds, x, r, h1, h2, h3, h4⟩ := h
  obtain ⟨e, h5, h6⟩ := refused_run (ss := ss) (ds := ds) (x := x) (rest := r) (tail := Loader.tailOf (scanInput cfg t n).2) (m := (afterNext cfg n (Scanner.new t)).mark) h2 h3 h4
  refine ⟨e, ?_, ?_, fun k => ⟨ss.span, ?_⟩⟩
  · obtain ⟨s', h7⟩ := h6 true
    unfold Loader.loadFrom Loader.loadFromParser Loader.parserOn
    dsimp only
    rw [h1, h7]
  · obtain ⟨s', h7⟩ := h6 false
    unfold Loader.loadSingle Loader.loadSingleFromParser Loader.parserOn
    dsimp only
    rw [h1, h7]
  · unfold Loader.parserOn
    dsimp only
    rw [h1, h5]

/-- C74: with two `%YAML` directives before the first document a text gives an error, whatever follows them. The error comes right after the start of
the stream. -/
theorem C74_versions {fo : FloatOps F} {t} (h : TwoVersions t) {cfg : Cfg} {n : Nat} (hf : t.length + 4 < cfg.fuel) (hn : t.length + 4 ≤ n) :
    ∃ e, Loader.loadFrom fo cfg n t = .err e ∧ Loader.loadSingle fo cfg n t = .err e ∧
      ∀ k, ∃ sp, pullAll (k + 2) (Loader.parserOn cfg n t) = ([(.streamStart, sp)], .failed e) :=
  refused_error (versions_scan h (by omega) (by omega))

/-- C74: and so does a text of directives alone. -/
theorem C74_only {fo : FloatOps F} {t} (h : OnlyDirectives t) {cfg : Cfg} {n : Nat} (hf : t.length + 4 < cfg.fuel) (hn : t.length + 4 ≤ n) :
    ∃ e, Loader.loadFrom fo cfg n t = .err e ∧ Loader.loadSingle fo cfg n t = .err e ∧
      ∀ k, ∃ sp, pullAll (k + 2) (Loader.parserOn cfg n t) = ([(.streamStart, sp)], .failed e) :=
  refused_error (only_scan h hf hn)

/-- C74: a text with directives and after them neither `---` nor another directive in the first column never loads, and the events are never pulled to the end, whatever follows. -/
theorem C74_never {fo : FloatOps F} {t} (h : NoDocument t) {cfg : Cfg} {n : Nat} (hf : t.length + 4 ≤ cfg.fuel) (hn : t.length + 4 ≤ n) :
    (∀ docs, Loader.loadFrom fo cfg n t ≠ .ok docs) ∧ ∀ k es, pullAll k (Loader.parserOn cfg n t) ≠ (es, .ended) := by
  rcases noDocument_scan h (cfg := cfg) (N := n) (by omega) (by omega) with h1 | h1
  · exact never_loads (badT_of h1)
  · obtain ⟨e, h2, -, h3⟩ := refused_error (fo := fo) h1
    refine ⟨fun docs h4 => (by rw [h2] at h4; cases h4), fun k es h4 => ?_⟩
    match k, h4 with
    | 0, h4 => cases h4
    | 1, h4 =>
      obtain ⟨sp, h5⟩ := h3 0
      rw [pullAll] at h4 h5
      split at h4
      · simp [pullAll] at h4
      · rename_i hs
        rw [hs] at h5
        cases h5
      all_goals cases h4
    | k + 2, h4 =>
      obtain ⟨sp, h5⟩ := h3 k
      rw [h5] at h4
      cases h4

/-- C74: it gives an error, on the conditions on which the scanner is known to finish (C09). -/
theorem C74_error_partial {fo : FloatOps F} {t} (h : NoDocument t) {cfg : Cfg} {n : Nat} (hf : t.length + 4 ≤ cfg.fuel)
    (hn : 6 * t.length + 4 ≤ n) (h1 : ¬ LoneCR t) (h2 : ¬ QuotedNul t) (h3 : ¬ (LongLine t ∧ HasBlockIndicator t)) (h4 : ¬ LateIndicator t)
    (h5 : cfg.debug = true → ¬ LongVersion t) : ∃ e, Loader.loadFrom fo cfg n t = .err e :=
  error_of_never (C74_never (fo := fo) h hf (by omega)).2 hf (by omega) h1 h2 h3 h4 h5

/-! ## Texts it applies to -/

theorem head_directives : Directives bs!"%YAML 1.2 # v\n%TAG !e!  tag:example.com,2000:\n\n" [.version, .tag bs!"!e!" bs!"tag:example.com,2000:"] :=
  (directives_hello (full := true)).1

/-- `%YAML 1.2`, with a comment, `%TAG !e!  tag:example.com,2000:`, `%YAML  1.1`, and a document -/
theorem two_versions : TwoVersions (bs!"%YAML 1.2 # v\n%TAG !e!  tag:example.com,2000:\n\n" ++ bs!"%YAML  1.1\n---\na: [\n") :=
  ⟨[], _, _, bs!"%YAML  1.1", [], bs!"---\na: [\n", .nil, head_directives, by simp, .version (n := 1) (d := b%'1') (by decide) (by decide), .inl ⟨0, rfl⟩, rfl⟩

example {fo : FloatOps F} : ∃ e, Loader.loadFrom fo ⟨1000, true⟩ 1000 (bs!"%YAML 1.2 # v\n%TAG !e!  tag:example.com,2000:\n\n" ++ bs!"%YAML  1.1\n---\na: [\n") = .err e := by
  obtain ⟨e, h, -⟩ := C74_versions (fo := fo) two_versions (cfg := ⟨1000, true⟩) (n := 1000) (by decide) (by decide)
  exact ⟨e, h⟩

/-- `%YAML 1.2`, with a comment, and `%TAG !e!  tag:example.com,2000:` -/
theorem only_directives : OnlyDirectives bs!"%YAML 1.2 # v\n%TAG !e!  tag:example.com,2000:\n\n" := ⟨[], _, _, .nil, head_directives, by simp, rfl⟩

example {fo : FloatOps F} : ∃ e, Loader.loadFrom fo ⟨1000, true⟩ 1000 bs!"%YAML 1.2 # v\n%TAG !e!  tag:example.com,2000:\n\n" = .err e := by
  obtain ⟨e, h, -⟩ := C74_only (fo := fo) only_directives (cfg := ⟨1000, true⟩) (n := 1000) (by decide) (by decide)
  exact ⟨e, h⟩

/-- `%YAML 1.2`, with a comment, `%TAG !e!  tag:example.com,2000:`, a mapping without `---`, and a second document -/
theorem no_document : NoDocument (bs!"%YAML 1.2 # v\n%TAG !e!  tag:example.com,2000:\n\n" ++ bs!"foo: bar\n---\nbaz\n") :=
  ⟨[], _, _, 0, bs!"foo: bar\n---\nbaz\n", .nil, head_directives, by simp, by decide, fun _ => ⟨by decide, by rintro ⟨r, h, -⟩; simp at h⟩, rfl⟩

/-- the same directives, and `---` in the second column -/
theorem no_document_indented : NoDocument (bs!"%YAML 1.2 # v\n%TAG !e!  tag:example.com,2000:\n\n" ++ bs!" --- foo\n") :=
  ⟨[], _, _, 1, bs!"--- foo\n", .nil, head_directives, by simp, by decide, fun h => (by cases h), rfl⟩

example {fo : FloatOps F} {n : Nat} (hn : 1000 ≤ n) (docs) : Loader.loadFrom fo ⟨1000, true⟩ n (bs!"%YAML 1.2 # v\n%TAG !e!  tag:example.com,2000:\n\n" ++ bs!"foo: bar\n---\nbaz\n") ≠ .ok docs :=
  (C74_never (fo := fo) no_document (cfg := ⟨1000, true⟩) (by decide) (Nat.le_trans (by decide) hn)).1 docs

example {fo : FloatOps F} {n : Nat} (hn : 1000 ≤ n) (docs) : Loader.loadFrom fo ⟨1000, true⟩ n (bs!"%YAML 1.2 # v\n%TAG !e!  tag:example.com,2000:\n\n" ++ bs!" --- foo\n") ≠ .ok docs :=
  (C74_never (fo := fo) no_document_indented (cfg := ⟨1000, true⟩) (by decide) (Nat.le_trans (by decide) hn)).1 docs

end Verif.Props
