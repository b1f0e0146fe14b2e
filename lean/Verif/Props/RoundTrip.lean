import Verif.Lemmas.RoundTrip
/-!
# Property C44: a tree that is written and loaded again is the same tree
-/
namespace Verif.Props
open Verif Verif.Spec Verif.Emitter Verif.Scanner Verif.Loader
variable {F : Type}

/-- **C44 (partial)** What the emitter writes for a printable tree, of any size and depth, loads again as exactly that tree, as the only document of
the text. `cfg.fuel` bounds the iterations of the scanner's loops and `n` the tokens asked for; some bound is enough.
Partial: only for trees whose tags are local ones (`!suffix`) and not on keys, whose scalars are not misread
(see the `C44_…_false`, `C32_…_false` and `C33_…_false` theorems) and whose scalar keys are not longer than 1024 bytes; the indentation is the default
one, and every setting of `compact` and `multiline_strings` is covered. -/
theorem C44_roundtrip_partial (fo : FloatOps F) (ec : Config) (x : Yaml F) (hi : ec.bestIndent = 2)
    (hx : Printable fo ec true x) :
    ∃ N, ∀ cfg n, N ≤ cfg.fuel → N ≤ n →
      loadFrom fo cfg n (dump fo ec x) = .ok [x] ∧ loadSingle fo cfg n (dump fo ec x) = .ok x := by
  obtain ⟨evs, h1, h2⟩ := (node_events hx (fun _ => none) rfl []).2
  exact dump_load hi (printable_simple hx) (printable_scans hi hx) (.present (h1 .block (by simp))) (h2 _)

/-- a mapping with a sequence, an empty mapping, a tagged string that looks like a number and a tagged mapping with a sequence as key -/
def exTree : Yaml F :=
  .map [(.scalar (.str bs!"a b"), .seq [.scalar (.int (-5)), .map [], .seq [.tagged ⟨bs!"!", bs!"t"⟩ (.scalar (.str bs!"12")), .scalar .null]]),
    (.seq [.scalar (.bool true), .seq []], .tagged ⟨bs!"!", bs!"m"⟩ (.map [(.scalar (.str bs!"k\n"), .scalar (.str bs!"v"))]))]

/-- its text, with the `compact` setting off -/
example : dump noFloats ⟨2, false, false⟩ exTree = bs!"---\na b:\n  - -5\n  - {}\n  -\n    - !t \"12\"\n    - ~\n?\n  - true\n  - []\n: !m \n  \"k\\n\": v" := by
  decide +kernel

/-- the hypotheses are met by it -/
example (c : Bool) : Printable noFloats ⟨2, c, false⟩ true (exTree : Yaml Unit) := by
  have s : ∀ v, ¬ bs!"0o" <+: v → ¬ bs!"+" <+: v → Printable noFloats ⟨2, c, false⟩ false (.scalar (.str v) : Yaml Unit) := fun v h1 h2 => .scalar (by simp [ScalarBack, shouldEmitStringAsBlock]; exact ⟨h1, h2⟩)
  have b : Printable noFloats ⟨2, c, false⟩ false (.scalar (.bool true) : Yaml Unit) := .scalar trivial
  have z : Printable noFloats ⟨2, c, false⟩ false (.scalar .null : Yaml Unit) := .scalar trivial
  have i : Printable noFloats ⟨2, c, false⟩ false (.scalar (.int (-5)) : Yaml Unit) := .scalar (by simp [ScalarBack, Spec.Core.Fits64])
  have n : Printable noFloats ⟨2, c, false⟩ false (.map [] : Yaml Unit) := .map (by simp) (by simp) (by simp) (by simp) (by simp)
  have e : Printable noFloats ⟨2, c, false⟩ false (.seq [] : Yaml Unit) := .seq (by simp)
  refine .map ?_ ?_ ?_ (by simp) (by simp [shouldEmitStringAsBlock])
  · intro p hp
    simp at hp
    rcases hp with rfl | rfl
    · exact s _ (by decide) (by decide)
    · exact .seq (by simp [b, e])
  · intro p hp
    simp at hp
    rcases hp with rfl | rfl
    · refine .seq ?_
      intro y hy
      simp at hy
      rcases hy with rfl | rfl | rfl
      · exact i
      · exact n
      · refine .seq ?_
        intro y hy
        simp at hy
        rcases hy with rfl | rfl
        · exact .tagged (by decide) (by decide) (by simp) (s _ (by decide) (by decide))
        · exact z
    · refine .tagged (by decide) (by decide) (by simp) (.map ?_ ?_ ?_ (by simp) (by simp [shouldEmitStringAsBlock]))
      · simp; exact s _ (by decide) (by decide)
      · simp; exact s _ (by decide) (by decide)
      · intro p hp k hk
        simp at hp
        subst hp
        simp at hk
        subst hk
        cases c <;> decide +kernel
  · intro p hp k hk
    simp at hp
    rcases hp with rfl | rfl
    · simp at hk
      subst hk
      cases c <;> decide +kernel
    · simp at hk

/-- A document that is one scalar loads as what the scalar's text resolves to. -/
theorem scalar_doc (fo : FloatOps F) (ec : Config) (x : Scalar F) (hi : ec.bestIndent = 2)
    {st v} (htok : leafTok fo ec x = .scalar st v) (ht : LeafOk fo ec true x) :
    ∃ N, ∀ cfg n, N ≤ cfg.fuel → N ≤ n → loadFrom fo cfg n (dump fo ec (.scalar x)) = .ok [Scalar.valueFromCowAndMetadata fo v st none] := by
  obtain ⟨N, h⟩ := dump_load (fo := fo) (ec := ec) (x := .scalar x) (evs := [.scalar ⟨v, st, 0, none⟩]) hi (by simp [Simple]) (by rw [Scans]; exact ht)
    (by rw [nodeToks, htok]; exact .present (.bare .scalar)) (.scalar _)
  exact ⟨N, fun cfg n h1 h2 => (h cfg n h1 h2).1⟩

/-- **C44 without the restrictions on scalars is false.** The string `0o17` is written without quotes and loads as the integer 15. A float
that is printed as `1` loads as the integer 1. A bad value is written as `~` and loads as null. -/
theorem C44_roundtrip_false (ec : Config) (hi : ec.bestIndent = 2) :
    (∃ N, ∀ cfg n, N ≤ cfg.fuel → N ≤ n → loadFrom noFloats cfg n (dump noFloats ec (.scalar (.str bs!"0o17"))) = .ok [.scalar (.int 15)]) ∧
    (∀ (fo : FloatOps F) (f : F), fo.display f = bs!"1" →
      ∃ N, ∀ cfg n, N ≤ cfg.fuel → N ≤ n → loadFrom fo cfg n (dump fo ec (.scalar (.float f))) = .ok [.scalar (.int 1)]) ∧
    (∀ fo : FloatOps F, ∃ N, ∀ cfg n, N ≤ cfg.fuel → N ≤ n → loadFrom fo cfg n (dump fo ec .bad) = .ok [.scalar .null]) := by
  refine ⟨?_, ?_, ?_⟩
  · have hb : isBlockScalar ec (.str bs!"0o17" : Scalar Unit) = false := by simp [isBlockScalar, shouldEmitStringAsBlock]
    exact scalar_doc noFloats ec (.str bs!"0o17") hi (st := .plain) (by rw [leafTok_plain hb]; rfl) (.inl ⟨hb, str_text _ _⟩)
  · intro fo f hf
    have ht : ScalarText (scalarTxt fo (.float f)) (scalarTok fo (.float f)) := by
      rw [scalarTok, scalarTxt, hf]
      · exact number_text (neg := false) (t := []) (by simp [IsDigit]) (by simp)
      · nofun
    obtain ⟨N, h⟩ := scalar_doc fo ec (.float f) hi (st := .plain) (v := bs!"1") (by rw [leafTok, scalarTok, scalarTxt, hf] <;> nofun) (.inl ⟨rfl, ht⟩)
    refine ⟨N, fun cfg n h1 h2 => ?_⟩
    rw [h cfg n h1 h2]
    exact congrArg (fun z => Res.ok [z]) (C05_int_roundtrip fo 1 (by simp [Spec.Core.Fits64]))
  · intro fo
    exact scalar_doc fo ec .null hi (st := .plain) rfl (.inl ⟨rfl, scalar_text (ec := ec) (doc := true) trivial⟩)

end Verif.Props
