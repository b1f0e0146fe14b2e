import Verif.Lemmas.EmitLayout
/-!
# Property C34: the emitter's level and the layout of its text

That emitting takes finite time is part of the model: `emitNode` is a total function, defined by recursion over the value.
-/
namespace Verif.Props
open Verif Verif.Spec Verif.Emitter
variable {F : Type}

/-- **C34** Whatever value is emitted, with whatever settings, at whatever level: the level is the same afterwards. -/
theorem C34_level (fo : FloatOps F) (cfg : Config) (s : ESt) (x : Yaml F) : (emitNode fo cfg s x).level = s.level := emitNode_level fo cfg s x

/-- **C34 (partial: tags and printed floats contain no line break)** What is written for a value is laid out as `Laid` says: the items
and entries of a collection inside `d` others stand on lines indented by `best_indent * d`, and what belongs to an item is written inside
`d + 1`. This holds for every indentation and every setting. -/
theorem C34_layout_partial (fo : FloatOps F) (hfo : ∀ f, b%'\n' ∉ fo.display f) (cfg : Config) (x : Yaml F) (hx : TagsOnLine x) :
    ∃ t, dump fo cfg x = bs!"---\n" ++ t ∧ Laid cfg.bestIndent 0 x t := by
  obtain ⟨t, h1, h2⟩ := node_laid hfo (cfg := cfg) (s := ⟨bs!"---\n", -1⟩) (d := 0) rfl x hx
  exact ⟨t, by rw [dump, h1]; rfl, h2⟩

/-- **C34 (partial, as before)** Every line of a value that is written inside `d` collections is indented by at least `best_indent * d`,
except the line on which it begins. -/
theorem C34_nested_partial (fo : FloatOps F) (hfo : ∀ f, b%'\n' ∉ fo.display f) (cfg : Config) (s : ESt) (d : Nat) (hs : s.level + 1 = d)
    (x : Yaml F) (hx : TagsOnLine x) : ∃ t, (emitNode fo cfg s x).out = s.out ++ t ∧ IndentedBy (cfg.bestIndent * d) t := by
  obtain ⟨t, h1, h2⟩ := node_laid hfo (cfg := cfg) (s := s) (d := d) hs x hx
  exact ⟨t, by rw [h1]; rfl, laid_indented h2⟩

/-- a sequence of a tagged mapping with a sequence as key, and a string in two lines -/
def exLaid : Yaml Unit :=
  .seq [.tagged ⟨bs!"!", bs!"t"⟩ (.map [(.scalar (.str bs!"a"), .seq [.scalar (.int 1)]), (.seq [.scalar .null], .bad)]), .scalar (.str bs!"x\ny\n")]

/-- the hypotheses are met by it, and the text is not trivial -/
example : TagsOnLine exLaid ∧ dump ⟨fun _ => none, fun _ => [], (), (), ()⟩ ⟨3, true, true⟩ exLaid =
    bs!"---\n- !t \n   a:\n      - 1\n   ? - ~\n   : ~\n- |\n   x\n   y" := by
  refine ⟨?_, by decide +kernel⟩
  refine .seq ?_
  intro x hx
  simp at hx
  rcases hx with rfl | rfl
  · refine .tagged (by simp) (by simp) (.map ?_ ?_)
    · intro e he
      simp at he
      rcases he with rfl | rfl
      · exact .scalar
      · exact .seq (by simp; exact .scalar)
    · intro e he
      simp at he
      rcases he with rfl | rfl
      · exact .seq (by simp; exact .scalar)
      · exact .bad
  · exact .scalar

/-- **C34 without the restriction on tags is false**: the second line of the value of a tag with a line break is not indented. -/
theorem C34_layout_false (fo : FloatOps F) :
    ¬ ∃ t, dump fo {} (.seq [.tagged ⟨bs!"!", bs!"a\nb"⟩ .bad] : Yaml F) = bs!"---\n" ++ t ∧ Laid 2 0 (.seq [.tagged ⟨bs!"!", bs!"a\nb"⟩ .bad] : Yaml F) t := by
  rintro ⟨t, h1, h2⟩
  have h1 : bs!"---\n- !a\nb ~" = bs!"---\n" ++ t := h1
  have ht : t = bs!"- !a\nb ~" := by simpa using h1.symm
  subst ht
  generalize htt : bs!"- !a\nb ~" = t at h2
  cases h2 with
  | line hn => simp [NonEmpty] at hn
  | seq _ hi =>
    cases hi with
    | one hv =>
      simp at htt
      subst htt
      generalize htt : bs!" !a\nb ~" = t at hv
      cases hv with
      | here hl =>
        simp at htt
        subst htt
        have := laid_indented hl bs!"!a" bs!"b ~" rfl
        revert this
        decide
      | under hn => simp [NonEmpty] at hn
    | more _ ht => cases ht

end Verif.Props
