import Verif.Lemmas.ParserLocal
import Verif.Props.PushPull
import Verif.Props.MultiDoc
/-!
# C47: exactly which streams `load` accepts
-/
namespace Verif.Props
open Verif Verif.Spec Verif.Parser

theorem pullAll_delivers {p0 : PSt} : ∀ {n l p evs}, Delivers p0 l p → pullAll n p = (evs, .ended) →
    ∃ s s', Delivers p0 (l ++ evs.map (·.1)) s ∧ nextEvent s = (.ok none, s') := by
  intro n
  induction n with
  | zero => intro l p evs _ h; simp [pullAll] at h
  | succ n ih =>
    intro l p evs hd h
    simp only [pullAll] at h
    rcases hy : nextEvent p with ⟨r, q⟩
    rw [hy] at h
    cases r with
    | ok o =>
      cases o with
      | none =>
        simp only [Prod.mk.injEq, and_true] at h
        subst h
        exact ⟨p, q, by simpa using hd, hy⟩
      | some e =>
        obtain ⟨e, sp⟩ := e
        simp only [Prod.mk.injEq] at h
        obtain ⟨h1, h2⟩ := h
        obtain ⟨s, s', h3, h4⟩ := ih (.snoc hd hy) (Prod.ext rfl h2)
        refine ⟨s, s', ?_, h4⟩
        rw [← h1]
        simpa using h3
    | _ => simp at h

theorem documents_docEvents : ∀ {evs}, Documents evs → ∃ ds, evs = docEvents ds ∧ ∀ d ∈ ds, Node d.2 := by
  intro evs h
  induction h with
  | nil => exact ⟨[], rfl, by simp⟩
  | @cons b n ds hn _ ih =>
    obtain ⟨ds', rfl, h⟩ := ih
    refine ⟨(b, n) :: ds', rfl, ?_⟩
    intro d hd
    rcases List.mem_cons.1 hd with rfl | hd
    · exact hn
    · exact h d hd

/-- C47, exactly: of a stream that can be pulled to its end, `load` succeeds on it if and only if every alias in it refers to an anchor of its own document;
and then it sends what is pulled. -/
theorem C47_push_pull_exact {toks : List Token} {tail : Tail} {m : Marker} {keep : Bool} (h1 : tail ≠ .panic) (h2 : tail ≠ .hang) {n evs}
    (h : pullAll n (new toks tail m keep) = (evs, .ended)) :
    ((load true ⟨new toks tail m keep, []⟩).1 = .ok () ↔ AliasesLocal [] (evs.map (·.1))) ∧
    (AliasesLocal [] (evs.map (·.1)) → (load true ⟨new toks tail m keep, []⟩).2.out = evs) := by
  have hp := (C47_push_pull_partial toks tail m keep h1 h2).2.2 n evs h
  have hto : AliasesLocal [] (evs.map (·.1)) → (load true ⟨new toks tail m keep, []⟩).1 = .ok () := by
    intro ha
    obtain ⟨s, s', hd, hn⟩ := pullAll_delivers .nil h
    rw [List.nil_append] at hd
    obtain ⟨l, hl⟩ := C16_only_after_end hd hn
    rw [hl] at hd ha
    have hS := C13_complete hd
    rw [← hl] at hS hd ha
    generalize evs.map (·.1) = es at hS hd ha
    cases hS with
    | mk hD =>
      obtain ⟨ds, rfl, hds⟩ := documents_docEvents hD
      have ha' : AliasesLocal [] (docEvents ds) := by
        have h := ((aliasesLocal_append _ _ _).1 ha.2).1
        cases ds with
        | nil => trivial
        | cons d ds => exact ⟨by simp, h.2⟩
      obtain ⟨out, ho, -⟩ := load_local hds ha' hd (Emitter.docEvents_clean hds)
      rw [ho]
  have hout : (load true ⟨new toks tail m keep, []⟩).1 = .ok () → (load true ⟨new toks tail m keep, []⟩).2.out = evs := by
    intro hr
    rcases hp with ⟨-, h⟩ | ⟨e, he, -⟩
    · exact h
    · rw [hr] at he; cases he
  refine ⟨⟨fun hr => ?_, hto⟩, fun ha => hout (hto ha)⟩
  rw [← hout hr]
  exact C18_load_partial (Prod.ext rfl rfl) h1 h2

/-- two documents, each with an anchor of the same name and an alias to its own: pulled to the end, and all local -/
example : (pullAll 20 (new (scanInput ⟨40, false⟩ bs!"--- [&a x, *a]\n--- [&a y, *a]\n" 60).1 .ended .default false)).2 = .ended ∧
    (load true ⟨new (scanInput ⟨40, false⟩ bs!"--- [&a x, *a]\n--- [&a y, *a]\n" 60).1 .ended .default false, []⟩).1 = .ok () := by
  decide +kernel

/-- and the leaking alias: pulled to the end, not local, so refused -/
example : (pullAll 9 (new leakToks .ended .default false)).2 = .ended ∧
    ¬ AliasesLocal [] ((pullAll 9 (new leakToks .ended .default false)).1.map (·.1)) := by
  have h2 : (pullAll 9 (new leakToks .ended .default false)).2 = .ended := by decide +kernel
  have h1 : (load true ⟨new leakToks .ended .default false, []⟩).1 ≠ .ok () := by decide +kernel
  refine ⟨h2, fun h => h1 ?_⟩
  exact (C47_push_pull_exact (n := 9) (by simp) (by simp) (Prod.ext rfl h2)).1.2 h

end Verif.Props
