import Verif.Lemmas.ParserDoc
/-!
# What every parser function leaves alone, whatever the state and even on errors
-/
set_option linter.unusedVariables false
namespace Verif.Parser
open Verif Verif.Grammar

/-- fields no parser function changes; tokens are only consumed and anchor numbers only grow -/
structure Frm (s s' : PSt) : Prop where
  cur : s'.current = s.current
  emitted : s'.streamEndEmitted = s.streamEndEmitted
  keep : s'.keepTags = s.keepTags
  cnt : s.anchorIdCount ≤ s'.anchorIdCount
  toks : (pend s').length ≤ (pend s).length

theorem Frm.refl (s) : Frm s s := ⟨rfl, rfl, rfl, Nat.le_refl _, Nat.le_refl _⟩

theorem Frm.trans {s s' s''} (h : Frm s s') (h' : Frm s' s'') : Frm s s'' :=
  ⟨h'.cur.trans h.cur, h'.emitted.trans h.emitted, h'.keep.trans h.keep, Nat.le_trans h.cnt h'.cnt, Nat.le_trans h'.toks h.toks⟩

/-- not a document start -/
def NoDoc (ev : Event) : Prop := ∀ b, ev ≠ .documentStart b

/-- close `Frm` goals after symbolic execution -/
macro "frm_tac" : tactic => `(tactic| first
  | trivial
  | contradiction
  | (refine ⟨rfl, rfl, rfl, ?_, ?_⟩ <;> simp_all <;> try omega)
  | (refine ⟨by simp [NoDoc, Event.emptyScalar], rfl, rfl, rfl, ?_, ?_⟩ <;> simp_all <;> try omega))

theorem parseNodeContent_frm {b i id tag s} (hne : s.states ≠ []) :
    wp (parseNodeContent b i id tag) (fun r s' => NoDoc r.1 ∧ Frm s s') (Frm s) s := by
  unfold parseNodeContent
  wp_run
  all_goals first
    | exact hne (by assumption)
    | frm_tac

attribute [local irreducible] parseNodeContent

theorem parseNode_frm {b i s} (hne : s.states ≠ []) :
    wp (parseNode b i) (fun r s' => NoDoc r.1 ∧ Frm s s') (Frm s) s := by
  unfold parseNode
  wp_run
  all_goals first
    | exact hne (by assumption)
    | (refine wp_mono (parseNodeContent_frm (by assumption)) ?_ ?_
       · rintro _ _ ⟨h1, h2⟩
         exact ⟨h1, Frm.trans (by frm_tac) h2⟩
       · intro _ h
         exact Frm.trans (by frm_tac) h)
    | frm_tac

attribute [local irreducible] parseNode

/-- symbolic execution for `Frm` -/
macro "frame_tac" : tactic => `(tactic| (
  wp_run
  all_goals first
    | (apply absurd ?_ ‹_ ≠ []›; assumption)
    | (refine wp_mono (parseNode_frm (by first | assumption | simp)) ?_ ?_
       · rintro _ _ ⟨h1, h2⟩
         exact ⟨h1, Frm.trans (by frm_tac) h2⟩
       · intro _ h
         exact Frm.trans (by frm_tac) h)
    | frm_tac))

theorem blockMappingKey_frm {f s} (hne : s.states ≠ []) :
    wp (blockMappingKey f) (fun r s' => NoDoc r.1 ∧ Frm s s') (Frm s) s := by
  unfold blockMappingKey
  frame_tac

theorem blockMappingValue_frm {f s} (hne : s.states ≠ []) :
    wp (blockMappingValue f) (fun r s' => NoDoc r.1 ∧ Frm s s') (Frm s) s := by
  unfold blockMappingValue
  frame_tac

theorem flowMappingKey_frm {f s} (hne : s.states ≠ []) :
    wp (flowMappingKey f) (fun r s' => NoDoc r.1 ∧ Frm s s') (Frm s) s := by
  unfold flowMappingKey
  frame_tac

theorem flowMappingValue_frm {f s} (hne : s.states ≠ []) :
    wp (flowMappingValue f) (fun r s' => NoDoc r.1 ∧ Frm s s') (Frm s) s := by
  unfold flowMappingValue
  frame_tac

theorem flowSequenceEntry_frm {f s} (hne : s.states ≠ []) :
    wp (flowSequenceEntry f) (fun r s' => NoDoc r.1 ∧ Frm s s') (Frm s) s := by
  unfold flowSequenceEntry flowSequenceEntryRest
  frame_tac

theorem indentlessSequenceEntry_frm {s} (hne : s.states ≠ []) :
    wp (indentlessSequenceEntry) (fun r s' => NoDoc r.1 ∧ Frm s s') (Frm s) s := by
  unfold indentlessSequenceEntry
  frame_tac

theorem blockSequenceEntry_frm {f s} (hne : s.states ≠ []) :
    wp (blockSequenceEntry f) (fun r s' => NoDoc r.1 ∧ Frm s s') (Frm s) s := by
  unfold blockSequenceEntry
  frame_tac

theorem flowSequenceEntryMappingKey_frm {s} (hne : s.states ≠ []) :
    wp (flowSequenceEntryMappingKey) (fun r s' => NoDoc r.1 ∧ Frm s s') (Frm s) s := by
  unfold flowSequenceEntryMappingKey
  frame_tac

theorem flowSequenceEntryMappingValue_frm {s} (hne : s.states ≠ []) :
    wp (flowSequenceEntryMappingValue) (fun r s' => NoDoc r.1 ∧ Frm s s') (Frm s) s := by
  unfold flowSequenceEntryMappingValue
  frame_tac

theorem documentContent_frm {s} (hne : s.states ≠ []) :
    wp (documentContent) (fun r s' => NoDoc r.1 ∧ Frm s s') (Frm s) s := by
  unfold documentContent
  frame_tac

theorem flowSequenceEntryMappingEnd_frm {m s} :
    wp (flowSequenceEntryMappingEnd m) (fun r s' => NoDoc r.1 ∧ Frm s s') (Frm s) s := by
  unfold flowSequenceEntryMappingEnd
  wp_run
  exact ⟨by simp [NoDoc], rfl, rfl, rfl, Nat.le_refl _, Nat.le_refl _⟩

theorem streamStart_frm {s} : wp streamStart (fun r s' => NoDoc r.1 ∧ Frm s s') (Frm s) s := by
  unfold streamStart
  frame_tac

theorem documentEnd_frm {s} : wp documentEnd (fun r s' => NoDoc r.1 ∧ Frm s s') (Frm s) s := by
  unfold documentEnd
  frame_tac

theorem processDirectivesLoop_frm {fuel v s} (hf : (pend s).length < fuel) :
    wp (processDirectivesLoop fuel v) (fun _ s' => Frm s s') (Frm s) s := by
  induction fuel generalizing v s with
  | zero => omega
  | succ fuel ih =>
    unfold processDirectivesLoop
    wp_run
    all_goals first
      | (refine wp_mono (ih ?_) (fun _ _ h => Frm.trans ?_ h) (fun _ h => Frm.trans ?_ h) <;> first | frm_tac | (simp_all; done))
      | frm_tac

theorem processDirectives_frm {s} : wp processDirectives (fun _ s' => Frm s s') (Frm s) s := by
  have := processDirectivesLoop_frm (fuel := s.toks.length + 2) (v := false) (s := s) (by have := pend_length s; omega)
  unfold wp at *
  exact this

theorem skipDocumentEnds_frm {fuel s} (hf : (pend s).length < fuel) :
    wp (skipDocumentEnds fuel) (fun _ s' => Frm s s') (Frm s) s := by
  induction fuel generalizing s with
  | zero => omega
  | succ fuel ih =>
    unfold skipDocumentEnds
    wp_run
    all_goals first
      | (refine wp_mono (ih ?_) (fun _ _ h => Frm.trans ?_ h) (fun _ h => Frm.trans ?_ h) <;> first | frm_tac | (simp_all; done))
      | frm_tac

attribute [local irreducible] processDirectives skipDocumentEnds

theorem explicitDocumentStart_frm {s} : wp explicitDocumentStart (fun _ s' => Frm s s') (Frm s) s := by
  unfold explicitDocumentStart
  apply wp_bind
  refine wp_mono processDirectives_frm ?_ (fun _ h => h)
  intro _ s' h
  wp_run
  all_goals refine h.trans ?_
  all_goals frm_tac

attribute [local irreducible] explicitDocumentStart

theorem documentStart_frm {i s} : wp (documentStart i) (fun _ s' => Frm s s') (Frm s) s := by
  unfold documentStart
  apply wp_bind; apply wp_gets; apply wp_bind
  refine wp_mono (skipDocumentEnds_frm (by have := pend_length s; omega)) ?_ (fun _ h => h)
  intro _ s1 h1
  apply wp_bind
  refine wp_peekToken ?_ h1
  intro t r a b hp
  have h2 : Frm s { s1 with token := some t, toks := r, started := a, ended := b } := h1.trans (by frm_tac)
  have hx := fun {s2} (h : Frm s s2) =>
    wp_mono (explicitDocumentStart_frm (s := s2)) (fun _ _ h' => h.trans h') (fun _ h' => h.trans h')
  split
  · wp_run
    exact h2.trans (by frm_tac)
  · exact hx h2
  · exact hx h2
  · exact hx h2
  · refine wp_ite ?_ ?_
    · intro _
      apply wp_bind
      refine wp_mono processDirectives_frm ?_ (fun _ h => h2.trans h)
      intro _ s3 h3
      wp_run
      exact (h2.trans h3).trans ⟨rfl, rfl, rfl, Nat.le_refl _, Nat.le_refl _⟩
    · intro _; exact hx h2

/-- a document start puts the parser back in order, whatever happened before -/
def DocInv (s : PSt) : Prop := Inv s ∧ frames s = [.node, .docEnd] ∧ measure s ≤ 10 * (pend s).length + 7

theorem documentStart_docInv {i s} (hst : s.states = []) :
    wp (documentStart i) (fun r s' => ∀ b, r.1 = .documentStart b → DocInv s') (fun _ => True) s := by
  refine wp_mono documentStart_doc ?_ (fun _ _ => trivial)
  rintro ⟨ev, sp⟩ s' ⟨⟨-, -, -, -, hcase⟩, -⟩ b rfl
  rcases hcase with ⟨_, h1, h2⟩ | ⟨_, h1, h2⟩ | ⟨h, _⟩
  · rw [hst] at h2
    refine ⟨⟨by simp [Good, h1, h2, docLevel, GoodStack], by simp [HeadOK, h1], by simp [h2, NoCont]⟩,
      by simp [frames, h1, h2, fr, frStack], by simp [measure, h1, h2, wcur, wst, wstack]⟩
  · rw [hst] at h2
    refine ⟨⟨by simp [Good, h1, h2, docLevel, GoodStack], by simp [HeadOK, h1], by simp [h2, NoCont]⟩,
      by simp [frames, h1, h2, fr, frStack], by simp [measure, h1, h2, wcur, wst, wstack]⟩
  · simp at h

theorem stateMachine_frm {s} (hne : s.state ≠ .endState) (hg : Good s) :
    wp stateMachine (fun r s' => Frm s s' ∧ Good s' ∧ ∀ b, r.1 = .documentStart b → DocInv s') (fun s' => Frm s s' ∧ Good s') s := by
  have key : wp (dispatch s.state) (fun r s' => Frm s s' ∧ ∀ b, r.1 = .documentStart b → DocInv s') (Frm s) s →
      wp stateMachine (fun r s' => Frm s s' ∧ Good s' ∧ ∀ b, r.1 = .documentStart b → DocInv s') (fun s' => Frm s s' ∧ Good s') s := by
    intro h
    have h1 : wp stateMachine (fun r s' => Frm s s' ∧ ∀ b, r.1 = .documentStart b → DocInv s') (Frm s) s := by unfold wp at *; exact h
    refine wp_mono (wp_and h1 (stateMachine_safe hne hg)) ?_ (fun _ h => h)
    rintro r s' ⟨⟨h1, h2⟩, h3⟩
    exact ⟨h1, h3, h2⟩
  have key2 : wp (dispatch s.state) (fun r s' => NoDoc r.1 ∧ Frm s s') (Frm s) s →
      wp (dispatch s.state) (fun r s' => Frm s s' ∧ ∀ b, r.1 = .documentStart b → DocInv s') (Frm s) s := by
    intro h
    refine wp_mono h ?_ (fun _ h => h)
    rintro r s' ⟨h1, h2⟩
    exact ⟨h2, fun b hb => absurd hb (h1 b)⟩
  have hd : docLevel s.state = true → s.states = [] := by intro h; simpa [Good, h] using hg
  have hn : docLevel s.state = false → s.states ≠ [] := by
    intro h; exact GoodStack.ne_nil (by simpa [Good, h] using hg)
  apply key
  by_cases hds : s.state = .implicitDocumentStart ∨ s.state = .documentStart
  · have : ∃ i, dispatch s.state = documentStart i := by
      rcases hds with h | h <;> rw [h] <;> exact ⟨_, rfl⟩
    obtain ⟨i, hi⟩ := this
    rw [hi]
    refine wp_mono (wp_and documentStart_frm (documentStart_docInv (hd ?_))) (fun _ _ h => h) (fun _ h => h.1)
    rcases hds with h | h <;> rw [h] <;> rfl
  · apply key2
    cases hs : s.state <;> simp only [dispatch] <;>
    have hs' := congrArg docLevel hs <;> simp only [docLevel] at hs' <;>
    first
    | exact absurd hs hne
    | exact absurd (Or.inl hs) hds
    | exact absurd (Or.inr hs) hds
    | exact streamStart_frm
    | exact documentEnd_frm
    | exact documentContent_frm (hn hs')
    | exact parseNode_frm (hn hs')
    | exact flowSequenceEntryMappingEnd_frm
    | exact blockMappingKey_frm (hn hs')
    | exact blockMappingValue_frm (hn hs')
    | exact blockSequenceEntry_frm (hn hs')
    | exact flowSequenceEntry_frm (hn hs')
    | exact flowMappingKey_frm (hn hs')
    | exact flowMappingValue_frm (hn hs')
    | exact indentlessSequenceEntry_frm (hn hs')
    | exact flowSequenceEntryMappingKey_frm (hn hs')
    | exact flowSequenceEntryMappingValue_frm (hn hs')

end Verif.Parser
