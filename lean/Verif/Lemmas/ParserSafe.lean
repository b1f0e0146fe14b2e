import Verif.Lemmas.Parser
/-!
# The parser keeps its state stack in order, whatever the tokens and even after errors
-/
namespace Verif.Parser
open Verif Verif.Grammar

/-- symbolic execution of the parser monad -/
macro "wp_run" : tactic => `(tactic| repeat' first
  | apply wp_bind
  | apply wp_pure
  | apply wp_throwAt
  | apply wp_gets
  | (refine wp_modify (by rfl) ?_; try dsimp only)
  | (apply wp_skip; try dsimp only)
  | (apply wp_setState; try dsimp only)
  | (apply wp_pushState; try dsimp only)
  | refine wp_popState ?_ ?_
  | refine wp_fetchToken (by first | rfl | assumption) ?_
  | refine wp_peekToken ?_ ?_
  | (apply wp_registerAnchor; try dsimp only)
  | refine wp_resolveTagM ?_ ?_
  | refine wp_ite ?_ ?_
  | (intro; try dsimp only)
  | split)

theorem good_of {s : PSt} (h : GoodStack s.states) (hs : docLevel s.state = false) : Good s := by simp [Good, hs, h]

theorem good_pop {a b c d e st sts st' g h i j k l m} (hg : GoodStack st) (he : st = st' :: sts) :
    Good ⟨a, b, c, d, e, sts, st', g, h, i, j, k, l, m⟩ := by
  subst he
  exact hg.pop (s := ⟨a, b, c, d, e, [], st', g, h, i, j, k, l, m⟩)

macro "good_tac" : tactic => `(tactic| first
  | exact GoodStack.ne_nil (by assumption) (by assumption)
  | (refine good_of ?_ ?_ <;> first | assumption | rfl | (dsimp only; assumption))
  | exact good_pop (by assumption) (by assumption)
  | skip)

theorem parseNodeContent_safe {b i id tag s} (h : GoodStack s.states) (hs : docLevel s.state = false) :
    wp (parseNodeContent b i id tag) (fun _ s' => Good s') Good s := by
  unfold parseNodeContent
  wp_run
  all_goals good_tac

attribute [local irreducible] parseNodeContent

theorem parseNode_safe {b i s} (h : GoodStack s.states) (hs : docLevel s.state = false) :
    wp (parseNode b i) (fun _ s' => Good s') Good s := by
  unfold parseNode
  wp_run
  all_goals first
    | (refine parseNodeContent_safe ?_ ?_ <;> assumption)
    | good_tac

attribute [local irreducible] parseNode

/-- `wp_run`, entering `parse_node` by its specification -/
macro "safe_tac" : tactic => `(tactic| (wp_run; all_goals first
    | (refine parseNode_safe ?_ ?_ <;> first | assumption | rfl | exact GoodStack.push rfl (by assumption))
    | good_tac))

theorem documentContent_safe {s} (h : GoodStack s.states) (hs : docLevel s.state = false) :
    wp documentContent (fun _ s' => Good s') Good s := by
  unfold documentContent
  safe_tac

theorem blockMappingKey_safe {f s} (h : GoodStack s.states) (hs : docLevel s.state = false) :
    wp (blockMappingKey f) (fun _ s' => Good s') Good s := by
  unfold blockMappingKey
  safe_tac

theorem blockMappingValue_safe {f s} (h : GoodStack s.states) (hs : docLevel s.state = false) :
    wp (blockMappingValue f) (fun _ s' => Good s') Good s := by
  unfold blockMappingValue
  safe_tac

theorem flowMappingKey_safe {f s} (h : GoodStack s.states) (hs : docLevel s.state = false) :
    wp (flowMappingKey f) (fun _ s' => Good s') Good s := by
  unfold flowMappingKey
  safe_tac

theorem flowMappingValue_safe {f s} (h : GoodStack s.states) (hs : docLevel s.state = false) :
    wp (flowMappingValue f) (fun _ s' => Good s') Good s := by
  unfold flowMappingValue
  safe_tac

theorem flowSequenceEntry_safe {f s} (h : GoodStack s.states) (hs : docLevel s.state = false) :
    wp (flowSequenceEntry f) (fun _ s' => Good s') Good s := by
  unfold flowSequenceEntry flowSequenceEntryRest
  safe_tac

theorem indentlessSequenceEntry_safe {s} (h : GoodStack s.states) (hs : docLevel s.state = false) :
    wp indentlessSequenceEntry (fun _ s' => Good s') Good s := by
  unfold indentlessSequenceEntry
  safe_tac

theorem blockSequenceEntry_safe {f s} (h : GoodStack s.states) (hs : docLevel s.state = false) :
    wp (blockSequenceEntry f) (fun _ s' => Good s') Good s := by
  unfold blockSequenceEntry
  safe_tac

theorem flowSequenceEntryMappingKey_safe {s} (h : GoodStack s.states) (hs : docLevel s.state = false) :
    wp flowSequenceEntryMappingKey (fun _ s' => Good s') Good s := by
  unfold flowSequenceEntryMappingKey
  safe_tac

theorem flowSequenceEntryMappingValue_safe {s} (h : GoodStack s.states) (hs : docLevel s.state = false) :
    wp flowSequenceEntryMappingValue (fun _ s' => Good s') Good s := by
  unfold flowSequenceEntryMappingValue
  safe_tac

theorem flowSequenceEntryMappingEnd_safe {m s} (h : GoodStack s.states) (hs : docLevel s.state = false) :
    wp (flowSequenceEntryMappingEnd m) (fun _ s' => Good s') Good s := by
  unfold flowSequenceEntryMappingEnd
  safe_tac

/-! ## Document level -/

/-- a `%YAML` or `%TAG` directive -/
def isDirective : TokenType → Bool
  | .versionDirective _ _ => true
  | .tagDirective _ _ => true
  | _ => false

/-- number of `%YAML` directives -/
def versions (ds : List Token) : Nat := ds.countP fun d => match d.tt with | .versionDirective _ _ => true | _ => false

/-- the tag table the code has after processing directives `ds` one after the other -/
def dirTags (tags : List (List Byte × List Byte)) : List Token → List (List Byte × List Byte)
  | [] => tags
  | d :: ds =>
    dirTags (match d.tt with
      | .tagDirective h p => [(h, p)]
      | _ => []) ds

/-- `s'` is `s` with only tokens consumed and the tag table changed -/
def Moved (s s' : PSt) : Prop :=
  ∃ toks token a b tags, s' = { s with toks := toks, token := token, started := a, ended := b, tags := tags }

theorem Moved.refl (s) : Moved s s := ⟨_, _, _, _, _, rfl⟩

theorem Moved.trans {s s' s''} (h : Moved s s') (h' : Moved s' s'') : Moved s s'' := by
  obtain ⟨_, _, _, _, _, rfl⟩ := h
  obtain ⟨_, _, _, _, _, rfl⟩ := h'
  exact ⟨_, _, _, _, _, rfl⟩

theorem processDirectivesLoop_wp {fuel v s} (hf : (pend s).length < fuel) :
    wp (processDirectivesLoop fuel v)
      (fun _ s' => Moved s s' ∧ ∃ dirs t, pend s = dirs ++ pend s' ∧ s'.token = some t ∧ isDirective t.tt = false ∧
        (∀ d ∈ dirs, isDirective d.tt = true) ∧ versions dirs + v.toNat ≤ max 1 v.toNat ∧
        s'.tags = dirTags s.tags dirs)
      (fun s' => Moved s s') s := by
  induction fuel generalizing v s with
  | zero => omega
  | succ fuel ih =>
    unfold processDirectivesLoop
    apply wp_bind
    refine wp_peekToken ?_ (.refl s)
    intro t r a b hp
    split
    · rename_i ma mi htt
      refine wp_ite ?_ ?_
      · intro _; exact wp_throwAt ⟨_, _, _, _, _, rfl⟩
      · intro hv
        simp only [Bool.not_eq_true] at hv
        subst hv
        apply wp_bind; refine wp_modify rfl ?_; apply wp_bind; apply wp_skip
        refine wp_mono (ih (by rw [hp] at hf; simp at hf ⊢; omega)) ?_ ?_
        · rintro _ s' ⟨hm, dirs, t', h1, h2, h3, h4, h5, h6⟩
          refine ⟨Moved.trans ⟨_, _, _, _, _, rfl⟩ hm, t :: dirs, t', ?_, h2, h3, ?_, ?_, ?_⟩
          · rw [hp]; simp at h1 ⊢; exact h1
          · intro d hd
            rcases List.mem_cons.1 hd with rfl | hd
            · simp [htt, isDirective]
            · exact h4 d hd
          · simp [versions, htt] at h5 ⊢; omega
          · simp [dirTags, htt, h6]
        · intro s' hm
          exact Moved.trans ⟨_, _, _, _, _, rfl⟩ hm
    · rename_i hd pf htt
      apply wp_bind; refine wp_modify rfl ?_; apply wp_bind; apply wp_skip
      refine wp_mono (ih (by rw [hp] at hf; simp at hf ⊢; omega)) ?_ ?_
      · rintro _ s' ⟨hm, dirs, t', h1, h2, h3, h4, h5, h6⟩
        refine ⟨Moved.trans ⟨_, _, _, _, _, rfl⟩ hm, t :: dirs, t', ?_, h2, h3, ?_, ?_, ?_⟩
        · rw [hp]; simp at h1 ⊢; exact h1
        · intro d hd
          rcases List.mem_cons.1 hd with rfl | hd
          · simp [htt, isDirective]
          · exact h4 d hd
        · simp [versions, htt] at h5 ⊢; omega
        · simp [dirTags, htt, h6, mapInsert]
      · intro s' hm
        exact Moved.trans ⟨_, _, _, _, _, rfl⟩ hm
    · rename_i hn1 hn2
      refine wp_pure ⟨⟨_, _, _, _, _, rfl⟩, [], t, ?_, rfl, ?_, by simp, by cases v <;> simp [versions], rfl⟩
      · simp [hp]
      · unfold isDirective; split
        · exact absurd ‹_› (hn1 _ _)
        · exact absurd ‹_› (hn2 _ _)
        · rfl

theorem pend_length (s : PSt) : (pend s).length ≤ s.toks.length + 1 := by
  unfold pend; cases s.token <;> simp

theorem processDirectives_wp {s} :
    wp processDirectives
      (fun _ s' => Moved s s' ∧ ∃ dirs t, pend s = dirs ++ pend s' ∧ s'.token = some t ∧ isDirective t.tt = false ∧
        (∀ d ∈ dirs, isDirective d.tt = true) ∧ versions dirs ≤ 1 ∧ s'.tags = dirTags s.tags dirs)
      (fun s' => Moved s s') s := by
  have := processDirectivesLoop_wp (fuel := s.toks.length + 2) (v := false) (s := s) (by have := pend_length s; omega)
  simpa [wp, processDirectives] using this

theorem skipDocumentEnds_wp {fuel s} (hf : (pend s).length < fuel) :
    wp (skipDocumentEnds fuel)
      (fun _ s' => (Moved s s' ∧ s'.tags = s.tags) ∧ ∃ ends t, pend s = ends ++ pend s' ∧ s'.token = some t ∧
        t.tt ≠ .documentEnd ∧ (∀ d ∈ ends, d.tt = .documentEnd))
      (fun s' => Moved s s') s := by
  induction fuel generalizing s with
  | zero => omega
  | succ fuel ih =>
    unfold skipDocumentEnds
    apply wp_bind
    refine wp_peekToken ?_ (.refl s)
    intro t r a b hp
    split
    · rename_i htt
      apply wp_bind; apply wp_skip
      refine wp_mono (ih (by rw [hp] at hf; simp at hf ⊢; omega)) ?_ ?_
      · rintro _ s' ⟨⟨hm, htg⟩, ends, t', h1, h2, h3, h4⟩
        refine ⟨⟨Moved.trans ⟨_, _, _, _, _, rfl⟩ hm, htg⟩, t :: ends, t', ?_, h2, h3, ?_⟩
        · rw [hp]; simp at h1 ⊢; exact h1
        · intro d hd
          rcases List.mem_cons.1 hd with rfl | hd
          · exact htt
          · exact h4 d hd
      · intro s' hm
        exact Moved.trans ⟨_, _, _, _, _, rfl⟩ hm
    · rename_i hn
      exact wp_pure ⟨⟨⟨_, _, _, _, _, rfl⟩, rfl⟩, [], t, by simp [hp], rfl, hn, by simp⟩

theorem good_moved {s s'} (h : Moved s s') (hg : Good s) : Good s' := by
  obtain ⟨_, _, _, _, _, rfl⟩ := h
  exact hg

attribute [local irreducible] processDirectives skipDocumentEnds

theorem good_doc {s : PSt} (hd : docLevel s.state = true) (h : s.states = []) : Good s := by simp [Good, hd, h]

theorem explicitDocumentStart_safe {s} (hd : docLevel s.state = true) (h : s.states = []) :
    wp explicitDocumentStart (fun _ s' => Good s') Good s := by
  unfold explicitDocumentStart
  apply wp_bind
  refine wp_mono processDirectives_wp ?_ (fun s' hm => good_moved hm (good_doc hd h))
  rintro _ s' ⟨⟨_, _, _, _, _, rfl⟩, -⟩
  wp_run
  all_goals first
    | exact good_doc hd h
    | (simp [Good, docLevel, GoodStack, h]; done)

theorem documentStart_safe {i s} (hd : docLevel s.state = true) (h : s.states = []) :
    wp (documentStart i) (fun _ s' => Good s') Good s := by
  unfold documentStart
  apply wp_bind; apply wp_gets; apply wp_bind
  refine wp_mono (skipDocumentEnds_wp (by have := pend_length s; omega))
    ?_ (fun s' hm => good_moved hm (good_doc hd h))
  rintro _ s' ⟨⟨⟨_, _, _, _, _, rfl⟩, -⟩, -⟩
  apply wp_bind
  refine wp_peekToken ?_ (good_doc hd h)
  intro t r a b hp
  split
  · wp_run; simp [Good, docLevel, h]
  · exact explicitDocumentStart_safe hd h
  · exact explicitDocumentStart_safe hd h
  · exact explicitDocumentStart_safe hd h
  · refine wp_ite ?_ ?_
    · intro _
      apply wp_bind
      refine wp_mono processDirectives_wp ?_ (fun s' hm => good_moved hm (good_doc hd h))
      rintro _ s' ⟨⟨_, _, _, _, _, rfl⟩, -⟩
      wp_run
      simp [Good, docLevel, GoodStack, h]
    · intro _; exact explicitDocumentStart_safe hd h

theorem documentEnd_safe {s} (hd : docLevel s.state = true) (h : s.states = []) :
    wp documentEnd (fun _ s' => Good s') Good s := by
  unfold documentEnd
  wp_run
  all_goals first
    | exact good_doc hd h
    | (refine good_doc ?_ ?_ <;> first | rfl | assumption)

theorem streamStart_safe {s} (hd : docLevel s.state = true) (h : s.states = []) :
    wp streamStart (fun _ s' => Good s') Good s := by
  unfold streamStart
  wp_run
  all_goals exact good_doc (by first | rfl | assumption) h

theorem stateMachine_safe {s} (hne : s.state ≠ .endState) (hg : Good s) :
    wp stateMachine (fun _ s' => Good s') Good s := by
  have key : wp (dispatch s.state) (fun _ s' => Good s') Good s → wp stateMachine (fun _ s' => Good s') Good s := by
    intro h; unfold wp at *; exact h
  have hd : docLevel s.state = true → s.states = [] := by intro h; simpa [Good, h] using hg
  have hn : docLevel s.state = false → GoodStack s.states := by intro h; simpa [Good, h] using hg
  apply key
  cases hs : s.state <;> simp only [dispatch] <;>
    have hs' := congrArg docLevel hs <;> simp only [docLevel] at hs' <;>
    first
    | exact streamStart_safe hs' (hd hs')
    | exact documentStart_safe hs' (hd hs')
    | exact documentEnd_safe hs' (hd hs')
    | exact documentContent_safe (hn hs') hs'
    | exact parseNode_safe (hn hs') hs'
    | exact blockMappingKey_safe (hn hs') hs'
    | exact blockMappingValue_safe (hn hs') hs'
    | exact flowMappingKey_safe (hn hs') hs'
    | exact flowMappingValue_safe (hn hs') hs'
    | exact flowSequenceEntry_safe (hn hs') hs'
    | exact indentlessSequenceEntry_safe (hn hs') hs'
    | exact blockSequenceEntry_safe (hn hs') hs'
    | exact flowSequenceEntryMappingKey_safe (hn hs') hs'
    | exact flowSequenceEntryMappingValue_safe (hn hs') hs'
    | exact flowSequenceEntryMappingEnd_safe (hn hs') hs'
    | exact absurd hs hne

theorem parse_safe {s} (hg : Good s) : wp parse (fun _ s' => Good s') Good s := by
  by_cases h : s.state = .endState
  · unfold wp parse; simp only [h, beq_self_eq_true, if_true]; exact ⟨trivial, hg⟩
  · have := stateMachine_safe h hg
    unfold wp parse at *
    simpa [h] using this

end Verif.Parser
