import Verif.Lemmas.ParserStep
/-!
# Document-level parser steps, and the invariant of the whole parser
-/
namespace Verif.Parser
open Verif Verif.Grammar

theorem texts_ends {l : List Token} (h : ∀ d ∈ l, d.tt = .documentEnd) :
    scalarTexts l = [] ∧ anchorNames l = [] ∧ aliasNames l = [] ∧ tagToks l = [] := by
  induction l with
  | nil => simp [scalarTexts, anchorNames, aliasNames, tagToks]
  | cons d ds ih =>
    have h1 := h d (by simp)
    simp [scalarTexts, anchorNames, aliasNames, tagToks, h1, ih (fun x hx => h x (by simp [hx]))]

theorem texts_dirs {l : List Token} (h : ∀ d ∈ l, isDirective d.tt = true) :
    scalarTexts l = [] ∧ anchorNames l = [] ∧ aliasNames l = [] ∧ tagToks l = [] := by
  induction l with
  | nil => simp [scalarTexts, anchorNames, aliasNames, tagToks]
  | cons d ds ih =>
    have h1 := h d (by simp)
    have h2 := ih (fun x hx => h x (by simp [hx]))
    cases ht : d.tt <;> simp [ht, isDirective] at h1 <;> simp [scalarTexts, anchorNames, aliasNames, tagToks, ht, h2]

/-- what a document start does to the tag handles: leading `...` are skipped, the directives are processed in order, an
explicit `---` is consumed -/
def DocStartOut (s : PSt) (ev : Event) (s' : PSt) : Prop :=
  ∃ ends dirs fin, pend s = ends ++ (dirs ++ (fin ++ pend s')) ∧ (∀ d ∈ ends, d.tt = .documentEnd) ∧
    (∀ d ∈ dirs, isDirective d.tt = true) ∧ versions dirs ≤ 1 ∧ s'.tags = dirTags s.tags dirs ∧
    ((ev = .documentStart true ∧ fin.map (·.tt) = [.documentStart]) ∨ (ev = .documentStart false ∧ fin = [] ∧ dirs = []) ∨
     (ev = .streamEnd ∧ dirs = [] ∧ fin.map (·.tt) = [.streamEnd]))

theorem stepOut_doc {s s' : PSt} {ev} (h : DocStartOut s ev s') (hd : docLevel s.state = true)
    (hk : Kept s s') (hh : HeadOK s') (hc : NoCont s'.states) (hg : step (frames s) ev = some (frames s'))
    (hm : ∀ n, (ev = .documentStart true ∨ ev = .streamEnd → n ≥ 1) →
      wcur s'.state (pend s').head? + wstack s'.states < 10 * n + wcur s.state (pend s).head? + wstack s.states)
    (han : s'.anchors = s.anchors) (hac : s'.anchorIdCount = s.anchorIdCount) : StepOut s ev s' := by
  obtain ⟨ends, dirs, fin, hp, he, hdir, hv, ht, hev⟩ := h
  have hfin : scalarTexts fin = [] ∧ anchorNames fin = [] ∧ aliasNames fin = [] ∧ tagToks fin = [] := by
    rcases hev with ⟨_, h⟩ | ⟨_, h, _⟩ | ⟨_, _, h⟩
    · simp only [List.map_eq_cons_iff] at h
      obtain ⟨t, l, rfl, ht, hl⟩ := h
      simp at hl; subst hl; simp [scalarTexts, anchorNames, aliasNames, tagToks, ht]
    · subst h; simp [scalarTexts, anchorNames, aliasNames, tagToks]
    · simp only [List.map_eq_cons_iff] at h
      obtain ⟨t, l, rfl, ht, hl⟩ := h
      simp at hl; subst hl; simp [scalarTexts, anchorNames, aliasNames, tagToks, ht]
  have h1 := texts_ends he
  have h2 := texts_dirs hdir
  refine stepOut_plain (ends ++ (dirs ++ fin)) (by rw [hp]; simp) ?_ hk hh hc hg ?_ (by simp [hd]) han hac ?_ ?_ ?_ ?_
  · rcases hev with ⟨rfl, _⟩ | ⟨rfl, _⟩ | ⟨rfl, _⟩ <;> simp [TextOK, evAnchor, evTag]
  · refine hm _ ?_
    intro hor
    rcases hev with ⟨_, h⟩ | ⟨h, _⟩ | ⟨_, _, h⟩
    · have := congrArg List.length h; simp at this; simp; omega
    · subst h; simp at hor
    · have := congrArg List.length h; simp at this; simp; omega
  · simp [scalarTexts_append, h1, h2, hfin]
  · simp [anchorNames_append, h1, h2, hfin]
  · simp [aliasNames_append, h1, h2, hfin]
  · simp [tagToks_append, h1, h2, hfin]

attribute [local irreducible] processDirectives skipDocumentEnds parseNode

theorem dirs_nil {dirs : List Token} {t r rest} (h : t :: r = dirs ++ rest) (hd : ∀ d ∈ dirs, isDirective d.tt = true)
    (ht : isDirective t.tt = false) : dirs = [] := by
  cases dirs with
  | nil => rfl
  | cons d ds =>
    simp at h
    have := hd d (by simp)
    rw [← h.1, ht] at this
    simp at this

theorem explicitDocumentStart_out {s} :
    wp explicitDocumentStart
      (fun r s' => r.1 = .documentStart true ∧ s'.state = .documentContent ∧ s'.states = .documentEnd :: s.states ∧
        Kept s s' ∧ s'.anchors = s.anchors ∧ s'.anchorIdCount = s.anchorIdCount ∧ DocStartOut s r.1 s')
      (fun _ => True) s := by
  unfold explicitDocumentStart
  apply wp_bind
  refine wp_mono processDirectives_wp ?_ (fun _ _ => trivial)
  rintro _ s' ⟨⟨_, _, _, _, _, rfl⟩, dirs, t, hp, ht, hnd, hdir, hv, htags⟩
  dsimp only at *
  subst ht
  wp_run
  all_goals first | trivial | skip
  rename_i t' _ _ _ hp' _ htt
  refine ⟨rfl, rfl, rfl, ⟨rfl, rfl, rfl, rfl, rfl⟩, rfl, rfl, [], dirs, [t'], ?_, by simp, hdir, hv, htags,
    .inl ⟨rfl, by simp [htt]⟩⟩
  rw [hp, hp']; rfl

/-- what `document_start` does -/
def DocOut (s : PSt) (ev : Event) (s' : PSt) : Prop :=
  Kept s s' ∧ s'.anchors = s.anchors ∧ s'.anchorIdCount = s.anchorIdCount ∧ DocStartOut s ev s' ∧
  ((ev = .documentStart true ∧ s'.state = .documentContent ∧ s'.states = .documentEnd :: s.states) ∨
   (ev = .documentStart false ∧ s'.state = .blockNode ∧ s'.states = .documentEnd :: s.states) ∨
   (ev = .streamEnd ∧ s'.state = .endState ∧ s'.states = s.states))

theorem documentStart_doc {i s} :
    wp (documentStart i) (fun r s' => DocOut s r.1 s' ∧ (i = false → r.1 ≠ .documentStart false)) (fun _ => True) s := by
  unfold documentStart
  apply wp_bind; apply wp_gets; apply wp_bind
  refine wp_mono (skipDocumentEnds_wp (by have := pend_length s; omega)) ?_ (fun _ _ => trivial)
  rintro _ s' ⟨⟨⟨_, _, _, _, _, rfl⟩, htags⟩, ends, t0, hp, ht0, hne, hends⟩
  dsimp only at *
  subst htags
  apply wp_bind
  refine wp_peekToken ?_ trivial
  intro t r a b hp'
  have hx : ∀ s1 : PSt, Kept s s1 → s1.states = s.states → s1.anchors = s.anchors → s1.anchorIdCount = s.anchorIdCount →
      s1.tags = s.tags → pend s1 = t :: r →
      wp explicitDocumentStart (fun r s' => DocOut s r.1 s' ∧ (i = false → r.1 ≠ .documentStart false)) (fun _ => True) s1 := by
    intro s1 hk hst han hac htg hpd
    refine wp_mono explicitDocumentStart_out ?_ (fun _ _ => trivial)
    rintro ⟨ev, sp⟩ s2 ⟨rfl, h1, h2, h3, h4, h5, ends', dirs, fin, h6, h7, h8, h9, h10, h11⟩
    refine ⟨⟨?_, by rw [h4, han], by rw [h5, hac], ⟨ends ++ ends', dirs, fin, ?_, ?_, h8, h9, by rw [h10, htg], h11⟩,
      .inl ⟨rfl, h1, by rw [h2, hst]⟩⟩, by simp⟩
    · simp only [Kept] at *; simp [*]
    · rw [hp, hp', ← hpd, h6]; simp
    · intro d hd
      rcases List.mem_append.1 hd with hd | hd
      · exact hends d hd
      · exact h7 d hd
  split
  · rename_i htt
    wp_run
    refine ⟨⟨⟨rfl, rfl, rfl, rfl, rfl⟩, rfl, rfl, ⟨ends, [], [t], by rw [hp, hp']; rfl, hends, by simp, by simp [versions], rfl,
      .inr (.inr ⟨rfl, rfl, by simp [htt]⟩)⟩, .inr (.inr ⟨rfl, rfl, rfl⟩)⟩, by simp⟩
  · exact hx _ ⟨rfl, rfl, rfl, rfl, rfl⟩ rfl rfl rfl rfl rfl
  · exact hx _ ⟨rfl, rfl, rfl, rfl, rfl⟩ rfl rfl rfl rfl rfl
  · exact hx _ ⟨rfl, rfl, rfl, rfl, rfl⟩ rfl rfl rfl rfl rfl
  · rename_i n1 n2 n3 n4
    refine wp_ite ?_ ?_
    · intro hi
      apply wp_bind
      refine wp_mono processDirectives_wp ?_ (fun _ _ => trivial)
      rintro _ s' ⟨⟨_, _, _, _, _, rfl⟩, dirs, t1, hpd, ht1, hnd, hdir, hv, htags⟩
      dsimp only at *
      have hnil : dirs = [] := by
        refine dirs_nil hpd hdir ?_
        unfold isDirective; split
        · exact absurd ‹_› (n2 _ _)
        · exact absurd ‹_› (n3 _ _)
        · rfl
      subst hnil
      wp_run
      refine ⟨⟨⟨rfl, rfl, rfl, rfl, rfl⟩, rfl, rfl, ⟨ends, [], [], by rw [hp, hp']; exact congrArg (ends ++ ·) hpd, hends, by simp, by simp [versions],
        htags, .inr (.inl ⟨rfl, rfl, rfl⟩)⟩, .inr (.inl ⟨rfl, rfl, rfl⟩)⟩, by simp [hi]⟩
    · intro _; exact hx _ ⟨rfl, rfl, rfl, rfl, rfl⟩ rfl rfl rfl rfl rfl

theorem documentStart_out {i s} (hst : s.states = []) (hs : s.state = if i then .implicitDocumentStart else .documentStart) :
    wp (documentStart i) (fun r s' => StepOut s r.1 s') (fun _ => True) s := by
  refine wp_mono documentStart_doc ?_ (fun _ _ => trivial)
  rintro ⟨ev, sp⟩ s' ⟨⟨hk, han, hac, hdoc, hcase⟩, himp⟩
  have hd : docLevel s.state = true := by rw [hs]; cases i <;> rfl
  have hf : fr s.state = [.docStart] := by rw [hs]; cases i <;> rfl
  have hw : wcur s.state (pend s).head? = if i then 6 else 1 := by rw [hs]; cases i <;> rfl
  refine stepOut_doc hdoc hd hk ?_ ?_ ?_ ?_ han hac
  · rcases hcase with ⟨_, h, _⟩ | ⟨_, h, _⟩ | ⟨_, h, _⟩ <;> simp [HeadOK, h]
  · rcases hcase with ⟨_, _, h⟩ | ⟨_, _, h⟩ | ⟨_, _, h⟩ <;> rw [h, hst] <;> simp [NoCont]
  · rcases hcase with ⟨rfl, h1, h2⟩ | ⟨rfl, h1, h2⟩ | ⟨rfl, h1, h2⟩ <;> simp only [frames, hf, h1, h2, hst] <;> rfl
  · intro n hn
    rw [hw]
    rcases hcase with ⟨rfl, h1, h2⟩ | ⟨rfl, h1, h2⟩ | ⟨rfl, h1, h2⟩ <;> simp [h1, h2, hst, wcur, wst, wstack] at *
    · split <;> omega
    · split
      · omega
      · simp_all
    · split <;> omega

theorem streamStart_out {s} (hst : s.states = []) (hs : s.state = .streamStart) :
    wp streamStart (fun r s' => StepOut s r.1 s') (fun _ => True) s := by
  have hc : NoCont s.states := by simp [hst, NoCont]
  have hne : True := trivial
  unfold streamStart
  wp_run
  all_goals first | trivial | skip
  plain_with ((pend s).take 1)

theorem documentEnd_out {s} (hst : s.states = []) (hs : s.state = .documentEnd) :
    wp documentEnd (fun r s' => StepOut s r.1 s' ∧ s'.tags = if s.keepTags then s.tags else []) (fun _ => True) s := by
  have hc : NoCont s.states := by simp [hst, NoCont]
  have hd : docLevel s.state = true := by rw [hs]; rfl
  unfold documentEnd
  wp_run
  all_goals first | trivial | contradiction | (simp_all; done) | skip
  all_goals (try simp only [pend_mk, List.cons.injEq] at *)
  all_goals subst_vars
  all_goals refine ⟨?_, by simp [*]⟩
  all_goals first
    | (refine stepOut_plain ((pend s).take 1) ?_ (by simp [TextOK, evAnchor, evTag]) ⟨rfl, rfl, rfl, rfl, rfl⟩
        (by simp [HeadOK]) hc ?_ ?_ (by simp [hd]) rfl rfl ?_ ?_ ?_ ?_ <;>
        (simp_all [frames, fr, frStack, step, wcur, wst, wstack, scalarTexts, anchorNames, aliasNames, tagToks]; done))
    | (refine stepOut_plain [] ?_ (by simp [TextOK, evAnchor, evTag]) ⟨rfl, rfl, rfl, rfl, rfl⟩
        (by simp [HeadOK]) hc ?_ ?_ (by simp [hd]) rfl rfl ?_ ?_ ?_ ?_ <;>
        (simp_all [frames, fr, frStack, step, wcur, wst, wstack, scalarTexts, anchorNames, aliasNames, tagToks]; done))

theorem flowSequenceEntryMappingEnd_out {m s} (hc : NoCont s.states) (hs : s.state = .flowSequenceEntryMappingEnd m) :
    wp (flowSequenceEntryMappingEnd m) (fun r s' => StepOut s r.1 s') (fun _ => True) s := by
  unfold flowSequenceEntryMappingEnd
  wp_run
  refine stepOut_plain [] rfl (by simp [TextOK, evAnchor, evTag]) ⟨rfl, rfl, rfl, rfl, rfl⟩
      (by simp [HeadOK]) hc ?_ ?_ (fun _ => rfl) rfl rfl ?_ ?_ ?_ ?_ <;> simp_all [frames, fr, step, wcur, wst, scalarTexts, anchorNames, aliasNames, tagToks]

theorem blockNode_out {s} (hc : NoCont s.states) (hne : s.states ≠ []) (hs : s.state = .blockNode) :
    wp (parseNode true false) (fun r s' => StepOut s r.1 s') (fun _ => True) s := by
  refine wp_mono (parseNode_out hc hne) (fun r s' h => ?_) (fun _ _ => trivial)
  refine stepOut_of_node [] h rfl (by rw [hs]; rfl) (by rfl) (by rfl) hc ?_ ⟨rfl, rfl, rfl, rfl, rfl⟩ rfl rfl rfl rfl rfl rfl rfl
  simp [hs, wcur, wst]; omega

/-- the parser's invariant as long as there was no error -/
structure Inv (s : PSt) : Prop where
  good : Good s
  head : HeadOK s
  nocont : NoCont s.states

theorem wp_and {α} {m : PM α} {Q Q' : α → PSt → Prop} {E E' s} (h : wp m Q E s) (h' : wp m Q' E' s) :
    wp m (fun a t => Q a t ∧ Q' a t) (fun t => E t ∧ E' t) s := by
  unfold wp at *
  refine ⟨h.1, ?_⟩
  replace h := h.2
  replace h' := h'.2
  cases hm : m s with
  | mk r s' => cases r <;> simp only [hm] at h h' ⊢ <;> first | exact ⟨h, h'⟩ | exact h

theorem stateMachine_out {s} (hne : s.state ≠ .endState) (hi : Inv s) :
    wp stateMachine (fun r s' => StepOut s r.1 s' ∧ Inv s') (fun _ => True) s := by
  have key : wp (dispatch s.state) (fun r s' => StepOut s r.1 s') (fun _ => True) s →
      wp stateMachine (fun r s' => StepOut s r.1 s' ∧ Inv s') (fun _ => True) s := by
    intro h
    have h1 : wp stateMachine (fun r s' => StepOut s r.1 s') (fun _ => True) s := by unfold wp at *; exact h
    refine wp_mono (wp_and h1 (stateMachine_safe hne hi.good)) ?_ (fun _ _ => trivial)
    rintro r s' ⟨h1, h2⟩
    exact ⟨h1, h2, h1.head, h1.nocont⟩
  have hg := hi.good
  have hc := hi.nocont
  have hh := hi.head
  have hd : docLevel s.state = true → s.states = [] := by intro h; simpa [Good, h] using hg
  have hn : docLevel s.state = false → s.states ≠ [] := by
    intro h; exact GoodStack.ne_nil (by simpa [Good, h] using hg)
  apply key
  cases hs : s.state <;> simp only [dispatch] <;>
    have hs' := congrArg docLevel hs <;> simp only [docLevel] at hs' <;> simp only [HeadOK, hs] at hh <;>
    first
    | exact absurd hs hne
    | exact hh.elim
    | exact streamStart_out (hd hs') hs
    | exact documentStart_out (i := true) (hd hs') hs
    | exact documentStart_out (i := false) (hd hs') hs
    | exact wp_mono (documentEnd_out (hd hs') hs) (fun _ _ h => h.1) (fun _ h => h)
    | exact documentContent_out hc (hn hs') hs
    | exact blockNode_out hc (hn hs') hs
    | exact flowSequenceEntryMappingEnd_out hc hs
    | exact blockMappingKey_out hc (hn hs') hs
    | exact blockMappingFirstKey_out hc (hn hs') hs hh
    | exact blockMappingValue_out hc (hn hs') hs
    | exact blockSequenceFirstEntry_out hc (hn hs') hs hh
    | exact blockSequenceEntry_out hc (hn hs') hs
    | exact flowSequenceFirstEntry_out hc (hn hs') hs hh
    | exact flowSequenceEntry_out hc (hn hs') hs
    | exact flowMappingFirstKey_out hc (hn hs') hs hh
    | exact flowMappingKey_out hc (hn hs') hs
    | exact flowMappingValue_out hc (hn hs') hs
    | exact flowMappingEmptyValue_out hc (hn hs') hs
    | exact indentlessSequenceEntry_out hc (hn hs') hs
    | exact flowSequenceEntryMappingKey_out hc (hn hs') hs
    | exact flowSequenceEntryMappingValue_out hc (hn hs') hs

end Verif.Parser
