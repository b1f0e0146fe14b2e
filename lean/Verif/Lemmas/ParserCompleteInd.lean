import Verif.Lemmas.ParserComplete
/-!
# The parser delivers the events of every token stream of the grammar: the induction
-/
namespace Verif.Parser
open Verif Verif.Spec

/-- successive steps of the state machine -/
inductive Evs : PSt → List Event → PSt → Prop
  | nil {s} : Evs s [] s
  | cons {s ev sp s1 evs s2} : stateMachine s = (.ok (ev, sp), s1) → Evs s1 evs s2 → Evs s (ev :: evs) s2

theorem Evs.append {s evs s1 evs' s2} (h : Evs s evs s1) (h' : Evs s1 evs' s2) : Evs s (evs ++ evs') s2 := by
  induction h with
  | nil => exact h'
  | cons h1 _ ih => exact .cons h1 (ih h')

/-- running `m` and then the state machine delivers `evs` and ends as `P` says -/
def Goes (m : PM (Event × Span)) (s : PSt) (evs : List Event) (P : PSt → Prop) : Prop :=
  runs m (fun r s1 => ∃ evs' s2, evs = r.1 :: evs' ∧ Evs s1 evs' s2 ∧ P s2) s

/-- the state machine delivers `evs` and ends as `P` says -/
def Ends (s : PSt) (evs : List Event) (P : PSt → Prop) : Prop := ∃ s2, Evs s evs s2 ∧ P s2

variable {loose : Bool} {lk : List Byte → Option (List Byte)} {s : PSt} {st st' : PState} {stack : List PState} {tt : TokenType}
  {X : List TokenType} {ns ns' ns1 ns2 : List (List Byte)} {t : Token} {P P' : PSt → Prop} {p : Place}
  {evs evs' ex : List Event} {f : TokenType} {sts : List PState} {toks c x : List TokenType}

theorem Ends.nil (h : P s) : Ends s [] P := ⟨s, .nil, h⟩

theorem Ends.bind (h : Ends s evs P) (k : ∀ s1, P s1 → Ends s1 evs' P') : Ends s (evs ++ evs') P' := by
  obtain ⟨s1, h1, h2⟩ := h
  obtain ⟨s2, h3, h4⟩ := k s1 h2
  exact ⟨s2, h1.append h3, h4⟩

unseal runs in
theorem Goes.bind {m} (h : Goes m s evs P) (k : ∀ s1, P s1 → Ends s1 evs' P') : Goes m s (evs ++ evs') P' := by
  obtain ⟨r, s1, h1, e, s2, h2, h3, h4⟩ := h
  obtain ⟨s3, h5, h6⟩ := k s2 h4
  exact ⟨r, s1, h1, e ++ evs', s3, by simp [h2], h3.append h5, h6⟩

unseal runs in
theorem Goes.ends (hst : s.state = st) (h : Goes (dispatch st) s evs P) : Ends s evs P := by
  obtain ⟨⟨ev, sp⟩, s1, h1, e, s2, h2, h3, h4⟩ := h
  subst h2
  exact ⟨s2, .cons (sp := sp) (by simp [stateMachine, hst, h1]) h3, h4⟩

/-- first event `ev`, the rest from the state after it -/
theorem goes_of {ev : Event} {sp : Span} {s1 : PSt} (h : Ends s1 evs P) :
    (fun (r : Event × Span) s1 => ∃ evs' s2, (ev :: evs) = r.1 :: evs' ∧ Evs s1 evs' s2 ∧ P s2) (ev, sp) s1 := by
  obtain ⟨s2, h1, h2⟩ := h
  exact ⟨evs, s2, rfl, h1, h2⟩

/-- The tokens are a node: parsing it delivers its events, pops one state and leaves what follows. -/
def NodeOk (lk : List Byte → Option (List Byte)) (p : Place) (ns : List (List Byte)) (toks : List TokenType) (evs : List Event)
    (ns' : List (List Byte)) : Prop :=
  (∃ h t, toks = h :: t ∧ follow p h = false) ∧
  ∀ s st st' sts f X, At lk s st (st' :: sts) (toks ++ f :: X) ns → follow p f = true →
    Goes (parseNode (isBlock p) (isPair p)) s evs (fun s2 => At lk s2 st' sts (f :: X) ns')

/-- what is proved of each nonterminal -/
def Ok (lk : List Byte → Option (List Byte)) : NT → List (List Byte) → List TokenType → List Event → List (List Byte) → Prop
  | .node p, ns, toks, evs, ns' => NodeOk lk p ns toks evs ns'
  | .node? p, ns, toks, evs, ns' => (toks = [] ∧ evs = [.emptyScalar] ∧ ns' = ns) ∨ NodeOk lk p ns toks evs ns'
  | .content p a t, ns, toks, evs, ns' =>
    (∃ h tl, toks = h :: tl ∧ follow p h = false ∧ contentHead h = true) ∧
    ∀ s st st' sts f X, At lk s st (st' :: sts) (toks ++ f :: X) ns → follow p f = true →
      Goes (parseNodeContent (isBlock p) (isPair p) a t) s evs (fun s2 => At lk s2 st' sts (f :: X) ns')
  | .items false, ns, toks, evs, ns' =>
    (toks = [] ∨ toks.head? = some .blockEntry) ∧
    ∀ (first : Bool) s st' sts X,
      At lk s (if first then .blockSequenceFirstEntry else .blockSequenceEntry) (st' :: sts)
        ((if first then [.blockSequenceStart] else []) ++ (toks ++ .blockEnd :: X)) ns →
      Ends s (evs ++ [.sequenceEnd]) (fun s2 => At lk s2 st' sts X ns')
  | .items true, ns, toks, evs, ns' =>
    (toks = [] ∨ toks.head? = some .blockEntry) ∧
    ∀ s st' sts f X, At lk s .indentlessSequenceEntry (st' :: sts) (toks ++ f :: X) ns →
      (f = .key ∨ f = .value ∨ f = .blockEnd) →
      Ends s (evs ++ [.sequenceEnd]) (fun s2 => At lk s2 st' sts (f :: X) ns')
  | .entries, ns, toks, evs, ns' =>
    (toks = [] ∨ toks.head? = some .key ∨ toks.head? = some .value) ∧
    ∀ (first : Bool) s st' sts X,
      At lk s (if first then .blockMappingFirstKey else .blockMappingKey) (st' :: sts)
        ((if first then [.blockMappingStart] else []) ++ (toks ++ .blockEnd :: X)) ns →
      Ends s (evs ++ [.mappingEnd]) (fun s2 => At lk s2 st' sts X ns')
  | .flowItems, ns, toks, evs, ns' =>
    (toks = [] → evs = [] ∧ ns' = ns) ∧
    ∀ (first : Bool) s st' sts X,
      At lk s (if first then .flowSequenceFirstEntry else .flowSequenceEntry) (st' :: sts)
        (fsPre first ++ (toks ++ .flowSequenceEnd :: X)) ns →
      Ends s (evs ++ [.sequenceEnd]) (fun s2 => At lk s2 st' sts X ns')
  | .flowEntries, ns, toks, evs, ns' =>
    (toks = [] → evs = [] ∧ ns' = ns) ∧
    ∀ (first : Bool) s st' sts X,
      At lk s (if first then .flowMappingFirstKey else .flowMappingKey) (st' :: sts)
        (fmPre (if first then .firstKey else .nonFirstKey) ++ (toks ++ .flowMappingEnd :: X)) ns →
      Ends s (evs ++ [.mappingEnd]) (fun s2 => At lk s2 st' sts X ns')

theorem props_at {q a tg} (hq : Properties lk ns q a tg ns1) :
    (∃ h t, q = h :: t ∧ ∀ p, follow p h = false) ∧ (a > 0 ∨ tg.isSome) := by
  cases hq <;> refine ⟨⟨_, _, rfl, ?_⟩, ?_⟩ <;> first | (intro p; cases p <;> rfl) | simp

theorem head_entries (h : c = [] ∨ c.head? = some .key ∨ c.head? = some .value) :
    ∃ f Y, c ++ .blockEnd :: X = f :: Y ∧ (f = .key ∨ f = .value ∨ f = .blockEnd) := by
  rcases h with h | h
  · exact ⟨_, _, by rw [h]; rfl, .inr (.inr rfl)⟩
  · cases c with
    | nil => simp at h
    | cons a b =>
      simp at h
      exact ⟨a, _, rfl, by rcases h with h | h <;> simp [h]⟩

/-- after a key: `VALUE` and an optional node, then the remaining entries -/
theorem bv_ends {v ev} (ihv : Ok lk (.node? .pair) ns v ev ns1) (ihc : Ok lk .entries ns1 c evs ns')
    (h : At lk s .blockMappingValue (st' :: sts) (.value :: (v ++ (c ++ .blockEnd :: X))) ns) :
    Ends s (ev ++ (evs ++ [.mappingEnd])) (fun s2 => At lk s2 st' sts X ns') := by
  refine Goes.ends h.state ?_
  show Goes (blockMappingValue true) _ _ _
  obtain ⟨f, Y, hY, hf⟩ := head_entries (X := X) ihc.1
  have hff : follow .pair f = true := by rcases hf with hf | hf | hf <;> subst hf <;> rfl
  rw [hY] at h
  rcases ihv with ⟨rfl, rfl, rfl⟩ | ⟨⟨hd, tl, rfl, hhd⟩, ihv⟩
  · refine bv_empty hf h fun sp s1 h1 => goes_of ?_
    rw [← hY] at h1
    exact ihc.2 false _ _ _ _ h1
  · refine bv_node hhd h fun s1 h1 => Goes.bind (ihv _ _ _ _ _ _ h1 hff) fun s2 h2 => ?_
    rw [← hY] at h2
    exact ihc.2 false _ _ _ _ h2

/-- `KEY` and an optional node, then whatever is done in `blockMappingValue` -/
theorem bm_ends {k ek} {first : Bool} (ihk : Ok lk (.node? .pair) ns k ek ns1) (hf : f = .key ∨ f = .value ∨ f = .blockEnd)
    (h : At lk s (if first then .blockMappingFirstKey else .blockMappingKey) stack
      ((if first then [.blockMappingStart] else []) ++ (.key :: (k ++ f :: X))) ns)
    (hv : ∀ s1, At lk s1 .blockMappingValue stack (f :: X) ns1 → Ends s1 evs P) : Ends s (ek ++ evs) P := by
  refine Goes.ends h.state ?_
  have : dispatch (if first then .blockMappingFirstKey else .blockMappingKey) = blockMappingKey first := by
    cases first <;> rfl
  rw [this]
  have hff : follow .pair f = true := by rcases hf with hf | hf | hf <;> subst hf <;> rfl
  rcases ihk with ⟨rfl, rfl, rfl⟩ | ⟨⟨hd, tl, rfl, hhd⟩, ihk⟩
  · exact bm_keyEmpty hf h fun sp s1 h1 => goes_of (hv _ h1)
  · exact bm_keyNode hhd h fun s1 h1 => Goes.bind (ihk _ _ _ _ _ _ h1 hff) fun s2 h2 => hv _ h2

/-- at the end of an item of a flow collection: a comma, or the closing bracket and nothing more -/
theorem sep_cases {sep : List TokenType} {e} (h : sep = [.flowEntry] ∨ sep = [] ∧ c = []) :
    ∃ f Y, sep ++ (c ++ e :: X) = f :: Y ∧ (f = .flowEntry ∨ f = e) := by
  rcases h with h | ⟨h, h'⟩
  · exact ⟨_, _, by rw [h]; rfl, .inl rfl⟩
  · exact ⟨_, _, by rw [h, h']; rfl, .inr rfl⟩

theorem fs_next {sep : List TokenType} (ihc : Ok lk .flowItems ns c evs ns')
    (hsep : sep = [.flowEntry] ∨ sep = [] ∧ c = [])
    (h : At lk s .flowSequenceEntry (st' :: sts) (sep ++ (c ++ .flowSequenceEnd :: X)) ns) :
    Ends s (evs ++ [.sequenceEnd]) (fun s2 => At lk s2 st' sts X ns') := by
  rcases hsep with rfl | ⟨rfl, rfl⟩
  · exact ihc.2 false _ _ _ _ h
  · obtain ⟨rfl, rfl⟩ := ihc.1 rfl
    refine Goes.ends h.state ?_
    exact fs_end' h fun sp s1 h1 => goes_of (.nil h1)

theorem fm_next {sep : List TokenType} (ihc : Ok lk .flowEntries ns c evs ns')
    (hsep : sep = [.flowEntry] ∨ sep = [] ∧ c = [])
    (h : At lk s .flowMappingKey (st' :: sts) (sep ++ (c ++ .flowMappingEnd :: X)) ns) :
    Ends s (evs ++ [.mappingEnd]) (fun s2 => At lk s2 st' sts X ns') := by
  rcases hsep with rfl | ⟨rfl, rfl⟩
  · exact ihc.2 false _ _ _ _ h
  · obtain ⟨rfl, rfl⟩ := ihc.1 rfl
    refine Goes.ends h.state ?_
    exact fm_end' h fun sp s1 h1 => goes_of (.nil h1)

/-- `KEY` and an optional node in a flow mapping -/
theorem fm_ends {k ek} {first : Bool} (ihk : Ok lk (.node? .flow) ns k ek ns1)
    (hf : f = .value ∨ f = .flowEntry ∨ f = .flowMappingEnd)
    (h : At lk s (if first then .flowMappingFirstKey else .flowMappingKey) stack
      (fmPre (if first then .firstKey else .nonFirstKey) ++ (.key :: (k ++ f :: X))) ns)
    (hv : ∀ s1, At lk s1 .flowMappingValue stack (f :: X) ns1 → Ends s1 evs P) : Ends s (ek ++ evs) P := by
  refine Goes.ends h.state ?_
  have : dispatch (if first then .flowMappingFirstKey else .flowMappingKey)
      = flowMappingKey (if first then .firstKey else .nonFirstKey) := by cases first <;> rfl
  rw [this]
  have hk : (if first then KeyFlow.firstKey else .nonFirstKey) ≠ .firstKeyContinue := by cases first <;> simp
  have hff : follow .flow f = true := by rcases hf with hf | hf | hf <;> subst hf <;> rfl
  rcases ihk with ⟨rfl, rfl, rfl⟩ | ⟨⟨hd, tl, rfl, hhd⟩, ihk⟩
  · exact fm_keyEmpty hk hf h fun sp s1 h1 => goes_of (hv _ h1)
  · exact fm_keyNode hk hhd h fun s1 h1 => Goes.bind (ihk _ _ _ _ _ _ h1 hff) fun s2 h2 => hv _ h2

/-- `VALUE` and an optional node in a flow mapping -/
theorem fv_ends {v ev} (ihv : Ok lk (.node? .flow) ns v ev ns1) (hf : f = .flowEntry ∨ f = .flowMappingEnd)
    (h : At lk s .flowMappingValue stack (.value :: (v ++ f :: X)) ns)
    (hc : ∀ s1, At lk s1 .flowMappingKey stack (f :: X) ns1 → Ends s1 evs P) : Ends s (ev ++ evs) P := by
  refine Goes.ends h.state ?_
  show Goes (flowMappingValue false) _ _ _
  have hff : follow .flow f = true := by rcases hf with hf | hf <;> subst hf <;> rfl
  rcases ihv with ⟨rfl, rfl, rfl⟩ | ⟨⟨hd, tl, rfl, hhd⟩, ihv⟩
  · exact fv_empty hf h fun sp s1 h1 => goes_of (hc _ h1)
  · exact fv_node hhd h fun s1 h1 => Goes.bind (ihv _ _ _ _ _ _ h1 hff) fun s2 h2 => hc _ h2

/-- the end of a single-pair mapping in a flow sequence -/
theorem fp_ends {m} (h : At lk s (.flowSequenceEntryMappingEnd m) stack toks ns)
    (hc : ∀ s1, At lk s1 .flowSequenceEntry stack toks ns → Ends s1 evs P) : Ends s (.mappingEnd :: evs) P := by
  refine Goes.ends h.state ?_
  exact fp_end h fun sp s1 h1 => goes_of (hc _ h1)

theorem derives_ok {nt} (h : DerivesL loose lk nt ns toks evs ns') : Ok lk nt ns toks evs ns' := by
  induction h with
  | alias hid =>
    refine ⟨⟨_, _, rfl, by cases ‹Place› <;> rfl⟩, fun s st st' sts f X h hf => ?_⟩
    exact node_alias hid h fun sp s1 h1 => goes_of (.nil h1)
  | bare _ ih =>
    obtain ⟨⟨h, tl, rfl, h1, h2⟩, ih⟩ := ih
    refine ⟨⟨_, _, rfl, h1⟩, fun s st st' sts f X h hf => ?_⟩
    exact node_bare h2 h fun s1 hs => ih _ _ _ _ _ _ hs hf
  | props hq _ ih =>
    obtain ⟨⟨h, tl, rfl, h1, h2⟩, ih⟩ := ih
    obtain ⟨⟨hq1, hq2, hq3, hq4⟩, hq5⟩ := props_at hq
    refine ⟨⟨hq1, _, by rw [hq3]; rfl, hq4 _⟩, fun s st st' sts f X h hf => ?_⟩
    rw [List.append_assoc] at h
    exact node_props hq (.inl h2) h fun s1 hs => ih _ _ _ _ _ _ hs hf
  | propsOnly hq =>
    obtain ⟨⟨hq1, hq2, hq3, hq4⟩, hq5⟩ := props_at hq
    refine ⟨⟨hq1, _, hq3, hq4 _⟩, fun s st st' sts f X h hf => ?_⟩
    exact node_props hq (.inr ⟨_, hf⟩) h fun s1 hs => content_empty hq5 hf hs fun sp s2 h2 => goes_of (.nil h2)
  | absent => exact .inl ⟨rfl, rfl, rfl⟩
  | present _ ih => exact .inr ih
  | scalar =>
    refine ⟨⟨_, _, rfl, by cases ‹Place› <;> rfl, rfl⟩, fun s st st' sts f X h hf => ?_⟩
    exact content_scalar h fun sp s1 h1 => goes_of (.nil h1)
  | blockSeq hp _ ih =>
    refine ⟨⟨_, _, rfl, by cases ‹Place› <;> rfl, rfl⟩, fun s st st' sts f X h hf => ?_⟩
    refine content_blockSeq hp h fun sp s1 h1 => goes_of ?_
    refine ih.2 true s1 st' sts (f :: X) ?_
    simpa using h1
  | indentless hne _ ih =>
    rename_i c evs ns' _
    have hh : ∃ tl, c = .blockEntry :: tl := by
      rcases ih.1 with h | h
      · exact absurd h hne
      · cases c with
        | nil => exact absurd rfl hne
        | cons a b => simp at h; exact ⟨b, by rw [h]⟩
    obtain ⟨tl, rfl⟩ := hh
    refine ⟨⟨_, _, rfl, rfl, rfl⟩, fun s st st' sts f X h hf => ?_⟩
    refine content_indentless h fun sp s1 h1 => goes_of ?_
    refine ih.2 s1 st' sts f X h1 ?_
    cases f <;> simp [follow] at hf ⊢
  | blockMap hp _ ih =>
    refine ⟨⟨_, _, rfl, by cases ‹Place› <;> rfl, rfl⟩, fun s st st' sts f X h hf => ?_⟩
    refine content_blockMap hp h fun sp s1 h1 => goes_of ?_
    refine ih.2 true s1 st' sts (f :: X) ?_
    simpa using h1
  | flowSeq _ ih =>
    refine ⟨⟨_, _, rfl, by cases ‹Place› <;> rfl, rfl⟩, fun s st st' sts f X h hf => ?_⟩
    refine content_flowSeq h fun sp s1 h1 => goes_of ?_
    refine ih.2 true s1 st' sts (f :: X) ?_
    simpa [fsPre] using h1
  | flowMap _ ih =>
    refine ⟨⟨_, _, rfl, by cases ‹Place› <;> rfl, rfl⟩, fun s st st' sts f X h hf => ?_⟩
    refine content_flowMap h fun sp s1 h1 => goes_of ?_
    refine ih.2 true s1 st' sts (f :: X) ?_
    simpa [fmPre] using h1
  | @noItems i ns =>
    cases i
    · refine ⟨.inl rfl, fun first s st' sts X h => Goes.ends h.state ?_⟩
      have : dispatch (if first then .blockSequenceFirstEntry else .blockSequenceEntry) = blockSequenceEntry first := by
        cases first <;> rfl
      rw [this]
      exact bs_end h fun sp s1 h1 => goes_of (.nil h1)
    · refine ⟨.inl rfl, fun s st' sts f X h hf => Goes.ends h.state ?_⟩
      exact il_end (by rcases hf with hf | hf | hf <;> subst hf <;> rfl) h fun sp s1 h1 => goes_of (.nil h1)
  | @item i ns x ex ns1 c evs ns' _ _ ihx ihc =>
    cases i
    · refine ⟨.inr rfl, fun first s st' sts X h => Goes.ends h.state ?_⟩
      have : dispatch (if first then .blockSequenceFirstEntry else .blockSequenceEntry) = blockSequenceEntry first := by
        cases first <;> rfl
      rw [this]
      have hfX : ∃ f Y, c ++ .blockEnd :: X = f :: Y ∧ (f = .blockEntry ∨ f = .blockEnd) := by
        rcases ihc.1 with h | h
        · exact ⟨_, _, by rw [h]; rfl, .inr rfl⟩
        · cases c with
          | nil => simp at h
          | cons a b => simp at h; exact ⟨a, _, rfl, .inl h⟩
      obtain ⟨f, Y, hY, hf⟩ := hfX
      have hff : follow .block f = true := by rcases hf with hf | hf <;> subst hf <;> rfl
      rw [List.append_assoc]
      simp only [List.cons_append, List.append_assoc, hY] at h
      rcases ihx with ⟨rfl, rfl, rfl⟩ | ⟨⟨hd, tl, rfl, hhd⟩, ihx⟩
      · refine bs_empty hf h fun sp s1 h1 => goes_of ?_
        rw [← hY] at h1
        exact ihc.2 false _ _ _ _ h1
      · refine bs_node hhd h fun s1 h1 => Goes.bind (ihx _ _ _ _ _ _ h1 hff) fun s2 h2 => ?_
        rw [← hY] at h2
        exact ihc.2 false _ _ _ _ h2
    · refine ⟨.inr rfl, fun s st' sts f0 X h hf0 => Goes.ends h.state ?_⟩
      show Goes indentlessSequenceEntry _ _ _
      have hfX : ∃ f Y, c ++ f0 :: X = f :: Y ∧ (f = .blockEntry ∨ f = .key ∨ f = .value ∨ f = .blockEnd) := by
        rcases ihc.1 with h | h
        · exact ⟨_, _, by rw [h]; rfl, .inr hf0⟩
        · cases c with
          | nil => simp at h
          | cons a b => simp at h; exact ⟨a, _, rfl, .inl h⟩
      obtain ⟨f, Y, hY, hf⟩ := hfX
      have hff : follow .block f = true := by rcases hf with hf | hf | hf | hf <;> subst hf <;> rfl
      rw [List.append_assoc]
      simp only [List.cons_append, List.append_assoc, hY] at h
      rcases ihx with ⟨rfl, rfl, rfl⟩ | ⟨⟨hd, tl, rfl, hhd⟩, ihx⟩
      · refine il_empty hf h fun sp s1 h1 => goes_of ?_
        rw [← hY] at h1
        exact ihc.2 _ _ _ _ _ h1 hf0
      · refine il_node hhd h fun s1 h1 => Goes.bind (ihx _ _ _ _ _ _ h1 hff) fun s2 h2 => ?_
        rw [← hY] at h2
        exact ihc.2 _ _ _ _ _ h2 hf0
  | noEntries =>
    refine ⟨.inl rfl, fun first s st' sts X h => Goes.ends h.state ?_⟩
    have : dispatch (if first then .blockMappingFirstKey else .blockMappingKey) = blockMappingKey first := by
      cases first <;> rfl
    rw [this]
    exact bm_end h fun sp s1 h1 => goes_of (.nil h1)
  | keyValue _ _ _ ihk ihv ihc =>
    refine ⟨.inr (.inl rfl), fun first s st' sts X h => ?_⟩
    simp only [List.append_assoc, List.cons_append] at h ⊢
    exact bm_ends ihk (.inr (.inl rfl)) h fun s1 h1 => bv_ends ihv ihc h1
  | @keyOnly _ _ _ _ c _ _ _ _ hnv ihk ihc =>
    refine ⟨.inr (.inl rfl), fun first s st' sts X h => ?_⟩
    simp only [List.append_assoc, List.cons_append] at h ⊢
    obtain ⟨f, Y, hY, hf⟩ := head_entries (X := X) ihc.1
    have hf' : f = .key ∨ f = .blockEnd := by
      rcases hf with h | h | h
      · exact .inl h
      · subst h
        cases c with
        | nil => simp at hY
        | cons a b => simp at hY hnv; exact absurd hY.1 hnv
      · exact .inr h
    rw [hY] at h
    refine bm_ends ihk hf h fun s1 h1 => Goes.ends h1.state ?_
    refine bv_none hf' h1 fun sp s2 h2 => goes_of ?_
    rw [← hY] at h2
    exact ihc.2 false _ _ _ _ h2
  | valueOnly _ _ ihv ihc =>
    refine ⟨.inr (.inr rfl), fun first s st' sts X h => Goes.ends h.state ?_⟩
    have : dispatch (if first then .blockMappingFirstKey else .blockMappingKey) = blockMappingKey first := by
      cases first <;> rfl
    rw [this]
    simp only [List.append_assoc, List.cons_append] at h ⊢
    exact bm_noKey h fun sp s1 h1 => goes_of (bv_ends ihv ihc h1)
  | noFlowItems =>
    refine ⟨fun _ => ⟨rfl, rfl⟩, fun first s st' sts X h => Goes.ends h.state ?_⟩
    have : dispatch (if first then .flowSequenceFirstEntry else .flowSequenceEntry) = flowSequenceEntry first := by
      cases first <;> rfl
    rw [this]
    exact fs_end h fun sp s1 h1 => goes_of (.nil h1)
  | flowItem _ _ hsep ihx ihc =>
    obtain ⟨⟨hd, tl, rfl, hhd⟩, ihx⟩ := ihx
    refine ⟨fun h => by simp at h, fun first s st' sts X h => Goes.ends h.state ?_⟩
    have : dispatch (if first then .flowSequenceFirstEntry else .flowSequenceEntry) = flowSequenceEntry first := by
      cases first <;> rfl
    rw [this]
    obtain ⟨f, Y, hY, hf⟩ := sep_cases (X := X) (e := .flowSequenceEnd) hsep
    have hff : follow .flow f = true := by rcases hf with hf | hf <;> subst hf <;> rfl
    simp only [List.append_assoc, List.cons_append, hY] at h ⊢
    refine fs_node hhd h fun s1 h1 => Goes.bind (ihx _ _ _ _ _ _ h1 hff) fun s2 h2 => ?_
    rw [← hY] at h2
    exact fs_next ihc hsep h2
  | flowPair _ _ _ hsep ihk ihv ihc =>
    obtain ⟨⟨hd, tl, rfl, hhd⟩, ihk⟩ := ihk
    refine ⟨fun h => by simp at h, fun first s st' sts X h => Goes.ends h.state ?_⟩
    have : dispatch (if first then .flowSequenceFirstEntry else .flowSequenceEntry) = flowSequenceEntry first := by
      cases first <;> rfl
    rw [this]
    obtain ⟨f, Y, hY, hf⟩ := sep_cases (X := X) (e := .flowSequenceEnd) hsep
    have hff : follow .flow f = true := by rcases hf with hf | hf <;> subst hf <;> rfl
    simp only [List.append_assoc, List.cons_append, hY] at h ⊢
    refine fs_key h fun sp s1 h1 => goes_of (Goes.ends h1.state ?_)
    refine fp_key hhd h1 fun s2 h2 => Goes.bind (ihk _ _ _ _ _ _ h2 rfl) fun s3 h3 => Goes.ends h3.state ?_
    rcases ihv with ⟨rfl, rfl, rfl⟩ | ⟨⟨hd, tl, rfl, hhd⟩, ihv⟩
    · refine fp_empty hf h3 fun sp s4 m h4 => goes_of (fp_ends h4 fun s5 h5 => ?_)
      rw [← hY] at h5
      exact fs_next ihc hsep h5
    · refine fp_node hhd h3 fun s4 m st1 h4 => Goes.bind (ihv _ _ _ _ _ _ h4 hff) fun s5 h5 =>
        fp_ends h5 fun s6 h6 => ?_
      rw [← hY] at h6
      exact fs_next ihc hsep h6
  | flowPairKey _ _ hsep ihk ihc =>
    obtain ⟨⟨hd, tl, rfl, hhd⟩, ihk⟩ := ihk
    refine ⟨fun h => by simp at h, fun first s st' sts X h => Goes.ends h.state ?_⟩
    have : dispatch (if first then .flowSequenceFirstEntry else .flowSequenceEntry) = flowSequenceEntry first := by
      cases first <;> rfl
    rw [this]
    obtain ⟨f, Y, hY, hf⟩ := sep_cases (X := X) (e := .flowSequenceEnd) hsep
    have hff : follow .flow f = true := by rcases hf with hf | hf <;> subst hf <;> rfl
    simp only [List.append_assoc, List.cons_append, hY] at h ⊢
    refine fs_key h fun sp s1 h1 => goes_of (Goes.ends h1.state ?_)
    refine fp_key hhd h1 fun s2 h2 => Goes.bind (ihk _ _ _ _ _ _ h2 hff) fun s3 h3 => Goes.ends h3.state ?_
    refine fp_noValue hf h3 fun sp s4 m h4 => goes_of (fp_ends h4 fun s5 h5 => ?_)
    rw [← hY] at h5
    exact fs_next ihc hsep h5
  | oddPair _ hx _ _ hsep ihv ihc =>
    refine ⟨fun h => by simp at h, fun first s st' sts X h => Goes.ends h.state ?_⟩
    have : dispatch (if first then .flowSequenceFirstEntry else .flowSequenceEntry) = flowSequenceEntry first := by
      cases first <;> rfl
    rw [this]
    obtain ⟨f, Y, hY, hf⟩ := sep_cases (X := X) (e := .flowSequenceEnd) hsep
    have hff : follow .flow f = true := by rcases hf with hf | hf <;> subst hf <;> rfl
    simp only [List.append_assoc, List.cons_append, hY] at h ⊢
    refine fs_key h fun sp s1 h1 => goes_of (Goes.ends h1.state ?_)
    refine fp_odd hx h1 fun sp s3 h3 => goes_of (Goes.ends h3.state ?_)
    rcases ihv with ⟨rfl, rfl, rfl⟩ | ⟨⟨hd, tl, rfl, hhd⟩, ihv⟩
    · refine fp_empty hf h3 fun sp s4 m h4 => goes_of (fp_ends h4 fun s5 h5 => ?_)
      rw [← hY] at h5
      exact fs_next ihc hsep h5
    · refine fp_node hhd h3 fun s4 m st1 h4 => Goes.bind (ihv _ _ _ _ _ _ h4 hff) fun s5 h5 =>
        fp_ends h5 fun s6 h6 => ?_
      rw [← hY] at h6
      exact fs_next ihc hsep h6
  | oddPairKey _ hx _ hsep ihc =>
    refine ⟨fun h => by simp at h, fun first s st' sts X h => Goes.ends h.state ?_⟩
    have : dispatch (if first then .flowSequenceFirstEntry else .flowSequenceEntry) = flowSequenceEntry first := by
      cases first <;> rfl
    rw [this]
    obtain ⟨f, Y, hY, hf⟩ := sep_cases (X := X) (e := .flowSequenceEnd) hsep
    simp only [List.append_assoc, List.cons_append, hY] at h ⊢
    refine fs_key h fun sp s1 h1 => goes_of (Goes.ends h1.state ?_)
    refine fp_odd hx h1 fun sp s3 h3 => goes_of (Goes.ends h3.state ?_)
    refine fp_noValue hf h3 fun sp s4 m h4 => goes_of (fp_ends h4 fun s5 h5 => ?_)
    rw [← hY] at h5
    exact fs_next ihc hsep h5
  | noFlowEntries =>
    refine ⟨fun _ => ⟨rfl, rfl⟩, fun first s st' sts X h => Goes.ends h.state ?_⟩
    have : dispatch (if first then .flowMappingFirstKey else .flowMappingKey)
        = flowMappingKey (if first then .firstKey else .nonFirstKey) := by cases first <;> rfl
    rw [this]
    exact fm_end (by cases first <;> simp) h fun sp s1 h1 => goes_of (.nil h1)
  | flowSingle _ _ hsep ihx ihc =>
    obtain ⟨⟨hd, tl, rfl, hhd⟩, ihx⟩ := ihx
    refine ⟨fun h => by simp at h, fun first s st' sts X h => Goes.ends h.state ?_⟩
    have : dispatch (if first then .flowMappingFirstKey else .flowMappingKey)
        = flowMappingKey (if first then .firstKey else .nonFirstKey) := by cases first <;> rfl
    rw [this]
    obtain ⟨f, Y, hY, hf⟩ := sep_cases (X := X) (e := .flowMappingEnd) hsep
    have hff : follow .flow f = true := by rcases hf with hf | hf <;> subst hf <;> rfl
    simp only [List.append_assoc, List.cons_append, hY] at h ⊢
    refine fm_node (by cases first <;> simp) hhd h fun s1 h1 => Goes.bind (ihx _ _ _ _ _ _ h1 hff) fun s2 h2 =>
      Goes.ends h2.state ?_
    refine fv_emptyValue h2 fun sp s3 h3 => goes_of ?_
    rw [← hY] at h3
    exact fm_next ihc hsep h3
  | flowKeyValue _ _ _ hsep ihk ihv ihc =>
    refine ⟨fun h => by simp at h, fun first s st' sts X h => ?_⟩
    obtain ⟨f, Y, hY, hf⟩ := sep_cases (X := X) (e := .flowMappingEnd) hsep
    simp only [List.append_assoc, List.cons_append, hY] at h ⊢
    refine fm_ends ihk (.inl rfl) h fun s1 h1 => fv_ends ihv hf h1 fun s2 h2 => ?_
    rw [← hY] at h2
    exact fm_next ihc hsep h2
  | flowKeyOnly _ _ hsep ihk ihc =>
    refine ⟨fun h => by simp at h, fun first s st' sts X h => ?_⟩
    obtain ⟨f, Y, hY, hf⟩ := sep_cases (X := X) (e := .flowMappingEnd) hsep
    simp only [List.append_assoc, List.cons_append, hY] at h ⊢
    refine fm_ends ihk (.inr hf) h fun s1 h1 => Goes.ends h1.state ?_
    refine fv_none hf h1 fun sp s2 h2 => goes_of ?_
    rw [← hY] at h2
    exact fm_next ihc hsep h2
  | flowValueOnly _ _ hsep ihv ihc =>
    refine ⟨fun h => by simp at h, fun first s st' sts X h => Goes.ends h.state ?_⟩
    have : dispatch (if first then .flowMappingFirstKey else .flowMappingKey)
        = flowMappingKey (if first then .firstKey else .nonFirstKey) := by cases first <;> rfl
    rw [this]
    obtain ⟨f, Y, hY, hf⟩ := sep_cases (X := X) (e := .flowMappingEnd) hsep
    simp only [List.append_assoc, List.cons_append, hY] at h ⊢
    refine fm_noKey (by cases first <;> simp) h fun sp s1 h1 => goes_of (fv_ends ihv hf h1 fun s2 h2 => ?_)
    rw [← hY] at h2
    exact fm_next ihc hsep h2

end Verif.Parser
