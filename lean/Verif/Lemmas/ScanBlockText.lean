import Verif.Lemmas.ScanFlowNode
/-!
# Scanning and parsing YAML in block style
-/
namespace Verif.Scanner
open Verif Verif.CharUtils Verif.Source Verif.Emitter Verif.Spec
variable {F : Type}

/-! ## What is said of nodes, items and entries -/

/-- a scalar or a flow collection, without its label -/
def BareGoal [Block.Handles] (fo : FloatOps F) (E : Block.Names F) (p : Nat) (tg : Option Tag) (f : Option Nat) (t : List Byte) (x : Yaml F) (E' : Block.Names F) : Prop :=
  ∃ toks, Starts t ∧ (∀ c, NodeG false f p c t toks) ∧ ∀ pl, CSem fo pl tg E toks x E'

/-- a node without its label, on a line of its own -/
def BodyGoal [Block.Handles] (fo : FloatOps F) (E : Block.Names F) (p n : Nat) (tg : Option Tag) (f : Option Nat) (t : List Byte) (x : Yaml F) (E' : Block.Names F) : Prop :=
  ∃ toks, Starts t ∧ NodeG true f p (n + 1) t toks ∧ ∀ pl, pl ≠ .flow → CSem fo pl tg E toks x E'

/-- a node with a label, or an alias -/
def MarkedGoal [Block.Handles] (fo : FloatOps F) (E : Block.Names F) (p : Nat) (f : Option Nat) (t : List Byte) (x : Yaml F) (E' : Block.Names F) : Prop :=
  ∃ toks, Starts t ∧ (∀ c, NodeG false f p c t toks) ∧ ∀ pl, pl ≠ .flow → Sem (.node pl) (T1 fo x) E toks E'

/-- a node -/
def NGoal [Block.Handles] (fo : FloatOps F) (E : Block.Names F) (p n : Nat) (f : Option Nat) (t : List Byte) (x : Yaml F) (E' : Block.Names F) : Prop :=
  ∃ toks, Starts t ∧ NodeG true f p (n + 1) t toks ∧ ∀ pl, pl ≠ .flow → Sem (.node pl) (T1 fo x) E toks E'

/-- what comes after an indicator -/
def AfterGoal [Block.Handles] (fo : FloatOps F) (E : Block.Names F) (n : Nat) (f : Option Nat) (r : List Byte) (x : Yaml F) (E' : Block.Names F) : Prop :=
  ∃ toks, FirstBlank r ∧ (∀ tt c0 tok e, LeadG tt c0 tok e → PartN tt f (n + 1) (c0 :: r) (tok :: toks) ∧ ((r = [] → e = true) → PartG tt f (n + 1) (c0 :: r) (tok :: toks))) ∧
    ∀ pl, pl ≠ .flow → Sem (.node? pl) (T1 fo x) E toks E'

/-- what comes after `?`, or after a `:` that begins a line -/
def SideGoal [Block.Handles] (fo : FloatOps F) (E : Block.Names F) (n : Nat) (f : Option Nat) (r : List Byte) (x : Yaml F) (E' : Block.Names F) : Prop :=
  ∃ toks, FirstBlank r ∧ (∀ c0 tok e, LeadG .blockMappingStart c0 tok e →
    PartN .blockMappingStart f (n + 1) (c0 :: r) (tok :: toks) ∧ ((r = [] → e = true) → PartG .blockMappingStart f (n + 1) (c0 :: r) (tok :: toks))) ∧
    Sem (.node? .pair) (T1 fo x) E toks E'

/-- an item of a sequence -/
def IGoal [Block.Handles] (fo : FloatOps F) (E : Block.Names F) (n : Nat) (f : Option Nat) (t : List Byte) (x : Yaml F) (E' : Block.Names F) : Prop :=
  ∃ toks, Starts t ∧ PartG .blockSequenceStart f (n + 1) t (.blockEntry :: toks) ∧ Sem (.node? .block) (T1 fo x) E toks E'

/-- the items of a sequence -/
def IsGoal [Block.Handles] (fo : FloatOps F) (E : Block.Names F) (n : Nat) (f : Option Nat) (t : List Byte) (xs : List (Yaml F)) (E' : Block.Names F) : Prop :=
  ∃ toks, Starts t ∧ toks ≠ [] ∧ PartG .blockSequenceStart f (n + 1) t toks ∧ ∀ b, Sem (.items b) (Ts fo xs) E toks E'

/-- an entry of a mapping -/
def EntryGoal [Block.Handles] (fo : FloatOps F) (E : Block.Names F) (n : Nat) (f : Option Nat) (t : List Byte) (e : Yaml F × Yaml F) (E' : Block.Names F) : Prop :=
  ∃ toks, Starts t ∧ PartG .blockMappingStart f (n + 1) t (.key :: toks) ∧
    ∀ es c E'', c.head? ≠ some .value → Sem .entries (Ps fo es) E' c E'' → Sem .entries (Ps fo (e :: es)) E (.key :: (toks ++ c)) E''

/-- the entries of a mapping -/
def EntriesGoal [Block.Handles] (fo : FloatOps F) (E : Block.Names F) (n : Nat) (f : Option Nat) (t : List Byte) (es : List (Yaml F × Yaml F)) (E' : Block.Names F) : Prop :=
  ∃ toks, Starts t ∧ PartG .blockMappingStart f (n + 1) t (.key :: toks) ∧ Sem .entries (Ps fo es) E (.key :: toks) E'

section
variable [Block.Handles] {fo : FloatOps F} {E E' E₁ : Block.Names F} {p n m j : Nat} {tg : Option Tag} {f f' : Option Nat} {t g r k l : List Byte} {x y : Yaml F} {xs : List (Yaml F)}
  {es : List (Yaml F × Yaml F)} {an : Option (List Byte)}

/-! ## Nodes -/

theorem tall_goal (h : Block.TallAs false fo p tg t x) : BareGoal fo E p tg none t x E := by
  obtain ⟨st, v, ht, hv⟩ := tallAs_text h
  exact ⟨_, tall_starts ht, fun _ => tallG ht, fun _ => csem_scalar hv⟩

theorem scroll_text {p c t v} (h : Block.Scroll false p c t v) : ∃ st, st ≠ .plain ∧ ScrollText p c t (.scalar st v) := by
  cases h with
  | @mk folded _ _ _ _ _ _ _ _ _ _ _ _ h1 h2 h3 h4 h5 h6 h7 =>
    exact ⟨_, by cases folded <;> simp, .mk h1 h2 h3 h4 h5 h6 h7⟩
  | empty h => cases h

theorem scroll_goal {c v} (h : Block.Scroll false p c t v) (h' : Block.Quoted false fo tg v x) : BareGoal fo E p tg (some c) t x E := by
  obtain ⟨st, hst, ht⟩ := scroll_text h
  exact ⟨_, scroll_starts ht, fun _ => scrollG ht, fun _ => csem_scalar (quoted_value st hst h')⟩

theorem flow_goal (h : Block.FlowBody false fo emptyStr p E tg .nested t x E') : BareGoal fo E p tg none t x E' := by
  obtain ⟨toks, h1, -, h2, h3⟩ := flow_fbody h
  exact ⟨toks, h1.starts, fun c => h2 rfl c, h3⟩

theorem bare_goal (h : Block.Bare false fo emptyStr E p tg f t x E') : BareGoal fo E p tg f t x E' := by
  cases h with
  | leaf h => exact tall_goal h
  | block h h' => exact scroll_goal h h'
  | flow h => exact flow_goal h

theorem BareGoal.body (h : BareGoal fo E p tg f t x E') : BodyGoal fo E p n tg f t x E' := by
  obtain ⟨toks, h1, h2, h3⟩ := h
  exact ⟨toks, h1, NodeG.weaken (h2 _), fun pl _ => h3 pl⟩

theorem seq_goal (h : IsGoal fo E n f t xs E') (hw : Block.Wrap tg (.seq xs) x) : BodyGoal fo E p n tg f t x E' := by
  obtain ⟨toks, h1, -, h2, h3⟩ := h
  exact ⟨_, h1, h2.node, fun pl hp => csem_seq hp (h3 false) hw⟩

theorem map_goal (h : EntriesGoal fo E n f t es E') (hw : Block.Wrap tg (.map es) x) : BodyGoal fo E p n tg f t x E' := by
  obtain ⟨toks, h1, h2, h3⟩ := h
  exact ⟨_, h1, h2.node, fun pl hp => csem_map hp h3 hw⟩

theorem alias_goal {a} (hn : Block.Name a) (h : Block.Known E a x) : MarkedGoal fo E p none (42 :: a) x E :=
  have hm := anchor_mark true hn
  ⟨_, by simpa using hm.starts (u := []), fun _ => LabelG.alone hm.label, fun _ _ => sem_alias h⟩

theorem missing_goal (hl : Block.Label false l an tg) (hm : Block.Missing emptyStr tg y) (hc : Block.Closed E an y (Block.opened E an) E') :
    MarkedGoal fo E p none l y E' := by
  obtain ⟨toks, h1, h2⟩ := label_marks hl
  exact ⟨toks, h1.starts', fun _ => LabelG.alone h1.label, fun _ _ => sem_missing h2 (missing_value hm) hc⟩

theorem inline_goal (hl : Block.Label false l an tg) (h : BareGoal fo (Block.opened E an) p tg f t y E₁) (hc : Block.Closed E an y E₁ E') :
    MarkedGoal fo E p f (l ++ (Block.spaces (m + 1) ++ t)) y E' := by
  obtain ⟨ltoks, h1, h2⟩ := label_marks hl
  obtain ⟨toks, h3, h4, h5⟩ := h
  exact ⟨_, h1.starts, fun c => LabelG.inline h1.label h1.starts' (h4 _) h3, fun _ _ => (h5 _).labelled h2 hc⟩

theorem under_goal (hl : Block.Label false l an tg) (hg : Block.Break m g) (hm : p ≤ m) (h : BodyGoal fo (Block.opened E an) p m tg f t y E₁)
    (hc : Block.Closed E an y E₁ E') : MarkedGoal fo E p f (l ++ (g ++ t)) y E' := by
  obtain ⟨ltoks, h1, h2⟩ := label_marks hl
  obtain ⟨toks, h3, h4, h5⟩ := h
  exact ⟨_, h1.starts, fun c => LabelG.under h1.label hg hm h4 h3, fun pl hp => (h5 pl hp).labelled h2 hc⟩

theorem BodyGoal.node (h : BodyGoal fo E p n none f t x E') : NGoal fo E p n f t x E' := by
  obtain ⟨toks, h1, h2, h3⟩ := h
  exact ⟨toks, h1, h2, fun pl hp => (h3 pl hp).bare⟩

theorem MarkedGoal.node (h : MarkedGoal fo E p f t x E') : NGoal fo E p n f t x E' := by
  obtain ⟨toks, h1, h2, h3⟩ := h
  exact ⟨toks, h1, NodeG.weaken (h2 _), h3⟩

/-! ## Items -/

theorem oneItem_goal (h : IGoal fo E n f t x E') : IsGoal fo E n f t [x] E' := by
  obtain ⟨toks, h1, h2, h3⟩ := h
  exact ⟨.blockEntry :: toks, h1, by simp, h2, fun b => by simpa using sem_item h3 sem_noItems⟩

theorem Starts.append {t r : List Byte} (h : Starts t) (hr : ∀ r', FirstBlank r' → FirstBlank (r ++ r')) : Starts (t ++ r) := by
  refine ⟨by simp [h.1], fun r' h' => ?_⟩
  rw [List.append_assoc]
  exact h.2 _ (hr r' h')

theorem moreItems_goal (h : IGoal fo E n f t x E₁) (hg : Block.Gap f n g) (h' : IsGoal fo E₁ n f' r xs E') : IsGoal fo E n f' (t ++ (g ++ r)) (x :: xs) E' := by
  obtain ⟨toks, h1, h2, h3⟩ := h
  obtain ⟨toks', h1', -, h2', h3'⟩ := h'
  exact ⟨_, h1.append (fun r' _ => by rw [List.append_assoc]; exact break_pend (gap_break hg)), by simp, h2.more hg h2' h1', fun b => by
    simpa using sem_item h3 (h3' b)⟩

theorem dash_starts {r : List Byte} (hr : FirstBlank r) : Starts (45 :: r) := by
  refine ⟨by simp, fun r' hr' => ⟨by simp [TokenHead], by simp, fun x y hx e => ?_⟩⟩
  have hb : ∀ c y, r ++ r' = c :: y → c = 32 ∨ c = 10 := by
    intro c y e
    rcases hr with rfl | hr | hr
    · rw [List.nil_append] at e
      rw [e] at hr'
      simpa [FirstBlank] using hr'
    · cases r with
      | nil => cases hr
      | cons b r => simp at hr e; omega
    · cases r with
      | nil => cases hr
      | cons b r => simp at hr e; omega
  simp only [List.cons_append, List.cons.injEq] at e
  have := hb _ _ e.2
  omega

theorem AfterGoal.item (h : AfterGoal fo E n f r x E') : IGoal fo E n f (45 :: r) x E' := by
  obtain ⟨toks, h1, h2, h3⟩ := h
  exact ⟨toks, dash_starts h1, (h2 _ _ _ _ dash_lead).2 (fun _ => rfl), h3 _ (by simp)⟩

theorem AfterGoal.side (h : AfterGoal fo E n f r x E') : SideGoal fo E n f r x E' := by
  obtain ⟨toks, h1, h2, h3⟩ := h
  exact ⟨toks, h1, h2 _, h3 _ (by simp)⟩

theorem absentAfter_goal : AfterGoal fo E n none [] emptyStr E :=
  ⟨[], .inl rfl, fun _ _ _ _ hl => ⟨lead_absentN hl, fun he => by
    obtain rfl := he rfl
    exact lead_absent hl⟩, fun _ _ => sem_absent⟩

theorem inlineAfter_goal (h : NGoal fo E (n + 1) (n + 2 + m) f t x E') : AfterGoal fo E n f (Block.spaces (m + 1) ++ t) x E' := by
  obtain ⟨toks, h1, h2, h3⟩ := h
  have : ∀ tt c0 tok e, LeadG tt c0 tok e → PartG tt f (n + 1) (c0 :: (Block.spaces (m + 1) ++ t)) (tok :: toks) := fun _ _ _ _ hl =>
    lead_node hl (fun _ => spaces_lay') (.inl rfl) (fun mk hm => by rw [spaces_col, hm]; omega) (by omega) (by omega) h2 h1
  exact ⟨toks, .inr (.inl rfl), fun _ _ _ _ hl => ⟨PartG.next (this _ _ _ _ hl), fun _ => this _ _ _ _ hl⟩, fun pl hp => (h3 pl hp).present⟩

theorem head_or {g t : List Byte} (h : g.head? = some 32 ∨ g.head? = some 10) : (g ++ t).head? = some 32 ∨ (g ++ t).head? = some 10 := by
  cases g with
  | nil => simp at h
  | cons => simpa using h

theorem underAfter_goal (hg : Block.Break m g) (hm : n < m) (h : NGoal fo E (n + 1) m f t x E') : AfterGoal fo E n f (g ++ t) x E' := by
  obtain ⟨toks, h1, h2, h3⟩ := h
  have : ∀ tt c0 tok e, LeadG tt c0 tok e → PartG tt f (n + 1) (c0 :: (g ++ t)) (tok :: toks) := fun _ _ _ _ hl =>
    lead_node hl (fun _ => break_lay hg) (break_first hg) (fun mk _ => break_col hg mk) (by omega) (by omega) h2 h1
  exact ⟨toks, .inr (head_or (break_first hg)), fun _ _ _ _ hl => ⟨PartG.next (this _ _ _ _ hl), fun _ => this _ _ _ _ hl⟩, fun pl hp => (h3 pl hp).present⟩

theorem besideSide_goal (hg : Block.Break n g) (h : IsGoal fo E n f t xs E') : SideGoal fo E n f (g ++ t) (.seq xs) E' := by
  obtain ⟨toks, h1, h0, h2, h3⟩ := h
  have : ∀ c0 tok e, LeadG .blockMappingStart c0 tok e → PartG .blockMappingStart f (n + 1) (c0 :: (g ++ t)) (tok :: toks) := fun _ _ _ hl => lead_beside hl hg h2 h1
  exact ⟨toks, .inr (head_or (break_first hg)), fun _ _ _ hl => ⟨PartG.next (this _ _ _ hl), fun _ => this _ _ _ hl⟩, (csem_indentless h0 (h3 true) .untagged).bare.present⟩

theorem labelledSide_goal (hl : Block.Label false l an tg) (hg : Block.Break n g) (h : IsGoal fo (Block.opened E an) n f t xs E₁) (hw : Block.Wrap tg (.seq xs) y)
    (hc : Block.Closed E an y E₁ E') : SideGoal fo E n f (Block.spaces (m + 1) ++ (l ++ (g ++ t))) y E' := by
  obtain ⟨ltoks, h6, h7⟩ := label_marks hl
  obtain ⟨toks, h1, h0, h2, h3⟩ := h
  have : ∀ c0 tok e, LeadG .blockMappingStart c0 tok e → PartG .blockMappingStart f (n + 1) (c0 :: (Block.spaces (m + 1) ++ (l ++ (g ++ t)))) (tok :: (ltoks ++ toks)) :=
    fun _ _ _ hl => lead_labelled hl h6.label (fun _ => h6.starts) hg h2 h1
  exact ⟨_, .inr (.inl rfl), fun _ _ _ hl => ⟨PartG.next (this _ _ _ hl), fun _ => this _ _ _ hl⟩, ((csem_indentless h0 (h3 true) hw).labelled h7 hc).present⟩

/-! ## Entries -/

theorem sem_key {st v} (h : Scalar.valueFromCowAndMetadata fo v st none = x) : Sem (.node? .pair) (T1 fo x) E [.scalar st v] E :=
  (csem_scalar h).bare.present

theorem oneEntry_goal {e} (h : EntryGoal fo E n f t e E') : EntriesGoal fo E n f t [e] E' := by
  obtain ⟨toks, h1, h2, h3⟩ := h
  exact ⟨_, h1, h2, by simpa using h3 [] [] E' (by simp) sem_noEntries⟩

theorem moreEntries_goal {e} (h : EntryGoal fo E n f t e E₁) (hg : Block.Gap f n g) (h' : EntriesGoal fo E₁ n f' r es E') :
    EntriesGoal fo E n f' (t ++ (g ++ r)) (e :: es) E' := by
  obtain ⟨toks, h1, h2, h3⟩ := h
  obtain ⟨toks', h1', h2', h3'⟩ := h'
  exact ⟨_, h1.append (fun r' _ => by rw [List.append_assoc]; exact break_pend (gap_break hg)), h2.more hg h2' h1', h3 _ _ _ (by simp) h3'⟩

/-- an entry with an implicit key -/
theorem implicit_goal {st v toks} (h1 : Starts t) (h2 : PartG .blockMappingStart f (n + 1) t (.key :: .scalar st v :: .value :: toks))
    (h3 : Scalar.valueFromCowAndMetadata fo v st none = x) (h4 : UntaggedKey x) (h5 : Sem (.node? .pair) (T1 fo y) E toks E') : EntryGoal fo E n f t (x, y) E' :=
  ⟨_, h1, h2, fun _ _ _ _ h => by simpa using sem_entry (sem_key h3) h4 h5 h⟩

theorem lead_starts {c0 : Byte} {r : List Byte} (h : c0 = 63 ∨ c0 = 58) : Starts (c0 :: r) :=
  ⟨by simp, fun _ _ => ⟨by intro b hb; simp at hb; subst hb; omega, other_notMark (by omega) (by omega) (by omega)⟩⟩

theorem explicit_goal (h : SideGoal fo E n f r x E₁) (hx : UntaggedKey x) (hg : Block.Gap f n g) (h' : SideGoal fo E₁ n f' t y E') :
    EntryGoal fo E n f' (63 :: (r ++ (g ++ 58 :: t))) (x, y) E' := by
  obtain ⟨toks, h1, h2, h3⟩ := h
  obtain ⟨toks', h1', h2', h3'⟩ := h'
  refine ⟨toks ++ (.value :: toks'), lead_starts (.inl rfl), ?_, fun es c E'' _ hc => ?_⟩
  · exact PartN.more (h2 _ _ _ question_lead).1 hg ((h2' _ _ _ colon_lead).2 (fun _ => rfl)) (lead_starts (.inr rfl))
  · have := sem_entry h3 hx h3' hc
    simpa using this

theorem explicitAlone_goal (h : SideGoal fo E n f r x E') (hx : UntaggedKey x) (hr : r ≠ []) : EntryGoal fo E n f (63 :: r) (x, emptyStr) E' := by
  obtain ⟨toks, h1, h2, h3⟩ := h
  exact ⟨toks, lead_starts (.inl rfl), (h2 _ _ _ question_lead).2 (fun h => absurd h hr), fun es c E'' hv hc => sem_keyOnly h3 hx hc hv⟩

theorem spaces_colon {j : Nat} {r : List Byte} (hr : r = [] ∨ ∃ b r', r = b :: r' ∧ (b = 32 ∨ b = 10)) : PEnd (Block.spaces j ++ 58 :: r) := by
  cases j with
  | zero => exact .inr (.inr (.inr ⟨r, rfl, hr⟩))
  | succ j => exact .inr (.inl ⟨_, rfl⟩)

theorem FirstBlank.cons {r} (h : FirstBlank r) : r = [] ∨ ∃ b r', r = b :: r' ∧ (b = 32 ∨ b = 10) := by
  cases r with
  | nil => exact .inl rfl
  | cons b r => exact .inr ⟨b, r, rfl, by simpa [FirstBlank] using h⟩

theorem FirstBlank.append {g t : List Byte} (h : g.head? = some 32 ∨ g.head? = some 10) : FirstBlank (g ++ t) := .inr (head_or h)

theorem entry_starts {k tok j r} (hk : LeafText k tok) (hr : ∀ r', FirstBlank r' → FirstBlank (r ++ r')) : Starts (k ++ (Block.spaces j ++ 58 :: r)) := by
  refine ⟨by simp, fun r' h' => ?_⟩
  have e : (k ++ (Block.spaces j ++ 58 :: r)) ++ r' = k ++ (Block.spaces j ++ 58 :: (r ++ r')) := by simp
  rw [e]
  exact ⟨hk.head, hk.notMark (spaces_colon (hr r' h').cons)⟩

theorem absentEntry_goal (h : Block.Leaf false fo k x) (hj : k.length + j ≤ 1024) : EntryGoal fo E n none (k ++ (Block.spaces j ++ [58])) (x, emptyStr) E := by
  obtain ⟨st, v, ht, hv⟩ := leaf_text h
  exact implicit_goal (entry_starts ht (fun _ h => h)) (entry_absent ht hj (by omega)) hv (leaf_untagged h) sem_absent

theorem sameLine_goal {toks} (h : Block.Leaf false fo k x) (hj : k.length + j ≤ 1024)
    (hG : ∀ c, NodeG false f (n + 1) c t toks) (hs : Starts t) (hv' : Sem (.node? .pair) (T1 fo y) E toks E') :
    EntryGoal fo E n f (k ++ (Block.spaces j ++ 58 :: (Block.spaces (m + 1) ++ t))) (x, y) E' := by
  obtain ⟨st, v, ht, hv⟩ := leaf_text h
  have hG' := @hG (n + 1 + k.length + j + 1 + (m + 1))
  refine implicit_goal (entry_starts ht (fun _ _ => .inr (.inl rfl))) (entry_node (c2 := n + 1 + k.length + j + 1 + (m + 1)) ht hj (by omega) (fun _ => spaces_lay') (.inl rfl)
    (fun mk hm => by rw [spaces_col, hm]) (by omega) ?_ hs) hv (leaf_untagged h) hv'
  have : (Block.spaces (m + 1)).contains 10 = false := contains_false.2 fun x hx => by rw [spaces_mem x hx]; decide
  rw [this]
  exact @hG'

theorem bareEntry_goal (h : Block.Leaf false fo k x) (hj : k.length + j ≤ 1024) (h' : BareGoal fo E (n + 1) none f t y E') :
    EntryGoal fo E n f (k ++ (Block.spaces j ++ 58 :: (Block.spaces (m + 1) ++ t))) (x, y) E' := by
  obtain ⟨toks, h1, h2, h3⟩ := h'
  exact sameLine_goal h hj h2 h1 (h3 _).bare.present

theorem markedEntry_goal (h : Block.Leaf false fo k x) (hj : k.length + j ≤ 1024) (h' : MarkedGoal fo E (n + 1) f t y E') :
    EntryGoal fo E n f (k ++ (Block.spaces j ++ 58 :: (Block.spaces (m + 1) ++ t))) (x, y) E' := by
  obtain ⟨toks, h1, h2, h3⟩ := h'
  exact sameLine_goal h hj h2 h1 (h3 _ (by simp)).present

theorem underEntry_goal (h : Block.Leaf false fo k x) (hj : k.length + j ≤ 1024) (hg : Block.Break m g) (hm : n < m) (h' : NGoal fo E (n + 1) m f t y E') :
    EntryGoal fo E n f (k ++ (Block.spaces j ++ 58 :: (g ++ t))) (x, y) E' := by
  obtain ⟨st, v, ht, hv⟩ := leaf_text h
  obtain ⟨toks, h1, h2, h3⟩ := h'
  refine implicit_goal (entry_starts ht (fun _ _ => by rw [List.append_assoc]; exact .append (break_first hg))) (entry_node ht hj (by omega) (fun _ => break_lay hg) (break_first hg)
    (fun mk _ => break_col hg mk) (by omega) ?_ h1) hv (leaf_untagged h) (h3 _ (by simp)).present
  rw [break_newline hg]
  exact h2

theorem besideEntry_goal (h : Block.Leaf false fo k x) (hj : k.length + j ≤ 1024) (hg : Block.Break n g) (h' : IsGoal fo E n f t xs E') :
    EntryGoal fo E n f (k ++ (Block.spaces j ++ 58 :: (g ++ t))) (x, .seq xs) E' := by
  obtain ⟨st, v, ht, hv⟩ := leaf_text h
  obtain ⟨toks, h1, h0, h2, h3⟩ := h'
  exact implicit_goal (entry_starts ht (fun _ _ => by rw [List.append_assoc]; exact .append (break_first hg))) (entry_beside ht hj hg h2 h1)
    hv (leaf_untagged h) (csem_indentless h0 (h3 true) .untagged).bare.present

theorem labelledEntry_goal (h : Block.Leaf false fo k x) (hj : k.length + j ≤ 1024) (hl : Block.Label false l an tg) (hg : Block.Break n g)
    (h' : IsGoal fo (Block.opened E an) n f t xs E₁) (hw : Block.Wrap tg (.seq xs) y) (hc : Block.Closed E an y E₁ E') :
    EntryGoal fo E n f (k ++ (Block.spaces j ++ 58 :: (Block.spaces (m + 1) ++ (l ++ (g ++ t))))) (x, y) E' := by
  obtain ⟨st, v, ht, hv⟩ := leaf_text h
  obtain ⟨ltoks, h6, h7⟩ := label_marks hl
  obtain ⟨toks, h1, h0, h2, h3⟩ := h'
  exact implicit_goal (entry_starts ht (fun _ _ => .inr (.inl rfl))) (entry_labelled ht hj h6.label (fun _ => h6.starts) hg h2 h1)
    hv (leaf_untagged h) ((csem_indentless h0 (h3 true) hw).labelled h7 hc).present

mutual
  theorem body_block {fo : FloatOps F} {E p n tg f t x E'} : Block.Body false fo emptyStr E p n tg f t x E' → BodyGoal fo E p n tg f t x E'
    | .bare h => (bare_goal h).body
    | .seq h w => seq_goal (items_block h) w
    | .map h w => map_goal (entries_block h) w
  theorem marked_block {fo : FloatOps F} {E p f t x E'} : Block.Marked false fo emptyStr E p f t x E' → MarkedGoal fo E p f t x E'
    | .alias h1 h2 => alias_goal h1 h2
    | .missing h1 h2 h3 => missing_goal h1 h2 h3
    | .inline h1 h2 h3 => inline_goal h1 (bare_goal h2) h3
    | .under h1 g hm h2 h3 => under_goal h1 g hm (body_block h2) h3
  theorem node_block {fo : FloatOps F} {E p n f t x E'} : Block.Node false fo emptyStr E p n f t x E' → NGoal fo E p n f t x E'
    | .body h => (body_block h).node
    | .marked h => (marked_block h).node
  theorem items_block {fo : FloatOps F} {E n f t xs E'} : Block.Items false fo emptyStr E n f t xs E' → IsGoal fo E n f t xs E'
    | .one h => oneItem_goal (item_block h)
    | .more h g h' => moreItems_goal (item_block h) g (items_block h')
  theorem item_block {fo : FloatOps F} {E n f t x E'} : Block.Item false fo emptyStr E n f t x E' → IGoal fo E n f t x E'
    | .dash h => (after_block h).item
  theorem after_block {fo : FloatOps F} {E n f t x E'} : Block.After false fo emptyStr E n f t x E' → AfterGoal fo E n f t x E'
    | .absent => absentAfter_goal
    | .inline h => inlineAfter_goal (node_block h)
    | .under g hm h => underAfter_goal g hm (node_block h)
  theorem side_block {fo : FloatOps F} {E n f t x E'} : Block.Side false fo emptyStr E n f t x E' → SideGoal fo E n f t x E'
    | .after h => (after_block h).side
    | .beside g h => besideSide_goal g (items_block h)
    | .labelled hl g h w c => labelledSide_goal hl g (items_block h) w c
  theorem entries_block {fo : FloatOps F} {E n f t es E'} : Block.Entries false fo emptyStr E n f t es E' → EntriesGoal fo E n f t es E'
    | .one h => oneEntry_goal (entry_block h)
    | .more h g h' => moreEntries_goal (entry_block h) g (entries_block h')
  theorem entry_block {fo : FloatOps F} {E n f t e E'} : Block.Entry false fo emptyStr E n f t e E' → EntryGoal fo E n f t e E'
    | .absent h hj => absentEntry_goal h hj
    | .bare h hj h' => bareEntry_goal h hj (bare_goal h')
    | .marked h hj h' => markedEntry_goal h hj (marked_block h')
    | .under h hj g hm h' => underEntry_goal h hj g hm (node_block h')
    | .beside h hj g h' => besideEntry_goal h hj g (items_block h')
    | .labelled h hj hl g h' w c => labelledEntry_goal h hj hl g (items_block h') w c
    | .explicit h hx g h' => explicit_goal (side_block h) (hx rfl) g (side_block h')
    | .explicitAlone h hx hr => explicitAlone_goal (side_block h) (hx rfl) (hr rfl)
end

end

/-! ## Texts -/

/-- the tokens of a text with one node -/
theorem scan_block {f a n w b toks} (ha : Block.IdleLines a) (hs : Starts w) (hg : NodeG true f 0 (n + 1) w toks) (hb : Block.End false f b)
    (hd : .streamEnd ∉ toks) {cfg : Cfg} {N : Nat}
    (hf : (a ++ (Block.spaces n ++ (w ++ b))).length + 4 < cfg.fuel) (hN : toks.length + 3 < N) :
    ∃ tks, Spec.scanInput cfg (a ++ (Block.spaces n ++ (w ++ b))) N = (tks, .ended) ∧ tks.map (·.tt) = .streamStart :: (toks ++ [.streamEnd]) := by
  generalize ht : a ++ (Block.spaces n ++ (w ++ b)) = t at hf ⊢
  generalize hS : (fetchStreamStart (Scanner.new t)).2 = S
  have hr : S.src.rest = t := by rw [← hS]; rfl
  have hst : S.streamStartProduced = true := by rw [← hS]; rfl
  have hk : S.simpleKeys = [SimpleKey.new Marker.default] := by rw [← hS]; rfl
  have hi : S.indent = 0 := by rw [← hS]; rfl
  have hI : S.indents = [] := by rw [← hS]; rfl
  have hc : S.mark = ⟨0, 1, 1⟩ := by rw [← hS]; rfl
  have hty : types S = [.streamStart] := by rw [← hS]; rfl
  have hal : S.simpleKeyAllowed = true := by rw [← hS]; rfl
  have hcalm : Calm S := by
    rw [← hS]
    exact ⟨rfl, rfl, rfl, rfl, by simp [Fit, fetchStreamStart, Scanner.new, Src.new, upd]⟩
  have he := tail_end (i0 := 0) (end_tail hb)
  have hw0 : w ++ (b ++ []) ≠ [] := by simp [hs.1]
  have hcol : (gapMark S.mark (a ++ Block.spaces n)).col = n + 1 := by
    rcases idles_end ha with rfl | ⟨l', rfl⟩
    · rw [List.nil_append, spaces_col, hc]; exact Nat.add_comm _ _
    · rw [List.append_assoc]; exact gapMark_after _ l' n
  have h0 := here_lay (cfg := cfg) (s := S) (w := a ++ Block.spaces n) (q := w ++ (b ++ [])) (I := []) (i := 0) (n := 0) (c := n + 1)
    (idles_lay ha spaces_lay') (by rw [hr, ← ht]; simp) (hs.2 _ he.pend).1 (by rw [← ht] at hf; simp at hf ⊢; omega) hcalm (fun _ => hcol)
    (by rw [hs.low he.pend, hi, hI]; exact unroll_ok (by omega)) hk (fun hx => by cases hx)
    (fun _ _ _ _ => .inr rfl)
  rw [hty, hal] at h0
  obtain ⟨m, s1, f1, h1, hm⟩ := hg (i0 := 0) (I0 := []) (I' := []) (i' := 0) (k := 0) h0 (fun _ => rfl) (.inl ⟨rfl, rfl⟩) (.inl rfl) (fun _ => ⟨rfl, rfl⟩) (by omega) rfl he (end_fits hb)
    (by rw [← ht] at hf; simp at hf ⊢; omega) (unroll_ok (by omega))
  obtain ⟨s2, e2, hk2, ht2⟩ := stream_end h1
  have hF : Fetches cfg (1 + m) (fetchStreamStart (Scanner.new t)).2 s2 := by
    rw [hS]
    exact f1.trans (.step e2 .refl)
  have ht2' : s2.tokens.map (·.tt) = (.streamStart :: toks) ++ [.streamEnd] := by
    have : types s2 = _ := ht2
    simpa [types] using this
  obtain ⟨body, last, hbl⟩ : ∃ body last, s2.tokens = body ++ [last] := by
    rcases List.eq_nil_or_concat s2.tokens with h | ⟨a, b, h⟩
    · rw [h] at ht2'; simp at ht2'
    · exact ⟨a, b, by simpa using h⟩
  have hsplit : body.map (·.tt) = .streamStart :: toks ∧ last.tt = .streamEnd := by
    rw [hbl, List.map_append] at ht2'
    obtain ⟨h1, h2⟩ := List.append_inj' ht2' rfl
    exact ⟨h1, by simpa using h2⟩
  have hlen : body.length = toks.length + 1 := by
    have := congrArg List.length hsplit.1
    simpa using this
  refine ⟨s2.tokens, ?_, ht2'⟩
  rw [hbl]
  refine scan_of_fetches hF hk2 hbl (fun u hu => ?_) hsplit.2 (by rw [← ht] at hf; simp at hm hf; omega) (by omega)
  have : u.tt ∈ body.map (·.tt) := List.mem_map_of_mem hu
  rw [hsplit.1] at this
  simp only [List.mem_cons] at this
  rcases this with h | h
  · rw [h]; simp
  · intro hx
    rw [hx] at h
    exact hd h

/-- loading YAML in block style -/
theorem load_block {fo : FloatOps F} {t x} (h : Block.Text false fo emptyStr t x) :
    ∃ N, ∀ cfg n, N ≤ cfg.fuel → N ≤ n → Loader.loadFrom fo cfg n t = .ok [x] ∧ Loader.loadSingle fo cfg n t = .ok x := by
  obtain ⟨a, n, f, w, b, E, ha, hv, hb, rfl, -⟩ := h
  obtain ⟨tts, h1, h2, h3⟩ := node_block hv
  obtain ⟨evs, h4, h5, -⟩ := h3 .block (by simp) [] (fun _ => none)
  rw [tagTable_none] at h4
  refine ⟨(a ++ (Block.spaces n ++ (w ++ b))).length + tts.length + 5, fun cfg m hf hn => ?_⟩
  obtain ⟨toks, h6, h7⟩ := scan_block (cfg := cfg) (N := m) ha h1 h2 hb (derives_end h4) (by omega) (by omega)
  unfold Loader.loadFrom Loader.loadSingle Loader.parserOn
  simp only [h6]
  have h5' : Tree UntaggedKey fo (fun _ => none) evs x (vals 0 (fun _ => none) E) := by
    have := h5
    rw [vals_nil] at this
    exact this
  exact load_bare h7 h4 h5' _ _

end Verif.Scanner
