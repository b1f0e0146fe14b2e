import Verif.Lemmas.ScanLabelBlock
import Verif.Lemmas.ParserLoad
/-!
# The events and trees of nodes with anchors and tags
-/
namespace Verif.Scanner
open Verif Verif.CharUtils Verif.Source Verif.Emitter Verif.Spec Verif.Scalar
open Verif.Parser (docDefs docDefs_append aliasesLocal_append lastDef_snoc)
variable {F : Type}

/-! ## Values of scalars with tags -/

theorem core_tag {tg : Tag} : tg.isYamlCoreSchema = true ↔ tg.handle = Block.coreTags := by
  simp [Tag.isYamlCoreSchema, Block.coreTags]

theorem not_core {tg : Tag} (h : tg.handle ≠ Block.coreTags) : tg.isYamlCoreSchema = false := by
  rw [← Bool.not_eq_true, core_tag]; exact h

theorem value_custom {fo : FloatOps F} {tg : Tag} (h : tg.handle ≠ Block.coreTags) (v st) :
    valueFromCowAndMetadata fo v st (some tg) = .tagged tg (valueFromCowAndMetadata fo v st none) := by
  simp [valueFromCowAndMetadata, not_core h]

theorem float_value {fo : FloatOps F} {v f} (h : parseCoreSchemaFp fo v = some f) :
    valueFromCowAndMetadata fo v .plain (some ⟨Block.coreTags, bs!"float"⟩) = .scalar (.float f) := by
  simp [valueFromCowAndMetadata, parseFromCowAndMetadata, Tag.isYamlCoreSchema, Block.coreTags, h]

theorem special_fp {fo : FloatOps F} {v f} (h : Block.Special fo v f) : parseCoreSchemaFp fo v = some f := by
  cases h with
  | inf h => simp at h; rcases h with rfl | rfl | rfl | rfl | rfl | rfl <;> rfl
  | ninf h => simp at h; rcases h with rfl | rfl | rfl <;> rfl
  | nan h => simp at h; rcases h with rfl | rfl | rfl <;> rfl

theorem float_fp {fo : FloatOps F} {v f} (h : Block.Float fo v f) : parseCoreSchemaFp fo v = some f := by
  obtain ⟨⟨c, hc, hd⟩, hp⟩ := h
  unfold parseCoreSchemaFp
  split
  · rename_i h
    rcases h with rfl | rfl | rfl | rfl | rfl | rfl <;> simp at hc <;> omega
  · split
    · rename_i h
      rcases h with rfl | rfl | rfl <;> simp at hc <;> omega
    · split
      · rename_i h
        rcases h with rfl | rfl | rfl <;> simp at hc <;> omega
      · have : v.any isAsciiDigit = true := List.any_eq_true.2 ⟨c, hc, by simpa [isAsciiDigit] using hd⟩
        rw [if_pos this]; exact hp

theorem reads_value {fo : FloatOps F} {tg v x} (h : Block.Reads false fo tg v x) : valueFromCowAndMetadata fo v .plain tg = x := by
  cases h with
  | untagged h => exact scalar_value h
  | custom h1 h2 => rw [value_custom h1, scalar_value h2]
  | str => exact Props.C06_str_tag fo v .plain
  | int h1 h2 h3 => exact ((Props.C06_core_tag_values fo v).1 _).2 ⟨h2, h3 rfl⟩
  | special h => exact float_value (special_fp h)
  | float h => exact float_value (float_fp h)
  | true h1 h2 => exact ((Props.C06_core_tag_values fo v).2.1 true).2 (h2 rfl)
  | false h1 h2 => exact ((Props.C06_core_tag_values fo v).2.1 false).2 (h2 rfl)
  | null h1 h2 => exact (Props.C06_core_tag_values fo v).2.2.2 (.inr (h2 rfl))

theorem quoted_value {fo : FloatOps F} {tg v x} (st) (hst : st ≠ .plain) (h : Block.Quoted false fo tg v x) : valueFromCowAndMetadata fo v st tg = x := by
  have h0 : valueFromCowAndMetadata fo v st none = .scalar (.str v) := by simp [valueFromCowAndMetadata, parseFromCowAndMetadata, hst]
  cases h with
  | untagged => exact h0
  | custom h1 => rw [value_custom h1, h0]
  | str => exact Props.C06_str_tag fo v st
  | core h => cases h

theorem missing_value {fo : FloatOps F} {tg x} (h : Block.Missing emptyStr tg x) : valueFromCowAndMetadata fo [] .plain tg = x := by
  cases h with
  | untagged => rfl
  | custom h1 => rw [value_custom h1]; rfl
  | str => exact Props.C06_str_tag fo [] .plain

theorem wrap_seq {tg xs} {y : Yaml F} (h : Block.Wrap tg (.seq xs) y) : taggedAs tg (.seq xs) = y := by
  cases h with
  | untagged => rfl
  | custom h => simp [taggedAs, not_core h]
  | seq => simp [taggedAs, Tag.isYamlCoreSchema, Block.coreTags]

theorem wrap_map {tg es} {y : Yaml F} (h : Block.Wrap tg (.map es) y) : taggedAs tg (.map es) = y := by
  cases h with
  | untagged => rfl
  | custom h => simp [taggedAs, not_core h]
  | map => simp [taggedAs, Tag.isYamlCoreSchema, Block.coreTags]

theorem tallAs_text {fo : FloatOps F} {p tg t x} (h : Block.TallAs false fo p tg t x) : ∃ st v, TallText p t (.scalar st v) ∧ valueFromCowAndMetadata fo v st tg = x := by
  cases h with
  | plain h1 h2 h3 => exact ⟨_, _, .plain (lines_flow h2) (plain_first h1), reads_value h3⟩
  | double h h' => exact ⟨_, _, .double (double_flow h), quoted_value _ (by simp) h'⟩
  | single h h' => exact ⟨_, _, .single (single_flow h), quoted_value _ (by simp) h'⟩

/-! ## Anchors -/

/-- the names of anchors -/
def anames (E : Block.Names F) : List (List Byte) := E.map (·.1)

theorem anames_append (E E' : Block.Names F) : anames (E ++ E') = anames E ++ anames E' := by simp [anames]

/-- the values of the anchors numbered from `k + 1` -/
def vals (k : Nat) (A : Anchored F) (E : Block.Names F) : Anchored F := fun id =>
  match (if id ≤ k then none else E[id - k - 1]?) with
  | some (_, some x) => some x
  | _ => A id

theorem vals_nil (k : Nat) (A : Anchored F) : vals k A [] = A := by
  funext id
  simp [vals]

theorem vals_opened (k : Nat) (A : Anchored F) (E an) : vals k A (Block.opened E an) = vals k A E := by
  cases an with
  | none => rfl
  | some a =>
    funext id
    unfold vals Block.opened
    by_cases h : id ≤ k
    · simp [h]
    · simp only [h, if_false]
      rcases Nat.lt_trichotomy (id - k - 1) E.length with h1 | h1 | h1
      · rw [List.getElem?_append_left h1]
      · rw [List.getElem?_append_right (by omega)]; simp [h1]
      · rw [List.getElem?_append_right (by omega), List.getElem?_eq_none (by simp; omega), List.getElem?_eq_none (by omega)]

theorem vals_bind (k : Nat) (A : Anchored F) (E I : Block.Names F) (a x) :
    (vals k A (E ++ (a, none) :: I)).bind (k + E.length + 1) x = vals k A (E ++ (a, some x) :: I) := by
  funext id
  unfold Anchored.bind vals
  by_cases h : id = k + E.length + 1
  · subst h
    have : k + E.length + 1 - k - 1 = E.length := by omega
    rw [if_pos ⟨rfl, by omega⟩, if_neg (by omega), this, List.getElem?_append_right (Nat.le_refl _)]
    simp
  · rw [if_neg (fun h' => h h'.1)]
    by_cases hk : id ≤ k
    · simp [hk]
    · simp only [hk, if_false]
      rcases Nat.lt_trichotomy (id - k - 1) E.length with h1 | h1 | h1
      · rw [List.getElem?_append_left h1, List.getElem?_append_left h1]
      · omega
      · rw [List.getElem?_append_right (by omega), List.getElem?_append_right (by omega)]
        obtain ⟨j, hj⟩ : ∃ j, id - k - 1 - E.length = j + 1 := ⟨id - k - 1 - E.length - 1, by omega⟩
        simp [hj]

theorem known_def {E : Block.Names F} {a x} (ns : List (List Byte)) (A : Anchored F) (h : Block.Known E a x) :
    ∃ j, j < E.length ∧ lastDef (ns ++ anames E) a = some (ns.length + j + 1) ∧ vals ns.length A E (ns.length + j + 1) = some x := by
  obtain ⟨E₁, E₂, rfl, h2⟩ := h
  refine ⟨E₁.length, by simp, ?_, ?_⟩
  · have : ∀ (l : List (List Byte)) (l' : List (List Byte)), (∀ e ∈ l, e ≠ a) → lastDef (l' ++ l) a = lastDef l' a := by
      intro l
      induction l with
      | nil => simp
      | cons e l ih =>
        intro l' hl
        rw [show l' ++ e :: l = (l' ++ [e]) ++ l by simp, ih _ (fun e he => hl e (by simp [he])), lastDef_snoc, if_neg (hl e (by simp))]
    rw [anames_append, ← List.append_assoc, show anames ((a, some x) :: E₂) = [a] ++ anames E₂ from rfl, ← List.append_assoc, this, lastDef_snoc, if_pos rfl]
    · simp [anames]
    · intro e he
      obtain ⟨p, hp, rfl⟩ := List.mem_map.1 he
      exact h2 p hp
  · unfold vals
    have : ns.length + E₁.length + 1 - ns.length - 1 = E₁.length := by omega
    rw [if_neg (by omega), this, List.getElem?_append_right (Nat.le_refl _)]
    simp

/-- aliases refer to the anchors of the document, numbered from `n + 1`; `a` is the anchor the first event defines -/
def Local (a n : Nat) (k : Nat) (evs : List Event) (k' : Nat) : Prop :=
  ∀ d, (∀ j, j < k → n + j + 1 ∈ d ∨ n + j + 1 = a) → AliasesLocal d evs ∧ ∀ j, j < k' → n + j + 1 ∈ docDefs d evs

theorem Local.nil {n k} : Local 0 n k [] k := fun d h => ⟨trivial, fun j hj => (h j hj).resolve_right (by omega)⟩

theorem Local.append {a n k k1 k' e1 e2} (h1 : Local a n k e1 k1) (h2 : Local 0 n k1 e2 k') : Local a n k (e1 ++ e2) k' := by
  intro d hd
  obtain ⟨h3, h4⟩ := h1 d hd
  obtain ⟨h5, h6⟩ := h2 _ (fun j hj => .inl (h4 j hj))
  exact ⟨(aliasesLocal_append _ _ _).2 ⟨h3, h5⟩, by rw [docDefs_append]; exact h6⟩

/-- an event that defines the anchor `a` -/
theorem Local.event {n k e} (h1 : ∀ id, e ≠ .alias id) (h2 : ∀ x, e ≠ .documentStart x) : Local (definedAnchor e) n k [e] k := by
  intro d hd
  refine ⟨⟨fun id h => absurd h (h1 id), trivial⟩, fun j hj => ?_⟩
  have : docDefs d [e] = definedAnchor e :: d := by
    show defsAfter d e = _
    cases e <;> first | rfl | exact absurd rfl (h2 _)
  rw [this]
  rcases hd j hj with h | h
  · exact List.mem_cons_of_mem _ h
  · rw [h]; exact List.mem_cons_self

theorem Local.event0 {n k e} (h1 : ∀ id, e ≠ .alias id) (h2 : ∀ x, e ≠ .documentStart x) : Local 0 n k [e] k := by
  intro d hd
  exact Local.event h1 h2 d fun j hj => .inl ((hd j hj).resolve_right (by omega))

/-! ## Tokens, events and trees -/

/-- the tokens `toks` are an `nt`; their events satisfy `T`; `E` are the anchors of the document before them and `E'` those after them -/
def Sem [Block.Handles] (nt : NT) (T : Anchored F → List Event → Anchored F → Prop) (E : Block.Names F) (toks : List TokenType) (E' : Block.Names F) : Prop :=
  ∀ ns A, ∃ evs, Derives tagTable nt (ns ++ anames E) toks evs (ns ++ anames E') ∧ T (vals ns.length A E) evs (vals ns.length A E') ∧
    Local 0 ns.length E.length evs E'.length

/-- one tree -/
def T1 (fo : FloatOps F) (x : Yaml F) (A : Anchored F) (evs : List Event) (A' : Anchored F) : Prop := Tree UntaggedKey fo A evs x A'

/-- trees -/
def Ts (fo : FloatOps F) (xs : List (Yaml F)) (A : Anchored F) (evs : List Event) (A' : Anchored F) : Prop := Trees UntaggedKey fo A evs xs A'

/-- pairs of trees -/
def Ps (fo : FloatOps F) (es : List (Yaml F × Yaml F)) (A : Anchored F) (evs : List Event) (A' : Anchored F) : Prop := TreePairs UntaggedKey fo A evs es A'

/-- the part of a node after its label -/
def CSem [Block.Handles] (fo : FloatOps F) (pl : Place) (tg : Option Tag) (E : Block.Names F) (toks : List TokenType) (y : Yaml F) (E' : Block.Names F) : Prop :=
  ∀ ns A a, ∃ evs, Derives tagTable (.content pl a tg) (ns ++ anames E) toks evs (ns ++ anames E') ∧
    Tree UntaggedKey fo (vals ns.length A E) evs y ((vals ns.length A E').bind a y) ∧ Local a ns.length E.length evs E'.length

variable [Block.Handles] {fo : FloatOps F} {pl : Place} {tg : Option Tag} {E E' E₁ E₂ : Block.Names F} {toks lt : List TokenType} {x y : Yaml F} {xs : List (Yaml F)} {es : List (Yaml F × Yaml F)}

theorem CSem.bare (h : CSem fo pl none E toks x E') : Sem (.node pl) (T1 fo x) E toks E' := by
  intro ns A
  obtain ⟨evs, h1, h2, h3⟩ := h ns A 0
  exact ⟨evs, .bare h1, by rw [bind_zero] at h2; exact h2, h3⟩

/-- the anchor number of a label -/
abbrev anum (an : Option (List Byte)) (n : Nat) : Nat := match an with | none => 0 | some _ => n + 1

theorem LToks.props {an} (h : LToks lt an tg) (ns : List (List Byte)) (E : Block.Names F) :
    Properties tagTable (ns ++ anames E) lt (anum an (ns.length + E.length)) tg (ns ++ anames (Block.opened E an)) := by
  have e : (ns ++ anames E).length + 1 = ns.length + E.length + 1 := by simp [anames]
  have e' : ∀ a, ns ++ anames (E ++ [(a, none)]) = (ns ++ anames E) ++ [a] := fun a => by simp [anames]
  cases h with
  | anchor => simp only [Block.opened, anum, ← e, e']; exact .anchor
  | tag h => exact .tag h
  | anchorTag h => simp only [Block.opened, anum, ← e, e']; exact .anchorTag h
  | tagAnchor h => simp only [Block.opened, anum, ← e, e']; exact .tagAnchor h

theorem closed_vals {an} (h : Block.Closed E an y E₁ E') (k : Nat) (A : Anchored F) : (vals k A E₁).bind (anum an (k + E.length)) y = vals k A E' := by
  cases h with
  | none => exact bind_zero
  | some => exact vals_bind _ _ _ _ _ _

theorem closed_names {an} (h : Block.Closed E an y E₁ E') : anames E₁ = anames E' ∧ E₁.length = E'.length := by
  cases h with
  | none => exact ⟨rfl, rfl⟩
  | some => simp [anames]

theorem closed_local {an n evs} (h : Block.Closed E an y E₁ E') (hl : Local (anum an (n + E.length)) n (Block.opened E an).length evs E₁.length) :
    Local 0 n E.length evs E'.length := by
  rw [← (closed_names h).2]
  intro d hd
  refine hl d fun j hj => ?_
  cases an with
  | none => exact .inl ((hd j hj).resolve_right (by omega))
  | some a =>
    simp [Block.opened] at hj
    by_cases h : j < E.length
    · exact .inl ((hd j h).resolve_right (by omega))
    · exact .inr (by show _ = n + E.length + 1; omega)

theorem CSem.labelled {an} (hl : LToks lt an tg) (h : CSem fo pl tg (Block.opened E an) toks y E₁) (hc : Block.Closed E an y E₁ E') :
    Sem (.node pl) (T1 fo y) E (lt ++ toks) E' := by
  intro ns A
  obtain ⟨evs, h1, h2, h3⟩ := h ns A (anum an (ns.length + E.length))
  rw [vals_opened, closed_vals hc] at h2
  rw [(closed_names hc).1] at h1
  exact ⟨evs, .props (hl.props ns E) h1, h2, closed_local hc h3⟩

theorem sem_missing {an} (hl : LToks lt an tg) (hv : valueFromCowAndMetadata fo [] .plain tg = y) (hc : Block.Closed E an y (Block.opened E an) E') :
    Sem (.node pl) (T1 fo y) E lt E' := by
  intro ns A
  refine ⟨_, by rw [← (closed_names hc).1]; exact .propsOnly (hl.props ns E), ?_, closed_local hc (Local.event (e := .scalar ⟨[], .plain, anum an (ns.length + E.length), tg⟩) (by simp) (by simp))⟩
  subst hv
  have := Tree.scalar (okKey := UntaggedKey) (fo := fo) (A := vals ns.length A E) ⟨[], .plain, anum an (ns.length + E.length), tg⟩
  rw [← closed_vals hc, vals_opened]
  exact this

theorem sem_alias {a} (h : Block.Known E a x) : Sem (.node pl) (T1 fo x) E [.alias a] E := by
  intro ns A
  obtain ⟨j, h1, h2, h3⟩ := known_def ns A h
  refine ⟨_, .alias h2, .alias h3, fun d hd => ⟨⟨?_, trivial⟩, fun i hi => ?_⟩⟩
  · rintro id ⟨⟩
    exact ⟨by omega, (hd j h1).resolve_right (by omega)⟩
  · exact List.mem_cons_of_mem _ ((hd i hi).resolve_right (by omega))

theorem sem_absent : Sem (.node? pl) (T1 fo emptyStr) E [] E := fun _ _ => ⟨_, .absent, scalar_tree .plain [] _, Local.event0 (by simp) (by simp)⟩

theorem Sem.present {T : Anchored F → List Event → Anchored F → Prop} (h : Sem (.node pl) T E toks E') : Sem (.node? pl) T E toks E' := fun ns A =>
  let ⟨evs, h1, h2⟩ := h ns A
  ⟨evs, .present h1, h2⟩

theorem csem_scalar {st v} (h : valueFromCowAndMetadata fo v st tg = y) : CSem fo pl tg E [.scalar st v] y E := by
  intro ns A a
  subst h
  exact ⟨_, .scalar, .scalar ⟨v, st, a, tg⟩, Local.event (e := .scalar ⟨v, st, a, tg⟩) (by simp) (by simp)⟩

theorem local_coll {a n k evs k' s e} (h : Local 0 n k evs k') (hs : ∀ id, s ≠ .alias id) (hs' : ∀ x, s ≠ .documentStart x) (ha : definedAnchor s = a)
    (he : ∀ id, e ≠ .alias id) (he' : ∀ x, e ≠ .documentStart x) : Local a n k (s :: (evs ++ [e])) k' := by
  subst ha
  exact (Local.event hs hs').append (e1 := [s]) (h.append (Local.event0 he he'))

theorem csem_seq (hp : pl ≠ .flow) (h : Sem (.items false) (Ts fo xs) E toks E') (hw : Block.Wrap tg (.seq xs) y) :
    CSem fo pl tg E (.blockSequenceStart :: (toks ++ [.blockEnd])) y E' := by
  intro ns A a
  obtain ⟨evs, h1, h2, h3⟩ := h ns A
  have := Tree.seq (a := a) (t := tg) h2
  rw [wrap_seq hw] at this
  exact ⟨_, .blockSeq hp h1, this, local_coll h3 (by simp) (by simp) rfl (by simp) (by simp)⟩

theorem csem_indentless (h0 : toks ≠ []) (h : Sem (.items true) (Ts fo xs) E toks E') (hw : Block.Wrap tg (.seq xs) y) : CSem fo .pair tg E toks y E' := by
  intro ns A a
  obtain ⟨evs, h1, h2, h3⟩ := h ns A
  have := Tree.seq (a := a) (t := tg) h2
  rw [wrap_seq hw] at this
  exact ⟨_, .indentless h0 h1, this, local_coll h3 (by simp) (by simp) rfl (by simp) (by simp)⟩

theorem csem_map (hp : pl ≠ .flow) (h : Sem .entries (Ps fo es) E toks E') (hw : Block.Wrap tg (.map es) y) :
    CSem fo pl tg E (.blockMappingStart :: (toks ++ [.blockEnd])) y E' := by
  intro ns A a
  obtain ⟨evs, h1, h2, h3⟩ := h ns A
  have := Tree.map (a := a) (t := tg) h2
  rw [wrap_map hw] at this
  exact ⟨_, .blockMap hp h1, this, local_coll h3 (by simp) (by simp) rfl (by simp) (by simp)⟩

theorem csem_flowSeq (h : Sem .flowItems (Ts fo xs) E toks E') (hw : Block.Wrap tg (.seq xs) y) :
    CSem fo pl tg E (.flowSequenceStart :: (toks ++ [.flowSequenceEnd])) y E' := by
  intro ns A a
  obtain ⟨evs, h1, h2, h3⟩ := h ns A
  have := Tree.seq (a := a) (t := tg) h2
  rw [wrap_seq hw] at this
  exact ⟨_, .flowSeq h1, this, local_coll h3 (by simp) (by simp) rfl (by simp) (by simp)⟩

theorem csem_flowMap (h : Sem .flowEntries (Ps fo es) E toks E') (hw : Block.Wrap tg (.map es) y) :
    CSem fo pl tg E (.flowMappingStart :: (toks ++ [.flowMappingEnd])) y E' := by
  intro ns A a
  obtain ⟨evs, h1, h2, h3⟩ := h ns A
  have := Tree.map (a := a) (t := tg) h2
  rw [wrap_map hw] at this
  exact ⟨_, .flowMap h1, this, local_coll h3 (by simp) (by simp) rfl (by simp) (by simp)⟩

variable {c k v sep : List TokenType}

theorem sem_noItems {b} : Sem (.items b) (Ts fo []) E [] E := fun _ _ => ⟨_, .noItems, .nil, Local.nil⟩

theorem sem_item {b} (h1 : Sem (.node? .block) (T1 fo x) E toks E₁) (h2 : Sem (.items b) (Ts fo xs) E₁ c E') :
    Sem (.items b) (Ts fo (x :: xs)) E (.blockEntry :: (toks ++ c)) E' := by
  intro ns A
  obtain ⟨_, d1, t1, l1⟩ := h1 ns A
  obtain ⟨_, d2, t2, l2⟩ := h2 ns A
  exact ⟨_, .item d1 d2, .cons t1 t2, l1.append l2⟩

theorem sem_noEntries : Sem .entries (Ps fo []) E [] E := fun _ _ => ⟨_, .noEntries, .nil, Local.nil⟩

theorem sem_entry (h1 : Sem (.node? .pair) (T1 fo x) E k E₁) (hx : UntaggedKey x) (h2 : Sem (.node? .pair) (T1 fo y) E₁ v E₂) (h3 : Sem .entries (Ps fo es) E₂ c E') :
    Sem .entries (Ps fo ((x, y) :: es)) E (.key :: (k ++ (.value :: (v ++ c)))) E' := by
  intro ns A
  obtain ⟨_, d1, t1, l1⟩ := h1 ns A
  obtain ⟨_, d2, t2, l2⟩ := h2 ns A
  obtain ⟨_, d3, t3, l3⟩ := h3 ns A
  exact ⟨_, .keyValue d1 d2 d3, .cons t1 hx t2 t3, l1.append (l2.append l3)⟩

theorem sem_keyOnly (h1 : Sem (.node? .pair) (T1 fo x) E k E₁) (hx : UntaggedKey x) (h3 : Sem .entries (Ps fo es) E₁ c E') (hc : c.head? ≠ some .value) :
    Sem .entries (Ps fo ((x, emptyStr) :: es)) E (.key :: (k ++ c)) E' := by
  intro ns A
  obtain ⟨_, d1, t1, l1⟩ := h1 ns A
  obtain ⟨_, d3, t3, l3⟩ := h3 ns A
  exact ⟨_, .keyOnly d1 d3 hc, .cons t1 hx (scalar_tree .plain [] _) t3, l1.append ((Local.event0 (by simp) (by simp)).append l3)⟩

theorem sem_noFlowItems : Sem .flowItems (Ts fo []) E [] E := fun _ _ => ⟨_, .noFlowItems, .nil, Local.nil⟩

theorem sem_flowItem (h1 : Sem (.node .flow) (T1 fo x) E toks E₁) (h2 : Sem .flowItems (Ts fo xs) E₁ c E') (hs : sep = [.flowEntry] ∨ sep = [] ∧ c = []) :
    Sem .flowItems (Ts fo (x :: xs)) E (toks ++ (sep ++ c)) E' := by
  intro ns A
  obtain ⟨_, d1, t1, l1⟩ := h1 ns A
  obtain ⟨_, d2, t2, l2⟩ := h2 ns A
  exact ⟨_, .flowItem d1 d2 hs, .cons t1 t2, l1.append l2⟩

theorem sem_noFlowEntries : Sem .flowEntries (Ps fo []) E [] E := fun _ _ => ⟨_, .noFlowEntries, .nil, Local.nil⟩

theorem sem_flowSingle (h1 : Sem (.node .flow) (T1 fo x) E toks E₁) (hx : UntaggedKey x) (h2 : Sem .flowEntries (Ps fo es) E₁ c E') (hs : sep = [.flowEntry] ∨ sep = [] ∧ c = []) :
    Sem .flowEntries (Ps fo ((x, emptyStr) :: es)) E (toks ++ (sep ++ c)) E' := by
  intro ns A
  obtain ⟨_, d1, t1, l1⟩ := h1 ns A
  obtain ⟨_, d2, t2, l2⟩ := h2 ns A
  exact ⟨_, .flowSingle d1 d2 hs, .cons (ev := [.scalar ⟨[], .plain, 0, none⟩]) t1 hx (scalar_tree .plain [] _) t2,
    l1.append ((Local.event0 (e := .scalar ⟨[], .plain, 0, none⟩) (by simp) (by simp)).append (e1 := [_]) l2)⟩

theorem sem_flowEntry (h1 : Sem (.node? .flow) (T1 fo x) E k E₁) (hx : UntaggedKey x) (h2 : Sem (.node? .flow) (T1 fo y) E₁ v E₂) (h3 : Sem .flowEntries (Ps fo es) E₂ c E')
    (hs : sep = [.flowEntry] ∨ sep = [] ∧ c = []) : Sem .flowEntries (Ps fo ((x, y) :: es)) E (.key :: (k ++ (.value :: (v ++ (sep ++ c))))) E' := by
  intro ns A
  obtain ⟨_, d1, t1, l1⟩ := h1 ns A
  obtain ⟨_, d2, t2, l2⟩ := h2 ns A
  obtain ⟨_, d3, t3, l3⟩ := h3 ns A
  exact ⟨_, .flowKeyValue d1 d2 d3 hs, .cons t1 hx t2 t3, l1.append (l2.append l3)⟩

end Verif.Scanner
