import Verif.Lemmas.ScanBlockText
import Verif.Lemmas.TypedJson
import Verif.Spec.TypedBlock
/-!
# YAML in block style as values of Rust types
-/
namespace Verif.Props
open Verif Verif.Spec Verif.Scanner Verif.De Verif.ParserIter
variable {F : Type}

/-! ## What is said of nodes -/

/-- the tokens `toks` are an `nt` with the events `evs`, define no anchor and use no tag -/
def DS (nt : NT) (toks : List TokenType) (evs : List Event) : Prop := ∀ ⦃lk⦄ ns, Derives lk nt ns toks evs ns

theorem DS.present {pl toks evs} (h : DS (.node pl) toks evs) : DS (.node? pl) toks evs := fun _ ns => .present (h ns)

/-- the text of a node is read as `toks` -/
def Run (p n : Nat) (f : Option Nat) (t : List Byte) (toks : List TokenType) : Block.Spot → Prop
  | .inline => Starts t ∧ ∀ c, NodeG false f p c t toks
  | .own => Starts t ∧ NodeG true f p (n + 1) t toks
  | .beside => Starts t ∧ toks ≠ [] ∧ PartG .blockSequenceStart f (n + 1) t toks
  | .absent => f = none ∧ t = [] ∧ toks = []
  | .flow => f = none ∧ FStarts t ∧ ∃ kind, FNode kind p t toks ∧ kind ≠ .mark

/-- the text of a node has the events `evs` -/
structure BNode (s : Block.Spot) (p n : Nat) (f : Option Nat) (t : List Byte) (evs : List Event) : Prop where
  run : ∃ toks, Run p n f t toks s ∧ DS (.node? .pair) toks evs ∧ (s = .inline ∨ s = .own → DS (.node .block) toks evs) ∧ (s = .flow → DS (.node .flow) toks evs) ∧
    (s = .absent → evs = [.scalar ⟨[], .plain, 0, none⟩])
  node : Node evs
  text : ∀ v, items evs = [.scalar v] → v.tag = none ∧ (s = .absent ∨ Block.Content false p t v.value)

theorem scalar_item {u v : ScalarValue} (h : items [.scalar u] = [.scalar v]) : u = v := by
  have : YamEvent.scalar u = .scalar v := by simpa [items, notAlias, isAlias, item] using h
  cases this
  rfl

/-- a scalar inside of a flow collection -/
theorem element_node {p t st u} (h : TallText p t (.scalar st u)) (he : Block.Element false t) :
    ∃ kind, FStarts t ∧ FNode kind p t [.scalar st u] ∧ kind ≠ .mark ∧ (t.head? = some 34 ∨ t.head? = some 39 → kind = .quoted) := by
  cases h with
  | plain h1 h2 =>
    have h2' := h2
    obtain ⟨⟨c, r, rfl, h3, h4⟩, -⟩ := h2'
    have hx : (∀ b ∈ c :: r, b ∉ bs!",[]{}") ∧ (c :: r).head? ≠ some 58 ∧ ¬ Block.Dashed (c :: r) := by
      rcases he with h | h | h
      · simp at h h3; omega
      · simp at h h3; omega
      · exact ⟨h.1, h.2 rfl⟩
    refine ⟨.plain, pfirst_starts h2 h1, plain_node h1 h2 hx.2.1 (fun b hb => isFlow_mem.2 (hx.1 b hb))
      ⟨?_, fun r' => ⟨fun e => hx.2.2 ⟨r', .inl e⟩, fun e => hx.2.2 ⟨r', .inr e⟩⟩⟩, by simp, by simp at h3 ⊢; omega⟩
    intro e
    simp at e
    obtain ⟨rfl, rfl⟩ := e
    obtain ⟨d, r', h, -⟩ := h4 (by simp)
    cases h
  | double h => exact ⟨.quoted, fstarts_cons (by simp), quoted_node (single := false) rfl h, by simp, by simp⟩
  | single h => exact ⟨.quoted, fstarts_cons (by simp), quoted_node (single := true) rfl h, by simp, by simp⟩

theorem bnode_scalar {s : Block.Spot} {p n f t st u} (h1 : Starts t) (h2 : ∀ c, NodeG false f p c t [.scalar st u]) (hc : Block.Content false p t u)
    (hs : s = .inline ∨ s = .own ∨ (s = .flow ∧ Run p n f t [.scalar st u] .flow)) : BNode s p n f t [.scalar ⟨u, st, 0, none⟩] := by
  refine ⟨⟨[.scalar st u], ?_, fun _ ns => .present (.bare .scalar), fun _ _ ns => .bare .scalar, fun _ _ ns => .bare .scalar, ?_⟩, .scalar _, fun v hv => ?_⟩
  · rcases hs with rfl | rfl | ⟨rfl, h⟩
    · exact ⟨h1, h2⟩
    · exact ⟨h1, NodeG.weaken (h2 _)⟩
    · exact h
  · rintro rfl
    rcases hs with h | h | ⟨h, -⟩ <;> cases h
  · obtain rfl := scalar_item hv
    exact ⟨rfl, .inr hc⟩

theorem bnode_tall {s : Block.Spot} {p n t st u} (hs : s.scalar false t) (h : TallText p t (.scalar st u)) (hc : Block.Content false p t u) :
    BNode s p n none t [.scalar ⟨u, st, 0, none⟩] := by
  refine bnode_scalar (tall_starts h) (fun _ => tallG h) hc ?_
  rcases hs with rfl | rfl | ⟨rfl, he⟩
  · exact .inl rfl
  · exact .inr (.inl rfl)
  · obtain ⟨kind, h1, h2, h3, -⟩ := element_node h he
    exact .inr (.inr ⟨rfl, rfl, h1, kind, h2, h3⟩)

theorem bnode_scroll {s : Block.Spot} {p n c t u} (hs : s.scroll) (h : Block.Scroll false p c t u) :
    ∃ st, st ≠ .plain ∧ BNode s p n (some c) t [.scalar ⟨u, st, 0, none⟩] := by
  obtain ⟨st, h1, h2⟩ := scroll_text h
  exact ⟨st, h1, bnode_scalar (scroll_starts h2) (fun _ => scrollG h2) (.inr (.inr (.inr ⟨c, h⟩))) (hs.imp id .inl)⟩

theorem bnode_absent {p n} : BNode .absent p n none [] [.scalar ⟨[], .plain, 0, none⟩] :=
  ⟨⟨[], ⟨rfl, rfl, rfl⟩, fun _ _ => .absent, by simp, by simp, fun _ => rfl⟩, .scalar _, fun v hv => by
    obtain rfl := scalar_item hv
    exact ⟨rfl, .inl rfl⟩⟩

/-- nothing has the events of an empty scalar -/
theorem BNode.nothing {p n f t evs} (h : BNode .absent p n f t evs) : evs = [.scalar ⟨[], .plain, 0, none⟩] := by
  obtain ⟨-, -, -, -, -, h⟩ := h.run
  exact h rfl

theorem bnode_seq {s : Block.Spot} {p n f t toks evs} (hs : s.items) (h1 : Starts t) (h0 : toks ≠ []) (h2 : PartG .blockSequenceStart f (n + 1) t toks)
    (h3 : ∀ b, DS (.items b) toks evs) (hn : Nodes evs) : BNode s p n f t (.sequenceStart 0 none :: (evs ++ [.sequenceEnd])) := by
  refine ⟨?_, .seq 0 none hn, fun v hv => by rw [items_seq] at hv; cases hv⟩
  rcases hs with rfl | rfl
  · exact ⟨_, ⟨h1, h2.node⟩, fun _ ns => .present (.bare (.blockSeq (by simp) (h3 false ns))), fun _ _ ns => .bare (.blockSeq (by simp) (h3 false ns)), by simp, by simp⟩
  · exact ⟨toks, ⟨h1, h0, h2⟩, fun _ ns => .present (.bare (.indentless h0 (h3 true ns))), by simp, by simp, by simp⟩

theorem bnode_map {p n f t toks evs} (h1 : Starts t) (h2 : PartG .blockMappingStart f (n + 1) t toks)
    (h3 : DS .entries toks evs) (hn : Pairs evs) : BNode .own p n f t (.mappingStart 0 none :: (evs ++ [.mappingEnd])) :=
  ⟨⟨_, ⟨h1, h2.node⟩, fun _ ns => .present (.bare (.blockMap (by simp) (h3 ns))), fun _ _ ns => .bare (.blockMap (by simp) (h3 ns)), by simp, by simp⟩,
    .map 0 none hn, fun v hv => by rw [items_map] at hv; cases hv⟩

/-- where a flow collection stands -/
theorem nested_run {s : Block.Spot} {p n c d tt tt' g r toks} (hs : s.nested) (hb : Brackets c d tt tt') (hg : Block.Space p g) (h1 : r = [] ∨ ∃ t u, r = t ++ u ∧ FStarts t)
    (h2 : Inner d (c == 123) p r toks) : Run p n none (c :: (g ++ (r ++ [d]))) (tt :: (toks ++ [tt'])) s ∧ s ≠ .absent := by
  have h0 : FStarts (c :: (g ++ (r ++ [d]))) := fstarts_cons (by cases hb <;> simp)
  have hd : d = 93 ∨ d = 125 := by cases hb <;> simp
  have hG : ∀ col, NodeG false none p col (c :: (g ++ (r ++ [d]))) (tt :: (toks ++ [tt'])) := fun _ => nestedG hb hg (fun _ => inner_head hd h1) h2
  rcases hs with rfl | rfl | rfl
  · exact ⟨⟨h0.starts, hG⟩, by simp⟩
  · exact ⟨⟨h0.starts, NodeG.weaken (hG _)⟩, by simp⟩
  · exact ⟨⟨rfl, h0, _, nested_node hb hg (fun _ => inner_head hd h1) h2, by simp⟩, by simp⟩

theorem bnode_flowSeq {s : Block.Spot} {p n g r toks evs} (hs : s.nested) (hg : Block.Space p g) (h1 : r = [] ∨ ∃ t u, r = t ++ u ∧ FStarts t) (h2 : Inner 93 false p r toks)
    (h3 : DS .flowItems toks evs) (hn : Nodes evs) : BNode s p n none (91 :: (g ++ (r ++ [93]))) (.sequenceStart 0 none :: (evs ++ [.sequenceEnd])) := by
  obtain ⟨h4, h5⟩ := nested_run (n := n) hs .seq hg h1 h2
  exact ⟨⟨_, h4, fun _ ns => .present (.bare (.flowSeq (h3 ns))), fun _ _ ns => .bare (.flowSeq (h3 ns)), fun _ _ ns => .bare (.flowSeq (h3 ns)), fun h => absurd h h5⟩, .seq 0 none hn,
    fun v hv => by rw [items_seq] at hv; cases hv⟩

theorem bnode_flowMap {s : Block.Spot} {p n g r toks evs} (hs : s.nested) (hg : Block.Space p g) (h1 : r = [] ∨ ∃ t u, r = t ++ u ∧ FStarts t) (h2 : Inner 125 true p r toks)
    (h3 : DS .flowEntries toks evs) (hn : Pairs evs) : BNode s p n none (123 :: (g ++ (r ++ [125]))) (.mappingStart 0 none :: (evs ++ [.mappingEnd])) := by
  obtain ⟨h4, h5⟩ := nested_run (n := n) hs .map hg h1 h2
  exact ⟨⟨_, h4, fun _ ns => .present (.bare (.flowMap (h3 ns))), fun _ _ ns => .bare (.flowMap (h3 ns)), fun _ _ ns => .bare (.flowMap (h3 ns)), fun h => absurd h h5⟩, .map 0 none hn,
    fun v hv => by rw [items_map] at hv; cases hv⟩

/-! ## Items -/

section
variable {α : Type} {R : Block.Shape α} {Q : List YamEvent → α → Prop}

theorem after_reads {n f r x} (hR : ∀ s p n f t x, R s p n f t x → ∃ evs, BNode s p n f t evs ∧ Q (items evs) x) (h : Block.AfterOf R n f r x) :
    ∃ toks evs, FirstBlank r ∧ PartG .blockSequenceStart f (n + 1) (45 :: r) (.blockEntry :: toks) ∧ DS (.node? .block) toks evs ∧ Node evs ∧ Q (items evs) x := by
  cases h with
  | absent h =>
    obtain ⟨evs, hn, hq⟩ := hR _ _ _ _ _ _ h
    obtain rfl := hn.nothing
    exact ⟨[], _, .inl rfl, lead_absent dash_lead, fun _ _ => .absent, hn.node, hq⟩
  | inline h =>
    obtain ⟨evs, hn, hq⟩ := hR _ _ _ _ _ _ h
    obtain ⟨toks, ⟨h1, h2⟩, -, h3, -⟩ := hn.run
    exact ⟨toks, evs, .inr (.inl rfl), lead_node dash_lead (fun _ => spaces_lay') (.inl rfl) (fun mk hm => by rw [spaces_col, hm]; omega) (by omega) (by omega) h2 h1,
      (h3 (.inr rfl)).present, hn.node, hq⟩
  | under hg hm h =>
    obtain ⟨evs, hn, hq⟩ := hR _ _ _ _ _ _ h
    obtain ⟨toks, ⟨h1, h2⟩, -, h3, -⟩ := hn.run
    exact ⟨toks, evs, .inr (head_or (break_first hg)), lead_node dash_lead (fun _ => break_lay hg) (break_first hg) (fun mk _ => break_col hg mk) (by omega) (by omega) h2 h1,
      (h3 (.inr rfl)).present, hn.node, hq⟩

theorem oneItem_ds {b toks evs} (h : DS (.node? .block) toks evs) : DS (.items b) (.blockEntry :: toks) evs := fun _ ns => by
  simpa using DerivesL.item (h ns) .noItems

theorem moreItems_ds {b toks evs toks' evs'} (h : DS (.node? .block) toks evs) (h' : DS (.items b) toks' evs') : DS (.items b) (.blockEntry :: (toks ++ toks')) (evs ++ evs') :=
  fun _ ns => DerivesL.item (h ns) (h' ns)

theorem itemsOf_reads {n f t xs} (hR : ∀ s p n f t x, R s p n f t x → ∃ evs, BNode s p n f t evs ∧ Q (items evs) x) (h : Block.ItemsOf R n f t xs) :
    ∃ toks evs, Starts t ∧ toks ≠ [] ∧ PartG .blockSequenceStart f (n + 1) t toks ∧ (∀ b, DS (.items b) toks evs) ∧ Nodes evs ∧ Each Q (items evs) xs := by
  induction h with
  | one h =>
    obtain ⟨toks, evs, h1, h2, h3, h4, h5⟩ := after_reads hR h
    exact ⟨_, evs, dash_starts h1, by simp, h2, fun _ => oneItem_ds h3, by simpa using Nodes.cons h4 .nil, by simpa using Each.cons h5 .nil⟩
  | more h hg _ ih =>
    obtain ⟨toks, evs, h1, h2, h3, h4, h5⟩ := after_reads hR h
    obtain ⟨toks', evs', h1', -, h2', h3', h4', h5'⟩ := ih
    exact ⟨_, evs ++ evs', (dash_starts h1).append (fun r' _ => by rw [List.append_assoc]; exact break_pend (gap_break hg)), by simp, h2.more hg h2' h1',
      fun b => moreItems_ds h3 (h3' b), .cons h4 h4', by rw [items_append]; exact .cons h5 h5'⟩

end

/-! ## Entries -/

section
variable {κ α : Type} {K : List Byte → κ → Prop} {R : κ → Block.Shape α} {Q : List YamEvent → List (κ × α) → Prop}

/-- what is to be shown of an entry -/
def EntryOk (K : List Byte → κ → Prop) (R : κ → Block.Shape α) (Q : List YamEvent → List (κ × α) → Prop) : Prop :=
  ∀ k x s p n f t y, K k x → R x s p n f t y → ∃ st v evs, LeafText k (.scalar st v) ∧ BNode s p n f t evs ∧
    ∀ es xs, Q es xs → Q (.scalar ⟨v, st, 0, none⟩ :: (items evs ++ es)) ((x, y) :: xs)

theorem entryOf_reads {n f t e} (hE : EntryOk K R Q) (h : Block.EntryOf K R n f t e) :
    ∃ st v toks evs, Starts t ∧ PartG .blockMappingStart f (n + 1) t (.key :: .scalar st v :: .value :: toks) ∧ DS (.node? .pair) toks evs ∧ Node evs ∧
      ∀ es xs, Q es xs → Q (.scalar ⟨v, st, 0, none⟩ :: (items evs ++ es)) (e :: xs) := by
  cases h with
  | absent hk hj h =>
    obtain ⟨st, v, evs, ht, hn, hq⟩ := hE _ _ _ _ _ _ _ _ hk h
    obtain ⟨toks, ⟨-, -, rfl⟩, h3, -⟩ := hn.run
    exact ⟨st, v, [], evs, entry_starts ht (fun _ h => h), entry_absent ht hj (by omega), h3, hn.node, hq⟩
  | @inline k x j m f t y hk hj h =>
    obtain ⟨st, v, evs, ht, hn, hq⟩ := hE _ _ _ _ _ _ _ _ hk h
    obtain ⟨toks, ⟨h1, h2⟩, h3, -⟩ := hn.run
    have hG' := @h2 (n + 1 + k.length + j + 1 + (m + 1))
    refine ⟨st, v, toks, evs, entry_starts ht (fun _ _ => .inr (.inl rfl)), entry_node (c2 := n + 1 + k.length + j + 1 + (m + 1)) ht hj (by omega) (fun _ => spaces_lay') (.inl rfl)
      (fun mk hm => by rw [spaces_col, hm]) (by omega) ?_ h1, h3, hn.node, hq⟩
    have : (Block.spaces (m + 1)).contains 10 = false := contains_false.2 fun x hx => by rw [spaces_mem x hx]; decide
    rw [this]
    exact @hG'
  | under hk hj hg hm h =>
    obtain ⟨st, v, evs, ht, hn, hq⟩ := hE _ _ _ _ _ _ _ _ hk h
    obtain ⟨toks, ⟨h1, h2⟩, h3, -⟩ := hn.run
    refine ⟨st, v, toks, evs, entry_starts ht (fun _ _ => by rw [List.append_assoc]; exact .append (break_first hg)), entry_node ht hj (by omega) (fun _ => break_lay hg) (break_first hg)
      (fun mk _ => break_col hg mk) (by omega) ?_ h1, h3, hn.node, hq⟩
    rw [break_newline hg]
    exact h2
  | beside hk hj hg h =>
    obtain ⟨st, v, evs, ht, hn, hq⟩ := hE _ _ _ _ _ _ _ _ hk h
    obtain ⟨toks, ⟨h1, h0, h2⟩, h3, -⟩ := hn.run
    exact ⟨st, v, toks, evs, entry_starts ht (fun _ _ => by rw [List.append_assoc]; exact .append (break_first hg)), entry_beside ht hj hg h2 h1, h3, hn.node, hq⟩

theorem entries_ds {st v toks evs toks' evs'} (h : DS (.node? .pair) toks evs) (h' : DS .entries toks' evs') :
    DS .entries (.key :: .scalar st v :: .value :: (toks ++ toks')) (.scalar ⟨v, st, 0, none⟩ :: (evs ++ evs')) := fun _ ns =>
  DerivesL.keyValue (k := [.scalar st v]) (.present (.bare .scalar)) (h ns) (h' ns)

theorem items_entry (v : ScalarValue) (evs es : List Event) : items (.scalar v :: (evs ++ es)) = .scalar v :: (items evs ++ items es) := by
  show items ([.scalar v] ++ (evs ++ es)) = _
  rw [items_append, items_append]; rfl

theorem entriesOf_reads {n f t xs} (h0 : Q [] []) (hE : EntryOk K R Q) (h : Block.EntriesOf K R n f t xs) :
    ∃ toks evs, Starts t ∧ PartG .blockMappingStart f (n + 1) t (.key :: toks) ∧ DS .entries (.key :: toks) evs ∧ Pairs evs ∧ Q (items evs) xs := by
  induction h with
  | one h =>
    obtain ⟨st, v, toks, evs, h1, h2, h3, h4, h5⟩ := entryOf_reads hE h
    refine ⟨_, .scalar ⟨v, st, 0, none⟩ :: (evs ++ []), h1, h2, ?_, .cons (.scalar _) h4 .nil, ?_⟩
    · have := entries_ds (st := st) (v := v) h3 (toks' := []) (evs' := []) (fun _ _ => .noEntries)
      simpa using this
    · rw [items_entry]
      exact h5 [] [] h0
  | more h hg _ ih =>
    obtain ⟨st, v, toks, evs, h1, h2, h3, h4, h5⟩ := entryOf_reads hE h
    obtain ⟨toks', evs', h1', h2', h3', h4', h5'⟩ := ih
    refine ⟨_, .scalar ⟨v, st, 0, none⟩ :: (evs ++ evs'), h1.append (fun r' _ => by rw [List.append_assoc]; exact break_pend (gap_break hg)), h2.more hg h2' h1', ?_,
      .cons (.scalar _) h4 h4', ?_⟩
    · have := entries_ds (st := st) (v := v) h3 h3'
      simpa using this
    · rw [items_entry]
      exact h5 _ _ h5'

end

/-! ## Scalars -/

theorem value_parse {fo : FloatOps F} {v st tg x} (h : Scalar.valueFromCowAndMetadata fo v st tg = .scalar x) : Scalar.parseFromCowAndMetadata fo v st tg = some x ∨ ∃ t, tg = some t := by
  cases tg with
  | some t => exact .inr ⟨t, rfl⟩
  | none =>
    left
    simp only [Scalar.valueFromCowAndMetadata] at h
    revert h
    cases Scalar.parseFromCowAndMetadata fo v st none with
    | none => intro h; cases h
    | some y => intro h; cases h; rfl

theorem tall_content {fo : FloatOps F} {p t x} (h : Block.Tall false fo p t (.scalar x)) :
    ∃ st u, TallText p t (.scalar st u) ∧ Block.Content false p t u ∧ Scalar.parseFromCowAndMetadata fo u st none = some x ∧
      (∀ s, x = .str s → u = s) := by
  cases h with
  | plain h1 h2 h3 =>
    refine ⟨_, _, .plain (lines_flow h2) (plain_first h1), .inl ⟨h1, h2⟩, ((value_parse (tg := none) (scalar_value h3)).resolve_right (by simp)), ?_⟩
    rintro s rfl
    cases h3
    rfl
  | double h => exact ⟨_, _, .double (double_flow h), .inr (.inl ⟨_, h, rfl⟩), by simp [Scalar.parseFromCowAndMetadata], by simp⟩
  | single h => exact ⟨_, _, .single (single_flow h), .inr (.inr (.inl ⟨_, h, rfl⟩)), by simp [Scalar.parseFromCowAndMetadata], by simp⟩

theorem value_digits {s : List Byte} : ∀ {a : Option Nat} {n}, s.foldl (fun acc c => do return (← acc) * 10 + (← Core.digit 10 c)) a = some n → ∀ b ∈ s, 48 ≤ b ∧ b ≤ 57 := by
  induction s with
  | nil => simp
  | cons c s ih =>
    intro a n h b hb
    rw [List.foldl_cons] at h
    rcases List.mem_cons.1 hb with rfl | hb
    · have hnone : ∀ (s : List Byte), s.foldl (fun acc c => do return (← acc) * 10 + (← Core.digit 10 c)) (none : Option Nat) = none := by
        intro s
        induction s with
        | nil => rfl
        | cons c s ih => rw [List.foldl_cons]; exact ih
      cases hd : Core.digit 10 b with
      | none =>
        rw [hd] at h
        have : (do return (← a) * 10 + (← (none : Option Nat))) = (none : Option Nat) := by cases a <;> rfl
        rw [this, hnone] at h
        cases h
      | some d =>
        unfold Core.digit at hd
        simp only [] at hd
        split at hd
        · rename_i h; exact h
        · split at hd
          · simp [Option.filter] at hd
            omega
          · split at hd
            · simp [Option.filter] at hd
              omega
            · cases hd
    · exact ih h b hb

theorem numeral_digits {s : List Byte} {n} (h : Core.IsNumeral 10 s n) : s ≠ [] ∧ ∀ b ∈ s, 48 ≤ b ∧ b ≤ 57 := ⟨h.1, value_digits h.2⟩

/-- decimal digits, perhaps after a sign -/
theorem decimal_plain {signed t i} (h : DecimalText signed t i) :
    Block.Begins t ∧ Block.Word t ∧ 10 ∉ t ∧ Block.Element false t := by
  have key : ∀ (c : Byte) (s : List Byte), (c = 43 ∨ c = 45 ∨ 48 ≤ c ∧ c ≤ 57) → (c = 45 → s ≠ []) → (∀ b ∈ s, 48 ≤ b ∧ b ≤ 57) →
      Block.Begins (c :: s) ∧ Block.Word (c :: s) ∧ 10 ∉ c :: s ∧ Block.Element false (c :: s) := by
    intro c s hc hn hs
    have ink : ∀ b, (b = 43 ∨ b = 45 ∨ 48 ≤ b ∧ b ≤ 57) → Block.Ink b := by
      intro b hb
      refine ⟨?_, ?_, ?_, ?_, ?_⟩ <;> simp <;> omega
    have all : ∀ b ∈ c :: s, b = 43 ∨ b = 45 ∨ 48 ≤ b ∧ b ≤ 57 := by
      intro b hb
      rcases List.mem_cons.1 hb with rfl | hb
      · exact hc
      · exact .inr (.inr (hs b hb))
    refine ⟨⟨⟨c, s, rfl, by simp; omega, fun hx => ?_⟩, ?_⟩, ⟨by simp, fun b hb => ink b (all b hb), by simp; omega, fun hx => ?_⟩, fun hx => ?_, .inr (.inr ⟨fun b hb hx => ?_, fun _ => ⟨by simp; omega, ?_⟩⟩)⟩
    · have : c = 45 := by simp at hx; omega
      obtain ⟨d, r, rfl⟩ := List.exists_cons_of_ne_nil (hn this)
      exact ⟨d, r, rfl, ink d (.inr (.inr (hs d (by simp))))⟩
    · intro m r hm e
      rcases hm with rfl | rfl
      · simp at e
        have := hs 45 (by rw [e.2]; simp)
        omega
      · simp at e
        omega
    · have := all _ (List.mem_of_getLast? hx)
      simp at this
    · have := all _ hx
      omega
    · have := all _ hb
      simp at hx
      omega
    · rintro ⟨r, h | h⟩
      · have := all 32 (by rw [h]; simp)
        omega
      · have := all 10 (by rw [h]; simp)
        omega
  cases h with
  | dec h =>
    obtain ⟨h1, h2⟩ := numeral_digits h
    obtain ⟨c, s, rfl⟩ := List.exists_cons_of_ne_nil h1
    exact key c s (.inr (.inr (h2 c (by simp)))) (fun hx => by have := h2 c (by simp); omega) (fun b hb => h2 b (by simp [hb]))
  | plus h =>
    obtain ⟨h1, h2⟩ := numeral_digits h
    exact key _ _ (.inl rfl) (fun hx => h1) h2
  | minus _ h =>
    obtain ⟨h1, h2⟩ := numeral_digits h
    exact key _ _ (.inr (.inl rfl)) (fun hx => h1) h2

theorem null_plain : Block.Begins bs!"null" ∧ Block.Words bs!"null" := by
  refine ⟨⟨⟨_, _, rfl, by decide, by simp⟩, ?_⟩, .one ⟨by simp, ?_, by decide, by decide⟩⟩
  · intro m r hm e
    rcases hm with rfl | rfl <;> simp at e
  · intro b hb
    simp at hb
    refine ⟨?_, ?_, ?_, ?_, ?_⟩ <;> simp <;> omega

/-- a scalar of a type -/
theorem simple_reads {fo : FloatOps F} {ofInt : Int → F} {ty p t} {v : Val F} (h : Block.Simple false fo ofInt ty p t v) :
    ∃ st u, TallText p t (.scalar st u) ∧ Block.Content false p t u ∧ Reads fo ofInt (textReading fo) ty [.scalar ⟨u, st, 0, none⟩] v := by
  have tall : ∀ {x}, Block.Tall false fo p t (.scalar x) → ∃ st u, TallText p t (.scalar st u) ∧ Block.Content false p t u ∧
      Resolves fo [.scalar ⟨u, st, 0, none⟩] x ∧ (∀ s, x = .str s → u = s) := by
    intro x h
    obtain ⟨st, u, h1, h2, h3, h4⟩ := tall_content h
    exact ⟨st, u, h1, h2, ⟨_, rfl, h3⟩, h4⟩
  cases ty with
  | int ty =>
    obtain ⟨i, h | ⟨h, -⟩, h1, h2, rfl⟩ := h
    · obtain ⟨a, b, -, -⟩ := decimal_plain h
      have hl : Block.PlainLines false p t t := .one (.one b)
      exact ⟨.plain, t, .plain (lines_flow hl) (plain_first a), .inl ⟨a, hl⟩, by rw [Reads]; exact ⟨_, i, rfl, ⟨h, h1, h2⟩, rfl⟩⟩
    · cases h
  | bool =>
    obtain ⟨b, h, rfl⟩ := h
    obtain ⟨st, u, h1, h2, h3, -⟩ := tall h
    exact ⟨st, u, h1, h2, by rw [Reads]; exact ⟨b, h3, rfl⟩⟩
  | float =>
    rcases h with ⟨d, h, rfl⟩ | ⟨d, h, rfl⟩
    · obtain ⟨st, u, h1, h2, h3, -⟩ := tall h
      exact ⟨st, u, h1, h2, by rw [Reads]; exact .inl ⟨d, h3, rfl⟩⟩
    · obtain ⟨st, u, h1, h2, h3, -⟩ := tall h
      exact ⟨st, u, h1, h2, by rw [Reads]; exact .inr ⟨d, h3, rfl⟩⟩
  | str =>
    obtain ⟨b, h, rfl⟩ := h
    obtain ⟨st, u, h1, h2, h3, -⟩ := tall h
    exact ⟨st, u, h1, h2, by rw [Reads]; exact ⟨b, h3, rfl⟩⟩
  | unit =>
    obtain ⟨rfl | ⟨h, -⟩, rfl⟩ := h
    · have hl : Block.PlainLines false p bs!"null" bs!"null" := .one null_plain.2
      exact ⟨.plain, _, .plain (lines_flow hl) (plain_first null_plain.1), .inl ⟨null_plain.1, hl⟩, by rw [Reads]; exact ⟨_, rfl, .inr (.inl rfl), rfl⟩⟩
    · cases h
  | choice vs =>
    obtain ⟨n, h, hu, rfl⟩ := h
    obtain ⟨st, u, h1, h2, h3, h4⟩ := tall h
    obtain rfl := h4 n rfl
    exact ⟨st, u, h1, h2, by rw [Reads]; exact .inl ⟨_, _, rfl, rfl, hu, rfl⟩⟩
  | _ => exact h.elim

theorem tall_leaf {t st u} (h : TallText 0 t (.scalar st u)) (hc : Block.Content false 0 t u) (hn : 10 ∉ t) : LeafText t (.scalar st u) := by
  cases h with
  | plain h1 h2 =>
    rcases hc with ⟨-, h3⟩ | ⟨w, -, rfl⟩ | ⟨w, -, rfl⟩ | ⟨c, h3⟩
    · obtain ⟨h4, rfl⟩ := lines_flat h3 hn
      exact .plain (words_pwords h4) h2
    · obtain ⟨⟨c, r, e, h3, -⟩, -⟩ := h2
      cases e
      simp at h3
    · obtain ⟨⟨c, r, e, h3, -⟩, -⟩ := h2
      cases e
      simp at h3
    · cases h3 with
      | mk => exact absurd (by simp) hn
      | empty hf => cases hf
  | double h1 =>
    have hm : ∀ b ∈ _, b ≠ 10 := fun b hb hx => hn (by subst hx; exact List.mem_cons_of_mem _ (List.mem_append_left _ hb))
    exact .double (h1.oneLine hm) hm
  | single h1 =>
    have hm : ∀ b ∈ _, b ≠ 10 := fun b hb hx => hn (by subst hx; exact List.mem_cons_of_mem _ (List.mem_append_left _ hb))
    exact .single (h1.oneLine hm) hm

theorem key_block {fo : FloatOps F} {ofInt : Int → F} {ty k} {v : Val F} (h : Block.Key false fo ofInt ty k v) :
    ∃ st u, LeafText k (.scalar st u) ∧ Reads fo ofInt (textReading fo) ty [.scalar ⟨u, st, 0, none⟩] v := by
  obtain ⟨st, u, h1, h2, h3⟩ := simple_reads h.1
  exact ⟨st, u, tall_leaf h1 h2 h.2, h3⟩

theorem leaf_resolves {fo : FloatOps F} {k x} (h : Block.Leaf false fo k (.scalar x)) : ∃ st u, LeafText k (.scalar st u) ∧ Resolves fo [.scalar ⟨u, st, 0, none⟩] x := by
  obtain ⟨st, u, h1, h2, h3, -⟩ := tall_content h.1
  exact ⟨st, u, tall_leaf h1 h2 h.2, _, rfl, h3⟩

/-! ## Flow collections -/

theorem inner_last {kind p t g toks} (h2 : FNode kind p t toks) (hg : Block.Space p g) : Inner 93 false p (t ++ g) toks := by
  intro cfg s out k ks n M I0 L q h hbt hal _
  rw [List.append_assoc] at h
  obtain ⟨m, s', f, hm, ⟨k', hfl, -⟩, hfm, -⟩ := h2 h hbt (space_gap hg) ⟨_, _, rfl, by simp⟩ (fun _ => stop_flow (by simp)) (by simp) (calmly_end hg (by simp))
  exact ⟨m, s', k', f, by simp; omega, hfl, hfm⟩

theorem inner_more {kind p t g g' r toks toks'} (h2 : FNode kind p t toks) (hg : Block.Space p g) (hg' : Block.Space p g')
    (h1' : r = [] ∨ ∃ t u, r = t ++ u ∧ FStarts t) (h2' : Inner 93 false p r toks') :
    Inner 93 false p (t ++ (g ++ 44 :: (g' ++ r))) (toks ++ ([.flowEntry] ++ toks')) := by
  intro cfg s out k ks n M I0 L q h hbt hal _
  have e : (t ++ (g ++ 44 :: (g' ++ r))) ++ 93 :: q = t ++ (g ++ 44 :: (g' ++ (r ++ 93 :: q))) := by simp
  rw [e] at h
  obtain ⟨m, s1, f1, hm, ⟨k1, hfl1, -⟩, hfm1, -⟩ := h2 h hbt (space_gap hg) ⟨_, _, rfl, by simp⟩ (fun _ => stop_flow (by simp)) (by simp) (calmly_end hg (by simp))
  obtain ⟨s2, k2, e2, hfl2, hal2, hfm2⟩ := comma_step hfl1 (space_gap hg') (inner_head (.inl rfl) h1')
  obtain ⟨m3, s3, k3, f3, hm3, hfl3, hfm3⟩ := h2' hfl2 hbt hal2 (by simp)
  exact ⟨_, s3, k3, f1.trans (.step e2 f3), by simp; omega, by simpa using hfl3, fun hx => hfm3 (hfm2.trans (hfm1 hx))⟩

/-- what stands between brackets has the events `evs` -/
def Bracketed (p : Nat) (r : List Byte) (evs : List Event) : Prop :=
  ∃ toks, (r = [] ∨ ∃ t u, r = t ++ u ∧ FStarts t) ∧ Inner 93 false p r toks ∧ DS .flowItems toks evs ∧ Nodes evs

theorem bracketed_nil {p} : Bracketed p [] [] := ⟨[], .inl rfl, inner_nil, fun _ _ => .noFlowItems, .nil⟩

theorem bracketed_last {p n f t g evs} (h : BNode .flow p n f t evs) (hg : Block.Space p g) : Bracketed p (t ++ g) evs := by
  obtain ⟨toks, ⟨-, h1, kind, h2, -⟩, -, -, h3, -⟩ := h.run
  exact ⟨_, .inr ⟨t, g, rfl, h1⟩, inner_last h2 hg, fun _ ns => by simpa using DerivesL.flowItem (sep := []) (h3 rfl ns) .noFlowItems (.inr ⟨rfl, rfl⟩), by
    simpa using Nodes.cons h.node .nil⟩

theorem bracketed_more {p n f t g g' r evs evs'} (h : BNode .flow p n f t evs) (hg : Block.Space p g) (hg' : Block.Space p g')
    (h' : Bracketed p r evs') : Bracketed p (t ++ (g ++ 44 :: (g' ++ r))) (evs ++ evs') := by
  obtain ⟨toks, ⟨-, h1, kind, h2, -⟩, -, -, h3, -⟩ := h.run
  obtain ⟨toks', h4, h5, h6, h7⟩ := h'
  exact ⟨_, .inr ⟨t, _, rfl, h1⟩, inner_more h2 hg hg' h4 h5, fun _ ns => .flowItem (h3 rfl ns) (h6 ns) (.inl rfl), .cons h.node h7⟩

theorem bracketed_node {s : Block.Spot} {p n t r evs} (hs : s.nested) (ht : Block.InBrackets p t r) (h : Bracketed p r evs) :
    BNode s p n none t (.sequenceStart 0 none :: (evs ++ [.sequenceEnd])) := by
  obtain ⟨g, hg, rfl⟩ := ht
  obtain ⟨toks, h1, h2, h3, h4⟩ := h
  exact bnode_flowSeq hs hg h1 h2 h3 h4

theorem elementsOf_reads {α : Type} {R : Block.Shape α} {Q : List YamEvent → α → Prop} {p r xs} (hR : ∀ s p n f t x, R s p n f t x → ∃ evs, BNode s p n f t evs ∧ Q (items evs) x)
    (h : Block.ElementsOf R p r xs) : ∃ evs, Bracketed p r evs ∧ Each Q (items evs) xs := by
  induction h with
  | nil => exact ⟨[], bracketed_nil, .nil⟩
  | last h hg =>
    obtain ⟨evs, h1, h2⟩ := hR _ _ _ _ _ _ h
    exact ⟨_, bracketed_last h1 hg, by simpa using Each.cons h2 .nil⟩
  | more h hg hg' _ ih =>
    obtain ⟨evs, h1, h2⟩ := hR _ _ _ _ _ _ h
    obtain ⟨evs', h3, h4⟩ := ih
    exact ⟨_, bracketed_more h1 hg hg' h3, by rw [items_append]; exact .cons h2 h4⟩

/-! ### Braces -/

/-- what stands between braces has the events `evs` -/
def Braced (p : Nat) (r : List Byte) (evs : List Event) : Prop :=
  ∃ toks, (r = [] ∨ ∃ t u, r = t ++ u ∧ FStarts t) ∧ Inner 125 true p r toks ∧ DS .flowEntries toks evs ∧ Pairs evs

theorem braced_node {s : Block.Spot} {p n t r evs} (hs : s.nested) (ht : Block.InBraces p t r) (h : Braced p r evs) :
    BNode s p n none t (.mappingStart 0 none :: (evs ++ [.mappingEnd])) := by
  obtain ⟨g, hg, rfl⟩ := ht
  obtain ⟨toks, h1, h2, h3, h4⟩ := h
  exact bnode_flowMap hs hg h1 h2 h3 h4

section
variable {κ α : Type} {p : Nat} {K : List Byte → κ → Prop} {R : κ → Block.Shape α} {Q : List YamEvent → List (κ × α) → Prop}

/-- what is to be shown of an entry -/
def PairOk (p : Nat) (K : List Byte → κ → Prop) (R : κ → Block.Shape α) (Q : List YamEvent → List (κ × α) → Prop) : Prop :=
  ∀ k x s t y, K k x → R x s p 0 none t y → ∃ st v evs, Block.Element false k ∧ TallText p k (.scalar st v) ∧ BNode s p 0 none t evs ∧
    ∀ es xs, Q es xs → Q (.scalar ⟨v, st, 0, none⟩ :: (items evs ++ es)) ((x, y) :: xs)

theorem pairOf_reads {t e} (hE : PairOk p K R Q) (h : Block.PairOf K R p t e) :
    ∃ v toks evs, (∃ t' u, t = t' ++ u ∧ FStarts t') ∧ FEntryRun p t toks ∧ Node evs ∧
      (∀ {sep c evs'}, DS .flowEntries c evs' → (sep = [TokenType.flowEntry] ∨ sep = [] ∧ c = []) → DS .flowEntries (toks ++ (sep ++ c)) (.scalar v :: (evs ++ evs'))) ∧
      ∀ es xs, Q es xs → Q (.scalar v :: (items evs ++ es)) (e :: xs) := by
  cases h with
  | alone hk h =>
    obtain ⟨st, v, evs, he, ht, hn, hq⟩ := hE _ _ _ _ _ hk h
    obtain ⟨kind, h1, h2, -, -⟩ := element_node ht he
    obtain rfl := hn.nothing
    exact ⟨_, _, _, ⟨_, [], by simp, h1⟩, alone_run h2, hn.node, fun hc hs _ ns => DerivesL.flowSingle (x := [.scalar st v]) (.bare .scalar) (hc ns) hs, hq⟩
  | absent hk hg h =>
    obtain ⟨st, v, evs, he, ht, hn, hq⟩ := hE _ _ _ _ _ hk h
    obtain ⟨kind, h1, h2, h3, -⟩ := element_node ht he
    obtain rfl := hn.nothing
    refine ⟨_, _, _, ⟨_, _, rfl, h1⟩, keyOnly_run h2 hg (fun h => absurd h h3), hn.node, fun hc hs lk ns => ?_, hq⟩
    have := DerivesL.flowKeyValue (lookup := lk) (k := [.scalar st v]) (v := []) (.present (.bare .scalar)) .absent (hc ns) hs
    simpa using this
  | value hk hg hg' hq' h =>
    obtain ⟨st, v, evs, he, ht, hn, hq⟩ := hE _ _ _ _ _ hk h
    obtain ⟨kind, h1, h2, h3, h4⟩ := element_node ht he
    obtain ⟨toks, ⟨-, h5, kind', h6, -⟩, -, -, h7, -⟩ := hn.run
    refine ⟨_, _, evs, ⟨_, _, rfl, h1⟩, keyValue_run h2 hg (fun h => absurd h h3) hg' (fun h => ?_) h5 h6, hn.node, fun hc hs lk ns => ?_, hq⟩
    · have := h4 (hq' h)
      exact ⟨.inl this, fun h => by rw [this] at h; cases h⟩
    · have := DerivesL.flowKeyValue (lookup := lk) (k := [.scalar st v]) (.present (.bare .scalar)) (.present (h7 rfl ns)) (hc ns) hs
      simpa using this

theorem pairsOf_reads {r xs} (h0 : Q [] []) (hE : PairOk p K R Q) (h : Block.PairsOf K R p r xs) : ∃ evs, Braced p r evs ∧ Q (items evs) xs := by
  induction h with
  | nil => exact ⟨[], ⟨[], .inl rfl, inner_nil, fun _ _ => .noFlowEntries, .nil⟩, h0⟩
  | @last t e g h hg =>
    obtain ⟨v, toks, evs, ⟨t', u, h1, h2⟩, h3, h4, h5, h6⟩ := pairOf_reads hE h
    refine ⟨.scalar v :: (evs ++ []), ⟨toks, .inr ⟨t', u ++ g, by rw [h1]; simp, h2⟩, entryRun_last h3 hg, ?_, .cons (.scalar _) h4 .nil⟩, ?_⟩
    · simpa using h5 (sep := []) (c := []) (fun _ _ => .noFlowEntries) (.inr ⟨rfl, rfl⟩)
    · rw [items_entry]
      exact h6 [] [] h0
  | @more t e g g' r es h hg hg' _ ih =>
    obtain ⟨v, toks, evs, ⟨t', u, h1, h2⟩, h3, h4, h5, h6⟩ := pairOf_reads hE h
    obtain ⟨evs', ⟨toks', h7, h8, h9, h10⟩, h11⟩ := ih
    refine ⟨.scalar v :: (evs ++ evs'), ⟨_, .inr ⟨t', _, by rw [h1, List.append_assoc], h2⟩, entryRun_more h3 hg hg' h7 h8, h5 h9 (.inl rfl), .cons (.scalar _) h4 h10⟩, ?_⟩
    rw [items_entry]
    exact h6 _ _ h11

end

theorem flowKey_block {fo : FloatOps F} {ofInt : Int → F} {ty p k} {v : Val F} (h : Block.FlowKey false fo ofInt ty p k v) :
    ∃ st u, Block.Element false k ∧ TallText p k (.scalar st u) ∧ Reads fo ofInt (textReading fo) ty [.scalar ⟨u, st, 0, none⟩] v := by
  obtain ⟨st, u, h1, -, h3⟩ := simple_reads h.2
  exact ⟨st, u, h.1, h1, h3⟩

theorem flowTall_resolves {fo : FloatOps F} {p k x} (h : Block.Tall false fo p k (.scalar x)) : ∃ st u, TallText p k (.scalar st u) ∧ Resolves fo [.scalar ⟨u, st, 0, none⟩] x := by
  obtain ⟨st, u, h1, -, h3, -⟩ := tall_content h
  exact ⟨st, u, h1, _, rfl, h3⟩

/-! ## Values that are ignored -/

theorem any_reads {fo : FloatOps F} {s p n f t x} (h : Block.AnyScalar fo s p n f t x) : ∃ v, BNode s p n f t [.scalar v] ∧ Resolvable fo v := by
  rcases h with ⟨hs, rfl, y, h⟩ | ⟨hs, c, u, rfl, h⟩ | ⟨rfl, rfl, rfl⟩
  · obtain ⟨z, rfl⟩ : ∃ z, y = .scalar z := by cases h <;> exact ⟨_, rfl⟩
    obtain ⟨st, u, h1, h2, h3, -⟩ := tall_content h
    exact ⟨_, bnode_tall hs h1 h2, _, h3⟩
  · obtain ⟨st, h1, h2⟩ := bnode_scroll (n := n) hs h
    exact ⟨_, h2, .str u, by cases st <;> first | exact absurd rfl h1 | simp [Scalar.parseFromCowAndMetadata]⟩
  · exact ⟨_, bnode_absent, _, rfl⟩

theorem each_scalars {fo : FloatOps F} {evs} {xs : List Unit} (h : Each (fun es (_ : Unit) => ∃ v, es = [.scalar v] ∧ Resolvable fo v) evs xs) :
    ∃ vs : List ScalarValue, evs = vs.map .scalar ∧ ∀ v ∈ vs, Resolvable fo v := by
  induction h with
  | nil => exact ⟨[], rfl, by simp⟩
  | cons h _ ih =>
    obtain ⟨v, rfl, hv⟩ := h
    obtain ⟨vs, rfl, hvs⟩ := ih
    refine ⟨v :: vs, rfl, fun u hu => ?_⟩
    rcases List.mem_cons.1 hu with rfl | hu
    · exact hv
    · exact hvs u hu

theorem flat_reads {fo : FloatOps F} : ∀ d s p n f t x, Block.Flat fo d s p n f t x → ∃ evs, BNode s p n f t evs ∧ PlainNode fo (items evs)
  | 0, s, p, n, f, t, x, h => by
    obtain ⟨v, h1, h2⟩ := any_reads h
    exact ⟨_, h1, .scalar h2⟩
  | d + 1, s, p, n, f, t, x, h => by
    have any : ∀ s p n f t x, Block.AnyScalar fo s p n f t x → ∃ evs, BNode s p n f t evs ∧ ∃ v, items evs = [.scalar v] ∧ Resolvable fo v := by
      intro s p n f t x h
      obtain ⟨v, h1, h2⟩ := any_reads h
      exact ⟨_, h1, v, rfl, h2⟩
    rcases h with h | ⟨hs, xs, h⟩ | ⟨rfl, xs, h⟩ | ⟨hs, rfl, r, xs, h1, h2⟩ | ⟨hs, rfl, r, xs, h1, h2⟩
    · obtain ⟨v, h1, h2⟩ := any_reads h
      exact ⟨_, h1, .scalar h2⟩
    · obtain ⟨toks, evs, h1, h0, h2, h3, h4, h5⟩ := itemsOf_reads (Q := fun es (_ : Unit) => ∃ v, es = [.scalar v] ∧ Resolvable fo v) any h
      obtain ⟨vs, h6, h7⟩ := each_scalars h5
      exact ⟨_, bnode_seq hs h1 h0 h2 h3 h4, by rw [items_seq, h6]; exact .seq 0 none h7⟩
    · obtain ⟨toks, evs, h1, h2, h3, h4, h5⟩ := entriesOf_reads (Q := fun es _ => PlainPairs fo es) .nil (fun k x s p n f t y hk h => by
        obtain ⟨z, hk⟩ := hk
        obtain ⟨z, rfl⟩ : ∃ y, z = .scalar y := by cases hk.1 <;> exact ⟨_, rfl⟩
        obtain ⟨st, u, h6, h7⟩ := leaf_resolves hk
        obtain ⟨evs, h8, h9⟩ := flat_reads d s p n f t y h
        exact ⟨st, u, evs, h6, h8, fun es xs hx => .cons (resolvable_of h7) h9 hx⟩) h
      exact ⟨_, bnode_map h1 h2 h3 h4, by rw [items_map]; exact .map 0 none h5⟩
    · obtain ⟨evs, h3, h4⟩ := elementsOf_reads (Q := fun es (_ : Unit) => ∃ v, es = [.scalar v] ∧ Resolvable fo v) any h2
      obtain ⟨vs, h6, h7⟩ := each_scalars h4
      exact ⟨_, bracketed_node hs h1 h3, by rw [items_seq, h6]; exact .seq 0 none h7⟩
    · obtain ⟨evs, h3, h4⟩ := pairsOf_reads (Q := fun es _ => PlainPairs fo es) .nil (fun k x s t y hk h => by
        obtain ⟨he, z, hk⟩ := hk
        obtain ⟨z, rfl⟩ : ∃ y, z = .scalar y := by cases hk <;> exact ⟨_, rfl⟩
        obtain ⟨st, u, h6, h7⟩ := flowTall_resolves hk
        obtain ⟨evs, h8, h9⟩ := flat_reads d s p 0 none t y h
        exact ⟨st, u, evs, he, h6, h8, fun es xs hx => .cons (resolvable_of h7) h9 hx⟩) h2
      exact ⟨_, braced_node hs h1 h3, by rw [items_map]; exact .map 0 none h4⟩

/-! ## Values -/

theorem not_null_block {fo : FloatOps F} {s p n f t evs} (hn : BNode s p n f t evs) (h : Block.NotNull false fo s p t) :
    ∀ v, items evs = [.scalar v] → ¬ (textReading fo).null v := by
  intro v hv hx
  obtain ⟨ht, hw⟩ := hn.text v hv
  obtain ⟨h1, -, h2⟩ := h
  obtain ⟨h3, h4⟩ := h2 rfl _ (hw.resolve_left h1)
  rcases hx with h | h | ⟨-, t, h, -⟩
  · exact h3 h
  · exact h4 h
  · rw [ht] at h; cases h

/-- entries with strings as keys -/
theorem fieldsOf_reads {α : Type} {fo : FloatOps F} {R : List Byte → Block.Shape α} {Q : List YamEvent → List (List Byte × α) → Prop} {s p n f t es} (h0 : Q [] [])
    (hR : ∀ name s p n f t y, R name s p n f t y → ∃ evs, BNode s p n f t evs ∧
      ∀ v, Resolves fo [.scalar v] (.str name) → ∀ es xs, Q es xs → Q (.scalar v :: (items evs ++ es)) ((name, y) :: xs))
    (h : Block.FieldsOf false fo R s p n f t es) : ∃ evs, BNode s p n f t (.mappingStart 0 none :: (evs ++ [.mappingEnd])) ∧ Q (items evs) es := by
  rcases h with ⟨rfl, h⟩ | ⟨hs, rfl, r, h1, h2⟩
  · obtain ⟨toks, evs, h1, h2, h3, h4, h5⟩ := entriesOf_reads (Q := Q) h0 (fun k x s p n f t y hk h => by
      obtain ⟨st, u, h6, h7⟩ := leaf_resolves hk
      obtain ⟨evs, h8, h9⟩ := hR _ _ _ _ _ _ _ h
      exact ⟨st, u, evs, h6, h8, h9 _ h7⟩) h
    exact ⟨evs, bnode_map h1 h2 h3 h4, h5⟩
  · obtain ⟨evs, h3, h4⟩ := pairsOf_reads (Q := Q) h0 (fun k x s t y hk h => by
      obtain ⟨st, u, h6, h7⟩ := flowTall_resolves hk.2
      obtain ⟨evs, h8, h9⟩ := hR _ _ _ _ _ _ _ h
      exact ⟨st, u, evs, hk.1, h6, h8, h9 _ h7⟩) h2
    exact ⟨evs, braced_node hs h1 h3, h4⟩

theorem struct_block {fo : FloatOps F} {deny fs} {field : List Byte → Block.Shape (Val F)} {rfield : List Byte → List YamEvent → Val F → Prop} {s p n f t} {v : Val F}
    (hP : ∀ name s p n f t x, field name s p n f t x → ∃ evs, BNode s p n f t evs ∧ rfield name (items evs) x)
    (h : Block.Struct false fo deny fs field s p n f t v) :
    ∃ evs, BNode s p n f t evs ∧ ReadsStruct fo (textReading fo) deny (fs.map (·.1)) (Declared · fs) rfield (items evs) v := by
  obtain ⟨es, out, h, hnd, hdec, rfl⟩ := h
  obtain ⟨evs, h1, h5⟩ := fieldsOf_reads
    (Q := fun evs es => EachField (fun evs n => Resolves fo evs (.str n)) rfield (· ∈ fs.map (·.1)) (fun evs => deny = false ∧ (textReading fo).ignored evs) evs (Block.foundIn es))
    .nil (fun name s p n f t y h => by
      cases y with
      | some y =>
        obtain ⟨evs, h8, h9⟩ := hP _ _ _ _ _ _ _ h
        exact ⟨evs, h8, fun v h7 es xs hx => .cons (a := [_]) h7 h9 hx⟩
      | none =>
        obtain ⟨hk, hd, hi⟩ := h
        rcases hi with ⟨d, hi⟩ | ⟨hi, -⟩ | ⟨hi, -⟩
        · obtain ⟨evs, h8, h9⟩ := flat_reads d s p n f t () hi
          exact ⟨evs, h8, fun v h7 es xs hx => .skip (a := [_]) h7 hk ⟨hd, h9⟩ hx⟩
        · cases hi
        · cases hi) h
  refine ⟨_, h1, ?_⟩
  rw [items_map]
  exact ⟨0, none, _, _, out, rfl, h5, hnd, hdec, rfl⟩

theorem scalar_block {fo : FloatOps F} {ofInt : Int → F} {ty : Ty} {s : Block.Spot} {p n f t} {v : Val F} (hs : s.scalar false t) (hf : f = none) (h : Block.Simple false fo ofInt ty p t v) :
    ∃ evs, BNode s p n f t evs ∧ Reads fo ofInt (textReading fo) ty (items evs) v := by
  subst hf
  obtain ⟨st, u, h1, h2, h3⟩ := simple_reads h
  exact ⟨_, bnode_tall hs h1 h2, h3⟩

theorem null_block {s : Block.Spot} {p n t} (h : s.scalar false t ∧ t = bs!"null" ∨ s = .absent ∧ t = []) :
    ∃ u st, (u = [] ∨ u = bs!"null") ∧ BNode s p n none t [.scalar ⟨u, st, 0, none⟩] := by
  rcases h with ⟨hs, rfl⟩ | ⟨rfl, rfl⟩
  · have hl : Block.PlainLines false p bs!"null" bs!"null" := .one null_plain.2
    exact ⟨_, .plain, .inr rfl, bnode_tall hs (.plain (lines_flow hl) (plain_first null_plain.1)) (.inl ⟨null_plain.1, hl⟩)⟩
  · exact ⟨_, _, .inl rfl, bnode_absent⟩

mutual
  theorem btyped_reads {fo : FloatOps F} {ofInt : Int → F} : (ty : Ty) → (s : Block.Spot) → (p n : Nat) → (f : Option Nat) → (t : List Byte) → (v : Val F) →
      Block.Typed false fo ofInt ty s p n f t v → ∃ evs, BNode s p n f t evs ∧ Reads fo ofInt (textReading fo) ty (items evs) v
    | .int ty, s, p, n, f, t, v, h => by
      rw [Block.Typed] at h
      exact scalar_block h.1 h.2.1 h.2.2
    | .bool, s, p, n, f, t, v, h => by
      rw [Block.Typed] at h
      exact scalar_block h.1 h.2.1 h.2.2
    | .float, s, p, n, f, t, v, h => by
      rw [Block.Typed] at h
      exact scalar_block h.1 h.2.1 h.2.2
    | .str, s, p, n, f, t, v, h => by
      rw [Block.Typed] at h
      rcases h with ⟨hs, hf, h⟩ | ⟨hs, c, u, rfl, h, rfl⟩
      · exact scalar_block hs hf h
      · obtain ⟨st, h1, h2⟩ := bnode_scroll (n := n) hs h
        refine ⟨_, h2, ?_⟩
        rw [Reads]
        exact ⟨u, ⟨_, rfl, by cases st <;> first | exact absurd rfl h1 | simp [Scalar.parseFromCowAndMetadata]⟩, rfl⟩
    | .unit, s, p, n, f, t, v, h => by
      rw [Block.Typed] at h
      obtain ⟨rfl, ⟨hs, h⟩ | ⟨rfl, rfl, rfl⟩⟩ := h
      · exact scalar_block hs rfl h
      · exact ⟨_, bnode_absent, by rw [Reads]; exact ⟨_, rfl, .inl rfl, rfl⟩⟩
    | .option ty, s, p, n, f, t, v, h => by
      rw [Block.Typed] at h
      rcases h with ⟨rfl, h, rfl⟩ | ⟨h1, y, h3, rfl⟩
      · obtain ⟨u, st, hu, h2⟩ := null_block (s := s) (p := p) (n := n) (t := t) (by
          rcases h with ⟨hs, h | ⟨h, -⟩⟩ | h
          · exact .inl ⟨hs, h⟩
          · cases h
          · exact .inr h)
        refine ⟨_, h2, ?_⟩
        rw [Reads]
        exact .inl ⟨_, rfl, hu.imp id .inl, rfl⟩
      · obtain ⟨evs, hn, hr⟩ := btyped_reads ty s p n f t y h3
        refine ⟨evs, hn, ?_⟩
        rw [Reads]
        exact .inr ⟨not_null_block hn h1, y, hr, rfl⟩
    | .vec ty, s, p, n, f, t, v, h => by
      rw [Block.Typed] at h
      rcases h with ⟨hs, vs, h, rfl⟩ | ⟨hs, rfl, r, vs, h1, h2, rfl⟩
      · obtain ⟨toks, evs, h1, h0, h2, h3, h4, h5⟩ := itemsOf_reads (Q := Reads fo ofInt (textReading fo) ty) (fun s p n f t x h => btyped_reads ty s p n f t x h) h
        refine ⟨_, bnode_seq hs h1 h0 h2 h3 h4, ?_⟩
        rw [Reads, items_seq]
        exact ⟨0, none, _, vs, rfl, h5, rfl⟩
      · obtain ⟨evs, h3, h4⟩ := elementsOf_reads (Q := Reads fo ofInt (textReading fo) ty) (fun s p n f t x h => btyped_reads ty s p n f t x h) h2
        refine ⟨_, bracketed_node hs h1 h3, ?_⟩
        rw [Reads, items_seq]
        exact ⟨0, none, _, vs, rfl, h4, rfl⟩
    | .map k ty, s, p, n, f, t, v, h => by
      rw [Block.Typed] at h
      rcases h with ⟨rfl, kvs, h, rfl⟩ | ⟨hs, rfl, r, kvs, h1, h2, rfl⟩
      · obtain ⟨toks, evs, h1, h2, h3, h4, h5⟩ := entriesOf_reads (Q := EachPair (Reads fo ofInt (textReading fo) k) (Reads fo ofInt (textReading fo) ty)) .nil
          (fun k x s p n f t y hk h => by
            obtain ⟨st, u, h6, h7⟩ := key_block hk
            obtain ⟨evs, h8, h9⟩ := btyped_reads ty s p n f t y h
            exact ⟨st, u, evs, h6, h8, fun es xs hx => .cons (a := [_]) h7 h9 hx⟩) h
        refine ⟨_, bnode_map h1 h2 h3 h4, ?_⟩
        rw [Reads, items_map]
        exact ⟨0, none, _, kvs, rfl, h5, rfl⟩
      · obtain ⟨evs, h3, h4⟩ := pairsOf_reads (Q := EachPair (Reads fo ofInt (textReading fo) k) (Reads fo ofInt (textReading fo) ty)) .nil
          (fun k x s t y hk h => by
            obtain ⟨st, u, h5, h6, h7⟩ := flowKey_block hk
            obtain ⟨evs, h8, h9⟩ := btyped_reads ty s p 0 none t y h
            exact ⟨st, u, evs, h5, h6, h8, fun es xs hx => .cons (a := [_]) h7 h9 hx⟩) h2
        refine ⟨_, braced_node hs h1 h3, ?_⟩
        rw [Reads, items_map]
        exact ⟨0, none, _, kvs, rfl, h4, rfl⟩
    | .tuple ts, s, p, n, f, t, v, h => by
      rw [Block.Typed] at h
      rcases h with ⟨hs, vs, h, rfl⟩ | ⟨hs, rfl, r, vs, h1, h2, rfl⟩
      · obtain ⟨toks, evs, h1, h0, h2, h3, h4, h5⟩ := btypedItems_reads ts n f t vs h
        refine ⟨_, bnode_seq hs h1 h0 h2 h3 h4, ?_⟩
        rw [Reads, items_seq]
        exact ⟨0, none, _, vs, rfl, h5, rfl⟩
      · obtain ⟨evs, h3, h4⟩ := btypedElements_reads ts p r vs h2
        refine ⟨_, bracketed_node hs h1 h3, ?_⟩
        rw [Reads, items_seq]
        exact ⟨0, none, _, vs, rfl, h4, rfl⟩
    | .record deny fs, s, p, n, f, t, v, h => by
      rw [Block.Typed] at h
      obtain ⟨evs, h1, h2⟩ := struct_block (fun name s p n f t x h => btypedField_reads fs name s p n f t x h) h
      exact ⟨evs, h1, by rw [Reads]; exact h2⟩
    | .choice vs, s, p, n, f, t, v, h => by
      rw [Block.Typed] at h
      rcases h with ⟨hs, hf, h⟩ | ⟨name, y, h, rfl⟩
      · exact scalar_block hs hf h
      · obtain ⟨evs, h1, -, h6⟩ := fieldsOf_reads
          (Q := fun evs es => (es = [] → evs = []) ∧ ∀ e, es = [e] → ∃ key body, evs = key :: body ∧ Resolves fo [key] (.str e.1) ∧
            ReadsVariant fo ofInt (textReading fo) e.1 vs body e.2) ⟨fun _ => rfl, by simp⟩
          (fun name s p n f t y h => by
            obtain ⟨evs, h8, h9⟩ := btypedVariant_reads vs name s p n f t y h
            exact ⟨evs, h8, fun v h7 es xs hx => ⟨by simp, fun e he => by
              cases he
              rw [hx.1 rfl, List.append_nil]
              exact ⟨_, _, rfl, h7, h9⟩⟩⟩) h
        obtain ⟨key, body, h7, h8, h9⟩ := h6 _ rfl
        refine ⟨_, h1, ?_⟩
        rw [Reads, items_map, h7]
        exact .inr ⟨0, none, [_], _, name, y, rfl, h8, h9, rfl⟩
  theorem btypedItems_reads {fo : FloatOps F} {ofInt : Int → F} : (ts : List Ty) → (n : Nat) → (f : Option Nat) → (t : List Byte) → (vs : List (Val F)) →
      Block.TypedItems false fo ofInt ts n f t vs →
      ∃ toks evs, Starts t ∧ toks ≠ [] ∧ PartG .blockSequenceStart f (n + 1) t toks ∧ (∀ b, DS (.items b) toks evs) ∧ Nodes evs ∧
        ReadsTuple fo ofInt (textReading fo) ts (items evs) vs
    | [], n, f, t, vs, h => by rw [Block.TypedItems] at h; exact h.elim
    | ty :: ts, n, f, t, vs, h => by
      rw [Block.TypedItems] at h
      obtain ⟨f₀, r, v, h, h'⟩ := h
      obtain ⟨toks, evs, h1, h2, h3, h4, h5⟩ := after_reads (fun s p n f t x h => btyped_reads ty s p n f t x h) h
      rcases h' with ⟨rfl, rfl, rfl, rfl⟩ | ⟨-, g, u, rest, hg, h', rfl, rfl⟩
      · refine ⟨_, evs, dash_starts h1, by simp, h2, fun _ => oneItem_ds h3, by simpa using Nodes.cons h4 .nil, ?_⟩
        rw [ReadsTuple]
        exact ⟨_, [], v, [], by simp, h5, by rw [ReadsTuple]; exact ⟨rfl, rfl⟩, rfl⟩
      · obtain ⟨toks', evs', h1', -, h2', h3', h4', h5'⟩ := btypedItems_reads ts n f u rest h'
        refine ⟨_, evs ++ evs', (dash_starts h1).append (fun r' _ => by rw [List.append_assoc]; exact break_pend (gap_break hg)), by simp, h2.more hg h2' h1',
          fun b => moreItems_ds h3 (h3' b), .cons h4 h4', ?_⟩
        rw [ReadsTuple, items_append]
        exact ⟨_, _, v, rest, rfl, h5, h5', rfl⟩
  theorem btypedElements_reads {fo : FloatOps F} {ofInt : Int → F} : (ts : List Ty) → (p : Nat) → (r : List Byte) → (vs : List (Val F)) →
      Block.TypedElements false fo ofInt ts p r vs → ∃ evs, Bracketed p r evs ∧ ReadsTuple fo ofInt (textReading fo) ts (items evs) vs
    | [], p, r, vs, h => by
      rw [Block.TypedElements] at h
      obtain ⟨rfl, rfl⟩ := h
      exact ⟨[], bracketed_nil, by rw [ReadsTuple]; exact ⟨rfl, rfl⟩⟩
    | ty :: ts, p, r, vs, h => by
      rw [Block.TypedElements] at h
      obtain ⟨t, g, v, h, hg, h'⟩ := h
      obtain ⟨evs, h1, h2⟩ := btyped_reads ty .flow p 0 none t v h
      rcases h' with ⟨rfl, rfl, rfl⟩ | ⟨g', u, rest, hg', h', rfl, rfl⟩
      · refine ⟨evs, bracketed_last h1 hg, ?_⟩
        rw [ReadsTuple]
        exact ⟨_, [], v, [], by simp, h2, by rw [ReadsTuple]; exact ⟨rfl, rfl⟩, rfl⟩
      · obtain ⟨evs', h3, h4⟩ := btypedElements_reads ts p u rest h'
        refine ⟨_, bracketed_more h1 hg hg' h3, ?_⟩
        rw [ReadsTuple, items_append]
        exact ⟨_, _, v, rest, rfl, h2, h4, rfl⟩
  theorem btypedField_reads {fo : FloatOps F} {ofInt : Int → F} : (fs : List (List Byte × Ty)) → (name : List Byte) → (s : Block.Spot) → (p n : Nat) → (f : Option Nat) →
      (t : List Byte) → (v : Val F) → Block.TypedField false fo ofInt name fs s p n f t v → ∃ evs, BNode s p n f t evs ∧ ReadsField fo ofInt (textReading fo) name fs (items evs) v
    | [], name, s, p, n, f, t, v, h => by rw [Block.TypedField] at h; exact h.elim
    | (x, ty) :: fs, name, s, p, n, f, t, v, h => by
      rw [Block.TypedField] at h
      rcases h with ⟨h1, h2⟩ | ⟨h1, h2⟩
      · obtain ⟨evs, h3, h4⟩ := btyped_reads ty s p n f t v h2
        exact ⟨evs, h3, by rw [ReadsField]; exact .inl ⟨h1, h4⟩⟩
      · obtain ⟨evs, h3, h4⟩ := btypedField_reads fs name s p n f t v h2
        exact ⟨evs, h3, by rw [ReadsField]; exact .inr ⟨h1, h4⟩⟩
  theorem btypedVariant_reads {fo : FloatOps F} {ofInt : Int → F} : (vs : List (List Byte × Variant)) → (name : List Byte) → (s : Block.Spot) → (p n : Nat) → (f : Option Nat) →
      (t : List Byte) → (v : Val F) → Block.TypedVariant false fo ofInt name vs s p n f t v → ∃ evs, BNode s p n f t evs ∧ ReadsVariant fo ofInt (textReading fo) name vs (items evs) v
    | [], name, s, p, n, f, t, v, h => by rw [Block.TypedVariant] at h; exact h.elim
    | (x, c) :: vs, name, s, p, n, f, t, v, h => by
      rw [Block.TypedVariant] at h
      rcases h with ⟨h1, h2⟩ | ⟨h1, h2⟩
      · obtain ⟨evs, h3, h4⟩ := btypedContents_reads c s p n f t v h2
        exact ⟨evs, h3, by rw [ReadsVariant]; exact .inl ⟨h1, h4⟩⟩
      · obtain ⟨evs, h3, h4⟩ := btypedVariant_reads vs name s p n f t v h2
        exact ⟨evs, h3, by rw [ReadsVariant]; exact .inr ⟨h1, h4⟩⟩
  theorem btypedContents_reads {fo : FloatOps F} {ofInt : Int → F} : (c : Variant) → (s : Block.Spot) → (p n : Nat) → (f : Option Nat) →
      (t : List Byte) → (v : Val F) → Block.TypedContents false fo ofInt c s p n f t v → ∃ evs, BNode s p n f t evs ∧ ReadsContents fo ofInt (textReading fo) c (items evs) v
    | .unit, s, p, n, f, t, v, h => by rw [Block.TypedContents] at h; exact h.elim
    | .newtype ty, s, p, n, f, t, v, h => by
      rw [Block.TypedContents] at h
      obtain ⟨evs, h3, h4⟩ := btyped_reads ty s p n f t v h
      exact ⟨evs, h3, by rw [ReadsContents]; exact h4⟩
    | .tuple ts, s, p, n, f, t, v, h => by
      rw [Block.TypedContents] at h
      rcases h with ⟨hs, vs, h, rfl⟩ | ⟨hs, rfl, r, vs, h1, h2, rfl⟩
      · obtain ⟨toks, evs, h1, h0, h2, h3, h4, h5⟩ := btypedItems_reads ts n f t vs h
        refine ⟨_, bnode_seq hs h1 h0 h2 h3 h4, ?_⟩
        rw [ReadsContents, items_seq]
        exact ⟨0, none, _, vs, rfl, h5, rfl⟩
      · obtain ⟨evs, h3, h4⟩ := btypedElements_reads ts p r vs h2
        refine ⟨_, bracketed_node hs h1 h3, ?_⟩
        rw [ReadsContents, items_seq]
        exact ⟨0, none, _, vs, rfl, h4, rfl⟩
    | .struct deny fs, s, p, n, f, t, v, h => by
      rw [Block.TypedContents] at h
      obtain ⟨evs, h1, h2⟩ := struct_block (fun name s p n f t x h => btypedField_reads fs name s p n f t x h) h
      exact ⟨evs, h1, by rw [ReadsContents]; exact h2⟩
end

end Verif.Props
