import Verif.Lemmas.De
import Verif.Props.ParserIter
/-!
# C29: typed deserialisation
-/
namespace Verif.Props
open Verif Verif.Parser Verif.ParserIter Verif.De Verif.Spec Verif.Grammar

/-- C29 in full: a document whose node denotes a value of the type, as the tree loader resolves scalars, deserialises to that value. -/
def C29_full : Prop := ∀ (F : Type) (fo : FloatOps F) (ofInt : Int → F) (t : Ty) (toks : List Token) (m : Marker) (k b : Bool) (n : List Event) (s : PSt) (v : Val F),
  Delivers (new toks .ended m k) (.streamStart :: .documentStart b :: (n ++ [.documentEnd, .streamEnd])) s → Node n → (∀ e ∈ n, isAlias e = false) →
  Reads fo ofInt (loaderReading fo) t (n.filterMap item) v → ∀ fuel, n.length ≤ fuel → fromIter fo ofInt fuel t (ParserIter.start (new toks .ended m k)) = .ok v

/-- nesting depth at the end of a list of items -/
def depth : List YamEvent → Int
  | [] => 0
  | .seqStart _ _ :: es | .mapStart _ _ :: es => 1 + depth es
  | .seqEnd :: es | .mapEnd :: es => -1 + depth es
  | _ :: es => depth es

theorem depth_append (a b : List YamEvent) : depth (a ++ b) = depth a + depth b := by
  induction a with
  | nil => simp [depth]
  | cons e es ih => cases e <;> simp [depth, ih] <;> omega

/-- A node (or, for `open_ = false`, any number of nodes): its depth is never negative, ends at 0, and is positive in the middle of a node. -/
def Deep (l : List YamEvent) : Prop := depth l = 0 ∧ (∀ a r, l = a ++ r → 0 ≤ depth a)

theorem deep_wrap {s e : YamEvent} {l} (hs : ∀ es, depth (s :: es) = 1 + depth es) (he : depth [e] = -1) (h : Deep l) :
    Deep (s :: (l ++ [e])) ∧ ∀ a r, s :: (l ++ [e]) = a ++ r → a ≠ [] → r ≠ [] → 1 ≤ depth a := by
  have key : ∀ a r, s :: (l ++ [e]) = a ++ r → a ≠ [] → r ≠ [] → 1 ≤ depth a := by
    intro a r hh ha hr
    cases a with
    | nil => exact absurd rfl ha
    | cons x xs =>
      simp only [List.cons_append, List.cons.injEq] at hh
      obtain ⟨rfl, hh⟩ := hh
      rcases List.eq_nil_or_concat r with rfl | ⟨r', y, rfl⟩
      · exact absurd rfl hr
      · rw [List.concat_eq_append, ← List.append_assoc] at hh
        have := (List.append_inj' hh rfl).1
        have h2 := h.2 xs r' this
        rw [hs]; omega
  refine ⟨⟨?_, ?_⟩, key⟩
  · rw [hs, depth_append, h.1, he]; rfl
  · intro a r hh
    by_cases ha : a = []
    · rw [ha]; simp [depth]
    · by_cases hr : r = []
      · subst hr
        rw [List.append_nil] at hh
        rw [← hh, hs, depth_append, h.1, he]; decide
      · have := key a r hh ha hr; omega

theorem deep_append {l l'} (h : Deep l) (h' : Deep l') : Deep (l ++ l') := by
  refine ⟨by rw [depth_append, h.1, h'.1]; rfl, fun a r hh => ?_⟩
  rw [List.append_eq_append_iff] at hh
  rcases hh with ⟨as, rfl, h2⟩ | ⟨bs, h1, h2⟩
  · rw [depth_append, h.1]
    have := h'.2 as r h2
    omega
  · exact h.2 a bs h1

/-- the items of events of the inside of a document -/
def items (n : List Event) : List YamEvent := (n.filter notAlias).filterMap item

theorem items_append (a b : List Event) : items (a ++ b) = items a ++ items b := by simp [items]

mutual
  theorem node_deep {n} (h : Node n) : Deep (items n) ∧ ∀ a r, items n = a ++ r → a ≠ [] → r ≠ [] → 1 ≤ depth a := by
    match h with
    | .scalar v =>
      refine ⟨⟨rfl, fun a r hh => ?_⟩, fun a r hh ha hr => ?_⟩
      · change [YamEvent.scalar v] = a ++ r at hh
        cases a with
        | nil => simp [depth]
        | cons x xs =>
          simp only [List.cons_append, List.cons.injEq, List.nil_eq, List.append_eq_nil_iff] at hh
          obtain ⟨rfl, rfl, rfl⟩ := hh
          simp [depth]
      · exfalso
        change [YamEvent.scalar v] = a ++ r at hh
        cases a with
        | nil => exact ha rfl
        | cons x xs =>
          simp only [List.cons_append, List.cons.injEq, List.nil_eq, List.append_eq_nil_iff] at hh
          exact hr hh.2.2
    | .alias v =>
      refine ⟨⟨rfl, fun a r hh => ?_⟩, fun a r hh ha hr => ?_⟩
      · change [] = a ++ r at hh
        simp only [List.nil_eq, List.append_eq_nil_iff] at hh
        rw [hh.1]; simp [depth]
      · exfalso
        change [] = a ++ r at hh
        simp only [List.nil_eq, List.append_eq_nil_iff] at hh
        exact ha hh.1
    | .seq (body := body) a t hb =>
      have := deep_wrap (s := .seqStart a t) (e := .seqEnd) (fun es => rfl) rfl (nodes_deep hb)
      have e : items (.sequenceStart a t :: (body ++ [.sequenceEnd])) = .seqStart a t :: (items body ++ [.seqEnd]) := by
        rw [← List.singleton_append, items_append, items_append]; rfl
      rw [e]; exact this
    | .map (body := body) a t hb =>
      have := deep_wrap (s := .mapStart a t) (e := .mapEnd) (fun es => rfl) rfl (pairs_deep hb)
      have e : items (.mappingStart a t :: (body ++ [.mappingEnd])) = .mapStart a t :: (items body ++ [.mapEnd]) := by
        rw [← List.singleton_append, items_append, items_append]; rfl
      rw [e]; exact this
  theorem nodes_deep {n} (h : Nodes n) : Deep (items n) := by
    match h with
    | .nil => exact ⟨rfl, fun a r hh => by
        change [] = a ++ r at hh
        simp only [List.nil_eq, List.append_eq_nil_iff] at hh
        rw [hh.1]; simp [depth]⟩
    | .cons hx hxs =>
      rw [items_append]
      exact deep_append (node_deep hx).1 (nodes_deep hxs)
  theorem pairs_deep {n} (h : Pairs n) : Deep (items n) := by
    match h with
    | .nil => exact ⟨rfl, fun a r hh => by
        change [] = a ++ r at hh
        simp only [List.nil_eq, List.append_eq_nil_iff] at hh
        rw [hh.1]; simp [depth]⟩
    | .cons hk hv hxs =>
      rw [items_append, items_append]
      exact deep_append (node_deep hk).1 (deep_append (node_deep hv).1 (pairs_deep hxs))
end

theorem each_depth {α : Type} {R : List YamEvent → α → Prop} (hR : ∀ e v, R e v → depth e = 0) {es vs} (h : Each R es vs) : depth es = 0 := by
  induction h with
  | nil => rfl
  | cons h1 _ ih => rw [depth_append, hR _ _ h1, ih]; rfl

theorem eachPair_depth {α β : Type} {R : List YamEvent → α → Prop} {S : List YamEvent → β → Prop} (hR : ∀ e v, R e v → depth e = 0)
    (hS : ∀ e v, S e v → depth e = 0) {es vs} (h : EachPair R S es vs) : depth es = 0 := by
  induction h with
  | nil => rfl
  | cons h1 h2 _ ih => rw [depth_append, depth_append, hR _ _ h1, hS _ _ h2, ih]; rfl

theorem eachField_depth {α : Type} {R : List YamEvent → List Byte → Prop} {S : List Byte → List YamEvent → α → Prop} {known : List Byte → Prop}
    {ignored : List YamEvent → Prop} (hR : ∀ e v, R e v → depth e = 0)
    (hS : ∀ k e v, S k e v → depth e = 0) (hI : ∀ e, ignored e → depth e = 0) {es vs} (h : EachField R S known ignored es vs) : depth es = 0 := by
  induction h with
  | nil => rfl
  | cons h1 h2 _ ih => rw [depth_append, depth_append, hR _ _ h1, hS _ _ _ h2, ih]; rfl
  | skip h1 _ h2 _ ih => rw [depth_append, depth_append, hR _ _ h1, hI _ h2, ih]; rfl

theorem scalars_depth (vs : List ScalarValue) : depth (vs.map .scalar) = 0 := by
  induction vs with
  | nil => rfl
  | cons v vs ih => simpa [depth] using ih

mutual
  theorem plain_depth {F : Type} {fo : FloatOps F} : ∀ {e}, PlainNode fo e → depth e = 0
    | _, .scalar _ => rfl
    | _, .seq (vs := vs) a tag _ => by
      simp only [depth, depth_append, scalars_depth vs]; rfl
    | _, .map a tag h => by
      have := plainPairs_depth h
      simp only [depth, depth_append, this]; rfl
  theorem plainPairs_depth {F : Type} {fo : FloatOps F} : ∀ {e}, PlainPairs fo e → depth e = 0
    | _, .nil => rfl
    | _, .cons _ hy h => by
      simp only [depth, depth_append, plain_depth hy, plainPairs_depth h]; rfl
end

theorem struct_depth {F : Type} {fo : FloatOps F} {deny names} {declared : List (List Byte × Val F) → List (List Byte × Val F) → Prop} {field evs v}
    (hf : ∀ k e v, field k e v → depth e = 0) (h : ReadsStruct fo (textReading fo) deny names declared field evs v) : depth evs = 0 := by
  obtain ⟨a, tag, body, vs, out, rfl, hb, -⟩ := h
  have := eachField_depth (fun e v ⟨x, h, _⟩ => by rw [h]; rfl) hf (fun e h => plain_depth h.2) hb
  simp only [depth, depth_append, this]; rfl

mutual
  theorem reads_depth {F : Type} {fo : FloatOps F} {ofInt : Int → F} : (t : Ty) → (evs : List YamEvent) → (v : Val F) →
      Reads fo ofInt (textReading fo) t evs v → depth evs = 0
    | .int t, evs, v, h => by
      rw [Reads] at h; obtain ⟨x, i, rfl, -⟩ := h; rfl
    | .bool, evs, v, h => by
      rw [Reads] at h; obtain ⟨i, ⟨x, rfl, -⟩, -⟩ := h; rfl
    | .float, evs, v, h => by
      rw [Reads] at h; obtain ⟨i, ⟨x, rfl, -⟩, -⟩ | ⟨i, ⟨x, rfl, -⟩, -⟩ := h <;> rfl
    | .str, evs, v, h => by
      rw [Reads] at h; obtain ⟨i, ⟨x, rfl, -⟩, -⟩ := h; rfl
    | .unit, evs, v, h => by
      rw [Reads] at h; obtain ⟨x, rfl, -⟩ := h; rfl
    | .option t, evs, v, h => by
      rw [Reads] at h
      obtain ⟨x, rfl, -⟩ | ⟨-, y, hy, -⟩ := h
      · rfl
      · exact reads_depth t evs y hy
    | .vec t, evs, v, h => by
      rw [Reads] at h; obtain ⟨a, tag, body, vs, rfl, hb, -⟩ := h
      have := each_depth (fun e v h => reads_depth t e v h) hb
      simp only [depth, depth_append, this]; rfl
    | .map k t, evs, v, h => by
      rw [Reads] at h; obtain ⟨a, tag, body, vs, rfl, hb, -⟩ := h
      have := eachPair_depth (fun e v h => reads_depth k e v h) (fun e v h => reads_depth t e v h) hb
      simp only [depth, depth_append, this]; rfl
    | .tuple ts, evs, v, h => by
      rw [Reads] at h; obtain ⟨a, tag, body, vs, rfl, hb, -⟩ := h
      have := readsTuple_depth ts body vs hb
      simp only [depth, depth_append, this]; rfl
    | .record deny fs, evs, v, h => by
      rw [Reads] at h
      exact struct_depth (fun k e v h => readsField_depth fs k e v h) h
    | .choice vs, evs, v, h => by
      rw [Reads] at h
      obtain ⟨x, n, rfl, -⟩ | ⟨a, tag, key, body, n, y, rfl, ⟨x, rfl, -⟩, hb, -⟩ := h
      · rfl
      · have := readsVariant_depth vs n body y hb
        simp only [depth, depth_append, this]; rfl
  theorem readsTuple_depth {F : Type} {fo : FloatOps F} {ofInt : Int → F} : (ts : List Ty) → (evs : List YamEvent) → (vs : List (Val F)) →
      ReadsTuple fo ofInt (textReading fo) ts evs vs → depth evs = 0
    | [], evs, vs, h => by rw [ReadsTuple] at h; rw [h.1]; rfl
    | t :: ts, evs, vs, h => by
      rw [ReadsTuple] at h
      obtain ⟨a, es, v, rest, rfl, h1, h2, -⟩ := h
      rw [depth_append, reads_depth t a v h1, readsTuple_depth ts es rest h2]; rfl
  theorem readsField_depth {F : Type} {fo : FloatOps F} {ofInt : Int → F} : (fs : List (List Byte × Ty)) → (k : List Byte) →
      (evs : List YamEvent) → (v : Val F) → ReadsField fo ofInt (textReading fo) k fs evs v → depth evs = 0
    | [], k, evs, v, h => by rw [ReadsField] at h; exact h.elim
    | (x, t) :: fs, k, evs, v, h => by
      rw [ReadsField] at h
      rcases h with ⟨-, h⟩ | ⟨-, h⟩
      · exact reads_depth t evs v h
      · exact readsField_depth fs k evs v h
  theorem readsVariant_depth {F : Type} {fo : FloatOps F} {ofInt : Int → F} : (vs : List (List Byte × Variant)) → (k : List Byte) →
      (evs : List YamEvent) → (v : Val F) → ReadsVariant fo ofInt (textReading fo) k vs evs v → depth evs = 0
    | [], k, evs, v, h => by rw [ReadsVariant] at h; exact h.elim
    | (x, t) :: vs, k, evs, v, h => by
      rw [ReadsVariant] at h
      rcases h with ⟨-, h⟩ | ⟨-, h⟩
      · exact readsContents_depth t evs v h
      · exact readsVariant_depth vs k evs v h
  theorem readsContents_depth {F : Type} {fo : FloatOps F} {ofInt : Int → F} : (c : Variant) →
      (evs : List YamEvent) → (v : Val F) → ReadsContents fo ofInt (textReading fo) c evs v → depth evs = 0
    | .unit, evs, v, h => by rw [ReadsContents] at h; exact h.elim
    | .newtype t, evs, v, h => by rw [ReadsContents] at h; exact reads_depth t evs v h
    | .tuple ts, evs, v, h => by
      rw [ReadsContents] at h; obtain ⟨a, tag, body, vs, rfl, hb, -⟩ := h
      have := readsTuple_depth ts body vs hb
      simp only [depth, depth_append, this]; rfl
    | .struct deny fs, evs, v, h => by
      rw [ReadsContents] at h
      exact struct_depth (fun k e v h => readsField_depth fs k e v h) h
end

theorem feeds_of_iterates {it outs it'} (h : Iterates it outs it') : Feeds it outs it' := by
  induction h with
  | nil => exact .nil
  | snoc _ hn ih => exact feeds_append.2 ⟨_, ih, .cons hn .nil⟩

/-- the first item of an iterator, and what is after it -/
theorem next_start_later {p e it} (h : ParserIter.next (ParserIter.start p) = (.ok (some e), it)) : e = .docStart ∧ Later it := by
  unfold ParserIter.next ParserIter.start processStart at h
  simp only [withEvent] at h
  cases h1 : nextEventImpl p with
  | mk r p1 =>
    rw [h1] at h
    cases r with
    | ok v =>
      obtain ⟨ev, sp⟩ := v
      simp only at h
      by_cases hev : ev = .streamStart
      · simp only [hev, ne_eq, not_true_eq_false, if_false] at h
        cases h2 : nextEventImpl p1 with
        | mk r2 p2 =>
          rw [h2] at h
          cases r2 with
          | ok v2 =>
            obtain ⟨ev2, sp2⟩ := v2
            cases ev2 <;> simp at h
            exact ⟨h.1.symm, by rw [← h.2]; simp [Later]⟩
          | _ => simp at h
      · simp [hev] at h
    | _ => simp at h

/-- the items of a document, as the deserialiser meets them: any type looks for the start of the document first -/
theorem items_start {F : Type} (fo : FloatOps F) (ofInt : Int → F) (t : Ty) (p : PSt) (body : List YamEvent) (it' : ItSt)
    (h : Feeds (ParserIter.start p) (.docStart :: (body ++ [.docEnd])) it') (fuel : Nat) :
    ∃ it1, Later it1 ∧ Feeds it1 (body ++ [.docEnd]) it' ∧ fromIter fo ofInt fuel t (ParserIter.start p) = (deTy fo ofInt fuel t ⟨it1, .docStart, false⟩).map (·.1) := by
  cases h with
  | @cons _ _ it1 _ _ hn hf =>
    have hl := (next_start_later hn).2
    have hsk : skipDoc (fresh (ParserIter.start p)) = skipDoc ⟨it1, .docStart, false⟩ := by
      have h1 : nextEl (fresh (ParserIter.start p)) = .ok (some .docStart, ⟨it1, .docStart, true⟩) := by simp [nextEl, fresh, hn]
      obtain ⟨e, es, hes⟩ : ∃ e es, body ++ [.docEnd] = e :: es := by cases body <;> exact ⟨_, _, rfl⟩
      rw [hes] at hf
      obtain ⟨it2, h2, -⟩ := nextEl_fresh (l := .docStart) hf
      have hne : e ≠ .docStart := fun hh => (feeds_later hl hf).2 (by simp [hh])
      unfold skipDoc
      rw [bind_ok h1, bind_ok h2]
      dsimp only
      rw [bind_ok (skip_run _)]
      dsimp only
      rw [h2]
      exact (skipDoc_tail hne _).symm
    refine ⟨it1, hl, hf, ?_⟩
    unfold fromIter
    rw [deTy_skipDoc fuel fo ofInt t hsk]

/-- C29, for any items before `DocEnd`: a type that is handled reads exactly the items of one value, from the start. -/
theorem C29_items_partial {F : Type} (fo : FloatOps F) (ofInt : Int → F) (t : Ty) (ht : HandledTop true t = true) (p : PSt) (body : List YamEvent) (it' : ItSt)
    (h : Feeds (ParserIter.start p) (.docStart :: (body ++ [.docEnd])) it') (fuel : Nat) (hfuel : body.length ≤ fuel) (v : Val F) :
    fromIter fo ofInt fuel t (ParserIter.start p) = .ok v ↔ ∃ evs rest, body = evs ++ rest ∧ Reads fo ofInt (textReading fo) t evs v := by
  obtain ⟨it1, hl, hf, he⟩ := items_start fo ofInt t p body it' h fuel
  have hE := top_ty (q := false) fuel fo ofInt t ht (by simp)
  rw [he]
  constructor
  · intro hrun
    cases hd : deTy fo ofInt fuel t ⟨it1, .docStart, false⟩ with
    | error e => rw [hd] at hrun; simp [Except.map] at hrun
    | ok r =>
      obtain ⟨v', s'⟩ := r
      rw [hd] at hrun
      simp only [Except.map, Except.ok.injEq] at hrun
      subst hrun
      obtain ⟨evs, rest, h1, h2, h4⟩ := hE.sound rfl ⟨it1, .docStart, false⟩ _ it' _ _ ⟨hl, by simp⟩ rfl ((ahead_fresh rfl).2 hf) (.inl (by simp)) hd
      rcases List.eq_nil_or_concat rest with rfl | ⟨rest', y, rfl⟩
      · exact absurd h4.nil.1 (by simp)
      · rw [List.concat_eq_append, ← List.append_assoc] at h1
        exact ⟨evs, rest', (List.append_inj' h1 rfl).1, h2⟩
  · rintro ⟨evs, rest, rfl, hR⟩
    rw [List.append_assoc] at hf
    obtain ⟨it2, hf1, -⟩ := feeds_append.1 hf
    simp only [List.length_append] at hfuel
    obtain ⟨s', h1⟩ := hE.complete ⟨it1, .docStart, false⟩ evs it2 v ⟨hl, by simp⟩ rfl ((ahead_fresh rfl).2 hf1) hR (by omega)
    rw [h1]; rfl

/-- C29 for the types that are handled, whatever the document: a document deserialises to `v` exactly if its node, without aliases, denotes `v`
(integers being decimal text and null being the empty text, `null` or `~` with a core tag, with or without quotes). Missing: the other types,
and the resolution of integers and nulls as in trees; there the claim is false, see below. -/
theorem C29_typed_partial {F : Type} (fo : FloatOps F) (ofInt : Int → F) (t : Ty) (ht : HandledTop true t = true) (toks : List Token) (tail : Tail)
    (m : Marker) (k b : Bool) (n more : List Event) (s : PSt) (hn : Node n)
    (hd : Delivers (new toks tail m k) (.streamStart :: .documentStart b :: (n ++ .documentEnd :: more)) s) (fuel : Nat) (hfuel : n.length ≤ fuel) (v : Val F) :
    fromIter fo ofInt fuel t (ParserIter.start (new toks tail m k)) = .ok v ↔ Reads fo ofInt (textReading fo) t ((n.filter notAlias).filterMap item) v := by
  obtain ⟨it, h1, -⟩ := whole_doc hd hn
  have hlen : ((n.filter notAlias).filterMap item).length ≤ fuel :=
    Nat.le_trans (List.length_filterMap_le _ _) (Nat.le_trans (List.length_filter_le _ _) hfuel)
  rw [C29_items_partial fo ofInt t ht _ _ it (feeds_of_iterates h1) fuel hlen v]
  constructor
  · rintro ⟨evs, rest, h2, h3⟩
    have hr : rest = [] := by
      by_cases hr : rest = []
      · exact hr
      · have := (node_deep hn).2 evs rest h2 (reads_shape t evs v h3).ne_nil hr
        rw [reads_depth t evs v h3] at this
        omega
    subst hr
    rw [h2, List.append_nil]; exact h3
  · intro h; exact ⟨_, [], by simp, h⟩

/-- C29, one direction, also for structs that ignore unknown fields: a document whose node, without aliases, denotes `v` deserialises to `v`. -/
theorem C29_lenient_partial {F : Type} (fo : FloatOps F) (ofInt : Int → F) (t : Ty) (ht : HandledTop false t = true) (toks : List Token) (tail : Tail)
    (m : Marker) (k b : Bool) (n more : List Event) (s : PSt) (hn : Node n)
    (hd : Delivers (new toks tail m k) (.streamStart :: .documentStart b :: (n ++ .documentEnd :: more)) s) (fuel : Nat) (hfuel : n.length ≤ fuel) (v : Val F)
    (h : Reads fo ofInt (textReading fo) t ((n.filter notAlias).filterMap item) v) :
    fromIter fo ofInt fuel t (ParserIter.start (new toks tail m k)) = .ok v := by
  obtain ⟨it, h1, -⟩ := whole_doc hd hn
  have hlen : ((n.filter notAlias).filterMap item).length ≤ fuel :=
    Nat.le_trans (List.length_filterMap_le _ _) (Nat.le_trans (List.length_filter_le _ _) hfuel)
  obtain ⟨it1, hl, hf, he⟩ := items_start fo ofInt t _ _ it (feeds_of_iterates h1) fuel
  obtain ⟨it2, hf1, -⟩ := feeds_append.1 hf
  obtain ⟨s', h2⟩ := (top_ty (q := false) fuel fo ofInt t ht (by simp)).complete ⟨it1, .docStart, false⟩ _ it2 v ⟨hl, by simp⟩ rfl ((ahead_fresh rfl).2 hf1) h hlen
  rw [he, h2]; rfl

/-! ## What goes wrong -/

/-- some float type, for concrete runs -/
def deFloats : FloatOps Unit := ⟨fun _ => none, fun _ => [], (), (), ()⟩

/-- plain scalar -/
def pl (s : List Byte) : ScalarValue := ⟨s, .plain, 0, none⟩

/-- deserialise a token list -/
def deRun (t : Ty) (toks : List TokenType) : Except DErr (Val Unit) :=
  fromIter deFloats (fun _ => ()) 20 t (ParserIter.start (new ((TokenType.streamStart :: (toks ++ [.streamEnd])).map tk) .ended .default false))

/-- `[1, 2]` -/
def exDeSeq : List TokenType := [.flowSequenceStart, .scalar .plain bs!"1", .flowEntry, .scalar .plain bs!"2", .flowSequenceEnd]

/-- C29 is false: `[1, 2]` as `Vec<Option<i64>>`. -/
theorem C29_typed_false : ¬ C29_full := by
  intro h
  obtain ⟨s, hs⟩ : ∃ s, Delivers (new ((TokenType.streamStart :: (exDeSeq ++ [.streamEnd])).map tk) .ended .default false) (.streamStart :: .documentStart false ::
      ([.sequenceStart 0 none, .scalar (pl bs!"1"), .scalar (pl bs!"2"), .sequenceEnd] ++ [.documentEnd, .streamEnd])) s :=
    pull_run (n := 8) (by decide +kernel)
  have hone : Scalar.parseFromCowAndMetadata deFloats (pl bs!"1").value (pl bs!"1").style (pl bs!"1").tag = some (.int 1) := by decide +kernel
  have htwo : Scalar.parseFromCowAndMetadata deFloats (pl bs!"2").value (pl bs!"2").style (pl bs!"2").tag = some (.int 2) := by decide +kernel
  have some1 : ∀ (x : ScalarValue) (i : Int), Scalar.parseFromCowAndMetadata deFloats x.value x.style x.tag = some (.int i) → -(2 ^ 63) ≤ i → i ≤ 2 ^ 63 - 1 →
      Reads deFloats (fun _ => ()) (loaderReading deFloats) (.option (.int .i64)) [.scalar x] (.some (.int i)) := by
    intro x i h1 h2 h3
    rw [Reads]
    refine .inr ⟨?_, .int i, ?_, rfl⟩
    · intro v hv hnull
      simp only [List.cons.injEq, YamEvent.scalar.injEq, and_true] at hv
      subst hv
      simp only [loaderReading] at hnull
      rw [h1] at hnull
      simp at hnull
    · rw [Reads]
      exact ⟨x, i, rfl, ⟨h1, h2, h3⟩, rfl⟩
  have hr := h Unit deFloats (fun _ => ()) (.vec (.option (.int .i64))) _ _ _ _ _ s (.vec [.some (.int 1), .some (.int 2)]) hs
    (.seq 0 none (.cons (.scalar _) (.cons (.scalar _) .nil))) (by decide)
    (by
      rw [Reads]
      exact ⟨0, none, [.scalar (pl bs!"1"), .scalar (pl bs!"2")], _, rfl,
        .cons (a := [_]) (some1 _ 1 hone (by decide) (by decide)) (.cons (a := [_]) (some1 _ 2 htwo (by decide) (by decide)) .nil), rfl⟩) 20 (by decide)
  have hn : (match deRun (.vec (.option (.int .i64))) exDeSeq with | .ok (.vec l) => l.length == 1 | _ => false) = true := by decide +kernel
  rw [show deRun (.vec (.option (.int .i64))) exDeSeq = _ from hr] at hn
  simp at hn

/-- `[1, 2]` as `Vec<Option<i64>>` is `[Some(2)]`: every other element is lost, without an error. -/
theorem C29_options_in_sequences_false :
    (match deRun (.vec (.option (.int .i64))) exDeSeq with | .ok (.vec [.some (.int 2)]) => true | _ => false) = true := by decide +kernel

/-- `[[1, 2]]` as `Vec<(i64, i64)>` is an error. -/
theorem C29_tuples_in_sequences_false : (match deRun (.vec (.tuple [.int .i64, .int .i64])) ([.flowSequenceStart] ++ exDeSeq ++ [.flowSequenceEnd]) with
    | .error (.unexpected "SeqStart" "Scalar") => true | _ => false) = true := by decide +kernel

/-- `[{a: 1}]` as a `Vec` of structs is an error. -/
theorem C29_structs_in_sequences_false : (match deRun (.vec (.record true [(bs!"a", .int .i64)]))
    [.flowSequenceStart, .flowMappingStart, .key, .scalar .plain bs!"a", .value, .scalar .plain bs!"1", .flowMappingEnd, .flowSequenceEnd] with
    | .error (.unexpected "MapStart" "Scalar") => true | _ => false) = true := by decide +kernel

/-- `{a: [1, [2]], b: [3, [4]]}` as a map to `(i64, Vec<i64>)` is an error: the end of the inner sequence is taken for the end of the tuple. -/
theorem C29_nested_ends_false : (match deRun (.map .str (.tuple [.int .i64, .vec (.int .i64)])) ([.flowMappingStart, .key, .scalar .plain bs!"a", .value, .flowSequenceStart,
      .scalar .plain bs!"1", .flowEntry, .flowSequenceStart, .scalar .plain bs!"2", .flowSequenceEnd, .flowSequenceEnd, .flowEntry, .key, .scalar .plain bs!"b", .value,
      .flowSequenceStart, .scalar .plain bs!"3", .flowEntry, .flowSequenceStart, .scalar .plain bs!"4", .flowSequenceEnd, .flowSequenceEnd, .flowMappingEnd]) with
    | .error .custom => true | _ => false) = true := by decide +kernel

/-- The string `"null"`, quoted, as `Option<String>` is `None`. -/
theorem C29_quoted_null_false : (match deRun (.option .str) [.scalar .doubleQuote bs!"null"] with | .ok .none => true | _ => false) = true := by decide +kernel

/-- `~` as `Option<i64>` is an error; the tree of `~` is null. -/
theorem C29_tilde_false : (match deRun (.option (.int .i64)) [.scalar .plain bs!"~"] with | .error _ => true | _ => false) = true ∧
    Scalar.parseFromCowAndMetadata deFloats bs!"~" .plain none = some .null := by decide +kernel

/-- `0x10` as `i64` is an error; the tree of `0x10` is the integer 16. -/
theorem C29_hexadecimal_false : (match deRun (.int .i64) [.scalar .plain bs!"0x10"] with | .error _ => true | _ => false) = true ∧
    Scalar.parseFromCowAndMetadata deFloats bs!"0x10" .plain none = some (.int 16) := by decide +kernel

/-- Plain decimal integers of up to 64 signed bits mean the same to the deserialiser and to the tree loader. -/
theorem C29_decimal_agrees {F : Type} (fo : FloatOps F) (t : IntTy) (v : ScalarValue) (i : Int) (hv : v.style = .plain) (ht : v.tag = none)
    (h64 : Core.Fits64 i) (h : (textReading fo).int t v i) : (loaderReading fo).int t v i := by
  obtain ⟨h1, h2⟩ := h
  refine ⟨?_, h2⟩
  rw [hv, ht]
  have : Scalar.parseFromCow fo v.value = .int i := by
    rw [Scalar.parseFromCow_int_iff]
    refine ⟨.inl ?_, h64⟩
    generalize v.value = s at h1
    cases h1 with
    | dec h => exact .dec h
    | plus h => exact .plus h
    | minus _ h => exact .minus h
  simp [Scalar.parseFromCowAndMetadata, this]

example : (textReading deFloats).int .i8 (pl bs!"-128") (-128) ∧ Core.Fits64 (-128) :=
  ⟨⟨.minus (s := bs!"128") (n := 128) rfl ⟨by simp, by decide⟩, by decide, by decide⟩, by unfold Core.Fits64; decide⟩

/-! ## Non-vacuity -/

/-- struct { a: Vec<i64>, b: Option<Vec<bool>>, c: (i64, String), d: struct { e: unit }, f: Option<i64> } -/
def exRecord : Ty := .record true [(bs!"a", .vec (.int .i64)), (bs!"b", .option (.vec .bool)), (bs!"c", .tuple [.int .i64, .str]), (bs!"d", .record true [(bs!"e", .unit)]),
  (bs!"f", .option (.int .u8))]

example : HandledTop true exRecord = true := by decide

/-- `{c: [1, "x"], a: [1, 2], d: {e: null}, b: [true]}` reads as the struct; `f` is missing -/
def exRecordToks : List TokenType := [.flowMappingStart, .key, .scalar .plain bs!"c", .value, .flowSequenceStart, .scalar .plain bs!"1", .flowEntry, .scalar .doubleQuote bs!"x",
  .flowSequenceEnd, .flowEntry, .key, .scalar .plain bs!"a", .value, .flowSequenceStart, .scalar .plain bs!"1", .flowEntry, .scalar .plain bs!"2", .flowSequenceEnd,
  .flowEntry, .key, .scalar .plain bs!"d", .value, .flowMappingStart, .key, .scalar .plain bs!"e", .value, .scalar .plain bs!"null", .flowMappingEnd,
  .flowEntry, .key, .scalar .plain bs!"b", .value, .flowSequenceStart, .scalar .plain bs!"true", .flowSequenceEnd, .flowMappingEnd]

example : (match deRun exRecord exRecordToks with
    | .ok (.record [(_, .vec [.int 1, .int 2]), (_, .some (.vec [.bool true])), (_, .tuple [.int 1, .str [120]]), (_, .record [(_, .unit)]), (_, .none)]) => true
    | _ => false) = true := by decide +kernel

example : ∃ s, Delivers (new ((TokenType.streamStart :: (exRecordToks ++ [.streamEnd])).map tk) .ended .default false) (.streamStart :: .documentStart false ::
    ([.mappingStart 0 none, .scalar (pl bs!"c"), .sequenceStart 0 none, .scalar (pl bs!"1"), .scalar ⟨bs!"x", .doubleQuote, 0, none⟩, .sequenceEnd,
      .scalar (pl bs!"a"), .sequenceStart 0 none, .scalar (pl bs!"1"), .scalar (pl bs!"2"), .sequenceEnd,
      .scalar (pl bs!"d"), .mappingStart 0 none, .scalar (pl bs!"e"), .scalar (pl bs!"null"), .mappingEnd,
      .scalar (pl bs!"b"), .sequenceStart 0 none, .scalar (pl bs!"true"), .sequenceEnd, .mappingEnd] ++ [.documentEnd, .streamEnd])) s :=
  pull_run (n := 25) (by decide +kernel)

end Verif.Props
