import Verif.Props.De
/-!
# C51: enums; C52: unknown fields
-/
namespace Verif.Props
open Verif Verif.Parser Verif.ParserIter Verif.De Verif.Spec Verif.Grammar

/-- a value of type `t` contains values of type `e`: as elements, entries or fields, or is one -/
inductive Holds (e : Ty) : Ty → Prop
  | self : Holds e e
  | option {t} : Holds e t → Holds e (.option t)
  | vec {t} : Holds e t → Holds e (.vec t)
  | value {k t} : Holds e t → Holds e (.map k t)
  | component {ts t} : t ∈ ts → Holds e t → Holds e (.tuple ts)
  | field {deny fs n t} : (n, t) ∈ fs → Holds e t → Holds e (.record deny fs)

/-- C51 in full: wherever an enum is in the type asked for, a document that writes its variants as their names, or as mappings from their names
to their contents, deserialises to the value so written. -/
def C51_full : Prop := ∀ (F : Type) (fo : FloatOps F) (ofInt : Int → F) (vs : List (List Byte × Variant)) (t : Ty) (toks : List Token) (m : Marker) (k b : Bool)
  (n : List Event) (s : PSt) (v : Val F), Holds (.choice vs) t →
  Delivers (new toks .ended m k) (.streamStart :: .documentStart b :: (n ++ [.documentEnd, .streamEnd])) s → Node n → (∀ e ∈ n, isAlias e = false) →
  Reads fo ofInt (loaderReading fo) t (n.filterMap item) v → ∀ fuel, n.length ≤ fuel → fromIter fo ofInt fuel t (ParserIter.start (new toks .ended m k)) = .ok v

/-- C51 for an enum that is the whole document: it deserialises exactly if the document is a scalar with the name of a variant without contents, or a
mapping with one entry whose key is the name of a variant with contents and whose value denotes them. Missing: enums inside of other values (those
whose variants all have no contents are handled there, see C29), where the claim is false. -/
theorem C51_enum_partial {F : Type} (fo : FloatOps F) (ofInt : Int → F) (vs : List (List Byte × Variant)) (ht : HandledVariants true vs = true) (toks : List Token)
    (tail : Tail) (m : Marker) (k b : Bool) (n more : List Event) (s : PSt) (hn : Node n)
    (hd : Delivers (new toks tail m k) (.streamStart :: .documentStart b :: (n ++ .documentEnd :: more)) s) (fuel : Nat) (hfuel : n.length ≤ fuel) (x : Val F) :
    fromIter fo ofInt fuel (.choice vs) (ParserIter.start (new toks tail m k)) = .ok x ↔
      (∃ v, (n.filter notAlias).filterMap item = [.scalar v] ∧ UnitVariant v.value vs ∧ x = .variant v.value .unit) ∨
      (∃ a tag key body name y, (n.filter notAlias).filterMap item = .mapStart a tag :: (key ++ (body ++ [.mapEnd])) ∧ Resolves fo key (.str name) ∧
        ReadsVariant fo ofInt (textReading fo) name vs body y ∧ x = .variant name y) := by
  rw [C29_typed_partial fo ofInt (.choice vs) ht toks tail m k b n more s hn hd fuel hfuel x, Reads]
  constructor
  · rintro (⟨v, name, h1, rfl, h2, h3⟩ | h)
    · exact .inl ⟨v, h1, h2, h3⟩
    · exact .inr h
  · rintro (⟨v, h1, h2, h3⟩ | h)
    · exact .inl ⟨v, _, h1, rfl, h2, h3⟩
    · exact .inr h

/-- enum { U, N(i64), T(i64, bool), S { a: i64 } } -/
def exEnum : List (List Byte × Variant) :=
  [(bs!"U", .unit), (bs!"N", .newtype (.int .i64)), (bs!"T", .tuple [.int .i64, .bool]), (bs!"S", .struct true [(bs!"a", .int .i64)])]

example : HandledVariants true exEnum = true := by decide

/-- `{N: 1}` -/
def exNewtype : List TokenType := [.flowMappingStart, .key, .scalar .plain bs!"N", .value, .scalar .plain bs!"1", .flowMappingEnd]

example : (match deRun (.choice exEnum) exNewtype with | .ok (.variant [78] (.int 1)) => true | _ => false) = true := by decide +kernel

example : (match deRun (.choice exEnum) [.scalar .plain bs!"U"] with | .ok (.variant [85] .unit) => true | _ => false) = true := by decide +kernel

example : (match deRun (.choice exEnum) [.flowMappingStart, .key, .scalar .plain bs!"T", .value, .flowSequenceStart, .scalar .plain bs!"1", .flowEntry,
    .scalar .plain bs!"true", .flowSequenceEnd, .flowMappingEnd] with | .ok (.variant [84] (.tuple [.int 1, .bool true])) => true | _ => false) = true := by decide +kernel

example : ∃ s, Delivers (new ((TokenType.streamStart :: (exNewtype ++ [.streamEnd])).map tk) .ended .default false) (.streamStart :: .documentStart false ::
    ([.mappingStart 0 none, .scalar (pl bs!"N"), .scalar (pl bs!"1"), .mappingEnd] ++ [.documentEnd, .streamEnd])) s :=
  pull_run (n := 8) (by decide +kernel)

example : Node [.mappingStart 0 none, .scalar (pl bs!"N"), .scalar (pl bs!"1"), .mappingEnd] :=
  .map 0 none (.cons (.scalar _) (.scalar _) .nil)

/-- `[{N: 1}]` -/
def exInSeq : List TokenType := [.flowSequenceStart] ++ exNewtype ++ [.flowSequenceEnd]

/-- C51 is false: `[{N: 1}]` as a `Vec` of enums is an error. -/
theorem C51_enum_false : ¬ C51_full := by
  intro h
  obtain ⟨s, hs⟩ : ∃ s, Delivers (new ((TokenType.streamStart :: (exInSeq ++ [.streamEnd])).map tk) .ended .default false) (.streamStart :: .documentStart false ::
      ([.sequenceStart 0 none, .mappingStart 0 none, .scalar (pl bs!"N"), .scalar (pl bs!"1"), .mappingEnd, .sequenceEnd] ++ [.documentEnd, .streamEnd])) s :=
    pull_run (n := 10) (by decide +kernel)
  have hone : Scalar.parseFromCowAndMetadata deFloats (pl bs!"1").value (pl bs!"1").style (pl bs!"1").tag = some (.int 1) := by decide +kernel
  have hname : Scalar.parseFromCowAndMetadata deFloats (pl bs!"N").value (pl bs!"N").style (pl bs!"N").tag = some (.str bs!"N") := by decide +kernel
  have hr := h Unit deFloats (fun _ => ()) exEnum (.vec (.choice exEnum)) _ _ _ _ _ s (.vec [.variant bs!"N" (.int 1)]) (.vec .self) hs
    (.seq 0 none (.cons (.map 0 none (.cons (.scalar _) (.scalar _) .nil)) .nil)) (by decide)
    (by
      rw [Reads]
      refine ⟨0, none, [.mapStart 0 none, .scalar (pl bs!"N"), .scalar (pl bs!"1"), .mapEnd], _, rfl, .cons (a := [_, _, _, _]) ?_ .nil, rfl⟩
      rw [Reads]
      refine .inr ⟨0, none, [_], [_], bs!"N", .int 1, rfl, ⟨_, rfl, hname⟩, ?_, rfl⟩
      simp only [exEnum, ReadsVariant]
      refine .inr ⟨by decide, .inl ⟨by decide, ?_⟩⟩
      rw [ReadsContents, Reads]
      exact ⟨_, 1, rfl, ⟨hone, by decide, by decide⟩, rfl⟩) 20 (by decide)
  have hn : (match deRun (.vec (.choice exEnum)) exInSeq with | .ok _ => false | _ => true) = true := by decide +kernel
  rw [show deRun (.vec (.choice exEnum)) exInSeq = _ from hr] at hn
  simp at hn

/-- `{a: {N: 1}, b: 2}` as `struct { a: Enum, b: Option<i64> }` is `{ a: N(1), b: None }`: the field after an enum is lost, without an error. -/
theorem C51_fields_after_enums_false : (match deRun (.record false [(bs!"a", .choice exEnum), (bs!"b", .option (.int .i64))]) ([.flowMappingStart, .key, .scalar .plain bs!"a", .value] ++
      exNewtype ++ [.flowEntry, .key, .scalar .plain bs!"b", .value, .scalar .plain bs!"2", .flowMappingEnd]) with
    | .ok (.record [(_, .variant [78] (.int 1)), (_, .none)]) => true | _ => false) = true := by decide +kernel

/-- `{U: null}` as an enum with a variant `U` without contents panics. -/
theorem C51_unit_in_mapping_false : (match deRun (.choice exEnum) [.flowMappingStart, .key, .scalar .plain bs!"U", .value, .scalar .plain bs!"null", .flowMappingEnd] with
    | .error .panicked => true | _ => false) = true := by decide +kernel

/-- Whatever the value, a mapping whose first key is the name of a variant without contents panics. -/
theorem C51_unit_panics {F : Type} (fo : FloatOps F) (ofInt : Int → F) (vs : List (List Byte × Variant)) (toks : List Token)
    (tail : Tail) (m : Marker) (k b : Bool) (a : Nat) (tag : Option Tag) (v : ScalarValue) (name : List Byte) (n more : List Event) (s : PSt)
    (hn : Node (.mappingStart a tag :: .scalar v :: n))
    (hd : Delivers (new toks tail m k) (.streamStart :: .documentStart b :: ((.mappingStart a tag :: .scalar v :: n) ++ .documentEnd :: more)) s) (fuel : Nat)
    (hv : Scalar.parseFromCowAndMetadata fo v.value v.style v.tag = some (.str name)) (hu : UnitVariant name vs) :
    fromIter fo ofInt fuel (.choice vs) (ParserIter.start (new toks tail m k)) = .error .panicked := by
  obtain ⟨it, h1, -⟩ := whole_doc hd hn
  obtain ⟨it1, hl, hf, he⟩ := items_start fo ofInt (.choice vs) _ _ it (feeds_of_iterates h1) fuel
  have e : List.filterMap item (List.filter notAlias (.mappingStart a tag :: .scalar v :: n)) ++ [.docEnd] =
      .mapStart a tag :: ([.scalar v] ++ (List.filterMap item (List.filter notAlias n) ++ [.docEnd])) := rfl
  rw [e] at hf
  obtain ⟨it2, h2, h3, h4, -⟩ := skipDoc_cons (s := ⟨it1, .docStart, false⟩) ⟨hl, by simp⟩ ((ahead_fresh rfl).2 hf)
  obtain ⟨it3, l3, h5, h6, h7⟩ := value_complete (exact_name (z := true) (q := false) 1 false fo) (l := .mapStart a tag) h4 h3 ⟨v, rfl, hv⟩ (by simp)
  have hvar : ∀ vs, UnitVariant name vs → deVariant fo ofInt fuel name vs = some (dfail .panicked) := by
    intro vs hu
    induction hu with
    | here => rw [deVariant, if_pos rfl, deContents]
    | there hne _ ih => rw [deVariant, if_neg hne]; exact ih
  rw [he, deTy]
  unfold deEnum
  rw [bind_ok h2]
  dsimp only
  rw [bind_ok (skip_run _)]
  dsimp only
  rw [bind_ok h5, hvar vs hu]
  rfl

example : UnitVariant bs!"U" exEnum := .here

/-! ## Unknown fields -/

/-- C52 in full: a field that a struct does not declare, whatever its value, does not change what a document deserialises to, unless the struct denies such fields. -/
def C52_full : Prop := ∀ (F : Type) (fo : FloatOps F) (ofInt : Int → F) (fs : List (List Byte × Ty)) (toks : List Token) (m : Marker) (k b : Bool)
  (n : List Event) (s : PSt) (v : Val F),
  Delivers (new toks .ended m k) (.streamStart :: .documentStart b :: (n ++ [.documentEnd, .streamEnd])) s → Node n → (∀ e ∈ n, isAlias e = false) →
  Reads fo ofInt (loaderReading fo) (.record false fs) (n.filterMap item) v → ∀ fuel, n.length ≤ fuel →
    fromIter fo ofInt fuel (.record false fs) (ParserIter.start (new toks .ended m k)) = .ok v

theorem eachField_append {α : Type} {R : List YamEvent → List Byte → Prop} {S : List Byte → List YamEvent → α → Prop} {known : List Byte → Prop}
    {ignored : List YamEvent → Prop} {a xs b ys} (h : EachField R S known ignored a xs) (h' : EachField R S known ignored b ys) :
    EachField R S known ignored (a ++ b) (xs ++ ys) := by
  induction h with
  | nil => exact h'
  | cons h1 h2 _ ih =>
    simp only [List.append_assoc, List.cons_append]
    exact .cons h1 h2 ih
  | skip h1 h2 h3 _ ih =>
    simp only [List.append_assoc]
    exact .skip h1 h2 h3 ih

/-- C52 for values that contain no collection as an element of a sequence or as a key, and whose scalars resolve: two documents that differ in such a field only
deserialise to the same struct. `pre` and `post` are the fields before and after it. Missing: other values, where the claim is false. -/
theorem C52_unknown_partial {F : Type} (fo : FloatOps F) (ofInt : Int → F) (fs : List (List Byte × Ty)) (ht : HandledFields false fs = true)
    (toks toks' : List Token) (tail tail' : Tail) (m m' : Marker) (k k' b b' : Bool) (n n' more more' : List Event) (s s' : PSt) (hn : Node n) (hn' : Node n')
    (hd : Delivers (new toks tail m k) (.streamStart :: .documentStart b :: (n ++ .documentEnd :: more)) s)
    (hd' : Delivers (new toks' tail' m' k') (.streamStart :: .documentStart b' :: (n' ++ .documentEnd :: more')) s')
    (a : Nat) (tag : Option Tag) (pre post name value : List YamEvent) (field : List Byte) (hname : Resolves fo name (.str field))
    (hno : field ∉ fs.map (·.1)) (hv : PlainNode fo value)
    (he : (n.filter notAlias).filterMap item = .mapStart a tag :: (pre ++ post ++ [.mapEnd]))
    (he' : (n'.filter notAlias).filterMap item = .mapStart a tag :: (pre ++ (name ++ (value ++ post)) ++ [.mapEnd]))
    (found found' out : List (List Byte × Val F))
    (hpre : EachField (fun evs n => Resolves fo evs (.str n)) (fun n evs y => ReadsField fo ofInt (textReading fo) n fs evs y) (· ∈ fs.map (·.1)) (PlainNode fo) pre found)
    (hpost : EachField (fun evs n => Resolves fo evs (.str n)) (fun n evs y => ReadsField fo ofInt (textReading fo) n fs evs y) (· ∈ fs.map (·.1)) (PlainNode fo) post found')
    (hnd : ((found ++ found').map (·.1)).Nodup) (hout : Declared (found ++ found') fs out) (fuel : Nat) (hf : n.length ≤ fuel) (hf' : n'.length ≤ fuel) :
    fromIter fo ofInt fuel (.record false fs) (ParserIter.start (new toks tail m k)) = .ok (.record out) ∧
    fromIter fo ofInt fuel (.record false fs) (ParserIter.start (new toks' tail' m' k')) = .ok (.record out) := by
  have hT : HandledTop false (.record false fs) = true := by simp [HandledTop, Handled, ht]
  have conv : ∀ {body found}, EachField (fun evs n => Resolves fo evs (.str n)) (fun n evs y => ReadsField fo ofInt (textReading fo) n fs evs y) (· ∈ fs.map (·.1)) (PlainNode fo)
      body found → EachField (fun evs n => Resolves fo evs (.str n)) (fun n evs y => ReadsField fo ofInt (textReading fo) n fs evs y) (· ∈ fs.map (·.1))
      (fun evs => false = false ∧ (textReading fo).ignored evs) body found := by
    intro body found h
    induction h with
    | nil => exact .nil
    | cons h1 h2 _ ih => exact .cons h1 h2 ih
    | skip h1 h2 h3 _ ih => exact .skip h1 h2 ⟨rfl, h3⟩ ih
  constructor
  · refine C29_lenient_partial fo ofInt _ hT toks tail m k b n more s hn hd fuel hf _ ?_
    rw [he, Reads]
    exact ⟨a, tag, _, _, out, rfl, conv (eachField_append hpre hpost), hnd, hout, rfl⟩
  · refine C29_lenient_partial fo ofInt _ hT toks' tail' m' k' b' n' more' s' hn' hd' fuel hf' _ ?_
    rw [he', Reads]
    exact ⟨a, tag, _, _, out, rfl, conv (eachField_append hpre (.skip hname hno hv hpost)), hnd, hout, rfl⟩

/-- `{b: 2}` -/
def exKnown : List TokenType := [.flowMappingStart, .key, .scalar .plain bs!"b", .value, .scalar .plain bs!"2", .flowMappingEnd]

/-- `{x: {y: [1, z]}, b: 2}` -/
def exUnknown : List TokenType := [.flowMappingStart, .key, .scalar .plain bs!"x", .value, .flowMappingStart, .key, .scalar .plain bs!"y", .value, .flowSequenceStart,
  .scalar .plain bs!"1", .flowEntry, .scalar .plain bs!"z", .flowSequenceEnd, .flowMappingEnd, .flowEntry, .key, .scalar .plain bs!"b", .value, .scalar .plain bs!"2",
  .flowMappingEnd]

example : (match deRun (.record false [(bs!"b", .int .i64)]) exUnknown with | .ok (.record [(_, .int 2)]) => true | _ => false) = true := by decide +kernel

example : ∃ s, Delivers (new ((TokenType.streamStart :: (exUnknown ++ [.streamEnd])).map tk) .ended .default false) (.streamStart :: .documentStart false ::
    ([.mappingStart 0 none, .scalar (pl bs!"x"), .mappingStart 0 none, .scalar (pl bs!"y"), .sequenceStart 0 none, .scalar (pl bs!"1"), .scalar (pl bs!"z"), .sequenceEnd, .mappingEnd,
      .scalar (pl bs!"b"), .scalar (pl bs!"2"), .mappingEnd] ++ [.documentEnd, .streamEnd])) s :=
  pull_run (n := 16) (by decide +kernel)

example : PlainNode deFloats [.mapStart 0 none, .scalar (pl bs!"y"), .seqStart 0 none, .scalar (pl bs!"1"), .scalar (pl bs!"z"), .seqEnd, .mapEnd] := by
  have h1 : Resolvable deFloats (pl bs!"1") := ⟨.int 1, by decide +kernel⟩
  have hz : Resolvable deFloats (pl bs!"z") := ⟨.str bs!"z", by decide +kernel⟩
  have hy : Resolvable deFloats (pl bs!"y") := ⟨.str bs!"y", by decide +kernel⟩
  exact .map (body := [_, _, _, _, _]) 0 none (.cons (y := [_, _, _, _]) hy (.seq (vs := [pl bs!"1", pl bs!"z"]) 0 none (by simp [h1, hz])) .nil)

/-- `{x: [[1]], b: 2}` -/
def exNested : List TokenType := [.flowMappingStart, .key, .scalar .plain bs!"x", .value, .flowSequenceStart, .flowSequenceStart, .scalar .plain bs!"1", .flowSequenceEnd,
  .flowSequenceEnd, .flowEntry, .key, .scalar .plain bs!"b", .value, .scalar .plain bs!"2", .flowMappingEnd]

/-- C52 is false: `{x: [[1]], b: 2}` as `struct { b: i64 }` is an error. -/
theorem C52_unknown_false : ¬ C52_full := by
  intro h
  obtain ⟨s, hs⟩ : ∃ s, Delivers (new ((TokenType.streamStart :: (exNested ++ [.streamEnd])).map tk) .ended .default false) (.streamStart :: .documentStart false ::
      ([.mappingStart 0 none, .scalar (pl bs!"x"), .sequenceStart 0 none, .sequenceStart 0 none, .scalar (pl bs!"1"), .sequenceEnd, .sequenceEnd,
        .scalar (pl bs!"b"), .scalar (pl bs!"2"), .mappingEnd] ++ [.documentEnd, .streamEnd])) s :=
    pull_run (n := 14) (by decide +kernel)
  have htwo : Scalar.parseFromCowAndMetadata deFloats (pl bs!"2").value (pl bs!"2").style (pl bs!"2").tag = some (.int 2) := by decide +kernel
  have hx : Scalar.parseFromCowAndMetadata deFloats (pl bs!"x").value (pl bs!"x").style (pl bs!"x").tag = some (.str bs!"x") := by decide +kernel
  have hb : Scalar.parseFromCowAndMetadata deFloats (pl bs!"b").value (pl bs!"b").style (pl bs!"b").tag = some (.str bs!"b") := by decide +kernel
  have hr := h Unit deFloats (fun _ => ()) [(bs!"b", .int .i64)] _ _ _ _ _ s (.record [(bs!"b", .int 2)]) hs
    (.map 0 none (.cons (.scalar _) (.seq 0 none (.cons (.seq 0 none (.cons (.scalar _) .nil)) .nil)) (.cons (.scalar _) (.scalar _) .nil))) (by decide)
    (by
      rw [Reads]
      refine ⟨0, none, [.scalar (pl bs!"x"), .seqStart 0 none, .seqStart 0 none, .scalar (pl bs!"1"), .seqEnd, .seqEnd, .scalar (pl bs!"b"), .scalar (pl bs!"2")],
        [(bs!"b", .int 2)], _, rfl, .skip (a := [_]) (b := [_, _, _, _, _]) ⟨_, rfl, hx⟩ (by decide)
          ⟨rfl, .seq (body := [_, _, _]) 0 none (.cons (x := [_, _, _]) (.seq (body := [_]) 0 none (.cons (x := [_]) (.scalar _) .nil)) .nil)⟩
          (.cons (a := [_]) (b := [_]) ⟨_, rfl, hb⟩ ?_ .nil), by decide, .present (by simp) .nil, rfl⟩
      rw [ReadsField]
      refine .inl ⟨rfl, ?_⟩
      rw [Reads]
      exact ⟨_, 2, rfl, ⟨htwo, by decide, by decide⟩, rfl⟩) 20 (by decide)
  have hn : (match deRun (.record false [(bs!"b", .int .i64)]) exNested with | .ok _ => false | _ => true) = true := by decide +kernel
  rw [show deRun (.record false [(bs!"b", .int .i64)]) exNested = _ from hr] at hn
  simp at hn

/-- A struct with `deny_unknown_fields` does not accept another field: every key of a document that deserialises is a declared field. -/
theorem C52_denied {F : Type} (fo : FloatOps F) (ofInt : Int → F) (fs : List (List Byte × Ty)) (ht : HandledFields true fs = true)
    (toks : List Token) (tail : Tail) (m : Marker) (k b : Bool) (n more : List Event) (s : PSt) (hn : Node n)
    (hd : Delivers (new toks tail m k) (.streamStart :: .documentStart b :: (n ++ .documentEnd :: more)) s) (fuel : Nat) (hf : n.length ≤ fuel) (v : Val F)
    (h : fromIter fo ofInt fuel (.record true fs) (ParserIter.start (new toks tail m k)) = .ok v) :
    ∃ a tag body found out, (n.filter notAlias).filterMap item = .mapStart a tag :: (body ++ [.mapEnd]) ∧ v = .record out ∧ (∀ x ∈ found, x.1 ∈ fs.map (·.1)) ∧
      EachPair (fun evs n => Resolves fo evs (.str n)) (fun _ _ => True) body found ∧ Declared found fs out := by
  have hT : HandledTop true (.record true fs) = true := by simp [HandledTop, Handled, ht]
  have := (C29_typed_partial fo ofInt _ hT toks tail m k b n more s hn hd fuel hf v).1 h
  rw [Reads] at this
  obtain ⟨a, tag, body, found, out, h1, h2, -, h3, h4⟩ := this
  refine ⟨a, tag, body, found, out, h1, h4, ?_, ?_, h3⟩
  · clear h1 h3
    induction h2 with
    | nil => simp
    | @cons _ k' _ _ _ _ _ h5 _ ih =>
      intro x hx
      rw [List.mem_cons] at hx
      rcases hx with rfl | hx
      · obtain ⟨m, hm⟩ := field_exists (z := true) (q := false) 0 fo ofInt fs _ _ _ h5
        by_cases hk : k' ∈ fs.map (·.1)
        · exact hk
        · rw [(field_none 0 fo ofInt _ fs).2 hk] at hm; simp at hm
      · exact ih x hx
    | skip _ _ h5 _ _ => simp at h5
  · clear h1 h3
    induction h2 with
    | nil => exact .nil
    | cons h5 _ _ ih => exact .cons h5 trivial ih
    | skip _ _ h5 _ _ => simp at h5

end Verif.Props
