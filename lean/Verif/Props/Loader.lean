import Verif.Lemmas.Loader
import Verif.Props.Parser
/-!
# C21, C22, C35: the loader
-/
namespace Verif.Props
open Verif Verif.Spec Verif.Grammar Verif.Loader
open Verif.Parser hiding onEvent

variable {F : Type}

/-! ## Examples used below -/

/-- a double-quoted scalar -/
def exStr (v : List Byte) (anchor : Nat) (t : Option Tag) : Event := .scalar ⟨v, .doubleQuote, anchor, t⟩

/-- `["x", &1 ["y"], *1]`, then `{"k": [], "l": "m"}` -/
def exLoad : List Event := [.streamStart, .documentStart false, .sequenceStart 0 none, exStr bs!"x" 0 none, .sequenceStart 1 none,
  exStr bs!"y" 0 none, .sequenceEnd, .alias 1, .sequenceEnd, .documentEnd, .documentStart true, .mappingStart 0 none, exStr bs!"k" 0 none,
  .sequenceStart 0 none, .sequenceEnd, exStr bs!"l" 0 none, exStr bs!"m" 0 none, .mappingEnd, .documentEnd, .streamEnd]

/-- the documents of `exLoad` -/
def exTrees : List (Yaml F) := [.seq [.scalar (.str bs!"x"), .seq [.scalar (.str bs!"y")], .seq [.scalar (.str bs!"y")]],
  .map [(.scalar (.str bs!"k"), .seq []), (.scalar (.str bs!"l"), .scalar (.str bs!"m"))]]

/-- `{!t "a": "b"}` -/
def exTaggedKey : List Event := [.streamStart, .documentStart false, .mappingStart 0 none, exStr bs!"a" 0 (some ⟨bs!"!", bs!"t"⟩),
  exStr bs!"b" 0 none, .mappingEnd, .documentEnd, .streamEnd]

/-! ## C21 -/

/-- C21 in full: the loader gives the trees that the events describe. -/
def C21_full (fo : FloatOps F) : Prop :=
  ∀ evs docs, TreeStream AnyKey fo evs docs → (onEvents fo init evs).map (·.docs) = some docs

/-- C21, for streams in which no mapping key is tagged (or an alias to an unfinished node): the loader gives exactly the documents
described, in order. Missing: tagged keys, where the claim is false (`C21_trees_false`). -/
theorem C21_trees_partial (fo : FloatOps F) (evs : List Event) (docs : List (Yaml F)) (h : TreeStream UntaggedKey fo evs docs) :
    (onEvents fo init evs).map (·.docs) = some docs := by
  obtain ⟨h⟩ := h
  obtain ⟨s, h1, -, h2⟩ := docs_run h (s := init) rfl rfl
  simp only [onEvents, onEvent, Option.bind_some]
  rw [onEvents_append, h1]
  simpa [onEvents, onEvent, init] using h2

theorem exStr_none (fo : FloatOps F) (v : List Byte) :
    Scalar.valueFromCowAndMetadata fo v .doubleQuote none = .scalar (.str v) := rfl

theorem tree_str (ok : Yaml F → Prop) (fo : FloatOps F) (A v) : Tree ok fo A [exStr v 0 none] (.scalar (.str v)) A := by
  have := Tree.scalar (okKey := ok) (fo := fo) (A := A) ⟨v, .doubleQuote, 0, none⟩
  rw [show A.bind 0 _ = A from by funext i; simp [Anchored.bind]] at this
  exact this

/-- the hypothesis of `C21_trees_partial` is met by a stream with nesting, an alias and a mapping -/
example (fo : FloatOps F) : TreeStream UntaggedKey fo exLoad exTrees := by
  have n0 : ∀ (A : Anchored F) x, A.bind 0 x = A := fun A x => by funext i; simp [Anchored.bind]
  have key : ∀ v, UntaggedKey (.scalar (.str v) : Yaml F) := fun v => ⟨by simp, by simp⟩
  refine .mk (.cons false (.seq (t := none) (.cons (tree_str _ fo _ _) (.cons (.seq (t := none) (.cons (tree_str _ fo _ _) .nil))
    (.cons (.alias ?_) .nil)))) (.cons true (.map (t := none) (.cons (tree_str _ fo _ _) (key _) (.seq (t := none) .nil) (.cons (tree_str _ fo _ _) (key _)
      (tree_str _ fo _ _) .nil))) .nil))
  simp [Anchored.bind, taggedAs]

/-- C21 is false: a tagged key is taken for an empty key slot. `{!t "a": "b"}` loads as the empty mapping. -/
theorem C21_trees_false (fo : FloatOps F) : ¬ C21_full fo := by
  intro h
  have n0 : ∀ (A : Anchored F) x, A.bind 0 x = A := fun A x => by funext i; simp [Anchored.bind]
  have ht : TreeStream AnyKey fo exTaggedKey
      [.map [(Scalar.valueFromCowAndMetadata fo bs!"a" .doubleQuote (some ⟨bs!"!", bs!"t"⟩), .scalar (.str bs!"b"))]] :=
    .mk (.cons false (.map (t := none) (.cons (.scalar ⟨bs!"a", .doubleQuote, 0, some ⟨bs!"!", bs!"t"⟩⟩) trivial (tree_str _ fo _ _) .nil)) .nil)
  have := h _ _ ht
  have e : (onEvents fo (init : LdSt F) exTaggedKey).map (·.docs) = some [.map []] := rfl
  rw [e] at this
  simp at this

mutual
  theorem tree_exists (fo : FloatOps F) {evs} (h : Node evs) (A : Anchored F) : ∃ x A', Tree AnyKey fo A evs x A' := by
    match h with
    | .scalar v => exact ⟨_, _, .scalar v⟩
    | .alias id => cases hx : A id with
      | some x => exact ⟨_, _, .alias hx⟩
      | none => exact ⟨_, _, .dangling hx⟩
    | .seq a t hb => obtain ⟨xs, A', hb⟩ := trees_exists fo hb A; exact ⟨_, _, .seq hb⟩
    | .map a t hb => obtain ⟨xs, A', hb⟩ := treePairs_exists fo hb A; exact ⟨_, _, .map hb⟩
  theorem trees_exists (fo : FloatOps F) {evs} (h : Nodes evs) (A : Anchored F) : ∃ x A', Trees AnyKey fo A evs x A' := by
    match h with
    | .nil => exact ⟨_, _, .nil⟩
    | .cons hx hxs =>
      obtain ⟨x, A1, hx⟩ := tree_exists fo hx A
      obtain ⟨xs, A2, hxs⟩ := trees_exists fo hxs A1
      exact ⟨_, _, .cons hx hxs⟩
  theorem treePairs_exists (fo : FloatOps F) {evs} (h : Pairs evs) (A : Anchored F) : ∃ x A', TreePairs AnyKey fo A evs x A' := by
    match h with
    | .nil => exact ⟨_, _, .nil⟩
    | .cons hk hv hxs =>
      obtain ⟨k, A1, hk⟩ := tree_exists fo hk A
      obtain ⟨v, A2, hv⟩ := tree_exists fo hv A1
      obtain ⟨xs, A3, hxs⟩ := treePairs_exists fo hxs A2
      exact ⟨_, _, .cons hk trivial hv hxs⟩
end

/-- The specification is total: every complete stream describes some list of documents. -/
theorem C21_every_stream_described (fo : FloatOps F) (evs : List Event) (h : Stream evs) :
    ∃ docs, TreeStream AnyKey fo evs docs := by
  obtain ⟨h⟩ := h
  suffices ∀ (A : Anchored F), ∃ docs, TreeDocs AnyKey fo A _ docs by
    obtain ⟨docs, h⟩ := this (fun _ => none); exact ⟨docs, .mk h⟩
  induction h with
  | nil => exact fun A => ⟨_, .nil⟩
  | cons e hn _ ih =>
    intro A
    obtain ⟨x, A1, hx⟩ := tree_exists fo hn A
    obtain ⟨xs, hxs⟩ := ih A1
    exact ⟨_, .cons e hx hxs⟩

/-- the number of `DocumentEnd` events -/
def docEnds (evs : List Event) : Nat := (evs.filter (· == .documentEnd)).length

/-- C21: whatever well-formed stream (or beginning of one) the loader is sent, it does not panic. -/
theorem C21_loader_never_panics (fo : FloatOps F) (evs : List Event) (h : StreamPrefix evs) : onEvents fo init evs ≠ none := by
  obtain ⟨fs, hs⟩ := steps_prefix h
  obtain ⟨s, h1, -⟩ := onEvents_top (fo := fo) (s := (init : LdSt F)) Top.streamStart hs
  rw [h1]; simp

theorem onEvent_docs {fo : FloatOps F} {s s' : LdSt F} {e} (h : onEvent fo s e = some s') :
    (e ≠ .documentEnd → s'.docs = s.docs) ∧ (e = .documentEnd → ∃ x, s'.docs = s.docs ++ [x]) := by
  have hi : ∀ {s s' : LdSt F} {x a t}, insertNewNode s x a t = some s' → s'.docs = s.docs := by
    intro s s' x a t h
    have hd : (noteAnchor s x a).docs = s.docs := by unfold noteAnchor; split <;> rfl
    rw [← hd]
    unfold insertNewNode at h
    dsimp only at h
    split at h
    · cases h; rfl
    · cases h; rfl
    · split at h
      · simp at h
      · split at h <;> cases h <;> rfl
    · cases h; rfl
  have he : ∀ {s s' : LdSt F}, endCollection s = some s' → s'.docs = s.docs := by
    intro s s' h
    unfold endCollection at h
    split at h
    · simp at h
    · have := hi h; exact this
  cases e with
  | documentEnd =>
    simp only [onEvent] at h
    refine ⟨fun h => absurd rfl h, fun _ => ?_⟩
    split at h
    · cases h; exact ⟨_, rfl⟩
    · cases h; exact ⟨_, rfl⟩
    · simp at h
  | mappingEnd =>
    refine ⟨fun _ => ?_, by simp⟩
    simp only [onEvent] at h
    split at h
    · simp at h
    · have := he h; exact this
  | sequenceEnd => exact ⟨fun _ => he h, by simp⟩
  | scalar v => exact ⟨fun _ => hi h, by simp⟩
  | «alias» id => exact ⟨fun _ => hi h, by simp⟩
  | _ => exact ⟨fun _ => by cases h; rfl, by simp⟩

theorem onEvents_docs {fo : FloatOps F} {s s' : LdSt F} {es} (h : onEvents fo s es = some s') :
    ∃ xs, s'.docs = s.docs ++ xs ∧ xs.length = docEnds es := by
  induction es generalizing s with
  | nil => cases h; exact ⟨[], by simp, rfl⟩
  | cons e es ih =>
    simp only [onEvents, Option.bind_eq_some_iff] at h
    obtain ⟨s1, h1, h2⟩ := h
    obtain ⟨xs, h3, h4⟩ := ih h2
    have := onEvent_docs h1
    by_cases he : e = .documentEnd
    · obtain ⟨x, hx⟩ := this.2 he
      exact ⟨x :: xs, by simp [h3, hx], by subst he; simp [docEnds, h4]⟩
    · exact ⟨xs, by rw [h3, this.1 he], by simp [docEnds, he]; exact h4⟩

/-- C21, without any restriction on keys: a complete load gives one document per document of the stream. -/
theorem C21_one_document_each (fo : FloatOps F) (evs : List Event) (h : Stream evs) :
    ∃ docs, (onEvents fo init evs).map (·.docs) = some docs ∧ docs.length = docEnds evs := by
  obtain ⟨s, hs⟩ := stream_total (fo := fo) h
  obtain ⟨xs, h1, h2⟩ := onEvents_docs hs
  exact ⟨s.docs, by simp [hs], by rw [h1]; simp [init, h2]⟩

example : Stream exLoad := by
  refine .mk (ds := _ :: _) (.cons false (.seq _ _ (.cons (.scalar _) (.cons (.seq _ _ (.cons (.scalar _) .nil)) (.cons (.alias _) .nil))))
    (.cons true (.map _ _ (.cons (.scalar _) (.seq _ _ .nil) (.cons (.scalar _) (.scalar _) .nil))) .nil))

/-- C21 for the whole push interface: loading from any parser gives the trees described by the events which that parser sends. -/
theorem C21_load (fo : FloatOps F) {toks tail m k} (docs : List (Yaml F)) (h1 : tail ≠ .panic) (h2 : tail ≠ .hang)
    (h : loadFromParser fo (new toks tail m k) = .ok docs) :
    ∃ s, load true ⟨new toks tail m k, []⟩ = (.ok (), s) ∧ Stream (s.out.map (·.1)) ∧ docs.length = docEnds (s.out.map (·.1)) ∧
      ∀ docs', TreeStream UntaggedKey fo (s.out.map (·.1)) docs' → docs = docs' := by
  unfold loadFromParser at h
  cases hl : load true ⟨new toks tail m k, []⟩ with
  | mk r s =>
    rw [hl] at h
    cases r with
    | ok u =>
      have hst := (C13_load hl h1 h2).2 rfl
      simp only [Bool.true_eq_false, false_and, or_false] at hst
      dsimp only at h
      obtain ⟨docs1, hd1, hd2⟩ := C21_one_document_each fo _ hst
      cases hx : onEvents fo (init : LdSt F) (s.out.map (·.1)) with
      | none => simp [hx] at hd1
      | some l =>
        simp only [hx, Res.ok.injEq] at h
        simp only [hx, Option.map_some, Option.some.injEq] at hd1
        refine ⟨s, rfl, hst, by rw [← h, hd1]; exact hd2, fun docs' ht => ?_⟩
        have := C21_trees_partial fo _ _ ht
        simp only [hx, Option.map_some, Option.some.injEq] at this
        rw [← h, this]
    | err e => simp at h
    | panic => simp at h
    | hang => simp at h

/-! ## C22 -/

theorem doc_end_follows {fo : FloatOps F} {pre n more : List Event} {s0 : LdSt F} (hn : Node n) (h0 : onEvents fo (init : LdSt F) pre = some s0)
    (hroot : s0.docStack = []) (hp : StreamPrefix (pre ++ (n ++ more))) : ∃ g, steps [.docEnd] more = some g := by
  obtain ⟨fs, h⟩ := steps_prefix hp
  rw [steps_append] at h
  cases he : steps [.streamStart] pre with
  | none => simp [he] at h
  | some g =>
    obtain ⟨s, h1, h2⟩ := onEvents_top (fo := fo) (s := (init : LdSt F)) Top.streamStart he
    rw [h0] at h1; cases h1
    simp only [he, Option.bind_some] at h
    rw [steps_append] at h
    rw [hroot] at h2
    generalize s0.keyStack = ks at h2
    cases h2 with
    | node => rw [steps_node hn (a := []) rfl] at h; exact ⟨fs, h⟩
    | streamStart => cases hn <;> simp [steps, step, after] at h
    | docStart => cases hn <;> simp [steps, step, after] at h
    | done => cases hn <;> simp [steps, step] at h

/-- C22: let `n` be the events of a node with anchor number `a`, used for no other node before the alias. Then there is a value `x`
such that the node is inserted as `x` and the alias is inserted as the same `x`, whatever comes between. `Put x s s'` says that the
loader's state `s'` is `s` with the node `x` added in the current place. -/
theorem C22_alias_is_copy (fo : FloatOps F) (pre n mid : List Event) (a : Nat) (ha : 0 < a) (hn : Node n) (hna : nodeAnchor n = a)
    (hpre : ∀ e ∈ pre, definedAnchor e ≠ a) (hmid : ∀ e ∈ mid, definedAnchor e ≠ a)
    (hp : StreamPrefix (pre ++ (n ++ (mid ++ [.alias a])))) :
    ∃ x s0 s1 s2 s3, onEvents fo (init : LdSt F) pre = some s0 ∧ onEvents fo s0 n = some s1 ∧ Put x s0 s1 ∧
      onEvents fo s1 mid = some s2 ∧ onEvent fo s2 (.alias a) = some s3 ∧ Put x s2 s3 := by
  have hp1 : StreamPrefix (pre ++ n) := by
    obtain ⟨r, hr⟩ := hp; exact ⟨mid ++ [.alias a] ++ r, by simpa using hr⟩
  obtain ⟨s0, fs, h0, hs⟩ := ready_at_node (fo := fo) hn hp1
  obtain ⟨x, s1, h1, hput, hx⟩ := node_total (fo := fo) hn (ready_of_slot hs)
  have hp2 : StreamPrefix ((pre ++ (n ++ mid)) ++ [.alias a]) := by
    obtain ⟨r, hr⟩ := hp; exact ⟨r, by simpa using hr⟩
  obtain ⟨s2, fs2, h2, hs2⟩ := ready_at_node (fo := fo) (.alias a) hp2
  rw [onEvents_append, h0, Option.bind_some, onEvents_append, h1, Option.bind_some] at h2
  have o0 := onEvents_anchor h0 hpre ha (by simp [NoOpen, init])
  have hm : s2.anchorMap a = some x := by
    rw [hna] at hx
    have hx := hx ha
    have hroot : s0.docStack = [] ∨ NoOpen a s1 := by
      have o := o0.2
      cases hput with
      | root => exact .inl rfl
      | seq => right; intro p hp; simp only [List.mem_cons] at hp; rcases hp with rfl | hp
               · have := o (_, _, _) List.mem_cons_self; exact this
               · exact o p (List.mem_cons_of_mem _ hp)
      | key => exact .inr o
      | value => right; intro p hp; simp only [List.mem_cons] at hp; rcases hp with rfl | hp
                 · have := o (_, _, _) List.mem_cons_self; exact this
                 · exact o p (List.mem_cons_of_mem _ hp)
    rcases hroot with hroot | o1
    · -- the node is a whole document, and the next event ends it
      obtain ⟨g, hgs⟩ := doc_end_follows hn h0 hroot hp
      cases mid with
      | nil => simp [steps, step, after] at hgs
      | cons e mid =>
        have he : e = .documentEnd := by
          simp only [List.cons_append, steps] at hgs
          cases e <;> simp [step, after] at hgs
          rfl
        subst he
        simp only [onEvents, Option.bind_eq_some_iff] at h2
        obtain ⟨s1', h2, h3⟩ := h2
        have hs1 : ∃ b t, s1.docStack = [(x, b, t)] := by cases hput <;> simp_all
        obtain ⟨b, t, hs1⟩ := hs1
        simp only [onEvent, hs1, Option.some.injEq] at h2
        have o2 := onEvents_anchor h3 (fun e h => hmid e (by simp [h])) ha (by rw [← h2]; simp [NoOpen])
        rw [o2.1, ← h2]; exact hx
    · have o2 := onEvents_anchor h2 hmid ha o1
      rw [o2.1]; exact hx
  obtain ⟨s3, h3, hput3, -⟩ := insert_put (a := 0) (x := x) (t := none) (ready_of_slot hs2) rfl
  refine ⟨x, s0, s1, s2, s3, h0, h1, hput, h2, ?_, hput3⟩
  simp only [onEvent, hm, Option.getD_some, h3]

/-- the hypotheses of `C22_alias_is_copy` are met by `["x", &1 ["y"], *1]` -/
example : ∃ pre n mid, Node n ∧ nodeAnchor n = 1 ∧ (∀ e ∈ pre, definedAnchor e ≠ 1) ∧ (∀ e ∈ mid, definedAnchor e ≠ 1) ∧
    StreamPrefix (pre ++ (n ++ (mid ++ [.alias 1]))) :=
  ⟨[.streamStart, .documentStart false, .sequenceStart 0 none, exStr bs!"x" 0 none],
    [.sequenceStart 1 none, exStr bs!"y" 0 none, .sequenceEnd], [exStr bs!"z" 0 none],
    .seq 1 none (.cons (.scalar _) .nil), rfl, by decide +kernel, by decide +kernel,
    [.sequenceEnd, .documentEnd, .streamEnd],
    .mk (.cons false (.seq 0 none (.cons (.scalar _) (.cons (.seq 1 none (.cons (.scalar _) .nil)) (.cons (.scalar _) (.cons (.alias 1) .nil))))) .nil)⟩

/-! ## C35 -/

/-- an action that only adds to the events sent -/
def Grows {α} (m : LM α) : Prop := ∀ s, ∃ more, (m s).2.out = s.out ++ more

theorem grows_pure {α} (a : α) : Grows (pure a) := fun _ => ⟨[], by simp [pure]⟩
theorem grows_hang {α} : Grows (fun s => (.hang, s) : LM α) := fun _ => ⟨[], by simp⟩
theorem grows_lift {α} (m : PM α) : Grows (liftP m) := fun s => ⟨[], by simp [liftP]⟩
theorem grows_onEvent (ev sp) : Grows (Parser.onEvent ev sp) := fun _ => ⟨[(ev, sp)], rfl⟩
theorem grows_ite {α} {c : Prop} [Decidable c] {m n : LM α} (hm : Grows m) (hn : Grows n) : Grows (if c then m else n) := by
  split <;> assumption
theorem grows_bind {α β} {m : LM α} {f : α → LM β} (hm : Grows m) (hf : ∀ a, Grows (f a)) : Grows (m >>= f) := by
  intro s
  obtain ⟨x, hx⟩ := hm s
  show ∃ more, (match m s with
    | (.ok a, s') => f a s'
    | (.err e, s') => (.err e, s')
    | (.panic, s') => (.panic, s')
    | (.hang, s') => (.hang, s') : Res β × LSt).2.out = _
  cases h : m s with
  | mk r s' =>
    rw [h] at hx
    cases r with
    | ok a => obtain ⟨y, hy⟩ := hf a s'; exact ⟨x ++ y, by dsimp only at hx ⊢; rw [hy, hx]; simp⟩
    | _ => exact ⟨x, hx⟩

theorem grows_all (fuel : Nat) : (∀ ev sp, Grows (loadNode fuel ev sp)) ∧ Grows (loadMapping fuel) ∧ Grows (loadSequence fuel) := by
  induction fuel with
  | zero => exact ⟨fun _ _ => grows_hang, grows_hang, grows_hang⟩
  | succ n ih =>
    refine ⟨fun ev sp => ?_, ?_, ?_⟩
    · unfold loadNode
      split
      · exact grows_onEvent _ _
      · exact grows_onEvent _ _
      · exact grows_bind (grows_onEvent _ _) fun _ => ih.2.2
      · exact grows_bind (grows_onEvent _ _) fun _ => ih.2.1
      · exact grows_lift _
    · unfold loadMapping
      exact grows_bind (grows_lift _) fun a => grows_ite (grows_onEvent _ _)
        (grows_bind (ih.1 _ _) fun _ => grows_bind (grows_lift _) fun _ => grows_bind (ih.1 _ _) fun _ => ih.2.1)
    · unfold loadSequence
      exact grows_bind (grows_lift _) fun a => grows_ite (grows_onEvent _ _) (grows_bind (ih.1 _ _) fun _ => ih.2.2)

theorem grows_document (fuel ev sp) : Grows (loadDocument fuel ev sp) := by
  unfold loadDocument
  split
  · exact grows_bind (grows_onEvent _ _) fun _ => grows_bind (grows_lift _) fun _ => grows_bind ((grows_all fuel).1 _ _) fun _ =>
      grows_bind (grows_lift _) fun _ => grows_ite (grows_onEvent _ _) (grows_lift _)
  · exact grows_lift _

theorem grows_loop (multi fuel) : Grows (loadLoop multi fuel) := by
  induction fuel with
  | zero => exact grows_hang
  | succ n ih =>
    unfold loadLoop
    refine grows_bind (grows_lift _) fun _ => grows_ite (grows_onEvent _ _) (grows_bind (grows_lift _) fun _ =>
      grows_bind (grows_document _ _ _) fun _ => ?_)
    split
    · exact ih
    · exact grows_pure _

/-- bind, by cases on the first action -/
theorem lbind {α β} (m : LM α) (f : α → LM β) (s : LSt) : (m >>= f) s = (match m s with
    | (.ok a, s') => f a s'
    | (.err e, s') => (.err e, s')
    | (.panic, s') => (.panic, s')
    | (.hang, s') => (.hang, s')) := rfl

/-- How loading one document (`r1`) and loading all (`r2`) compare: they end alike, or the first stops after a `DocumentEnd` and the
second goes on. -/
def Agrees (r1 r2 : Res Unit × LSt) : Prop :=
  r1 = r2 ∨ (r1.1 = .ok () ∧ (∃ more, r2.2.out = r1.2.out ++ more) ∧ 0 < docEnds (r1.2.out.map (·.1)))

theorem document_ends (fuel ev sp s s') (h : loadDocument fuel ev sp s = (.ok (), s')) : 0 < docEnds (s'.out.map (·.1)) := by
  unfold loadDocument at h
  split at h
  · rw [lbind] at h
    split at h <;> try (simp at h; done)
    rw [lbind] at h
    split at h <;> try (simp at h; done)
    rename_i b s2 _
    obtain ⟨ev2, sp2⟩ := b
    replace h : (loadNode fuel ev2 sp2 >>= fun _ => liftP nextEventImpl >>= fun b : Event × Span =>
      if b.1 = .documentEnd then Parser.onEvent b.1 b.2 else liftP Parser.panic) s2 = (.ok (), s') := h
    rw [lbind] at h
    split at h <;> try (simp at h; done)
    rw [lbind] at h
    split at h <;> try (simp at h; done)
    rename_i a s3 _
    by_cases he : a.1 = .documentEnd
    · simp only [he, if_true, Parser.onEvent] at h
      simp only [Prod.mk.injEq, true_and] at h
      rw [← h]; simp [docEnds]
    · simp only [he, if_false, liftP, Parser.panic] at h
      simp at h
  · simp [liftP, throwAt, Parser.throw] at h

theorem loop_agrees (fuel s) : Agrees (loadLoop false fuel s) (loadLoop true fuel s) := by
  cases fuel with
  | zero => exact .inl rfl
  | succ n =>
    unfold loadLoop
    rw [lbind, lbind]
    cases h1 : liftP nextEventImpl s with
    | mk r s1 =>
      cases r with
      | ok a =>
        obtain ⟨ev, sp⟩ := a
        dsimp only
        by_cases he : ev = .streamEnd
        · simp only [he, if_true]; exact .inl rfl
        · simp only [he, if_false]
          rw [lbind, lbind]
          cases h2 : liftP (modify fun s => { s with anchors := [] }) s1 with
          | mk r s2 =>
            cases r with
            | ok a =>
              dsimp only
              rw [lbind, lbind]
              cases h3 : loadDocument n ev sp s2 with
              | mk r s3 =>
                cases r with
                | ok a =>
                  right
                  dsimp only
                  refine ⟨rfl, ?_, document_ends _ _ _ _ _ h3⟩
                  simp only [if_true]
                  exact grows_loop true n s3
                | _ => exact .inl rfl
            | _ => exact .inl rfl
      | _ => exact .inl rfl

theorem rest_agrees (fuel s) : Agrees (loadRest false fuel s) (loadRest true fuel s) := by
  unfold loadRest
  rw [lbind, lbind]
  cases h1 : liftP (gets (·.ended)) s with
  | mk r s1 =>
    cases r with
    | ok a =>
      cases a with
      | true => exact .inl rfl
      | false => exact loop_agrees fuel s1
    | _ => exact .inl rfl

theorem load_agrees (s) : Agrees (load false s) (load true s) := by
  unfold load
  split
  · exact rest_agrees _ _
  · rw [lbind, lbind]
    cases h1 : liftP nextEventImpl s with
    | mk r s1 =>
      cases r with
      | ok a =>
        obtain ⟨ev, sp⟩ := a
        dsimp only
        by_cases he : ev = .streamStart
        · simp only [he, ne_eq, not_true_eq_false, if_false]
          rw [lbind, lbind]
          exact rest_agrees _ _
        · simp only [he, ne_eq, not_false_eq_true, if_true]; exact .inl rfl
      | _ => exact .inl rfl

/-- C35 in full: loading one document gives an error exactly when loading all does, the first of all documents if there is one, and
the no-document error exactly when there is none. -/
def C35_full (fo : FloatOps F) : Prop :=
  ∀ toks tail m k, tail ≠ .panic → tail ≠ .hang →
    ((∃ e, loadFromParser fo (new toks tail m k) = .err e) ↔ (∃ e, e ≠ .noDocument ∧ loadSingleFromParser fo (new toks tail m k) = .err e)) ∧
    (∀ d ds, loadFromParser fo (new toks tail m k) = .ok (d :: ds) → loadSingleFromParser fo (new toks tail m k) = .ok d) ∧
    (loadFromParser fo (new toks tail m k) = .ok [] ↔ loadSingleFromParser fo (new toks tail m k) = .err .noDocument)

/-- C35, for any tokens: if loading all succeeds, loading one gives the first document, or the no-document error if there is none. If
loading one fails, loading all fails in the same way or there is no document. If loading one succeeds, loading all gives that document
first or fails. Missing: loading one document does not look at what follows it, so an error there is not reported
(`C35_single_false`). -/
theorem C35_single_partial (fo : FloatOps F) (toks : List Token) (tail : Tail) (m : Marker) (k : Bool) (h1 : tail ≠ .panic)
    (h2 : tail ≠ .hang) :
    (∀ d ds, loadFromParser fo (new toks tail m k) = .ok (d :: ds) → loadSingleFromParser fo (new toks tail m k) = .ok d) ∧
    (loadFromParser fo (new toks tail m k) = .ok [] → loadSingleFromParser fo (new toks tail m k) = .err .noDocument) ∧
    (∀ e, loadSingleFromParser fo (new toks tail m k) = .err e →
      loadFromParser fo (new toks tail m k) = .err e ∨ (e = .noDocument ∧ loadFromParser fo (new toks tail m k) = .ok [])) ∧
    (∀ d, loadSingleFromParser fo (new toks tail m k) = .ok d →
      (∃ ds, loadFromParser fo (new toks tail m k) = .ok (d :: ds)) ∨ ∃ e, loadFromParser fo (new toks tail m k) = .err e) := by
  have ha := load_agrees ⟨new toks tail m k, []⟩
  have np : (load true ⟨new toks tail m k, []⟩).1 ≠ .panic ∧ (load true ⟨new toks tail m k, []⟩).1 ≠ .hang := by
    have hl := load_new (multi := true) (toks := toks) (tail := tail) (m := m) (k := k)
    unfold lw at hl
    obtain ⟨-, hl⟩ := hl
    cases hx : load true ⟨new toks tail m k, []⟩ with
    | mk r s =>
      rw [hx] at hl
      cases r with
      | panic => exact absurd hl h1
      | hang => exact absurd hl h2
      | _ => simp
  unfold loadFromParser loadSingleFromParser
  cases hs : load false ⟨new toks tail m k, []⟩ with
  | mk r1 s1 =>
    cases ht : load true ⟨new toks tail m k, []⟩ with
    | mk r2 s2 =>
      have p1 := (C13_load hs h1 h2).1
      have p2 := (C13_load ht h1 h2).1
      have t1 := C21_loader_never_panics fo _ p1
      have t2 := C21_loader_never_panics fo _ p2
      rw [hs, ht] at ha
      rw [ht] at np
      rcases ha with ha | ⟨ha, ⟨more, hm⟩, hd⟩
      · cases ha
        cases r1 with
        | ok u =>
          dsimp only
          cases ho : onEvents fo (init : LdSt F) (s1.out.map (·.1)) with
          | none => exact absurd ho t1
          | some l => dsimp only; cases hl : l.docs <;> simp
        | err e => simp
        | panic => simp
        | hang => simp
      · dsimp only at ha hm hd
        subst ha
        dsimp only
        cases ho : onEvents fo (init : LdSt F) (s1.out.map (·.1)) with
        | none => exact absurd ho t1
        | some l =>
          dsimp only
          obtain ⟨xs, hx1, hx2⟩ := onEvents_docs ho
          have : ∃ d ds, l.docs = d :: ds := by
            cases hl : l.docs with
            | cons d ds => exact ⟨d, ds, rfl⟩
            | nil => rw [hl] at hx1; simp [init] at hx1; subst hx1; simp at hx2; omega
          obtain ⟨d, ds, hl⟩ := this
          simp only [hl]
          cases ho2 : onEvents fo (init : LdSt F) (s2.out.map (·.1)) with
          | none => exact absurd ho2 t2
          | some l2 =>
            have hl2 : ∃ ds', l2.docs = d :: ds' := by
              have := ho2
              rw [hm, List.map_append, onEvents_append, ho, Option.bind_some] at this
              obtain ⟨ys, hy, -⟩ := onEvents_docs this
              exact ⟨ds ++ ys, by rw [hy, hl]; rfl⟩
            obtain ⟨ds', hl2⟩ := hl2
            cases r2 with
            | ok u => simp [hl2, ho2]
            | err e => simp
            | panic => simp at np
            | hang => simp at np

/-- C35 is false: an error after the first document is not reported when one document is loaded (here, an unknown anchor in the second
document of `exToks`). -/
theorem C35_single_false (fo : FloatOps F) : ¬ C35_full fo := by
  intro h
  have h1 : (load false ⟨new exToks .ended .default false, []⟩).1 = .ok () := by decide +kernel
  have h2 : (load true ⟨new exToks .ended .default false, []⟩).1 =
      .err (.scanner .default "while parsing node, found unknown anchor") := by decide +kernel
  obtain ⟨e, he, hx⟩ := (h exToks .ended .default false (by simp) (by simp)).1.1 ⟨.scanner .default "while parsing node, found unknown anchor", by
    unfold loadFromParser
    cases hl : load true ⟨new exToks .ended .default false, []⟩ with
    | mk r s => rw [hl] at h2; dsimp only at h2; subst h2; rfl⟩
  unfold loadSingleFromParser at hx
  cases hl : load false ⟨new exToks .ended .default false, []⟩ with
  | mk r s =>
    rw [hl] at h1 hx; dsimp only at h1; subst h1
    dsimp only at hx
    split at hx
    · split at hx
      · simp at hx
      · simp only [Res.err.injEq] at hx; exact he hx.symm
    · simp at hx

/-- the two documents of `exToks`, the second without its alias: loading all succeeds and meets both -/
example : (load true ⟨new (exToks.take 13 ++ [tk (.scalar .doubleQuote bs!"z"), tk .streamEnd]) .ended .default false, []⟩).1 = .ok () ∧
    docEnds ((load true ⟨new (exToks.take 13 ++ [tk (.scalar .doubleQuote bs!"z"), tk .streamEnd]) .ended .default false, []⟩).2.out.map (·.1)) = 2 := by
  decide +kernel

end Verif.Props
