import Verif.Props.Docs
/-!
# C58: flow collections

`FlowBody` and `Flow` are in `Verif.Spec.Block`.
-/
namespace Verif.Props
open Verif Verif.Spec Verif.Spec.Block Verif.Spec.Core Verif.Scanner
variable {F : Type}

/-- C58, the full statement: a text with one flow collection, idle lines before it and anything idle after it, loads, with enough
iterations, as the value the collection stands for. -/
def C58_full (fo : FloatOps F) : Prop :=
  ∀ a n t b x E, IdleLines a → FlowBody true fo (.scalar .null) 0 [] none .nested t x E → Tail b →
    ∃ N, ∀ cfg m, N ≤ cfg.fuel → N ≤ m → Loader.loadFrom fo cfg m (a ++ (spaces n ++ (t ++ b))) = .ok [x]

theorem idle_head {a r} (h : IdleLines a) (hr : r.head? ≠ some 0xEF) : (a ++ r).head? ≠ some 0xEF := by
  cases h with
  | nil => exact hr
  | cons hl _ => rcases hl with ⟨n, rfl⟩ | ⟨n, k, ⟨w, rfl, -⟩, rfl⟩ <;> cases n <;> simp [spaces, List.replicate_succ]

/-- C58 with the empty string for values that are missing, and without a key and a value between `[` and `]`, plain scalars that begin with
`:` or end with a word `-`, and a line end between a collection and a `:` that has no white space after it. What is missing: these, for
all of which but the second the claim is false in general. C54 and C57 have flow collections inside block collections, and in texts with
several documents. -/
theorem C58_flow_partial {fo : FloatOps F} {a n t b x E} (ha : IdleLines a) (h : FlowBody false fo (.scalar (.str [])) 0 [] none .nested t x E) (hb : Tail b) :
    ∃ N, ∀ cfg m, N ≤ cfg.fuel → N ≤ m → Loader.loadFrom fo cfg m (a ++ (spaces n ++ (t ++ b))) = .ok [x] := by
  have key : (a ++ (spaces n ++ (t ++ b))).take 3 ≠ [0xEF, 0xBB, 0xBF] := by
    intro e
    refine idle_head (r := spaces n ++ (t ++ b)) ha ?_ ?_
    · cases n with
      | succ n => simp [spaces, List.replicate_succ]
      | zero => cases h <;> simp [spaces]
    · cases hw : a ++ (spaces n ++ (t ++ b)) with
      | nil => rw [hw] at e; cases e
      | cons c r => rw [hw] at e; simp at e; simp [e]
  obtain ⟨N, hN⟩ := C54_block_partial (t := a ++ (spaces n ++ (t ++ b))) ⟨a, n, none, t, b, E, ha, .flow h, hb, rfl, key⟩
  exact ⟨N, fun cfg m h1 h2 => (hN cfg m h1 h2).1⟩

/-- two items over several lines, with a comment, values beside their keys, missing values and a comma at the end -/
def flowText : List Byte := bs!"# x\n  [a\nb, {\"c\":1, [] : {}, 'e' ,f:\n # g\n h, i:} ,\n]"

def flowTree (absent : Yaml F) : Yaml F :=
  .seq [.scalar (.str bs!"a b"), .map [(.scalar (.str bs!"c"), .scalar (.int 1)), (.seq [], .map []), (.scalar (.str bs!"e"), absent),
    (.scalar (.str bs!"f"), .scalar (.str bs!"h")), (.scalar (.str bs!"i"), absent)]]

theorem flow_word {full} {fo : FloatOps F} {absent E p c r x} (h : Word (c :: r)) (hc : c ∉ bs!"[]{},*&!|>'\"%@`-?:.") (hf : ∀ b ∈ c :: r, b ∉ bs!",[]{}")
    (hx : Resolves full fo (c :: r) x) : Flow full fo absent p E .plain (c :: r) (.scalar x) E := by
  refine .plain (begins hc) (.one (.one h)) hf (fun _ => ⟨fun e => hc ?_, ?_⟩) hx
  · cases Option.some.inj e; simp
  · rintro ⟨l, e | e⟩
    · exact (h.ink 32 (by rw [e]; simp)).2.2.2.2 rfl
    · exact (h.ink 10 (by rw [e]; simp)).2.2.1 rfl

theorem key_scalar {full} {x : Scalar F} : KeyOk full (.scalar x) := fun _ => ⟨nofun, nofun⟩

theorem key_seq {full} {xs : List (Yaml F)} : KeyOk full (.seq xs) := fun _ => ⟨nofun, nofun⟩

theorem flow_hello {full} {fo : FloatOps F} {absent} :
    FlowBody full fo absent 0 [] none .nested bs!"[a\nb, {\"c\":1, [] : {}, 'e' ,f:\n # g\n h, i:} ,\n]" (flowTree absent) [] := by
  have w : ∀ c ∈ bs!"abfhi", Flow full fo absent 0 [] .plain [c] (.scalar (.str [c])) [] := fun c hc => by
    simp at hc
    rcases hc with rfl | rfl | rfl | rfl | rfl <;>
      exact flow_word ⟨by simp, by simp [Block.Ink], by simp, by simp⟩ (by decide) (by simp) (resolves_str rfl (by decide))
  have s0 : Space 0 [] := .inl ⟨0, rfl⟩
  have s1 : Space 0 bs!" " := .inl ⟨1, rfl⟩
  have sl : Space 0 bs!"\n" := .inr ⟨0, Nat.le_refl _, break_lf⟩
  refine .seq (g := []) (r := bs!"a\nb, {\"c\":1, [] : {}, 'e' ,f:\n # g\n h, i:} ,\n") s0 ?_ .untagged
  refine .more (E₁ := []) (t := bs!"a\nb") (g := []) (g' := bs!" ") (r := bs!"{\"c\":1, [] : {}, 'e' ,f:\n # g\n h, i:} ,\n") (.node (k := .plain) ?_) s0 s1 ?_
  · refine .plain (v := bs!"a b") (begins (by decide)) (.more (t := bs!"a") (m := 0) (n := 0) (g := bs!"\n") (r := bs!"b") (v := bs!"b") (.one ?_) ⟨0, [], .nil, rfl⟩ (Nat.le_refl _) (fun _ => ?_) (.one (.one ?_)))
      (by simp) (fun _ => ⟨by simp, ?_⟩) (resolves_str rfl (by decide))
    · exact ⟨by simp, by simp [Block.Ink], by simp, by simp⟩
    · rintro m r (rfl | rfl) e <;> cases e
    · exact ⟨by simp, by simp [Block.Ink], by simp, by simp⟩
    · rintro ⟨r, e | e⟩ <;> have := congrArg List.getLast? e <;> simp at this
  · refine .more (E₁ := []) (t := bs!"{\"c\":1, [] : {}, 'e' ,f:\n # g\n h, i:}") (g := bs!" ") (g' := bs!"\n") (r := []) (.node (k := .nested) ?_) s1 sl .nil
    refine .map (g := []) (r := bs!"\"c\":1, [] : {}, 'e' ,f:\n # g\n h, i:") s0 ?_
    refine .more (E₁ := []) (t := bs!"\"c\":1") (g := []) (g' := bs!" ") (r := bs!"[] : {}, 'e' ,f:\n # g\n h, i:") (.pair ?_) s0 s1 ?_
    · exact .value (k := .quoted) (t := bs!"\"c\"") (g := []) (g' := []) (k' := .plain) (t' := bs!"1") (.double (w := bs!"c") (.raw (by decide) (by decide) (by decide) .nil)) key_scalar s0 (by simp) s0 (fun _ => ⟨by simp, by simp⟩)
        (flow_word ⟨by simp, by simp [Block.Ink], by simp, by simp⟩ (by decide) (by simp) (.int (.dec (v := 1) ⟨by simp, by decide⟩) (by unfold Fits64; decide)))
    refine .more (E₁ := []) (t := bs!"[] : {}") (g := []) (g' := bs!" ") (r := bs!"'e' ,f:\n # g\n h, i:") (.pair ?_) s0 s1 ?_
    · exact .value (k := .nested) (t := bs!"[]") (g := bs!" ") (g' := bs!" ") (k' := .nested) (t' := bs!"{}") (.seq (g := []) (r := []) s0 .nil) key_seq s1 (by simp) s1 (by simp) (.map (g := []) (r := []) s0 .nil)
    refine .more (E₁ := []) (t := bs!"'e'") (g := bs!" ") (g' := []) (r := bs!"f:\n # g\n h, i:") (.alone (k := .quoted) ?_ key_scalar) s1 s0 ?_
    · exact .single (w := bs!"e") (.raw (by decide) (by decide) .nil)
    refine .more (E₁ := []) (t := bs!"f:\n # g\n h") (g := []) (g' := bs!" ") (r := bs!"i:") (.pair ?_) s0 s1 (.last (t := bs!"i:") (g := []) (.pair ?_) s0)
    · exact .value (k := .plain) (t := bs!"f") (g := []) (g' := bs!"\n # g\n ") (k' := .plain) (t' := bs!"h") (w 102 (by simp)) key_scalar s0 (by simp)
        (.inr ⟨1, by omega, [], bs!" # g\n", .inl ⟨0, rfl⟩, .cons (l := bs!" # g") (.inr ⟨1, _, ⟨bs!" g", rfl, by simp⟩, rfl⟩) .nil, rfl⟩) (by simp) (w 104 (by simp))
    · exact .absent (k := .plain) (t := bs!"i") (g := []) (w 105 (by simp)) key_scalar s0 (by simp)

example (fo : FloatOps F) : ∃ N, ∀ cfg m, N ≤ cfg.fuel → N ≤ m → Loader.loadFrom fo cfg m flowText = .ok [flowTree (.scalar (.str []))] :=
  C58_flow_partial (a := bs!"# x\n") (n := 2) (t := bs!"[a\nb, {\"c\":1, [] : {}, 'e' ,f:\n # g\n h, i:} ,\n]") (b := []) (.cons (l := bs!"# x") (.inr ⟨0, _, ⟨bs!" x", rfl, by simp⟩, rfl⟩) .nil) flow_hello (.inl (.inl ⟨0, rfl⟩))

theorem load_refused {fo : FloatOps F} {i e k} (h : ∀ d, (Loader.pushed true ⟨k, d⟩ k i).1 = .err e) (hs : ∀ d, (Spec.scanInput ⟨k, d⟩ i k).2 = .ended)
    {cfg n} (hf : k ≤ cfg.fuel) (hn : k ≤ n) : Loader.loadFrom fo cfg n i = .err e := by
  have := Loader.load_err (fo := fo) (h cfg.debug)
  rw [← this, Loader.loadFrom, Loader.loadFrom, parserOn_more (cfg := ⟨k, cfg.debug⟩) (cfg' := cfg) ⟨hf, rfl⟩ hn (.inl (hs _))]

/-- C58 is false. A value that is missing loads as the empty string. `[a: {b: c, d: e}]` loads as `[{a: {b: c}, {d: e}: ''}]`, since the comma
between `{` and `}` ends the mapping that `a` began. `[a -]` is refused; and so is a `:` on a line after a collection, if no white space
follows. -/
theorem C58_flow_false (fo : FloatOps F) :
    (FlowBody true fo (.scalar .null) 0 [] none .nested bs!"{a}" (.map [(.scalar (.str bs!"a"), .scalar .null)]) [] ∧
      ∃ N, ∀ cfg m, N ≤ cfg.fuel → N ≤ m → Loader.loadFrom fo cfg m bs!"{a}" = .ok [.map [(.scalar (.str bs!"a"), .scalar (.str []))]]) ∧
    (∀ absent, FlowBody true fo absent 0 [] none .nested bs!"[a: {b: c, d: e}]" (.seq [.map [(.scalar (.str bs!"a"),
        .map [(.scalar (.str bs!"b"), .scalar (.str bs!"c")), (.scalar (.str bs!"d"), .scalar (.str bs!"e"))])]]) [] ∧
      ∀ cfg m, 60 ≤ cfg.fuel → 60 ≤ m → Loader.loadFrom fo cfg m bs!"[a: {b: c, d: e}]" = .ok [.seq [.map [(.scalar (.str bs!"a"),
        .map [(.scalar (.str bs!"b"), .scalar (.str bs!"c"))]), (.map [(.scalar (.str bs!"d"), .scalar (.str bs!"e"))], .scalar (.str []))]]]) ∧
    (∀ absent, FlowBody true fo absent 0 [] none .nested bs!"[a -]" (.seq [.scalar (.str bs!"a -")]) [] ∧
      ∀ cfg m, 60 ≤ cfg.fuel → 60 ≤ m → ∃ e, Loader.loadFrom fo cfg m bs!"[a -]" = .err e) ∧
    (∀ absent, FlowBody true fo absent 0 [] none .nested bs!"{[a]\n:b}" (.map [(.seq [.scalar (.str bs!"a")], .scalar (.str bs!"b"))]) [] ∧
      ∀ cfg m, 60 ≤ cfg.fuel → 60 ≤ m → ∃ e, Loader.loadFrom fo cfg m bs!"{[a]\n:b}" = .err e) ∧
    ¬ C58_full fo := by
  have w : ∀ {full absent}, ∀ c ∈ bs!"abcde", Flow full fo absent 0 [] .plain [c] (.scalar (.str [c])) [] := fun c hc => by
    simp at hc
    rcases hc with rfl | rfl | rfl | rfl | rfl <;>
      exact flow_word ⟨by simp, by simp [Block.Ink], by simp, by simp⟩ (by decide) (by simp) (resolves_str rfl (by decide))
  have s0 : Space 0 [] := .inl ⟨0, rfl⟩
  have s1 : Space 0 bs!" " := .inl ⟨1, rfl⟩
  have sl : Space 0 bs!"\n" := .inr ⟨0, Nat.le_refl _, break_lf⟩
  have h1 : ∀ full absent, FlowBody full fo absent 0 [] none .nested bs!"{a}" (.map [(.scalar (.str bs!"a"), absent)]) [] := fun full absent =>
    .map (g := []) (r := bs!"a") s0 (.last (t := bs!"a") (g := []) (.alone (w 97 (by simp)) key_scalar) s0) .untagged
  have h2 : ∀ absent, FlowBody true fo absent 0 [] none .nested bs!"[a: {b: c, d: e}]" (.seq [.map [(.scalar (.str bs!"a"),
        .map [(.scalar (.str bs!"b"), .scalar (.str bs!"c")), (.scalar (.str bs!"d"), .scalar (.str bs!"e"))])]]) [] := fun absent => by
    refine .seq (g := []) (r := bs!"a: {b: c, d: e}") s0 (.last (t := bs!"a: {b: c, d: e}") (g := []) (.pair rfl ?_ (by decide) (by decide)) s0) .untagged
    refine .value (k := .plain) (t := bs!"a") (g := []) (g' := bs!" ") (k' := .nested) (t' := bs!"{b: c, d: e}") (w 97 (by simp)) key_scalar s0 (by simp) s1 (by simp) ?_
    refine .map (g := []) (r := bs!"b: c, d: e") s0 (.more (E₁ := []) (t := bs!"b: c") (g := []) (g' := bs!" ") (r := bs!"d: e") (.pair ?_) s0 s1 (.last (t := bs!"d: e") (g := []) (.pair ?_) s0))
    · exact .value (k := .plain) (t := bs!"b") (g := []) (g' := bs!" ") (k' := .plain) (t' := bs!"c") (w 98 (by simp)) key_scalar s0 (by simp) s1 (by simp) (w 99 (by simp))
    · exact .value (k := .plain) (t := bs!"d") (g := []) (g' := bs!" ") (k' := .plain) (t' := bs!"e") (w 100 (by simp)) key_scalar s0 (by simp) s1 (by simp) (w 101 (by simp))
  have h3 : ∀ absent, FlowBody true fo absent 0 [] none .nested bs!"[a -]" (.seq [.scalar (.str bs!"a -")]) [] := fun absent => by
    refine .seq (g := []) (r := bs!"a -") s0 (.last (t := bs!"a -") (g := []) (.node (k := .plain) ?_) s0) .untagged
    exact .plain (begins (by decide)) (.one (.more (w := bs!"a") (n := 0) (r := bs!"-") ⟨by simp, by simp [Block.Ink], by simp, by simp⟩ (.one ⟨by simp, by simp [Block.Ink], by simp, by simp⟩)))
      (by simp) (by simp) (resolves_str rfl (by decide))
  have h4 : ∀ absent, FlowBody true fo absent 0 [] none .nested bs!"{[a]\n:b}" (.map [(.seq [.scalar (.str bs!"a")], .scalar (.str bs!"b"))]) [] := fun absent => by
    refine .map (g := []) (r := bs!"[a]\n:b") s0 (.last (t := bs!"[a]\n:b") (g := []) (.pair ?_) s0) .untagged
    exact .value (k := .nested) (t := bs!"[a]") (g := bs!"\n") (g' := []) (k' := .plain) (t' := bs!"b")
      (.seq (g := []) (r := bs!"a") s0 (.last (t := bs!"a") (g := []) (.node (w 97 (by simp))) s0)) key_seq sl (by simp) s0 (by simp) (w 98 (by simp))
  have e2 : ∀ cfg m, 60 ≤ cfg.fuel → 60 ≤ m → Loader.loadFrom fo cfg m bs!"[a: {b: c, d: e}]" = .ok [.seq [.map [(.scalar (.str bs!"a"),
        .map [(.scalar (.str bs!"b"), .scalar (.str bs!"c"))]), (.map [(.scalar (.str bs!"d"), .scalar (.str bs!"e"))], .scalar (.str []))]]] := fun cfg m =>
    load_more (i := bs!"[a: {b: c, d: e}]") (evs := [.streamStart, .documentStart false, .sequenceStart 0 none, .mappingStart 0 none, .scalar ⟨bs!"a", .plain, 0, none⟩,
      .mappingStart 0 none, .scalar ⟨bs!"b", .plain, 0, none⟩, .scalar ⟨bs!"c", .plain, 0, none⟩, .mappingEnd, .mappingStart 0 none, .scalar ⟨bs!"d", .plain, 0, none⟩,
      .scalar ⟨bs!"e", .plain, 0, none⟩, .mappingEnd, .scalar ⟨[], .plain, 0, none⟩, .mappingEnd, .sequenceEnd, .documentEnd, .streamEnd]) (by decide +kernel) rfl (by decide +kernel)
  refine ⟨⟨h1 _ _, C58_flow_partial (a := []) (n := 0) (t := bs!"{a}") (b := []) .nil (h1 _ _) (.inl (.inl ⟨0, rfl⟩))⟩, fun absent => ⟨h2 absent, e2⟩, fun absent => ⟨h3 absent, fun cfg m h1 h2 => ?_⟩,
    fun absent => ⟨h4 absent, fun cfg m h1 h2 => ?_⟩, fun h => ?_⟩
  · exact ⟨.scanner ⟨3, 4, 1⟩ "plain scalar cannot start with '-' followed by ,[]{}", json_err (k := 60) (by decide +kernel) (by decide +kernel) h1 h2⟩
  · exact ⟨.scanner ⟨5, 1, 2⟩ "while parsing a flow mapping, did not find expected ',' or '}'", load_refused (k := 60) (by decide +kernel) (by decide +kernel) h1 h2⟩
  · obtain ⟨N, hN⟩ := h [] 0 _ [] _ _ .nil (h2 _) (.inl (.inl ⟨0, rfl⟩))
    have := hN ⟨N + 60, false⟩ (N + 60) (by simp) (by simp)
    rw [show [] ++ (spaces 0 ++ (bs!"[a: {b: c, d: e}]" ++ [])) = bs!"[a: {b: c, d: e}]" from rfl, e2 _ _ (by simp) (by simp)] at this
    cases this

end Verif.Props
