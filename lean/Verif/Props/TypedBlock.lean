import Verif.Lemmas.TypedDoc
import Verif.Props.TypedJson
import Verif.Props.Scroll
import Verif.Props.Directives
/-!
# C62: YAML in block style as values of Rust types

What a text stands for is in `Verif.Spec.TypedBlock`.
-/
namespace Verif.Props
open Verif Verif.Spec Verif.Spec.Block Verif.Scanner Verif.De Verif.ParserIter
variable {F : Type}

/-- C62, the full statement: every text in block style that stands for a value of a type deserialises, with enough iterations, to that value. -/
def C62_full (fo : FloatOps F) (ofInt : Int → F) : Prop :=
  ∀ ty text v, Block.TypedText true fo ofInt ty text v → ∃ N, ∀ cfg n fuel, N ≤ cfg.fuel → N ≤ n → N ≤ fuel → fromStr fo ofInt cfg n fuel ty text = .ok v

/-- C62 for the types that the deserialiser handles (see C29 and C51), and for the texts of `TypedText false`. What is missing: other types, and the texts that
are left out there; the claim is false for most of them. -/
theorem C62_typed_block_partial {fo : FloatOps F} {ofInt : Int → F} {ty text} {v : Val F} (hty : HandledTop false ty = true) (h : Block.TypedText false fo ofInt ty text v) :
    ∃ N, ∀ cfg n fuel, N ≤ cfg.fuel → N ≤ n → N ≤ fuel → fromStr fo ofInt cfg n fuel ty text = .ok v := by
  obtain ⟨a, n, f, w, r, ha, h, hr, rfl, -⟩ := h
  obtain ⟨b, evs, toks, hd, hn, hv⟩ := typedDoc_reads h
  obtain ⟨N, hN⟩ := typed_delivers ha hd hr
  refine ⟨N + evs.length, fun cfg n fuel h1 h2 h3 => ?_⟩
  obtain ⟨s, hs⟩ := hN cfg n (by omega) (by omega)
  exact C29_lenient_partial fo ofInt ty hty _ _ _ _ b evs [.streamEnd] s hn hs fuel (by omega) v hv

/-! ## A struct -/

/-- `struct { name: String, port: u16, retries: Option<i8>, debug: Option<bool>, hosts: Vec<String>, at: (i32, bool), note: String }` -/
def blockStruct : Ty := .record false [(bs!"name", .str), (bs!"port", .int .u16), (bs!"retries", .option (.int .i8)), (bs!"debug", .option .bool),
  (bs!"hosts", .vec .str), (bs!"at", .tuple [.int .i32, .bool]), (bs!"note", .str)]

def blockStructText : List Byte :=
  bs!"# settings\nname: demo\nhosts:\n- a\n- b\nmore:\n  x: y\nat: [-1, true]\nport: 8080\nretries: 3\nnote: |-\n\n   # a\n    b\n\n\n"

def blockStructValue : Val F := .record [(bs!"name", .str bs!"demo"), (bs!"port", .int 8080), (bs!"retries", .some (.int 3)), (bs!"debug", .none),
  (bs!"hosts", .vec [.str bs!"a", .str bs!"b"]), (bs!"at", .tuple [.int (-1), .bool true]), (bs!"note", .str bs!"\n# a\n b")]

/-- a word that may begin a scalar is not null, unless it is one of the spellings of null -/
theorem notNull_word {fo : FloatOps F} {s p c r} (hs : s ≠ .absent) (hc : c ∉ bs!"[]{},*&!|>'\"%@`-?:.") (hn : 10 ∉ c :: r)
    (hw : c :: r ∉ [bs!"~", bs!"null", bs!"Null", bs!"NULL"]) : NotNull false fo s p (c :: r) := by
  refine ⟨hs, fun h => ?_, fun _ u h => ?_⟩
  · generalize hy : (Yaml.scalar Scalar.null : Yaml F) = y at h
    generalize ht : c :: r = t at h
    cases h with
    | plain h1 h2 h3 =>
      subst ht
      obtain ⟨-, rfl⟩ := lines_flat h2 hn
      cases hy
      cases h3
      contradiction
    | double => cases hy
    | single => cases hy
  · rcases h with ⟨-, h⟩ | ⟨w, -, e⟩ | ⟨w, -, e⟩ | ⟨k, h⟩
    · obtain ⟨-, rfl⟩ := lines_flat h hn
      exact ⟨by simp, fun e => by rw [e] at hw; simp at hw⟩
    · cases e; simp at hc
    · cases e; simp at hc
    · generalize ht : c :: r = t at h hn
      cases h with
      | mk => exact absurd (by simp) hn
      | empty hf => cases hf

theorem dashed_short {t : List Byte} (h : 32 ∉ t ∧ 10 ∉ t) : ¬ Dashed t := by
  rintro ⟨r, e | e⟩
  · exact h.1 (by rw [e]; simp)
  · exact h.2 (by rw [e]; simp)

theorem element_short {t : List Byte} (h : 32 ∉ t ∧ 10 ∉ t ∧ 58 ∉ t ∧ ∀ b ∈ t, b ∉ bs!",[]{}") : Element false t :=
  .inr (.inr ⟨h.2.2.2, fun _ => ⟨fun e => h.2.2.1 (List.mem_of_head? e), dashed_short ⟨h.1, h.2.1⟩⟩⟩)

theorem block_struct {fo : FloatOps F} {ofInt : Int → F} : Block.TypedText false fo ofInt blockStruct blockStructText blockStructValue := by
  have name : ∀ {c r}, Word (c :: r) → c ∉ bs!"[]{},*&!|>'\"%@`-?:." → Scalar.valueFromCowAndMetadata fo (c :: r) .plain none = .scalar (.str (c :: r)) →
      (∀ d ∈ c :: r, ¬ (b%'0' ≤ d ∧ d ≤ b%'9')) → FieldName false fo (c :: r) (c :: r) := fun h1 h2 h3 h4 => leaf_word h1 h2 (resolves_str h3 h4)
  refine ⟨bs!"# settings\n", 0, some 3, bs!"name: demo\nhosts:\n- a\n- b\nmore:\n  x: y\nat: [-1, true]\nport: 8080\nretries: 3\nnote: |-\n\n   # a\n    b\n\n", bs!"\n", ?_, .bare ?_, .inl ?_, by decide +kernel, by decide⟩
  · exact .cons (l := bs!"# settings") (.inr ⟨0, _, ⟨bs!" settings", rfl, by simp⟩, rfl⟩) .nil
  · unfold blockStruct
    rw [Block.Typed]
    refine ⟨[(bs!"name", some (.str bs!"demo")), (bs!"hosts", some (.vec [.str bs!"a", .str bs!"b"])), (bs!"more", none), (bs!"at", some (.tuple [.int (-1), .bool true])),
      (bs!"port", some (.int 8080)), (bs!"retries", some (.some (.int 3))), (bs!"note", some (.str bs!"\n# a\n b"))], _, .inl ⟨rfl, ?_⟩, by simp [foundIn], ?_, rfl⟩
    · refine .more (f₀ := none) (t := bs!"name: demo") (g := bs!"\n") ?_ gap_lf (.more (f₀ := none) (t := bs!"hosts:\n- a\n- b") (g := bs!"\n") ?_ gap_lf
        (.more (f₀ := none) (t := bs!"more:\n  x: y") (g := bs!"\n") ?_ gap_lf (.more (f₀ := none) (t := bs!"at: [-1, true]") (g := bs!"\n") ?_ gap_lf
          (.more (f₀ := none) (t := bs!"port: 8080") (g := bs!"\n") ?_ gap_lf (.more (f₀ := none) (t := bs!"retries: 3") (g := bs!"\n") ?_ gap_lf (.one ?_))))))
      · refine .inline (k := bs!"name") (j := 0) (m := 0) (t := bs!"demo") (name ⟨by simp, by simp [Block.Ink], by simp, by simp⟩ (by decide) rfl (by decide)) (by decide) ?_
        simp only [Block.TypedField]
        refine .inl ⟨by decide, ?_⟩
        rw [Block.Typed]
        exact .inl ⟨.inl rfl, rfl, _, block_word ⟨by simp, by simp [Block.Ink], by simp, by simp⟩ (by decide) (resolves_str rfl (by decide)), rfl⟩
      · refine .beside (k := bs!"hosts") (j := 0) (g := bs!"\n") (t := bs!"- a\n- b") (name ⟨by simp, by simp [Block.Ink], by simp, by simp⟩ (by decide) rfl (by decide)) (by decide) break_lf ?_
        simp only [Block.TypedField]
        refine .inr ⟨by decide, .inr ⟨by decide, .inr ⟨by decide, .inr ⟨by decide, .inl ⟨by decide, ?_⟩⟩⟩⟩⟩
        rw [Block.Typed]
        refine .inl ⟨.inr rfl, _, .more (f₀ := none) (r := bs!" a") (g := bs!"\n") (.inline (m := 0) (t := bs!"a") ?_) gap_lf (.one (r := bs!" b") (.inline (m := 0) (t := bs!"b") ?_)), rfl⟩
        · rw [Block.Typed]
          exact .inl ⟨.inr (.inl rfl), rfl, _, block_word ⟨by simp, by simp [Block.Ink], by simp, by simp⟩ (by decide) (resolves_str rfl (by decide)), rfl⟩
        · rw [Block.Typed]
          exact .inl ⟨.inr (.inl rfl), rfl, _, block_word ⟨by simp, by simp [Block.Ink], by simp, by simp⟩ (by decide) (resolves_str rfl (by decide)), rfl⟩
      · refine .under (k := bs!"more") (j := 0) (m := 2) (g := bs!"\n  ") (t := bs!"x: y") (name ⟨by simp, by simp [Block.Ink], by simp, by simp⟩ (by decide) rfl (by decide)) (by decide) break_lf (by decide) ?_
        refine ⟨by decide, rfl, .inl ⟨1, .inr (.inr (.inl ⟨rfl, [((), ())], .one (.inline (k := bs!"x") (j := 0) (m := 0) (t := bs!"y")
          ⟨_, name ⟨by simp, by simp [Block.Ink], by simp, by simp⟩ (by decide) rfl (by decide)⟩ (by decide) ?_)⟩))⟩⟩
        exact .inl ⟨.inl rfl, rfl, _, block_word ⟨by simp, by simp [Block.Ink], by simp, by simp⟩ (by decide) (resolves_str rfl (by decide))⟩
      · refine .inline (k := bs!"at") (j := 0) (m := 0) (t := bs!"[-1, true]") (name ⟨by simp, by simp [Block.Ink], by simp, by simp⟩ (by decide) rfl (by decide)) (by decide) ?_
        simp only [Block.TypedField]
        refine .inr ⟨by decide, .inr ⟨by decide, .inr ⟨by decide, .inr ⟨by decide, .inr ⟨by decide, .inl ⟨by decide, ?_⟩⟩⟩⟩⟩⟩
        rw [Block.Typed]
        refine .inr ⟨.inl rfl, rfl, bs!"-1, true", _, ⟨[], .inl ⟨0, rfl⟩, rfl⟩, ?_, rfl⟩
        rw [Block.TypedElements]
        refine ⟨bs!"-1", [], .int (-1), ?_, .inl ⟨0, rfl⟩, .inr ⟨bs!" ", bs!"true", [.bool true], .inl ⟨1, rfl⟩, ?_, rfl, rfl⟩⟩
        · rw [Block.Typed]
          exact ⟨.inr (.inr ⟨rfl, element_short (by decide)⟩), rfl, -1, .inl (.minus rfl (n := 1) ⟨by simp, by decide⟩), by decide, by decide, rfl⟩
        · rw [Block.TypedElements]
          refine ⟨bs!"true", [], .bool true, ?_, .inl ⟨0, rfl⟩, .inl ⟨rfl, rfl, rfl⟩⟩
          rw [Block.Typed]
          exact ⟨.inr (.inr ⟨rfl, element_short (by decide)⟩), rfl, true, block_word ⟨by simp, by simp [Block.Ink], by simp, by simp⟩ (by decide) (.true (by decide)), rfl⟩
      · refine .inline (k := bs!"port") (j := 0) (m := 0) (t := bs!"8080") (name ⟨by simp, by simp [Block.Ink], by simp, by simp⟩ (by decide) rfl (by decide)) (by decide) ?_
        simp only [Block.TypedField]
        refine .inr ⟨by decide, .inl ⟨by decide, ?_⟩⟩
        rw [Block.Typed]
        exact ⟨.inl rfl, rfl, 8080, .inl (.dec (n := 8080) ⟨by simp, by decide⟩), by decide, by decide, rfl⟩
      · refine .inline (k := bs!"retries") (j := 0) (m := 0) (t := bs!"3") (name ⟨by simp, by simp [Block.Ink], by simp, by simp⟩ (by decide) rfl (by decide)) (by decide) ?_
        simp only [Block.TypedField]
        refine .inr ⟨by decide, .inr ⟨by decide, .inl ⟨by decide, ?_⟩⟩⟩
        rw [Block.Typed]
        refine .inr ⟨notNull_word (by decide) (by decide) (by decide) (by decide), _, ?_, rfl⟩
        rw [Block.Typed]
        exact ⟨.inl rfl, rfl, 3, .inl (.dec (n := 3) ⟨by simp, by decide⟩), by decide, by decide, rfl⟩
      · refine .inline (k := bs!"note") (j := 0) (m := 0) (t := bs!"|-\n\n   # a\n    b\n\n") (name ⟨by simp, by simp [Block.Ink], by simp, by simp⟩ (by decide) rfl (by decide)) (by decide) ?_
        simp only [Block.TypedField]
        refine .inr ⟨by decide, .inr ⟨by decide, .inr ⟨by decide, .inr ⟨by decide, .inr ⟨by decide, .inr ⟨by decide, .inl ⟨by decide, ?_⟩⟩⟩⟩⟩⟩⟩
        rw [Block.Typed]
        exact .inr ⟨.inl rfl, 3, _, rfl, scroll_literal (by decide), rfl⟩
    · exact .present (by simp [foundIn]) (.present (by simp [foundIn]) (.present (by simp [foundIn]) (.absent (by simp [foundIn]) (.present (by simp [foundIn])
        (.present (by simp [foundIn]) (.present (by simp [foundIn]) .nil))))))
  · exact .inl ⟨0, by decide, by decide, rfl⟩

/-- and it is read -/
example (fo : FloatOps F) (ofInt : Int → F) : ∃ N, ∀ cfg n fuel, N ≤ cfg.fuel → N ≤ n → N ≤ fuel → fromStr fo ofInt cfg n fuel blockStruct blockStructText = .ok blockStructValue :=
  C62_typed_block_partial (by decide) block_struct

/-! ## Flow collections, and markers -/

/-- a flow collection is not null -/
theorem notNull_nested {fo : FloatOps F} {s p c r} (hs : s ≠ .absent) (hc : c = b%'[' ∨ c = b%'{') : NotNull false fo s p (c :: r) := by
  have hb : ¬ Begins (c :: r) := by
    rintro ⟨⟨d, r', e, h, -⟩, -⟩
    cases e
    rcases hc with rfl | rfl <;> simp at h
  refine ⟨hs, fun h => ?_, fun _ u h => ?_⟩
  · generalize hy : (Yaml.scalar Scalar.null : Yaml F) = y at h
    generalize ht : c :: r = t at h hb
    cases h with
    | plain h1 h2 h3 => exact hb h1
    | double => cases hy
    | single => cases hy
  · rcases h with ⟨h, -⟩ | ⟨w, -, e⟩ | ⟨w, -, e⟩ | ⟨k, h⟩
    · exact absurd h hb
    · cases e; rcases hc with h | h <;> cases h
    · cases e; rcases hc with h | h <;> cases h
    · generalize ht : c :: r = t at h
      cases h with
      | mk hd =>
        have := (List.cons.inj ht).1
        split at this <;> rcases hc with h | h <;> rw [h] at this <;> cases this
      | empty hf => cases hf

/-- `struct { limits: Map<String, Option<Vec<u8>>>, place: struct { x: u8 } }` -/
def flowStruct : Ty := .record false [(bs!"limits", .map .str (.option (.vec (.int .u8)))), (bs!"place", .record false [(bs!"x", .int .u8)])]

def flowStructText : List Byte := bs!"%YAML 1.2\n---\nlimits: {cpu: [1, 2], \"mem\":null,\n   off}\nplace: { x: 1, y: {z} }\n... # end"

def flowStructValue : Val F := .record [(bs!"limits", .map [(.str bs!"cpu", .some (.vec [.int 1, .int 2])), (.str bs!"mem", .none), (.str bs!"off", .none)]),
  (bs!"place", .record [(bs!"x", .int 1)])]

theorem flow_struct {fo : FloatOps F} {ofInt : Int → F} : Block.TypedText false fo ofInt flowStruct flowStructText flowStructValue := by
  have tall : ∀ {p c r}, Word (c :: r) → c ∉ bs!"[]{},*&!|>'\"%@`-?:." → Scalar.valueFromCowAndMetadata fo (c :: r) .plain none = .scalar (.str (c :: r)) →
      (∀ d ∈ c :: r, ¬ (b%'0' ≤ d ∧ d ≤ b%'9')) → Tall false fo p (c :: r) (.scalar (.str (c :: r))) := fun h1 h2 h3 h4 => block_word h1 h2 (resolves_str h3 h4)
  have name : ∀ {c r}, Word (c :: r) → c ∉ bs!"[]{},*&!|>'\"%@`-?:." → Scalar.valueFromCowAndMetadata fo (c :: r) .plain none = .scalar (.str (c :: r)) →
      (∀ d ∈ c :: r, ¬ (b%'0' ≤ d ∧ d ≤ b%'9')) → FieldName false fo (c :: r) (c :: r) := fun h1 h2 h3 h4 => leaf_word h1 h2 (resolves_str h3 h4)
  have hmem : Tall false fo 1 bs!"\"mem\"" (.scalar (.str bs!"mem")) :=
    .double (.raw (by decide) (by decide) (by decide) (.raw (by decide) (by decide) (by decide) (.raw (by decide) (by decide) (by decide) .nil)))
  refine ⟨[], 0, none, bs!"%YAML 1.2\n" ++ bs!"---\nlimits: {cpu: [1, 2], \"mem\":null,\n   off}\nplace: { x: 1, y: {z} }", bs!"\n... # end", .nil,
    .directed (ds := [.version]) ?_ (by simp) ?_ (.under (m := 0) (g := bs!"\n") (t := bs!"limits: {cpu: [1, 2], \"mem\":null,\n   off}\nplace: { x: 1, y: {z} }") break_lf ?_),
    .inr ⟨bs!"\n", bs!" # end", .inl gap_lf, .inl (.inr ⟨0, bs!"# end", ⟨bs!" end", rfl, by simp⟩, rfl⟩), rfl⟩, by decide +kernel, by decide⟩
  · exact .cons (t := bs!"%YAML 1.2") (e := []) (ls := []) (r := []) (.version (n := 0) (d := b%'2') (by decide) (by decide)) (.inl ⟨0, rfl⟩) .nil .nil
  · exact ⟨⟨by simp, by simp⟩, fun _ => .inl ⟨_, rfl⟩⟩
  · unfold flowStruct
    rw [Block.Typed]
    refine ⟨[(bs!"limits", some (.map [(.str bs!"cpu", .some (.vec [.int 1, .int 2])), (.str bs!"mem", .none), (.str bs!"off", .none)])), (bs!"place", some (.record [(bs!"x", .int 1)]))], _,
      .inl ⟨rfl, .more (f₀ := none) (t := bs!"limits: {cpu: [1, 2], \"mem\":null,\n   off}") (g := bs!"\n") ?_ gap_lf (.one ?_)⟩, by simp [foundIn], ?_, rfl⟩
    · refine .inline (k := bs!"limits") (j := 0) (m := 0) (t := bs!"{cpu: [1, 2], \"mem\":null,\n   off}") (name ⟨by simp, by simp [Block.Ink], by simp, by simp⟩ (by decide) rfl (by decide)) (by decide) ?_
      simp only [Block.TypedField]
      refine .inl ⟨by decide, ?_⟩
      rw [Block.Typed]
      refine .inr ⟨.inl rfl, rfl, bs!"cpu: [1, 2], \"mem\":null,\n   off", _, ⟨[], .inl ⟨0, rfl⟩, rfl⟩, .more (t := bs!"cpu: [1, 2]") (g := []) (g' := bs!" ") (r := bs!"\"mem\":null,\n   off") ?_ (.inl ⟨0, rfl⟩) (.inl ⟨1, rfl⟩)
        (.more (t := bs!"\"mem\":null") (g := []) (g' := bs!"\n   ") (r := bs!"off") ?_ (.inl ⟨0, rfl⟩) (.inr ⟨3, by decide, break_lf⟩) (.last (t := bs!"off") (g := []) ?_ (.inl ⟨0, rfl⟩))), rfl⟩
      · refine .value (k := bs!"cpu") (g := []) (g' := bs!" ") (t := bs!"[1, 2]") ⟨element_short (by decide), _, tall ⟨by simp, by simp [Block.Ink], by simp, by simp⟩ (by decide) rfl (by decide), rfl⟩ (.inl ⟨0, rfl⟩) (.inl ⟨1, rfl⟩) (by simp) ?_
        rw [Block.Typed]
        refine .inr ⟨notNull_nested (by decide) (.inl rfl), _, ?_, rfl⟩
        rw [Block.Typed]
        refine .inr ⟨.inr (.inr rfl), rfl, bs!"1, 2", _, ⟨[], .inl ⟨0, rfl⟩, rfl⟩, .more (t := bs!"1") (g := []) (g' := bs!" ") (r := bs!"2") ?_ (.inl ⟨0, rfl⟩) (.inl ⟨1, rfl⟩) (.last (t := bs!"2") (g := []) ?_ (.inl ⟨0, rfl⟩)), rfl⟩
        · rw [Block.Typed]
          exact ⟨.inr (.inr ⟨rfl, element_short (by decide)⟩), rfl, 1, .inl (.dec (n := 1) ⟨by simp, by decide⟩), by decide, by decide, rfl⟩
        · rw [Block.Typed]
          exact ⟨.inr (.inr ⟨rfl, element_short (by decide)⟩), rfl, 2, .inl (.dec (n := 2) ⟨by simp, by decide⟩), by decide, by decide, rfl⟩
      · refine .value (k := bs!"\"mem\"") (g := []) (g' := []) (t := bs!"null") ⟨.inl rfl, _, hmem, rfl⟩ (.inl ⟨0, rfl⟩) (.inl ⟨0, rfl⟩) (fun _ => .inl rfl) ?_
        rw [Block.Typed]
        exact .inl ⟨rfl, .inl ⟨.inr (.inr ⟨rfl, element_short (by decide)⟩), .inl rfl⟩, rfl⟩
      · refine .alone ⟨element_short (by decide), _, tall ⟨by simp, by simp [Block.Ink], by simp, by simp⟩ (by decide) rfl (by decide), rfl⟩ ?_
        rw [Block.Typed]
        exact .inl ⟨rfl, .inr ⟨rfl, rfl⟩, rfl⟩
    · refine .inline (k := bs!"place") (j := 0) (m := 0) (t := bs!"{ x: 1, y: {z} }") (name ⟨by simp, by simp [Block.Ink], by simp, by simp⟩ (by decide) rfl (by decide)) (by decide) ?_
      simp only [Block.TypedField]
      refine .inr ⟨by decide, .inl ⟨by decide, ?_⟩⟩
      rw [Block.Typed]
      refine ⟨[(bs!"x", some (.int 1)), (bs!"y", none)], _, .inr ⟨.inl rfl, rfl, bs!"x: 1, y: {z} ", ⟨bs!" ", .inl ⟨1, rfl⟩, rfl⟩, .more (t := bs!"x: 1") (g := []) (g' := bs!" ") (r := bs!"y: {z} ") ?_ (.inl ⟨0, rfl⟩) (.inl ⟨1, rfl⟩)
        (.last (t := bs!"y: {z}") (g := bs!" ") ?_ (.inl ⟨1, rfl⟩))⟩, by simp [foundIn], ?_, rfl⟩
      · refine .value (k := bs!"x") (g := []) (g' := bs!" ") (t := bs!"1") ⟨element_short (by decide), tall ⟨by simp, by simp [Block.Ink], by simp, by simp⟩ (by decide) rfl (by decide)⟩ (.inl ⟨0, rfl⟩) (.inl ⟨1, rfl⟩) (by simp) ?_
        simp only [Block.TypedField]
        refine .inl ⟨by decide, ?_⟩
        rw [Block.Typed]
        exact ⟨.inr (.inr ⟨rfl, element_short (by decide)⟩), rfl, 1, .inl (.dec (n := 1) ⟨by simp, by decide⟩), by decide, by decide, rfl⟩
      · refine .value (k := bs!"y") (g := []) (g' := bs!" ") (t := bs!"{z}") ⟨element_short (by decide), tall ⟨by simp, by simp [Block.Ink], by simp, by simp⟩ (by decide) rfl (by decide)⟩ (.inl ⟨0, rfl⟩) (.inl ⟨1, rfl⟩) (by simp) ?_
        refine ⟨by decide, rfl, .inl ⟨1, .inr (.inr (.inr (.inr ⟨.inr (.inr rfl), rfl, bs!"z", [((), ())], ⟨[], .inl ⟨0, rfl⟩, rfl⟩, .last (t := bs!"z") (g := []) (.alone ?_ ?_) (.inl ⟨0, rfl⟩)⟩)))⟩⟩
        · exact ⟨element_short (by decide), _, tall ⟨by simp, by simp [Block.Ink], by simp, by simp⟩ (by decide) rfl (by decide)⟩
        · exact .inr (.inr ⟨rfl, rfl, rfl⟩)
      · exact .present (by simp [foundIn]) .nil
    · exact .present (by simp [foundIn]) (.present (by simp [foundIn]) .nil)

/-- and it is read -/
example (fo : FloatOps F) (ofInt : Int → F) : ∃ N, ∀ cfg n fuel, N ≤ cfg.fuel → N ≤ n → N ≤ fuel → fromStr fo ofInt cfg n fuel flowStruct flowStructText = .ok flowStructValue :=
  C62_typed_block_partial (by decide) flow_struct

/-! ## What is false -/

/-- C62 is false: `"null"` as `Option<String>` is `None`. -/
theorem C62_typed_block_false (fo : FloatOps F) (ofInt : Int → F) : ¬ C62_full fo ofInt := by
  intro h
  have hd : Double 0 bs!"null" bs!"null" := .raw (by decide) (by decide) (by decide) (.raw (by decide) (by decide) (by decide) (.raw (by decide) (by decide) (by decide) (.raw (by decide) (by decide) (by decide) .nil)))
  have hn : ¬ Tall true fo 0 bs!"\"null\"" (.scalar .null) := by
    intro h
    generalize hy : (Yaml.scalar Scalar.null : Yaml F) = y at h
    generalize ht : bs!"\"null\"" = t at h
    cases h with
    | plain h1 _ _ =>
      subst ht
      obtain ⟨⟨c, r, e, h1, -⟩, -⟩ := h1
      cases e
      simp at h1
    | double => cases hy
    | single => cases hy
  have ht : Block.Typed true fo ofInt (.option .str) .own 0 0 none bs!"\"null\"" (.some (.str bs!"null")) := by
    rw [Block.Typed]
    exact .inr ⟨⟨by simp, hn, by simp⟩, .str bs!"null", by rw [Block.Typed]; exact .inl ⟨.inr (.inl rfl), rfl, _, .double hd, rfl⟩, rfl⟩
  obtain ⟨N, hN⟩ := h (.option .str) bs!"\"null\"" (.some (.str bs!"null")) ⟨[], 0, none, bs!"\"null\"", [], .nil, .bare ht, .inl (.inl (.inl ⟨0, rfl⟩)), rfl, by decide⟩
  obtain ⟨M, hM⟩ := C53_strings_are_null fo ofInt _ (.inl null_text)
  have h1 := hN ⟨N + M, false⟩ (N + M) (N + M) (by simp) (by simp) (by simp)
  rw [hM ⟨N + M, false⟩ (N + M) (N + M) (by simp) (by simp) (by simp)] at h1
  simp at h1

end Verif.Props
