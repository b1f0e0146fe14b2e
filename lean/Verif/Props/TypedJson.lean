import Verif.Lemmas.TypedJson
import Verif.Props.Json
/-!
# C53: JSON texts as values of Rust types

What a text stands for is in `Verif.Spec.TypedJson`.
-/
namespace Verif.Props
open Verif Verif.Spec Verif.Spec.Json Verif.Scanner Verif.De Verif.ParserIter
variable {F : Type}

/-- C53, the full statement: every JSON text that stands for a value of a type deserialises, with enough iterations, to that value. -/
def C53_full (fo : FloatOps F) (ofInt : Int → F) : Prop :=
  ∀ ty text v, TypedText true fo ofInt ty text v → ∃ N, ∀ cfg n fuel, N ≤ cfg.fuel → N ≤ n → N ≤ fuel → fromStr fo ofInt cfg n fuel ty text = .ok v

theorem typed_json {fo : FloatOps F} {ofInt : Int → F} {ty a w b evs} {v : Val F} (hty : HandledTop false ty = true) (ha : JWs a) (hb : JWs b) (h : JNode w evs)
    (hr : Reads fo ofInt (textReading fo) ty (items evs) v) :
    ∃ N, ∀ cfg n fuel, N ≤ cfg.fuel → N ≤ n → N ≤ fuel → fromStr fo ofInt cfg n fuel ty (a ++ (w ++ b)) = .ok v := by
  obtain ⟨N, hN⟩ := json_delivers ha h hb
  refine ⟨N + evs.length, fun cfg n fuel h1 h2 h3 => ?_⟩
  obtain ⟨s, hs⟩ := hN cfg n (by omega) (by omega)
  exact C29_lenient_partial fo ofInt ty hty _ _ _ _ false evs [.streamEnd] s h.node hs fuel (by omega) v hr

/-- C53 for the types that the deserialiser handles (see C29 and C51), and for the texts of `TypedText false`. What is missing: other types, and the texts that
are left out there; the claim is false for them. -/
theorem C53_typed_json_partial {fo : FloatOps F} {ofInt : Int → F} {ty text} {v : Val F} (hty : HandledTop false ty = true) (h : TypedText false fo ofInt ty text v) :
    ∃ N, ∀ cfg n fuel, N ≤ cfg.fuel → N ≤ n → N ≤ fuel → fromStr fo ofInt cfg n fuel ty text = .ok v := by
  obtain ⟨a, w, b, ha, h, hb, rfl⟩ := h
  obtain ⟨evs, hn, hr⟩ := typed_reads ty w v h
  exact typed_json hty (.of ha) (.of hb) hn hr

/-! ## A struct -/

/-- `struct { id: u64, name: Option<String>, at: (i8, bool), tags: Vec<String> }` -/
def jsonStruct : Ty := .record false [(bs!"id", .int .u64), (bs!"name", .option .str), (bs!"at", .tuple [.int .i8, .bool]), (bs!"tags", .vec .str)]

def jsonStructText : List Byte := bs!"{\"tags\": [\"a\", \"b\"],\n \"x\": {\"y\": [1]}, \"at\":[-1,true] , \"id\": 18446744073709551615}"

theorem json_struct {fo : FloatOps F} {ofInt : Int → F} : TypedText false fo ofInt jsonStruct jsonStructText
    (.record [(bs!"id", .int 18446744073709551615), (bs!"name", .none), (bs!"at", .tuple [.int (-1), .bool true]), (bs!"tags", .vec [.str bs!"a", .str bs!"b"])]) := by
  have str1 : ∀ c : Byte, 32 ≤ c → c ≠ b%'"' → c ≠ b%'\\' → Str false [b%'"', c, b%'"'] [c] := fun c h1 h2 h3 => ⟨[c], .raw h1 h2 h3 .nil, rfl⟩
  refine ⟨[], jsonStructText, [], .nil, ?_, .nil, by simp⟩
  unfold jsonStruct
  rw [Typed]
  refine ⟨[(bs!"tags", .vec [.str bs!"a", .str bs!"b"]), (bs!"at", .tuple [.int (-1), .bool true]), (bs!"id", .int 18446744073709551615)], _, ?_, by simp, ?_, rfl⟩
  · refine .fields (w := bs!"\"tags\": [\"a\", \"b\"],\n \"x\": {\"y\": [1]}, \"at\":[-1,true] , \"id\": 18446744073709551615") ?_
    refine .more (t := bs!"\"tags\": [\"a\", \"b\"]") (w := bs!"[\"a\", \"b\"]") ?_ ?_
      (.moreSkipped (t := bs!"\n \"x\": {\"y\": [1]}") (n := bs!"x") (w := bs!"{\"y\": [1]}") ?_ ?_
        (.more (t := bs!" \"at\":[-1,true] ") (w := bs!"[-1,true]") ?_ ?_ (.one (w := bs!"18446744073709551615") ?_ ?_)))
    · exact .mk (a := []) (k := bs!"tags") (b := []) (c := bs!" ") (w := bs!"[\"a\", \"b\"]") (d := []) .nil
        (.raw (by decide) (by decide) (by decide) (.raw (by decide) (by decide) (by decide) (.raw (by decide) (by decide) (by decide) (.raw (by decide) (by decide) (by decide) .nil))))
        .nil (.space .nil) .nil (.inr (by simp [OnlyTabs]))
    · simp only [TypedField]
      refine .inr ⟨by decide, .inr ⟨by decide, .inr ⟨by decide, .inl ⟨by decide, ?_⟩⟩⟩⟩
      rw [Typed]
      refine ⟨_, .items (w := bs!"\"a\", \"b\"") (.more (a := []) (w := bs!"\"a\"") (b := []) .nil ?_ .nil (.one (a := bs!" ") (w := bs!"\"b\"") (b := []) (.space .nil) ?_ .nil)), rfl⟩
      · rw [Typed]; exact ⟨_, str1 97 (by decide) (by decide) (by decide), rfl⟩
      · rw [Typed]; exact ⟨_, str1 98 (by decide) (by decide) (by decide), rfl⟩
    · exact .mk (a := bs!"\n ") (k := bs!"x") (b := []) (c := bs!" ") (w := bs!"{\"y\": [1]}") (d := []) (.lf (.space .nil))
        (.raw (by decide) (by decide) (by decide) .nil) .nil (.space .nil) .nil (.inr (by simp [OnlyTabs]))
    · refine ⟨by decide, rfl, .map [(.scalar (.str bs!"y"), .seq [.scalar (.int 1)])], ?_, .inr (.map (by simpa using Flat.seq (by simp)))⟩
      refine .object (w := bs!"\"y\": [1]") (.one (.mk (a := []) (k := bs!"y") (b := []) (c := bs!" ") (w := bs!"[1]") (d := []) .nil
        (.raw (by decide) (by decide) (by decide) .nil) .nil (.space .nil) ?_ .nil (.inr (by simp [OnlyTabs]))))
      exact .array (w := bs!"1") (.one (a := []) (w := bs!"1") (b := []) .nil one_value .nil)
    · exact .mk (a := bs!" ") (k := bs!"at") (b := []) (c := []) (w := bs!"[-1,true]") (d := bs!" ") (.space .nil)
        (.raw (by decide) (by decide) (by decide) (.raw (by decide) (by decide) (by decide) .nil)) .nil .nil (.space .nil) (.inr (by simp [OnlyTabs]))
    · simp only [TypedField]
      refine .inr ⟨by decide, .inr ⟨by decide, .inl ⟨by decide, ?_⟩⟩⟩
      rw [Typed]
      refine ⟨bs!"-1,true", _, rfl, ?_, rfl⟩
      rw [TypedItems]
      refine ⟨[], bs!"-1", [], .int (-1), .nil, ?_, .nil, .inr ⟨by simp, bs!"true", [.bool true], rfl, ?_, rfl⟩⟩
      · rw [Typed]
        exact ⟨-1, ⟨⟨true, bs!"1", ⟨by simp, by simp [Digits], by decide⟩, rfl, by decide⟩, by decide, by decide, .inr (.inl rfl)⟩, rfl⟩
      · rw [TypedItems]
        exact ⟨[], bs!"true", [], .bool true, .nil, by rw [Typed]; exact .inl ⟨rfl, rfl⟩, .nil, .inl ⟨rfl, rfl, rfl⟩⟩
    · exact .mk (a := bs!" ") (k := bs!"id") (b := []) (c := bs!" ") (w := bs!"18446744073709551615") (d := []) (.space .nil)
        (.raw (by decide) (by decide) (by decide) (.raw (by decide) (by decide) (by decide) .nil)) .nil (.space .nil) .nil (.inr (by simp [OnlyTabs]))
    · simp only [TypedField]
      refine .inl ⟨trivial, ?_⟩
      rw [Typed]
      exact ⟨18446744073709551615, ⟨⟨false, bs!"18446744073709551615", ⟨by simp, by simp [Digits], by decide⟩, rfl, by decide⟩, by decide, by decide, .inr (.inr (by decide))⟩, rfl⟩
  · exact .present (by simp) (.absent (by simp) (.present (by simp) (.present (by simp) .nil)))

/-- and it is read -/
example (fo : FloatOps F) (ofInt : Int → F) : ∃ N, ∀ cfg n fuel, N ≤ cfg.fuel → N ≤ n → N ≤ fuel → fromStr fo ofInt cfg n fuel jsonStruct jsonStructText =
    .ok (.record [(bs!"id", .int 18446744073709551615), (bs!"name", .none), (bs!"at", .tuple [.int (-1), .bool true]), (bs!"tags", .vec [.str bs!"a", .str bs!"b"])]) :=
  C53_typed_json_partial (by decide) json_struct

/-! ## What is false -/

theorem null_text {full} : Str full bs!"\"null\"" bs!"null" :=
  ⟨bs!"null", .raw (by decide) (by decide) (by decide) (.raw (by decide) (by decide) (by decide) (.raw (by decide) (by decide) (by decide) (.raw (by decide) (by decide) (by decide) .nil))), rfl⟩

/-- The strings `"null"` and `""` as `Option<String>` are `None`. -/
theorem C53_strings_are_null (fo : FloatOps F) (ofInt : Int → F) (w : List Byte) (h : Str false w bs!"null" ∨ Str false w []) :
    ∃ N, ∀ cfg n fuel, N ≤ cfg.fuel → N ≤ n → N ≤ fuel → fromStr fo ofInt cfg n fuel (.option .str) w = .ok .none := by
  have := fun s (hs : Str false w s) (h0 : s = [] ∨ s = bs!"null") => typed_json (fo := fo) (ofInt := ofInt) (ty := .option .str) (a := []) (b := []) (v := .none)
    (by decide) .nil .nil (jnode_string hs) (by rw [Reads]; exact .inl ⟨_, rfl, h0.imp id .inl, rfl⟩)
  simp only [List.nil_append, List.append_nil] at this
  rcases h with h | h
  · exact this _ h (.inr rfl)
  · exact this _ h (.inl rfl)

/-- C53 is false: `"null"` as `Option<String>` is `None`. -/
theorem C53_typed_json_false (fo : FloatOps F) (ofInt : Int → F) : ¬ C53_full fo ofInt := by
  intro h
  obtain ⟨N, hN⟩ := h (.option .str) bs!"\"null\"" (.some (.str bs!"null")) ⟨[], bs!"\"null\"", [], .nil, by
    rw [Typed]
    exact .inr ⟨by decide, .inl rfl, .str bs!"null", by rw [Typed]; exact ⟨_, null_text, rfl⟩, rfl⟩, .nil, rfl⟩
  obtain ⟨M, hM⟩ := C53_strings_are_null fo ofInt _ (.inl null_text)
  have h1 := hN ⟨N + M, false⟩ (N + M) (N + M) (by simp) (by simp) (by simp)
  rw [hM ⟨N + M, false⟩ (N + M) (N + M) (by simp) (by simp) (by simp)] at h1
  simp at h1

end Verif.Props
