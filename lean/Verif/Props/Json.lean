import Verif.Lemmas.ScanJsonValue
import Verif.Lemmas.ScanFuel
import Verif.Lemmas.ScanHang
import Verif.Lemmas.LoadEval
import Verif.Props.Scalar
/-!
# C46: JSON texts

The grammar and the tree each text stands for are in `Verif.Spec.Json`.
-/
namespace Verif.Props
open Verif Verif.Spec Verif.Spec.Json Verif.Scanner
variable {F : Type}

/-- C46, the full statement: every JSON text loads, with enough iterations, as one document, which is the tree it stands for. -/
def C46_full (fo : FloatOps F) : Prop :=
  ∀ t x, Text true fo t x → ∃ N, ∀ cfg n, N ≤ cfg.fuel → N ≤ n → Loader.loadFrom fo cfg n t = .ok [x]

/-- C46 for the JSON texts without a lone carriage return, without surrogate pairs, and without tabs as the only white space between a
colon and a number, `true`, `false` or `null`. What is missing: those texts, for which the claim is false. -/
theorem C46_json_partial {fo : FloatOps F} {t x} (h : Text false fo t x) :
    ∃ N, ∀ cfg n, N ≤ cfg.fuel → N ≤ n → Loader.loadFrom fo cfg n t = .ok [x] ∧ Loader.loadSingle fo cfg n t = .ok x :=
  load_json h

/-! ## A JSON text with every construct -/

def jsonText : List Byte := bs!"{\"a\" : [1, true, {\"b\\u00e9\\n c\":null}],\r\n\t\"\":\t\"x\" , \"k\": -0 }\n"

def jsonTree : Yaml F := .map
  [(.scalar (.str bs!"a"), .seq [.scalar (.int 1), .scalar (.bool true),
      .map [(.scalar (.str (bs!"b" ++ [195, 169, 10] ++ bs!" c")), .scalar .null)]]),
   (.scalar (.str []), .scalar (.str bs!"x")),
   (.scalar (.str bs!"k"), .scalar (.int 0))]

theorem one_value {full} {fo : FloatOps F} : Value full fo bs!"1" (.scalar (.int 1)) :=
  .int ⟨false, bs!"1", ⟨by simp, by simp [Digits], by decide⟩, rfl, by decide⟩ (by simp [Core.Fits64])

theorem json_hello {full} {fo : FloatOps F} : Value full fo jsonText.dropLast jsonTree := by
  refine .object (w := bs!"\"a\" : [1, true, {\"b\\u00e9\\n c\":null}],\r\n\t\"\":\t\"x\" , \"k\": -0 ") ?_
  refine .more (m := bs!"\"a\" : [1, true, {\"b\\u00e9\\n c\":null}]") ?_ (.more (m := bs!"\r\n\t\"\":\t\"x\" ") ?_ (.one ?_))
  · refine .mk (a := []) (k := bs!"a") (b := bs!" ") (c := bs!" ") (w := bs!"[1, true, {\"b\\u00e9\\n c\":null}]") (d := [])
      .nil (.raw (by decide) (by decide) (by decide) .nil) (.space .nil) (.space .nil) ?_ .nil (.inr (by simp [OnlyTabs]))
    refine .array (w := bs!"1, true, {\"b\\u00e9\\n c\":null}") ?_
    refine .more (a := []) (w := bs!"1") (b := []) .nil one_value .nil ?_
    refine .more (a := bs!" ") (w := bs!"true") (b := []) (.space .nil) .true .nil ?_
    refine .one (a := bs!" ") (w := bs!"{\"b\\u00e9\\n c\":null}") (b := []) (.space .nil) ?_ .nil
    refine .object (w := bs!"\"b\\u00e9\\n c\":null") (.one ?_)
    refine .mk (a := []) (k := bs!"b\\u00e9\\n c") (b := []) (c := []) (w := bs!"null") (d := [])
      .nil ?_ .nil .nil .null .nil (.inr (by simp [OnlyTabs]))
    refine .raw (by decide) (by decide) (by decide) (.code (c := 'é') (h := bs!"00e9") ⟨rfl, by simp, by decide⟩ (.short (by decide) ?_))
    exact .raw (by decide) (by decide) (by decide) (.raw (by decide) (by decide) (by decide) .nil)
  · refine .mk (a := bs!"\r\n\t") (k := []) (b := []) (c := bs!"\t") (w := bs!"\"x\"") (d := bs!" ")
      (.cr (.lf (.tab .nil)) (.inr rfl)) .nil .nil (.tab .nil) ?_ (.space .nil) (.inr (by simp [OnlyTabs]))
    exact .string (w := bs!"x") (.raw (by decide) (by decide) (by decide) .nil)
  · refine .mk (a := bs!" ") (k := bs!"k") (b := []) (c := bs!" ") (w := bs!"-0") (d := bs!" ")
      (.space .nil) (.raw (by decide) (by decide) (by decide) .nil) .nil (.space .nil) ?_ (.space .nil) (.inr (by simp [OnlyTabs]))
    exact .int ⟨true, bs!"0", ⟨by simp, by simp [Digits], by decide⟩, rfl, by decide⟩ (by simp [Core.Fits64])

/-- and it loads -/
example (fo : FloatOps F) : ∃ N, ∀ cfg n, N ≤ cfg.fuel → N ≤ n →
    Loader.loadFrom fo cfg n jsonText = .ok [jsonTree] ∧ Loader.loadSingle fo cfg n jsonText = .ok jsonTree :=
  C46_json_partial ⟨[], _, bs!"\n", .nil, json_hello, .lf .nil, rfl⟩

/-- a number that is not an integer -/
example (fo : FloatOps F) (f : F) (h : fo.parse bs!"-1.5e+3" = some f) : Value false fo bs!"-1.5e+3" (.scalar (.float f)) := by
  refine .float ⟨true, bs!"1", bs!".5", bs!"e+3", ⟨by simp, by simp [Digits], by decide⟩, .inr ⟨bs!"5", rfl, by simp, by simp [Digits]⟩,
    .inr ⟨b%'e', bs!"+", bs!"3", .inl rfl, .inr (.inl rfl), by simp, by simp [Digits], rfl⟩, rfl⟩ ?_ h
  rintro v ⟨m, i, ⟨h0, hd, _⟩, hw, _⟩
  exfalso
  have : b%'.' ∈ sign m ++ i := by rw [← hw]; decide
  rcases List.mem_append.1 this with h | h
  · cases m <;> simp [sign] at h
  · have := hd _ h; omega

/-! ## What is false -/

theorem json_err {fo : FloatOps F} {i e k} (h : ∀ d, (Loader.pushed true ⟨k, d⟩ k i).1 = .err e)
    (hs : ∀ d, (Spec.scanInput ⟨k, d⟩ i k).2 = .failed e)
    {cfg n} (hf : k ≤ cfg.fuel) (hn : k ≤ n) : Loader.loadFrom fo cfg n i = .err e := by
  have := Loader.load_err (fo := fo) (h cfg.debug)
  rw [← this, Loader.loadFrom, Loader.loadFrom, parserOn_more (cfg := ⟨k, cfg.debug⟩) (cfg' := cfg) ⟨hf, rfl⟩ hn (.inr ⟨e, hs _⟩)]

theorem json_cr {fo : FloatOps F} {i cfg n} (h : i.head? ≠ some 10) (hf : 2 ≤ cfg.fuel) (hn : 2 ≤ n) : Loader.loadFrom fo cfg n (13 :: i) = .hang := by
  have h2 := hangs_next (cfg := cfg) (s := started (13 :: i)) rfl rfl rfl (hangs_cr rfl rfl h rfl)
  obtain ⟨m, rfl⟩ : ∃ m, n = m + 2 := ⟨n - 2, by omega⟩
  have : Spec.scanInput cfg (13 :: i) (m + 2) = ([⟨⟨⟨0, 1, 1⟩, ⟨0, 1, 1⟩⟩, .streamStart⟩], .hung) := by
    unfold Spec.scanInput
    simp only [Spec.scan, next_new hf]
    revert h2
    rcases next cfg (started (13 :: i)) with ⟨_ | _ | _ | _, s1⟩ <;> simp
  unfold Loader.loadFrom Loader.parserOn
  rw [this]
  rfl

/-- C46 is false: a JSON text that starts with a lone carriage return makes the library loop for ever, a pair of escapes for one
character is refused, and so is a number that only a tab separates from the colon. -/
theorem C46_json_false (fo : FloatOps F) :
    (∀ cfg n, 2 ≤ cfg.fuel → 2 ≤ n → Loader.loadFrom fo cfg n bs!"\r1" = .hang) ∧
    (∀ cfg n, 40 ≤ cfg.fuel → 40 ≤ n → Loader.loadFrom fo cfg n bs!"\"\\ud83d\\ude00\"" =
      .err (.scanner ⟨0, 1, 1⟩ "while parsing a quoted scalar, found invalid Unicode character escape code")) ∧
    (∀ cfg n, 40 ≤ cfg.fuel → 40 ≤ n → Loader.loadFrom fo cfg n bs!"{\"a\":\t1}" =
      .err (.scanner ⟨6, 7, 1⟩ "':' must be followed by a valid YAML whitespace")) ∧
    Text true fo bs!"\r1" (.scalar (.int 1)) ∧
    Text true fo bs!"\"\\ud83d\\ude00\"" (.scalar (.str (utf8 ['😀']))) ∧
    Text true fo bs!"{\"a\":\t1}" (.map [(.scalar (.str bs!"a"), .scalar (.int 1))]) ∧
    ¬ C46_full fo := by
  have h1 : ∀ cfg n, 2 ≤ cfg.fuel → 2 ≤ n → Loader.loadFrom fo cfg n bs!"\r1" = .hang := fun cfg n hf hn => json_cr (by decide) hf hn
  have t1 : Text true fo bs!"\r1" (.scalar (.int 1)) := ⟨bs!"\r", bs!"1", [], .cr .nil (.inl rfl), one_value, .nil, rfl⟩
  refine ⟨h1, fun cfg n => json_err (by decide +kernel) (by decide +kernel), fun cfg n => json_err (by decide +kernel) (by decide +kernel), t1, ?_, ?_, ?_⟩
  · refine ⟨[], _, [], .nil, .string (w := bs!"\\ud83d\\ude00") ?_, .nil, rfl⟩
    exact .pair (c := '😀') (h1 := bs!"d83d") (h2 := bs!"de00") (a := 0x3d) (b := 0x200) (w := []) (s := []) rfl ⟨rfl, by simp, by decide⟩ ⟨rfl, by simp, by decide⟩ (by decide) (by decide) (by decide) .nil
  · refine ⟨[], _, [], .nil, .object (w := bs!"\"a\":\t1") (.one ?_), .nil, rfl⟩
    exact .mk (a := []) (k := bs!"a") (b := []) (c := bs!"\t") (w := bs!"1") (d := []) .nil (.raw (by decide) (by decide) (by decide) .nil) .nil (.tab .nil) one_value .nil (.inl rfl)
  · intro h
    obtain ⟨N, hN⟩ := h _ _ t1
    have := hN ⟨N + 2, false⟩ (N + 2) (by simp) (by simp)
    rw [h1 _ _ (by simp) (by simp)] at this
    cases this

end Verif.Props
