import Verif.Lemmas.JsonCut
import Verif.Props.Brackets
import Verif.Props.LineEnds
/-!
# C70: a JSON text that was cut off is reported

The JSON texts are those of `Verif.Spec.Json`, with `full = true` all of RFC 8259.
-/
namespace Verif.Props
open Verif Verif.Spec Verif.Spec.Block Verif.Spec.Faults Verif.Scanner
variable {F : Type}

/-- an array, an object or a string: its text has a last character that cannot be missing -/
def Closes (x : Yaml F) : Prop := (∃ xs, x = .seq xs) ∨ (∃ ps, x = .map ps) ∨ ∃ s, x = .scalar (.str s)

/-- `p` is the text `w` cut off somewhere: not the whole of it, and not nothing -/
def CutOff (p w : List Byte) : Prop := p <+: w ∧ p ≠ [] ∧ p ≠ w

/-- C70, the full statement: a JSON text that is cut off inside an array, object or string gives an error. -/
def C70_full (fo : FloatOps F) : Prop :=
  ∀ a w x p, Json.Ws true a → Json.Value true fo w x → Closes x → CutOff p w → ∃ k, ∀ cfg n, k ≤ cfg.fuel → k ≤ n → ∃ e, Loader.loadFrom fo cfg n (a ++ p) = .err e

/-! ## Lemmas -/

theorem prefix_append {p w u : List Byte} (h : p <+: w ++ u) : p <+: w ∨ ∃ q, p = w ++ q ∧ q <+: u := by
  obtain ⟨t, ht⟩ := h
  rcases List.append_eq_append_iff.1 ht with ⟨a, rfl, -⟩ | ⟨a, rfl, rfl⟩
  · exact .inl ⟨a, rfl⟩
  · exact .inr ⟨a, rfl, t, rfl⟩

theorem no_double_run {h q : List Byte} (hh : ∀ c ∈ h, c ≠ b%'"' ∧ c ≠ b%'\\') (hq : NoDouble q) : NoDouble (h ++ q) := by
  induction h with
  | nil => exact hq
  | cons c h ih => exact .raw (hh c (by simp)).1 (hh c (by simp)).2 (ih fun x hx => hh x (List.mem_cons_of_mem _ hx))

theorem no_double_code {h u p : List Byte} (hh : ∀ c ∈ h, c ≠ b%'"' ∧ c ≠ b%'\\') (hu : ∀ q, q <+: u → NoDouble q) (hp : p <+: b%'\\' :: b%'u' :: (h ++ u)) : NoDouble p := by
  cases p with
  | nil => exact .nil
  | cons y p =>
    obtain ⟨rfl, h0⟩ := List.cons_prefix_cons.1 hp
    cases p with
    | nil => exact .last
    | cons z p =>
      obtain ⟨rfl, hq⟩ := List.cons_prefix_cons.1 h0
      refine .escape ?_
      rcases prefix_append hq with h1 | ⟨q, rfl, h1⟩
      · simpa using no_double_run (q := []) (fun c hc => hh c (h1.subset hc)) .nil
      · exact no_double_run hh (hu q h1)

theorem chars_cut {full w s} (h : Json.Chars full w s) : ∀ p, p <+: w → NoDouble p := by
  induction h with
  | nil => intro p hp; rw [List.prefix_nil.1 hp]; exact .nil
  | raw _ h1 h2 _ ih =>
    intro p hp
    cases p with
    | nil => exact .nil
    | cons y p =>
      obtain ⟨z, hq⟩ := List.cons_prefix_cons.1 hp
      subst z
      exact .raw h1 h2 (ih p hq)
  | short _ _ ih =>
    intro p hp
    cases p with
    | nil => exact .nil
    | cons y p =>
      obtain ⟨rfl, hq⟩ := List.cons_prefix_cons.1 hp
      cases p with
      | nil => exact .last
      | cons z p => exact .escape (ih p (List.cons_prefix_cons.1 hq).2)
  | code hx _ ih => exact fun p hp => no_double_code (hex_bytes hx) ih hp
  | pair _ hx hy _ _ _ _ ih => exact fun p hp => no_double_code (hex_bytes hx) (fun q hq => no_double_code (hex_bytes hy) ih hq) hp

theorem cut_begins {fo : FloatOps F} {a w x p} (ha : WhiteSpace a) (h : Json.Value true fo w x) (hx : Closes x) (hr : b%'\r' ∉ w) (hp : CutOff p w) : Scanner.Begins (a ++ p) := by
  have hc : ((∃ xs, x = .seq xs) ∨ ∃ ps, x = .map ps) → Scanner.Begins (a ++ p) := fun hx => by
    obtain ⟨⟨c, r, hc, rfl⟩, hu⟩ := json_cut h hx hr hp.1 hp.2.1 hp.2.2
    simp at hc
    exact ⟨a, c, r, rfl, white_of ha, .inl ⟨hc, hu⟩⟩
  rcases hx with hx | hx | ⟨s, rfl⟩
  · exact hc (.inl hx)
  · exact hc (.inr hx)
  · cases h with
    | string hs =>
      obtain ⟨h1, h2, h3⟩ := hp
      cases p with
      | nil => exact absurd rfl h2
      | cons y p =>
        obtain ⟨rfl, hq⟩ := List.cons_prefix_cons.1 h1
        refine ⟨a, _, p, rfl, white_of ha, .inr (.inl ⟨rfl, chars_cut hs p ?_⟩)⟩
        rcases prefix_append hq with h4 | ⟨q, rfl, h4⟩
        · exact h4
        · cases q with
          | nil => simp
          | cons z q =>
            obtain ⟨rfl, h5⟩ := List.cons_prefix_cons.1 h4
            rw [List.prefix_nil.1 h5] at h3
            exact absurd rfl h3

/-- no NUL in JSON -/
theorem chars_no_nul {full w s} (h : Json.Chars full w s) : 0 ∉ w := by
  have hex : ∀ {h v}, Json.Hex4 h v → 0 ∉ h := fun h hm => by
    have := hex_digits h 0 hm
    simp [Hex] at this
  induction h with
  | nil => simp
  | raw h1 _ _ _ ih => simp [ih]; omega
  | short h1 _ ih =>
    simp [ih]
    rintro rfl
    simp [Json.shortEscapes] at h1
  | code hx _ ih => simp [ih, hex hx]
  | pair _ hx hy _ _ _ _ ih => simp [ih, hex hx, hex hy]

theorem spelt_no_nul {w} (h : Spelt w) : 0 ∉ w := by
  induction h with
  | nil => simp
  | letter hc _ ih => simp [ih]; unfold Letter at hc; omega
  | sign hc _ _ ih => rw [List.mem_cons]; rintro (rfl | hm); exact absurd hc (by decide); exact ih hm

theorem ws_no_nul {full a} (h : Json.Ws full a) : 0 ∉ a := by
  induction h <;> simp_all

mutual
  theorem value_no_nul {full} {fo : FloatOps F} : ∀ {w x}, Json.Value full fo w x → 0 ∉ w
    | _, _, .null => by decide
    | _, _, .true => by decide
    | _, _, .false => by decide
    | _, _, .int h1 _ => spelt_no_nul (spelt_number (integer_is_number h1)).1
    | _, _, .float h1 _ _ => spelt_no_nul (spelt_number h1).1
    | _, _, .string h1 => by simp [chars_no_nul h1]
    | _, _, .emptyArray h1 => by simp [ws_no_nul h1]
    | _, _, .array h1 => by simp [elements_no_nul h1]
    | _, _, .emptyObject h1 => by simp [ws_no_nul h1]
    | _, _, .object h1 => by simp [members_no_nul h1]
  theorem elements_no_nul {full} {fo : FloatOps F} : ∀ {w x}, Json.Elements full fo w x → 0 ∉ w
    | _, _, .one h1 h2 h3 => by simp [ws_no_nul h1, value_no_nul h2, ws_no_nul h3]
    | _, _, .more h1 h2 h3 h4 => by simp [ws_no_nul h1, value_no_nul h2, ws_no_nul h3, elements_no_nul h4]
  theorem member_no_nul {full} {fo : FloatOps F} : ∀ {w x}, Json.Member full fo w x → 0 ∉ w
    | _, _, .mk h1 h2 h3 h4 h5 h6 _ => by simp [ws_no_nul h1, chars_no_nul h2, ws_no_nul h3, ws_no_nul h4, value_no_nul h5, ws_no_nul h6]
  theorem members_no_nul {full} {fo : FloatOps F} : ∀ {w x}, Json.Members full fo w x → 0 ∉ w
    | _, _, .one h1 => member_no_nul h1
    | _, _, .more h1 h2 => by simp [member_no_nul h1, members_no_nul h2]
end

/-! ## Cut off -/

/-- C70, the first part: whatever JSON array, object or string is cut off, wherever, after any spaces, tabs and line feeds: what is left never loads as
documents, and pulling events from it never comes to the end of the stream. What is missing: carriage returns (for a `\r` alone the full claim is
false). -/
theorem C70_never_partial {fo : FloatOps F} {a w x p} (ha : WhiteSpace a) (h : Json.Value true fo w x) (hx : Closes x) (hr : b%'\r' ∉ w) (hp : CutOff p w)
    (cfg : Cfg) (n : Nat) :
    (∀ docs, Loader.loadFrom fo cfg n (a ++ p) ≠ .ok docs) ∧ ∀ k es, pullAll k (Loader.parserOn cfg n (a ++ p)) ≠ (es, .ended) :=
  never_loads (begins_bad (cut_begins ha h hx hr hp) n)

theorem cut_bytes {fo : FloatOps F} {a w x p} (ha : WhiteSpace a) (h : Json.Value true fo w x) (hr : b%'\r' ∉ w) (hp : CutOff p w) : ∀ c ∈ a ++ p, c ≠ 13 ∧ c ≠ 0 := fun c hc => by
  rcases List.mem_append.1 hc with hc | hc
  · rcases white_of ha c hc with rfl | rfl | rfl <;> decide
  · have hw := hp.1.subset hc
    exact ⟨by rintro rfl; exact hr hw, by rintro rfl; exact value_no_nul h hw⟩

/-- C70, the second part: it gives an error. What is missing, besides the above: the texts that end with a reserved character, those with a long line and
one of the characters `|` and `>`, and in debug builds those with three digits after `%`, for which C09 is not proved. -/
theorem C70_error_partial {fo : FloatOps F} {a w x p} (ha : WhiteSpace a) (h : Json.Value true fo w x) (hx : Closes x) (hr : b%'\r' ∉ w) (hp : CutOff p w)
    {cfg : Cfg} {n : Nat} (hf : (a ++ p).length + 4 ≤ cfg.fuel) (hn : 6 * (a ++ p).length + 3 ≤ n) (h3 : ¬ (LongLine (a ++ p) ∧ HasBlockIndicator (a ++ p)))
    (h4 : ¬ LateIndicator (a ++ p)) (h5 : cfg.debug = true → ¬ LongVersion (a ++ p)) : ∃ e, Loader.loadFrom fo cfg n (a ++ p) = .err e := by
  have hm := cut_bytes ha h hr hp
  refine error_of_never (C70_never_partial ha h hx hr hp cfg n).2 hf hn ?_ ?_ h3 h4 h5
  · rintro ⟨pre, post, e, -⟩
    exact (hm 13 (by rw [e]; simp)).1 rfl
  · rintro ⟨pre, post, e, -⟩
    exact (hm 0 (by rw [e]; simp)).2 rfl

/-- The same with `\r\n` in place of every line feed, if the text is not cut off between the two. -/
theorem C70_crlf_partial {fo : FloatOps F} {a w x p} (ha : WhiteSpace a) (h : Json.Value true fo w x) (hx : Closes x) (hr : b%'\r' ∉ w) (hp : CutOff p w)
    {cfg : Cfg} {n : Nat} (hf : (a ++ p).length + 4 ≤ cfg.fuel) (hn : 6 * (a ++ p).length + 3 ≤ n) (h3 : ¬ (LongLine (a ++ p) ∧ HasBlockIndicator (a ++ p)))
    (h4 : ¬ LateIndicator (a ++ p)) (h5 : cfg.debug = true → ¬ LongVersion (a ++ p)) : ∃ e, Loader.loadFrom fo cfg n (crlf (a ++ p)) = .err e := by
  have hm := cut_bytes ha h hr hp
  obtain ⟨e, he⟩ := C70_error_partial ha h hx hr hp hf hn h3 h4 h5
  have hs := C09_scan_finishes_partial cfg (a ++ p) n hf hn (by rintro ⟨pre, post, e, -⟩; exact (hm 13 (by rw [e]; simp)).1 rfl)
    (by rintro ⟨pre, post, e, -⟩; exact (hm 0 (by rw [e]; simp)).2 rfl) h3 h4 h5
  have := (C49_same_documents_partial fo cfg (a ++ p) n (fun h => (hm 13 h).1 rfl) (by rcases hs with h | ⟨e, h⟩ <;> rw [h] <;> simp)
    (by rcases hs with h | ⟨e, h⟩ <;> rw [h] <;> simp)).1
  rw [he] at this
  revert this
  cases Loader.loadFrom fo cfg n (crlf (a ++ p)) with
  | err e => exact fun _ => ⟨e, rfl⟩
  | ok x => intro h; cases h
  | panic => intro h; cases h
  | hang => intro h; cases h

/-! ## Texts it applies to -/

/-- a JSON text -/
def sample : List Byte := bs!"{\"a\\u00e4[\": [-1.5e+3, {\"b\" :true}, \"]\"],\n\t\"\": null}"

theorem sample_json (fo : FloatOps F) {f} (hf : fo.parse bs!"-1.5e+3" = some f) : ∃ x, Json.Value true fo sample x ∧ Closes x := by
  have n1 : Json.Value true fo bs!"-1.5e+3" (.scalar (.float f)) := .float ⟨true, bs!"1", bs!".5", bs!"e+3", ⟨by simp, by simp [Digits], by simp⟩,
    .inr ⟨bs!"5", rfl, by simp, by simp [Digits]⟩, .inr ⟨b%'e', bs!"+", bs!"3", .inl rfl, .inr (.inl rfl), by simp, by simp [Digits], rfl⟩, rfl⟩ (by
      rintro v ⟨m, i, ⟨-, h, -⟩, e, -⟩
      have : b%'.' ∈ i := by
        have h1 : b%'.' ∈ Json.sign m ++ i := by rw [← e]; decide
        rcases List.mem_append.1 h1 with h1 | h1
        · cases m <;> simp [Json.sign] at h1
        · exact h1
      exact absurd (h _ this).1 (by decide)) hf
  have raw : ∀ {b : Byte} {w s}, 32 ≤ b ∧ b ≠ b%'"' ∧ b ≠ b%'\\' → Json.Chars true w s → Json.Chars true (b :: w) (b :: s) := fun h => .raw h.1 h.2.1 h.2.2
  have m1 : Json.Value true fo bs!"{\"b\" :true}" _ := .object (.one (.mk (a := []) (c := []) (d := []) .nil (raw (b := b%'b') (by decide) .nil) (.space .nil) .nil .true .nil (.inl rfl)))
  have s1 : Json.Value true fo bs!"\"]\"" _ := .string (raw (b := b%']') (by decide) .nil)
  have a1 : Json.Value true fo bs!"[-1.5e+3, {\"b\" :true}, \"]\"]" _ := .array (.more (a := []) (b := []) .nil n1 .nil (.more (b := []) (.space .nil) m1 .nil (.one (b := []) (.space .nil) s1 .nil)))
  have k1 : Json.Chars true bs!"a\\u00e4[" _ := raw (b := b%'a') (by decide) (.code (h := bs!"00e4") (c := 'ä') ⟨rfl, by simp, by decide⟩ (raw (b := b%'[') (by decide) .nil))
  exact ⟨_, .object (.more (.mk (a := []) (b := []) (d := []) .nil k1 .nil (.space .nil) a1 .nil (.inl rfl))
    (.one (.mk (b := []) (d := []) (.lf (.tab .nil)) .nil .nil (.space .nil) .null .nil (.inl rfl)))), .inr (.inl ⟨_, rfl⟩)⟩

/-- All 51 texts to which it can be cut off give an error. -/
example (fo : FloatOps F) {f} (hf : fo.parse bs!"-1.5e+3" = some f) {cfg : Cfg} {n} (h1 : 60 ≤ cfg.fuel) (h2 : 400 ≤ n) (k : Nat) (hk : 0 < k) (hl : k < sample.length) :
    ∃ e, Loader.loadFrom fo cfg n (sample.take k) = .err e := by
  obtain ⟨x, hv, hx⟩ := sample_json fo hf
  have hl' : sample.length = 52 := by decide
  have hs : ∀ c ∈ sample.take k, c ∈ sample := fun c hc => List.mem_of_mem_take hc
  have hno : ∀ c ∈ bs!"%@`|>", c ∉ sample := by decide
  refine C70_error_partial (a := []) (by simp [WhiteSpace]) hv hx (by decide) ⟨List.take_prefix _ _, fun h => ?_, fun h => ?_⟩ (by simp; omega) (by simp; omega) ?_ ?_ ?_
  · have := congrArg List.length h
    rw [List.length_take, hl', List.length_nil] at this
    omega
  · have := congrArg List.length h
    simp at this
    omega
  · rintro ⟨-, h | h⟩
    · exact hno _ (by decide) (hs _ h)
    · exact hno _ (by decide) (hs _ h)
  · rintro ⟨pre, c, post, e, hc, -⟩
    refine hno c ?_ (hs c (by rw [List.nil_append] at e; rw [e]; simp))
    rcases hc with rfl | rfl | rfl <;> decide
  · rintro - ⟨pre, ds, post, e, hc, -⟩
    exact hno 37 (by decide) (hs _ (by rw [List.nil_append] at e; rw [e]; simp [hc]))

/-! ## What is false -/

/-- C70 is false: of the JSON text `\r[1]`, cut off after the bracket, loading never comes to an end. -/
theorem C70_cut_false (fo : FloatOps F) : ¬ C70_full fo := by
  intro h
  obtain ⟨k, hk⟩ := h bs!"\r" bs!"[]" (.seq []) bs!"[" (.cr .nil (.inl rfl)) (.emptyArray (a := []) .nil) (.inl ⟨_, rfl⟩) ⟨by simp, by simp, by simp⟩
  obtain ⟨e, he⟩ := hk ⟨k + 2, false⟩ (k + 2) (by simp) (by simp)
  rw [List.singleton_append, load_hang (hangs_cr rfl rfl (by simp) rfl) (by simp) (by simp)] at he
  cases he

end Verif.Props
