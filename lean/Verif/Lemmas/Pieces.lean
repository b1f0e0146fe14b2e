import Verif.Spec.TextTree
import Verif.Lemmas.SerIo
import Verif.Lemmas.Utf8Text
import Verif.Lemmas.EmitScalar
/-!
# The pieces that are passed to a writer are valid UTF-8
-/
namespace Verif.EmitterIo
open Verif Verif.Emitter Verif.Spec

/-- valid UTF-8 -/
def V (p : List Byte) : Prop := Utf8.run .start p = some .start

theorem v_iff {p} : V p ↔ Utf8Text p := Utf8.run_iff_text p
theorem v_ascii {p : List Byte} (h : ∀ c ∈ p, c < 128) : V p := Utf8.run_ascii h
theorem v_append {a b : List Byte} (ha : V a) (hb : V b) : V (a ++ b) := by
  unfold V at ha hb ⊢
  rw [Utf8.run_append, ha]
  exact hb

/-- a text that is cut at an ASCII byte -/
theorem v_cut {a r : List Byte} {c} (h : V (a ++ c :: r)) (hc : c < 128) : V a ∧ V r := by
  obtain ⟨h1, h2⟩ := Utf8.split_at h (fun c' r' e => by cases e; exact hc)
  exact ⟨h1, Utf8.drop_ascii (w := [c]) h2 (by simpa using hc)⟩

theorem v_dropLast {a : List Byte} {c} (h : V a) (hl : a.getLast? = some c) (hc : c < 128) : V a.dropLast := by
  rcases List.eq_nil_or_concat a with rfl | ⟨b, x, rfl⟩
  · cases hl
  · simp at hl
    subst hl
    simp only [List.concat_eq_append, List.dropLast_concat] at h ⊢
    exact (v_cut h hc).1

/-- `m` passes valid pieces only -/
def Clean (m : WM) : Prop := ∀ s, (∀ c ∈ s.calls, V c.1) → ∀ c ∈ (m s).2.calls, V c.1

variable {W : Writer}

theorem clean_done : Clean done := fun _ h => h
theorem clean_level {f : Int → Int} : Clean (fun s => (true, { s with level := f s.level })) := fun _ h => h
theorem clean_addLevel {d} : Clean (addLevel d) := fun _ h => h

theorem Clean.then {m k} (hm : Clean m) (hk : Clean k) : Clean (m ?; k) := fun s h => by
  have h1 := hm s h
  unfold andThen
  rcases hr : m s with ⟨r, s1⟩
  rw [hr] at h1
  cases r with
  | true => exact hk s1 h1
  | false => exact h1

theorem clean_write {p} (hp : V p) : Clean (write W p) := fun s h c hc => by
  rcases List.mem_append.1 hc with hc | hc
  · exact h c hc
  · cases List.mem_singleton.1 hc; exact hp

theorem clean_all : ∀ ps, (∀ p ∈ ps, V p) → Clean (writeAll W ps)
  | [], _ => clean_done
  | p :: ps, h => (clean_write (h p (by simp))).then (clean_all ps fun q hq => h q (List.mem_cons_of_mem _ hq))

/-- pieces that are written in the code -/
local macro "lit" : tactic => `(tactic| (apply clean_write; apply v_ascii; decide))

theorem clean_run {run} (h : V run) : Clean (if run = [] then done else write W run) := by
  split
  · exact clean_done
  · exact clean_write h

theorem escapeOf_ascii {b : Byte} (h : needsEscape b = true) : b < 128 ∧ ∀ c ∈ (escapeOf b).getD [], c < 128 := by
  have hb : b < 128 := by simp [needsEscape] at h; omega
  refine ⟨hb, ?_⟩
  have : ∀ b ∈ List.range 128, ∀ c ∈ (escapeOf b).getD [], c < 128 := by decide +kernel
  exact this b (List.mem_range.2 hb)

theorem clean_escapeLoop : ∀ v run, V (run ++ v) → Clean (escapeLoopIo W run v)
  | [], run, h => clean_run (by simpa using h)
  | b :: rest, run, h => by
    unfold escapeLoopIo
    split
    · next hn =>
      obtain ⟨h1, h2⟩ := escapeOf_ascii hn
      obtain ⟨h3, h4⟩ := v_cut h h1
      exact (clean_run h3).then ((clean_write (v_ascii h2)).then (clean_escapeLoop rest [] h4))
    · exact clean_escapeLoop rest _ (by simpa using h)

theorem clean_escape {v} (h : V v) : Clean (escapeStrIo W v) := by
  unfold escapeStrIo
  refine Clean.then (by lit) ((clean_escapeLoop v [] h).then (by lit))

theorem clean_indent {cfg} : Clean (writeIndentIo W cfg) := fun s h => by
  unfold writeIndentIo
  split
  · exact h
  · exact clean_all _ (fun p hp => v_ascii (by rw [List.eq_of_mem_replicate hp]; decide)) s h

theorem v_stripCr {l} (h : V l) : V (stripCr l) := by
  unfold stripCr
  split
  · next hl => exact v_dropLast h hl (by decide)
  · exact h

theorem v_linesAux : ∀ v cur, V (cur ++ v) → ∀ l ∈ linesAux cur v, V l
  | [], cur, h, l, hl => by
    unfold linesAux at hl
    split at hl
    · cases hl
    · rw [List.mem_singleton.1 hl]; simpa using h
  | b :: rest, cur, h, l, hl => by
    unfold linesAux at hl
    split at hl
    · next hb =>
      obtain ⟨h1, h2⟩ := v_cut h (by omega)
      rcases List.mem_cons.1 hl with rfl | hl
      · exact v_stripCr h1
      · exact v_linesAux rest [] h2 l hl
    · exact v_linesAux rest _ (by simpa using h) l hl

theorem clean_lines {cfg} : ∀ ls, (∀ l ∈ ls, V l) → Clean (emitLinesIo W cfg ls)
  | [], _ => clean_done
  | l :: ls, h => Clean.then (by lit) (clean_indent.then ((clean_write (h l (by simp))).then (clean_lines ls fun q hq => h q (List.mem_cons_of_mem _ hq))))

theorem clean_block {cfg v} (h : V v) : Clean (emitLiteralBlockIo W cfg v) := by
  unfold emitLiteralBlockIo
  refine Clean.then ?_ (clean_addLevel.then ((clean_lines _ (v_linesAux v [] h)).then clean_addLevel))
  split <;> lit

theorem v_int (i : Int) : V (Scalar.displayI64 i) := by
  refine v_ascii fun c hc => ?_
  have := Verif.Scanner.natDigits_digits (i.natAbs + 1) i.natAbs
  unfold Scalar.displayI64 at hc
  split at hc
  · rcases List.mem_cons.1 hc with rfl | hc
    · decide
    · have := (this c hc).2; omega
  · have := (this c hc).2; omega

variable {F : Type} {fo : FloatOps F} {cut : Cut}

/-- pieces of valid texts are valid -/
def CutOk (cut : Cut) : Prop := ∀ b, V b → ∀ p ∈ cut b, V p

theorem clean_cut (hc : CutOk cut) {b} (h : V b) : Clean (writeAll W (cut b)) := clean_all _ (hc b h)

theorem clean_scalar (hc : CutOk cut) (hf : ∀ x, V (fo.display x)) {cfg} : ∀ {x : Scalar F}, TextTree (.scalar x) → Clean (emitScalarIo W cut fo cfg x)
  | .str v, h => by
    have hv : V v := by cases h with | str h => exact v_iff.2 h
    simp only [emitScalarIo]
    split
    · exact clean_block hv
    split
    · exact clean_escape hv
    · exact clean_cut hc hv
  | .bool b, _ => by cases b <;> (show Clean (write W _); lit)
  | .int i, _ => clean_cut hc (v_int i)
  | .float x, _ => clean_cut hc (hf x)
  | .null, _ => by show Clean (write W _); lit

theorem clean_collection {cfg i e} : Clean (writeCollectionIo W cfg i e) := by
  unfold writeCollectionIo
  split
  · lit
  · exact Clean.then (by lit) (clean_addLevel.then (clean_indent.then clean_addLevel))

theorem clean_tagBreak {cfg} {n : Yaml F} : Clean (tagBreakIo W cfg n) := by
  unfold tagBreakIo
  split
  · exact clean_addLevel.then (Clean.then (by lit) (clean_indent.then clean_addLevel))
  · exact clean_done

theorem v_tag {t : Tag} (h1 : Utf8Text t.handle) (h2 : Utf8Text t.suffix) : V (displayTag t ++ bs!" ") := by
  refine v_append ?_ (v_ascii (by decide))
  unfold displayTag
  split
  · exact v_append (a := [b%'!']) (v_ascii (by decide)) (v_iff.2 h2)
  · exact v_append (v_iff.2 h1) (v_append (a := [b%'!']) (v_ascii (by decide)) (v_iff.2 h2))

mutual
theorem clean_node (hc : CutOk cut) (hf : ∀ x, V (fo.display x)) {cfg} : ∀ y, TextTree y → Clean (emitNodeIo W cut fo cfg y)
  | .seq v, h => by
    simp only [emitNodeIo]
    exact clean_sequence hc hf v (by cases h with | seq h => exact h)
  | .map v, h => by
    simp only [emitNodeIo]
    exact clean_mapping hc hf v (by cases h with | map h _ => exact h) (by cases h with | map _ h => exact h)
  | .scalar x, h => by simp only [emitNodeIo]; exact clean_scalar hc hf h
  | .bad, _ => by simp only [emitNodeIo]; lit
  | .tagged tag node, h => by
    have h1 : V (displayTag tag ++ bs!" ") ∧ TextTree node := by cases h with | tagged a b c => exact ⟨v_tag a b, c⟩
    simp only [emitNodeIo]
    exact (clean_cut hc h1.1).then (clean_tagBreak.then (clean_node hc hf node h1.2))
  | .alias _, _ => by simp only [emitNodeIo]; exact clean_done

theorem clean_sequence (hc : CutOk cut) (hf : ∀ x, V (fo.display x)) {cfg} : ∀ l, (∀ x ∈ l, TextTree x) → Clean (emitSequenceIo W cut fo cfg l)
  | [], _ => by simp only [emitSequenceIo]; lit
  | x :: xs, h => by
    simp only [emitSequenceIo]
    exact clean_addLevel.then (Clean.then (by lit) ((clean_val hc hf true x (h x (by simp))).then
      ((clean_items hc hf xs fun y hy => h y (List.mem_cons_of_mem _ hy)).then clean_addLevel)))

theorem clean_items (hc : CutOk cut) (hf : ∀ x, V (fo.display x)) {cfg} : ∀ l, (∀ x ∈ l, TextTree x) → Clean (emitItemsIo W cut fo cfg l)
  | [], _ => by simp only [emitItemsIo]; exact clean_done
  | x :: xs, h => by
    simp only [emitItemsIo]
    exact Clean.then (by lit) (clean_indent.then (Clean.then (by lit) ((clean_val hc hf true x (h x (by simp))).then
      (clean_items hc hf xs fun y hy => h y (List.mem_cons_of_mem _ hy)))))

theorem clean_mapping (hc : CutOk cut) (hf : ∀ x, V (fo.display x)) {cfg} : ∀ l, (∀ e ∈ l, TextTree e.1) → (∀ e ∈ l, TextTree e.2) → Clean (emitMappingIo W cut fo cfg l)
  | [], _, _ => by simp only [emitMappingIo]; lit
  | e :: es, h1, h2 => by
    simp only [emitMappingIo]
    exact clean_addLevel.then ((clean_entry hc hf e (h1 e (by simp)) (h2 e (by simp))).then
      ((clean_entries hc hf es (fun y hy => h1 y (List.mem_cons_of_mem _ hy)) (fun y hy => h2 y (List.mem_cons_of_mem _ hy))).then clean_addLevel))

theorem clean_entries (hc : CutOk cut) (hf : ∀ x, V (fo.display x)) {cfg} : ∀ l, (∀ e ∈ l, TextTree e.1) → (∀ e ∈ l, TextTree e.2) → Clean (emitEntriesIo W cut fo cfg l)
  | [], _, _ => by simp only [emitEntriesIo]; exact clean_done
  | e :: es, h1, h2 => by
    simp only [emitEntriesIo]
    exact Clean.then (by lit) (clean_indent.then ((clean_entry hc hf e (h1 e (by simp)) (h2 e (by simp))).then
      (clean_entries hc hf es (fun y hy => h1 y (List.mem_cons_of_mem _ hy)) (fun y hy => h2 y (List.mem_cons_of_mem _ hy)))))

theorem clean_entry (hc : CutOk cut) (hf : ∀ x, V (fo.display x)) {cfg} : ∀ e, TextTree e.1 → TextTree e.2 → Clean (emitEntryIo W cut fo cfg e)
  | (key, value), h1, h2 => by
    simp only [emitEntryIo]
    split
    · exact Clean.then (by lit) ((clean_val hc hf true key h1).then (Clean.then (by lit) (clean_indent.then (Clean.then (by lit) (clean_val hc hf true value h2)))))
    · exact (clean_node hc hf key h1).then (Clean.then (by lit) (clean_val hc hf false value h2))

theorem clean_val (hc : CutOk cut) (hf : ∀ x, V (fo.display x)) {cfg} (i : Bool) : ∀ y, TextTree y → Clean (emitValIo W cut fo cfg i y)
  | .seq v, h => by
    simp only [emitValIo]
    exact clean_collection.then (clean_sequence hc hf v (by cases h with | seq h => exact h))
  | .map v, h => by
    simp only [emitValIo]
    exact clean_collection.then (clean_mapping hc hf v (by cases h with | map h _ => exact h) (by cases h with | map _ h => exact h))
  | .scalar x, h => by simp only [emitValIo]; exact Clean.then (by lit) (clean_scalar hc hf h)
  | .bad, _ => by simp only [emitValIo]; exact Clean.then (by lit) (by lit)
  | .tagged tag node, h => by
    have h1 : V (displayTag tag ++ bs!" ") ∧ TextTree node := by cases h with | tagged a b c => exact ⟨v_tag a b, c⟩
    simp only [emitValIo]
    exact Clean.then (by lit) ((clean_cut hc h1.1).then (clean_tagBreak.then (clean_node hc hf node h1.2)))
  | .alias _, _ => by simp only [emitValIo]; lit
end

theorem clean_dump (hc : CutOk cut) (hf : ∀ x, V (fo.display x)) {cfg} {y : Yaml F} (h : TextTree y) : Clean (dumpIo W cut fo cfg y) :=
  Clean.then (by lit) (Clean.then (clean_level (f := fun _ => -1)) (clean_node hc hf y h))

end Verif.EmitterIo

namespace Verif.SerIo
open Verif Verif.Ser Verif.De Verif.EmitterIo Verif.Spec
variable {F : Type} {W : Writer} {cut : Cut} {fo : FloatOps F} {ext : Extern F}

theorem clean_indentors {fm : Formatter} (hi : V fm.indentor) : ∀ n, Clean (writeIndentorsIo W fm n)
  | 0 => clean_done
  | n + 1 => (clean_write hi).then (clean_indentors hi n)

theorem clean_split {fm : Formatter} (hi : V fm.indentor) {d l s} (h : V l) : Clean (lineSplitAtIo W fm d l s) := by
  refine (clean_write h).then (Clean.then (clean_write (v_ascii ?_)) (clean_indentors hi d))
  split <;> decide

theorem clean_multiLoop {fm : Formatter} (hi : V fm.indentor) {d} : ∀ ws buff len, (∀ w ∈ ws, V w.1) → V buff → Clean (multiLoopIo W fm d ws buff len)
  | [], buff, _, _, hb => clean_write hb
  | (word, n) :: ws, buff, len, h, hb => by
    have hw : V word := h (word, n) (by simp)
    have hws : ∀ w ∈ ws, V w.1 := fun w hw => h w (List.mem_cons_of_mem _ hw)
    unfold multiLoopIo
    split
    · split
      · next hl =>
        refine (clean_split hi ?_).then (clean_multiLoop hi ws _ _ hws hw)
        unfold isLastCharSplittableWs at hl
        split at hl
        · next c hc =>
          exact v_dropLast hb hc (by simp at hl; omega)
        · cases hl
      split
      · exact (clean_split hi hb).then (clean_multiLoop hi ws _ _ hws rfl)
      · exact clean_multiLoop hi ws _ _ hws (v_append hb hw)
    · exact clean_multiLoop hi ws _ _ hws (v_append hb hw)

theorem clean_value (hc : CutOk cut) (hf : ∀ x, V (fo.display x)) {fm : Formatter} (hi : V fm.indentor) (hn : V fm.nullFormat)
    (hw : ∀ s, V s → ∀ w ∈ ext.words s, V w.1) : ∀ v m, TextVal v → serializeIo W cut fo ext fm v = some m → Clean m
  | .int i, m, ht, h => by cases h; exact clean_cut hc (v_int i)
  | .bool b, m, ht, h => by cases h; exact clean_write (v_ascii (by cases b <;> decide))
  | .float x, m, ht, h => by
    cases h
    refine Clean.then ?_ (clean_cut hc (hf x))
    split
    · exact clean_write (v_ascii (by decide))
    · exact clean_done
  | .str s, m, ht, h => by
    have : useComplexForm fm 0 = true := by simp [useComplexForm]
    simp only [serializeIo, serializeStrIo, this, if_pos, Option.some.injEq] at h
    subst h
    exact Clean.then (clean_write (v_ascii (by decide))) ((clean_multiLoop hi _ [] 0 (hw s (by cases ht with | str h => exact v_iff.2 h)) rfl).then (clean_write (v_ascii (by decide))))
  | .unit, m, ht, h => by cases h; exact clean_write hn
  | .none, m, ht, h => by cases h; exact clean_write hn
  | .some v, m, ht, h => clean_value hc hf hi hn hw v m (by cases ht with | some h => exact h) h

theorem clean_char (c : Char) : Clean (serializeCharIo W c.toNat) := by
  unfold serializeCharIo
  have hq : V [if c.toNat = b%'\'' then b%'"' else b%'\''] := v_ascii (by split <;> decide)
  exact (clean_write hq).then ((clean_write (Utf8.run_encode (Utf8.charFromU32_char c))).then (clean_write hq))

end Verif.SerIo
