import Verif.Lemmas.EmitText
import Verif.Lemmas.Quotes
import Verif.Spec.Layout
/-!
# The emitter keeps its level and lays its text out
-/
namespace Verif.Emitter
open Verif Verif.Spec
variable {F : Type}

/-! ## the level -/

theorem writeIndent_level (cfg : Config) (s : ESt) : (writeIndent cfg s).level = s.level := by
  unfold writeIndent; split <;> rfl

theorem emitLines_level (cfg : Config) (ls : List (List Byte)) : ∀ s, (emitLines cfg s ls).level = s.level := by
  induction ls with
  | nil => intro s; rfl
  | cons l ls ih => intro s; rw [emitLines, ih]; simp [put_level, writeIndent_level]

theorem emitLiteralBlock_level (cfg : Config) (s : ESt) (v : List Byte) : (emitLiteralBlock cfg s v).level = s.level := by
  unfold emitLiteralBlock
  dsimp only
  rw [emitLines_level]
  split <;> simp [put_level]

theorem emitScalar_level (fo : FloatOps F) (cfg : Config) (s : ESt) (x : Scalar F) : (emitScalar fo cfg s x).level = s.level := by
  cases x with
  | str v =>
    rw [emitScalar]
    split
    · exact emitLiteralBlock_level ..
    · split <;> rfl
  | _ => rfl

theorem writeCollection_level (cfg : Config) (i e : Bool) (s : ESt) : (writeCollection cfg i e s).level = s.level := by
  unfold writeCollection
  split
  · rfl
  · dsimp only
    rw [writeIndent_level]
    simp [put_level]

mutual
theorem emitNode_level (fo : FloatOps F) (cfg : Config) (s : ESt) (x : Yaml F) : (emitNode fo cfg s x).level = s.level := by
  match x with
  | .seq xs => rw [emitNode, emitSequence_level]
  | .map es => rw [emitNode, emitMapping_level]
  | .scalar x => rw [emitNode, emitScalar_level]
  | .bad => rw [emitNode]; rfl
  | .tagged t y =>
    rw [emitNode, emitNode_level]
    try dsimp only
    split
    · dsimp only
      rw [writeIndent_level]
      simp [put_level]
    · rfl
  | .alias _ => rw [emitNode]
theorem emitSequence_level (fo : FloatOps F) (cfg : Config) (s : ESt) (xs : List (Yaml F)) : (emitSequence fo cfg s xs).level = s.level := by
  match xs with
  | [] => rfl
  | x :: xs =>
    rw [emitSequence]
    try dsimp only
    rw [emitItems_level, emitVal_level]
    simp [put_level]
theorem emitItems_level (fo : FloatOps F) (cfg : Config) (s : ESt) (xs : List (Yaml F)) : (emitItems fo cfg s xs).level = s.level := by
  match xs with
  | [] => rw [emitItems]
  | x :: xs =>
    rw [emitItems]
    try dsimp only
    rw [emitItems_level, emitVal_level]
    simp [put_level, writeIndent_level]
theorem emitMapping_level (fo : FloatOps F) (cfg : Config) (s : ESt) (es : List (Yaml F × Yaml F)) : (emitMapping fo cfg s es).level = s.level := by
  match es with
  | [] => rfl
  | e :: es =>
    rw [emitMapping]
    try dsimp only
    rw [emitEntries_level, emitEntry_level]
    simp
theorem emitEntries_level (fo : FloatOps F) (cfg : Config) (s : ESt) (es : List (Yaml F × Yaml F)) : (emitEntries fo cfg s es).level = s.level := by
  match es with
  | [] => rw [emitEntries]
  | e :: es =>
    rw [emitEntries]
    try dsimp only
    rw [emitEntries_level, emitEntry_level]
    simp [put_level, writeIndent_level]
theorem emitEntry_level (fo : FloatOps F) (cfg : Config) (s : ESt) (e : Yaml F × Yaml F) : (emitEntry fo cfg s e).level = s.level := by
  match e with
  | (k, v) =>
    rw [emitEntry]
    split
    · dsimp only
      rw [emitVal_level, put_level, writeIndent_level, put_level, emitVal_level]
      rfl
    · dsimp only
      rw [emitVal_level, put_level, emitNode_level]
theorem emitVal_level (fo : FloatOps F) (cfg : Config) (i : Bool) (s : ESt) (x : Yaml F) : (emitVal fo cfg i s x).level = s.level := by
  match x with
  | .seq xs => rw [emitVal, emitSequence_level, writeCollection_level]
  | .map es => rw [emitVal, emitMapping_level, writeCollection_level]
  | .scalar x => rw [emitVal, emitScalar_level]; rfl
  | .bad => rw [emitVal]; rfl
  | .tagged t y =>
    rw [emitVal]
    try dsimp only
    rw [emitNode_level]
    split
    · dsimp only
      rw [writeIndent_level]
      simp [put_level]
    · rfl
  | .alias _ => rw [emitVal]; rfl
end

/-! ## the layout -/

theorem writeIndent_new {cfg : Config} {s : ESt} {d : Nat} (h : s.level = d) : writeIndent cfg (s.put bs!"\n") = s.put (newLine cfg.bestIndent d) := by
  unfold writeIndent newLine
  split
  · rename_i h'
    have : d = 0 := by simp [put_level] at h'; omega
    subst this
    simp
  · simp [put_level, h, ESt.put, Nat.mul_comm]

/-- one line break and indentation, one level further in -/
theorem new_deeper {cfg : Config} {s : ESt} {d : Nat} (h : s.level + 1 = d) :
    ({ writeIndent cfg ({ s with level := s.level + 1 }.put bs!"\n") with level := (writeIndent cfg ({ s with level := s.level + 1 }.put bs!"\n")).level - 1 } : ESt) =
      s.put (newLine cfg.bestIndent d) := by
  rw [writeIndent_new (d := d) (by simpa using h)]
  simp [ESt.put]

theorem stripCr_clean {l : List Byte} (h : 10 ∉ l) : 10 ∉ stripCr l := by
  unfold stripCr
  split
  · exact fun h' => h (List.dropLast_subset _ h')
  · exact h

theorem linesAux_clean (v : List Byte) : ∀ cur : List Byte, 10 ∉ cur → ∀ l ∈ linesAux cur v, 10 ∉ l := by
  induction v with
  | nil =>
    intro cur hc l hl
    rw [linesAux] at hl
    split at hl
    · simp at hl
    · simp at hl; subst hl; exact hc
  | cons b v ih =>
    intro cur hc l hl
    rw [linesAux] at hl
    split at hl
    · rcases List.mem_cons.1 hl with rfl | hl
      · exact stripCr_clean hc
      · exact ih [] (by simp) l hl
    · refine ih _ ?_ l hl
      rename_i hb
      simp [hc]
      exact fun h => hb h.symm

theorem emitLines_put {cfg : Config} {d : Nat} (ls : List (List Byte)) : ∀ {s : ESt}, s.level = d →
    emitLines cfg s ls = s.put (ls.flatMap fun l => newLine cfg.bestIndent d ++ l) := by
  induction ls with
  | nil => intro s _; simp [emitLines, ESt.put]
  | cons l ls ih =>
    intro s h
    rw [emitLines, writeIndent_new h, ih (by simpa [put_level] using h)]
    simp [ESt.put]

theorem escapeOf_clean {b : Byte} {e} (h : escapeOf b = some e) : 10 ∉ e := by
  have hx : ∀ n, hexDigit n ≠ 10 := by intro n; unfold hexDigit; split <;> simp <;> omega
  have := hx (b / 16)
  have := hx (b % 16)
  unfold escapeOf at h
  repeat' split at h
  all_goals simp at h
  all_goals subst h; simp_all [eq_comm]

theorem escapeLoop_clean (v : List Byte) : ∀ m, escapeLoop v = some m → 10 ∉ m := by
  induction v with
  | nil => intro m h; simp [escapeLoop] at h; subst h; simp
  | cons b v ih =>
    intro m h
    rw [escapeLoop] at h
    split at h
    · split at h
      · rename_i e r h1 h2
        simp at h
        subst h
        simp [escapeOf_clean h1, ih _ h2]
      · simp at h
    · rename_i hb
      simp at h
      obtain ⟨r, h1, rfl⟩ := h
      simp [ih _ h1]
      rintro rfl
      simp [needsEscape] at hb

theorem natDigits_clean (fuel n : Nat) : 10 ∉ Scalar.natDigits fuel n := by
  induction fuel generalizing n with
  | zero => simp [Scalar.natDigits]
  | succ f ih =>
    rw [Scalar.natDigits]
    split
    · simp; omega
    · simp [ih]; omega

theorem nonEmpty_iff (x : Yaml F) : NonEmpty x ↔ isNonEmptyCollection x = true := by
  cases x with
  | seq xs => cases xs <;> simp [NonEmpty, isNonEmptyCollection]
  | map xs => cases xs <;> simp [NonEmpty, isNonEmptyCollection]
  | _ => simp [NonEmpty, isNonEmptyCollection]

theorem scalar_laid {fo : FloatOps F} (hfo : ∀ f, 10 ∉ fo.display f) {cfg : Config} {s : ESt} {d : Nat} (h : s.level + 1 = d) (x : Scalar F) :
    ∃ t, emitScalar fo cfg s x = s.put t ∧ Laid cfg.bestIndent d (.scalar x) t := by
  have line : ∀ (x : Scalar F) t, 10 ∉ t → Laid cfg.bestIndent d (.scalar x) t := fun x t ht => .line (by simp [NonEmpty]) ht
  cases x with
  | str v =>
    rw [emitScalar]
    split
    · unfold emitLiteralBlock
      have hl := linesAux_clean v [] (by simp)
      by_cases hv : v.getLast? = some 10
      · refine ⟨bs!"|" ++ (lines v).flatMap fun l => newLine cfg.bestIndent d ++ l, ?_, .literal (by simp) hl⟩
        simp only [if_pos hv]
        rw [emitLines_put (d := d) _ (by simpa [put_level] using h)]
        simp [ESt.put]
      · refine ⟨bs!"|-" ++ (lines v).flatMap fun l => newLine cfg.bestIndent d ++ l, ?_, .literal (by simp) hl⟩
        simp only [if_neg hv]
        rw [emitLines_put (d := d) _ (by simpa [put_level] using h)]
        simp [ESt.put]
    · split
      · refine ⟨_, rfl, line _ _ ?_⟩
        obtain ⟨m, hm⟩ := Option.isSome_iff_exists.1 (escapeLoop_isSome v)
        simp [escapeStr, hm, escapeLoop_clean v m hm]
      · rename_i hq
        refine ⟨_, rfl, line _ _ ?_⟩
        obtain ⟨-, -, -, -, h5, -⟩ := needQuotes_false (by simpa using hq)
        intro h10
        have := (List.any_eq_false.1 h5) 10 h10
        simp [badAnywhere] at this
  | bool b => exact ⟨_, rfl, line _ _ (by cases b <;> simp)⟩
  | int i =>
    refine ⟨_, rfl, line _ _ ?_⟩
    unfold Scalar.displayI64
    split <;> simp [natDigits_clean]
  | float f => exact ⟨_, rfl, line _ _ (hfo f)⟩
  | null => exact ⟨_, rfl, line _ _ (by simp)⟩

theorem displayTag_clean {t : Tag} (h1 : 10 ∉ t.handle) (h2 : 10 ∉ t.suffix) : 10 ∉ displayTag t := by
  unfold displayTag
  split <;> simp [h1, h2]

theorem writeCollection_laid {cfg : Config} {s : ESt} {d : Nat} (h : s.level = d) (inline : Bool) {x : Yaml F} {e : Bool} (hx : e = false → NonEmpty x) :
    ∃ g, writeCollection cfg inline e s = s.put g ∧ ∀ t, Laid cfg.bestIndent (d + 1) x t → LaidVal cfg.bestIndent d x (g ++ t) := by
  unfold writeCollection
  split
  · exact ⟨_, rfl, fun t ht => .here ht⟩
  · rename_i hc
    refine ⟨newLine cfg.bestIndent (d + 1), ?_, fun t ht => .under (hx (by simp at hc; exact hc.2)) ht⟩
    exact new_deeper (by omega)

mutual
theorem node_laid {fo : FloatOps F} (hfo : ∀ f, 10 ∉ fo.display f) {cfg : Config} {s : ESt} {d : Nat} (h : s.level + 1 = d) (x : Yaml F) (hx : TagsOnLine x) :
    ∃ t, emitNode fo cfg s x = s.put t ∧ Laid cfg.bestIndent d x t := by
  match x with
  | .seq xs => rw [emitNode]; exact seq_laid hfo h xs hx
  | .map es => rw [emitNode]; exact map_laid hfo h es hx
  | .scalar x => rw [emitNode]; exact scalar_laid hfo h x
  | .bad => rw [emitNode]; exact ⟨_, rfl, .line (by simp [NonEmpty]) (by simp)⟩
  | .alias _ => rw [emitNode]; exact ⟨[], by simp [ESt.put], .line (by simp [NonEmpty]) (by simp)⟩
  | .tagged tag y =>
    have hx : 10 ∉ tag.handle ∧ 10 ∉ tag.suffix ∧ TagsOnLine y := by cases hx; exact ⟨by assumption, by assumption, by assumption⟩
    have htag : 10 ∉ displayTag tag ++ bs!" " := by simp [displayTag_clean hx.1 hx.2.1]
    rw [emitNode]
    try dsimp only
    by_cases hn : isNonEmptyCollection y = true
    · rw [if_pos hn, new_deeper (d := d) (by simpa [put_level] using h)]
      obtain ⟨t, h1, h2⟩ := node_laid hfo (cfg := cfg) (s := (s.put (displayTag tag ++ bs!" ")).put (newLine cfg.bestIndent d)) (d := d) h y hx.2.2
      exact ⟨_, by rw [h1, put_put, put_put, List.append_assoc], .taggedUnder ((nonEmpty_iff y).2 hn) htag h2⟩
    · rw [if_neg hn]
      obtain ⟨t, h1, h2⟩ := node_laid hfo (cfg := cfg) (s := s.put (displayTag tag ++ bs!" ")) (d := d) h y hx.2.2
      exact ⟨_, by rw [h1, put_put], .tagged (fun h => hn ((nonEmpty_iff y).1 h)) htag h2⟩
theorem seq_laid {fo : FloatOps F} (hfo : ∀ f, 10 ∉ fo.display f) {cfg : Config} {s : ESt} {d : Nat} (h : s.level + 1 = d) (xs : List (Yaml F)) (hx : TagsOnLine (.seq xs)) :
    ∃ t, emitSequence fo cfg s xs = s.put t ∧ Laid cfg.bestIndent d (.seq xs) t := by
  match xs with
  | [] => exact ⟨_, rfl, .line (by simp [NonEmpty]) (by simp)⟩
  | x :: xs =>
    have hx : ∀ y ∈ x :: xs, TagsOnLine y := by cases hx; assumption
    rw [emitSequence]
    obtain ⟨v, h1, h2⟩ := val_laid hfo (cfg := cfg) (s := ({ s with level := s.level + 1 } : ESt).put bs!"-") (d := d) h true x (hx x (by simp))
    try dsimp only
    rw [h1]
    obtain ⟨r, h3, h4⟩ := items_laid hfo (cfg := cfg) (s := (({ s with level := s.level + 1 } : ESt).put bs!"-").put v) (d := d) h xs (fun y hy => hx y (by simp [hy]))
    rw [h3]
    refine ⟨45 :: (v ++ r), by simp [ESt.put], .seq (by simp) (h4 x v h2)⟩
theorem items_laid {fo : FloatOps F} (hfo : ∀ f, 10 ∉ fo.display f) {cfg : Config} {s : ESt} {d : Nat} (h : s.level = d) (xs : List (Yaml F)) (hx : ∀ y ∈ xs, TagsOnLine y) :
    ∃ t, emitItems fo cfg s xs = s.put t ∧ ∀ x v, LaidVal cfg.bestIndent d x v → LaidItems cfg.bestIndent d (x :: xs) (45 :: (v ++ t)) := by
  match xs with
  | [] => exact ⟨[], by simp [emitItems, ESt.put], fun x v hv => by simpa using LaidItems.one hv⟩
  | y :: ys =>
    rw [emitItems]
    rw [writeIndent_new h]
    obtain ⟨v, h1, h2⟩ := val_laid hfo (cfg := cfg) (s := (s.put (newLine cfg.bestIndent d)).put bs!"-") (d := d) h true y (hx y (by simp))
    try dsimp only
    rw [h1]
    obtain ⟨r, h3, h4⟩ := items_laid hfo (cfg := cfg) (s := ((s.put (newLine cfg.bestIndent d)).put bs!"-").put v) (d := d) h ys (fun y hy => hx y (by simp [hy]))
    rw [h3]
    exact ⟨newLine cfg.bestIndent d ++ 45 :: (v ++ r), by simp [ESt.put], fun x u hu => .more hu (h4 y v h2)⟩
theorem map_laid {fo : FloatOps F} (hfo : ∀ f, 10 ∉ fo.display f) {cfg : Config} {s : ESt} {d : Nat} (h : s.level + 1 = d) (es : List (Yaml F × Yaml F)) (hx : TagsOnLine (.map es)) :
    ∃ t, emitMapping fo cfg s es = s.put t ∧ Laid cfg.bestIndent d (.map es) t := by
  match es with
  | [] => exact ⟨_, rfl, .line (by simp [NonEmpty]) (by simp)⟩
  | e :: es =>
    have hx : (∀ y ∈ e :: es, TagsOnLine y.1) ∧ (∀ y ∈ e :: es, TagsOnLine y.2) := by cases hx; exact ⟨by assumption, by assumption⟩
    rw [emitMapping]
    obtain ⟨u, h1, h2⟩ := entry_laid hfo (cfg := cfg) (s := ({ s with level := s.level + 1 } : ESt)) (d := d) h e (hx.1 e (by simp)) (hx.2 e (by simp))
    try dsimp only
    rw [h1]
    obtain ⟨r, h3, h4⟩ := entries_laid hfo (cfg := cfg) (s := (({ s with level := s.level + 1 } : ESt)).put u) (d := d) h es (fun y hy => hx.1 y (by simp [hy])) (fun y hy => hx.2 y (by simp [hy]))
    rw [h3]
    exact ⟨u ++ r, by simp [ESt.put], .map (by simp) (h4 e.1 e.2 u h2)⟩
theorem entries_laid {fo : FloatOps F} (hfo : ∀ f, 10 ∉ fo.display f) {cfg : Config} {s : ESt} {d : Nat} (h : s.level = d) (es : List (Yaml F × Yaml F))
    (hk : ∀ y ∈ es, TagsOnLine y.1) (hv : ∀ y ∈ es, TagsOnLine y.2) :
    ∃ t, emitEntries fo cfg s es = s.put t ∧ ∀ k v u, LaidEntry cfg.bestIndent d k v u → LaidEntries cfg.bestIndent d ((k, v) :: es) (u ++ t) := by
  match es with
  | [] => exact ⟨[], by simp [emitEntries, ESt.put], fun k v u hu => by simpa using LaidEntries.one hu⟩
  | e :: es =>
    rw [emitEntries]
    rw [writeIndent_new h]
    obtain ⟨u, h1, h2⟩ := entry_laid hfo (cfg := cfg) (s := (s.put (newLine cfg.bestIndent d))) (d := d) h e (hk e (by simp)) (hv e (by simp))
    try dsimp only
    rw [h1]
    obtain ⟨r, h3, h4⟩ := entries_laid hfo (cfg := cfg) (s := (s.put (newLine cfg.bestIndent d)).put u) (d := d) h es (fun y hy => hk y (by simp [hy])) (fun y hy => hv y (by simp [hy]))
    rw [h3]
    exact ⟨newLine cfg.bestIndent d ++ (u ++ r), by simp [ESt.put], fun k v w hw => .more hw (h4 e.1 e.2 u h2)⟩
theorem entry_laid {fo : FloatOps F} (hfo : ∀ f, 10 ∉ fo.display f) {cfg : Config} {s : ESt} {d : Nat} (h : s.level = d) (e : Yaml F × Yaml F)
    (hk : TagsOnLine e.1) (hv : TagsOnLine e.2) : ∃ t, emitEntry fo cfg s e = s.put t ∧ LaidEntry cfg.bestIndent d e.1 e.2 t := by
  match e with
  | (k, v) =>
    rw [emitEntry]
    split
    · obtain ⟨tk, h1, h2⟩ := val_laid hfo (cfg := cfg) (s := s.put bs!"?") (d := d) h true k hk
      try dsimp only
      rw [h1, writeIndent_new (s := (s.put bs!"?").put tk) (d := d) h]
      obtain ⟨tv, h3, h4⟩ := val_laid hfo (cfg := cfg) (s := ((((s.put bs!"?").put tk).put (newLine cfg.bestIndent d))).put bs!":") (d := d) h true v hv
      rw [h3]
      exact ⟨63 :: (tk ++ (newLine cfg.bestIndent d ++ 58 :: tv)), by simp [ESt.put], .complex h2 h4⟩
    · obtain ⟨tk, h1, h2⟩ := node_laid hfo (cfg := cfg) (s := s) (d := d + 1) (by omega) k hk
      try dsimp only
      rw [h1]
      obtain ⟨tv, h3, h4⟩ := val_laid hfo (cfg := cfg) (s := (s.put tk).put bs!":") (d := d) h false v hv
      rw [h3]
      exact ⟨tk ++ 58 :: tv, by simp [ESt.put], .simple h2 h4⟩
theorem val_laid {fo : FloatOps F} (hfo : ∀ f, 10 ∉ fo.display f) {cfg : Config} {s : ESt} {d : Nat} (h : s.level = d) (inline : Bool) (x : Yaml F) (hx : TagsOnLine x) :
    ∃ t, emitVal fo cfg inline s x = s.put t ∧ LaidVal cfg.bestIndent d x t := by
  match x with
  | .seq xs =>
    rw [emitVal]
    obtain ⟨g, h1, h2⟩ := writeCollection_laid (cfg := cfg) h inline (x := .seq xs) (e := xs.isEmpty) (by simp [NonEmpty])
    rw [h1]
    obtain ⟨t, h3, h4⟩ := seq_laid hfo (cfg := cfg) (s := s.put g) (d := d + 1) (by rw [put_level]; omega) xs hx
    exact ⟨g ++ t, by rw [h3, put_put], h2 t h4⟩
  | .map es =>
    rw [emitVal]
    obtain ⟨g, h1, h2⟩ := writeCollection_laid (cfg := cfg) h inline (x := .map es) (e := es.isEmpty) (by simp [NonEmpty])
    rw [h1]
    obtain ⟨t, h3, h4⟩ := map_laid hfo (cfg := cfg) (s := s.put g) (d := d + 1) (by rw [put_level]; omega) es hx
    exact ⟨g ++ t, by rw [h3, put_put], h2 t h4⟩
  | .scalar x =>
    rw [emitVal]
    obtain ⟨t, h3, h4⟩ := scalar_laid hfo (cfg := cfg) (s := s.put bs!" ") (d := d + 1) (by rw [put_level]; omega) x
    exact ⟨32 :: t, by rw [h3, put_put]; rfl, .here h4⟩
  | .bad => rw [emitVal]; exact ⟨bs!" ~", by simp [ESt.put], .here (.line (by simp [NonEmpty]) (by simp))⟩
  | .alias _ => rw [emitVal]; exact ⟨bs!" ", by simp [ESt.put], .here (.line (by simp [NonEmpty]) (by simp))⟩
  | .tagged tag y =>
    have hx : 10 ∉ tag.handle ∧ 10 ∉ tag.suffix ∧ TagsOnLine y := by cases hx; exact ⟨by assumption, by assumption, by assumption⟩
    have htag : 10 ∉ displayTag tag ++ bs!" " := by simp [displayTag_clean hx.1 hx.2.1]
    rw [emitVal]
    try dsimp only
    by_cases hn : isNonEmptyCollection y = true
    · rw [if_pos hn, new_deeper (d := d + 1) (by simp only [put_level]; omega)]
      obtain ⟨t, h1, h2⟩ := node_laid hfo (cfg := cfg) (s := ((s.put bs!" ").put (displayTag tag ++ bs!" ")).put (newLine cfg.bestIndent (d + 1))) (d := d + 1) (by simp only [put_level]; omega) y hx.2.2
      exact ⟨32 :: ((displayTag tag ++ bs!" ") ++ (newLine cfg.bestIndent (d + 1) ++ t)), by rw [h1]; simp [ESt.put], .here (.taggedUnder ((nonEmpty_iff y).2 hn) htag h2)⟩
    · rw [if_neg hn]
      obtain ⟨t, h1, h2⟩ := node_laid hfo (cfg := cfg) (s := (s.put bs!" ").put (displayTag tag ++ bs!" ")) (d := d + 1) (by simp only [put_level]; omega) y hx.2.2
      exact ⟨32 :: ((displayTag tag ++ bs!" ") ++ t), by rw [h1]; simp [ESt.put], .here (.tagged (fun h => hn ((nonEmpty_iff y).1 h)) htag h2)⟩
end
/-! ## indentation -/

theorem indented_append {n : Nat} {a c : List Byte} (ha : IndentedBy n a) (hc : IndentedBy n c) : IndentedBy n (a ++ c) := by
  intro u r h
  rcases List.append_eq_append_iff.1 h with ⟨w, h1, h2⟩ | ⟨w, h1, h2⟩
  · exact hc w r h2
  · cases w with
    | nil =>
      simp at h1 h2
      exact hc [] r (by simp [h2])
    | cons b w =>
      simp at h2
      obtain ⟨rfl, rfl⟩ := h2
      exact (ha u w h1).trans (List.prefix_append _ _)

theorem indented_line {n : Nat} {t : List Byte} (h : 10 ∉ t) : IndentedBy n t := by
  rintro u r rfl
  simp at h

theorem indented_cons {n : Nat} {b : Byte} {t : List Byte} (hb : b ≠ 10) (h : IndentedBy n t) : IndentedBy n (b :: t) :=
  indented_append (a := [b]) (indented_line (by simpa using fun h => hb h.symm)) h

theorem indented_new {b d k : Nat} {t : List Byte} (hk : d ≤ k) (h : IndentedBy (b * d) t) : IndentedBy (b * d) (newLine b k ++ t) := by
  refine indented_append ?_ h
  intro u r hu
  unfold newLine at hu
  cases u with
  | nil =>
    simp at hu
    subst hu
    rw [show b * k = b * d + b * (k - d) by rw [← Nat.mul_add]; congr; omega, ← List.replicate_append_replicate]
    exact List.prefix_append _ _
  | cons c u =>
    simp at hu
    have : 10 ∈ List.replicate (b * k) 32 := by rw [hu.2]; simp
    simp at this

theorem indented_less {n m : Nat} {t : List Byte} (hm : m ≤ n) (h : IndentedBy n t) : IndentedBy m t := by
  intro u r hu
  refine List.IsPrefix.trans ?_ (h u r hu)
  rw [show n = m + (n - m) by omega, ← List.replicate_append_replicate]
  exact List.prefix_append _ _

theorem laid_indented {b d : Nat} {x : Yaml F} {t : List Byte} (h : Laid b d x t) : IndentedBy (b * d) t := by
  have up : ∀ {d : Nat} {t}, IndentedBy (b * (d + 1)) t → IndentedBy (b * d) t := fun h => indented_less (Nat.mul_le_mul_left _ (by omega)) h
  refine Laid.rec (motive_1 := fun d _ t _ => IndentedBy (b * d) t) (motive_2 := fun d _ t _ => IndentedBy (b * d) t)
    (motive_3 := fun d _ t _ => IndentedBy (b * d) t) (motive_4 := fun d _ _ t _ => IndentedBy (b * d) t)
    (motive_5 := fun d _ t _ => IndentedBy (b * d) t) ?_ ?_ ?_ ?_ ?_ ?_ ?_ ?_ ?_ ?_ ?_ ?_ ?_ ?_ h
  · intro d x t _ ht; exact indented_line ht
  · intro d v head ls hh hl
    refine indented_append (indented_line hh) ?_
    clear hh
    induction ls with
    | nil => exact indented_line (by simp)
    | cons l ls ih =>
      rw [List.flatMap_cons]
      exact indented_append (indented_new (Nat.le_refl _) (indented_line (hl l (by simp)))) (ih (fun m hm => hl m (by simp [hm])))
  · intro d tag x tg t _ hn _ ih; exact indented_append (indented_line hn) ih
  · intro d tag x tg t _ hn _ ih; exact indented_append (indented_line hn) (indented_new (Nat.le_refl _) ih)
  · intro d xs t _ _ ih; exact ih
  · intro d xs t _ _ ih; exact ih
  · intro d x v _ ih; exact indented_cons (by simp) ih
  · intro d x v xs t _ _ ih1 ih2; exact indented_cons (by simp) (indented_append ih1 (indented_new (Nat.le_refl _) ih2))
  · intro d k v t _ ih; exact ih
  · intro d k v u es t _ _ ih1 ih2; exact indented_append ih1 (indented_new (Nat.le_refl _) ih2)
  · intro d k v tk tv _ _ ih1 ih2; exact indented_append (up ih1) (indented_cons (by simp) ih2)
  · intro d k v tk tv _ _ ih1 ih2; exact indented_cons (by simp) (indented_append ih1 (indented_new (Nat.le_refl _) (indented_cons (by simp) ih2)))
  · intro d x t _ ih; exact indented_cons (by simp) (up ih)
  · intro d x t _ _ ih; exact indented_new (by omega) (up ih)

end Verif.Emitter
