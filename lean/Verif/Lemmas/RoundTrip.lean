import Verif.Lemmas.EmitScalar
import Verif.Lemmas.LoadRun
import Verif.Props.Scalar
import Verif.Props.ParserComplete
import Verif.Props.Loader
import Verif.Model.LoadText
/-!
# From the tokens of a printed tree to the tree
-/
namespace Verif.Emitter
open Verif Verif.Spec Verif.Scanner Verif.Scalar
variable {F : Type}

theorem key_plain {fo : FloatOps F} {ec : Config} {k : Yaml F} (h1 : ∀ t y, k ≠ .tagged t y) (h2 : ∀ v, k = .scalar (.str v) → shouldEmitStringAsBlock ec v = false) : PlainKey ec k := by
  refine ⟨h1, fun x hx => ?_⟩
  cases x with
  | str v => exact h2 v hx
  | _ => rfl

theorem printable_simple {fo : FloatOps F} {ec doc x} (h : Printable fo ec doc x) : Simple ec x := by
  induction h with
  | scalar _ => simp [Simple]
  | @seq _ xs _ ih =>
    induction xs with
    | nil => simp [Simple]
    | cons x xs ihx =>
      rw [Simple]
      exact ⟨ih x (by simp), ihx (fun y hy => by simp_all) (fun y hy => ih y (by simp [hy]))⟩
  | tagged _ _ _ _ ih => rw [Simple]; exact ih
  | @map _ es hp1 hp2 hk hnt hbk ih1 ih2 =>
    induction es with
    | nil => simp [Simple]
    | cons e es ihx =>
      obtain ⟨k, v⟩ := e
      rw [Simple]
      exact ⟨ih1 (k, v) (by simp), key_plain (fo := fo) (hnt (k, v) (by simp)) (hbk (k, v) (by simp)), ih2 (k, v) (by simp),
        ihx (fun y hy => hp1 y (by simp [hy])) (fun y hy => hp2 y (by simp [hy])) (fun y hy => hk y (by simp [hy])) (fun y hy => hnt y (by simp [hy]))
          (fun y hy => hbk y (by simp [hy])) (fun y hy => ih1 y (by simp [hy])) (fun y hy => ih2 y (by simp [hy]))⟩

theorem printable_scans {fo : FloatOps F} {ec doc x} (h2 : ec.bestIndent = 2) (h : Printable fo ec doc x) : Scans fo ec doc x := by
  induction h with
  | @scalar doc x h =>
    rw [Scans]
    by_cases hb : isBlockScalar ec x = true
    · cases x with
      | str v =>
        simp only [isBlockScalar] at hb
        rw [ScalarBack, if_pos hb] at h
        exact .inr ⟨v, rfl, hb, h⟩
      | _ => cases hb
    · exact .inl ⟨by simpa using hb, scalar_text h⟩
  | @seq _ xs _ ih =>
    induction xs with
    | nil => simp [Scans]
    | cons x xs ihx =>
      rw [Scans]
      exact ⟨ih x (by simp), (ihx (fun y hy => by simp_all) (fun y hy => ih y (by simp [hy]))).seqs _⟩
  | tagged h1 h2 h3 _ ih => rw [Scans]; exact ⟨⟨rfl, h1, h2⟩, h3, ih⟩
  | @map _ es hp1 hp2 hk hnt hbk ih1 ih2 =>
    induction es with
    | nil => simp [Scans]
    | cons e es ihx =>
      obtain ⟨k, v⟩ := e
      rw [Scans]
      have hpk : PlainKey ec k := key_plain (fo := fo) (hnt (k, v) (by simp)) (hbk (k, v) (by simp))
      refine ⟨ih1 (k, v) (by simp), ih2 (k, v) (by simp), ⟨hpk, ?_⟩,
        (ihx (fun y hy => hp1 y (by simp [hy])) (fun y hy => hp2 y (by simp [hy])) (fun y hy => hk y (by simp [hy])) (fun y hy => hnt y (by simp [hy]))
          (fun y hy => hbk y (by simp [hy])) (fun y hy => ih1 y (by simp [hy])) (fun y hy => ih2 y (by simp [hy]))).maps _⟩
      intro x hx
      have := hk (k, v) (by simp) x hx
      rw [dump_txt h2 (by simp [Simple])] at this
      simp [nodeTxt, leafTxt_plain (hpk.2 x hx)] at this
      omega

/-- the token of a scalar resolves to the scalar -/
theorem scalar_back {fo : FloatOps F} {ec doc} {x : Scalar F} (h : ScalarBack fo ec doc x) :
    ∃ st v, leafTok fo ec x = .scalar st v ∧ valueFromCowAndMetadata fo v st none = .scalar x := by
  cases x with
  | str v =>
    rw [leafTok]
    rw [ScalarBack] at h
    by_cases hb : shouldEmitStringAsBlock ec v = true
    · rw [if_pos hb]
      exact ⟨_, _, rfl, Props.C03_quoted_is_string fo v _ (by simp)⟩
    rw [if_neg hb] at h ⊢
    rw [scalarTok]
    by_cases hq : needQuotes fo v = true
    · rw [if_pos hq]
      exact ⟨_, _, rfl, Props.C03_quoted_is_string fo v _ (by simp)⟩
    · rw [if_neg hq]
      refine ⟨_, _, rfl, Props.C04_unquoted_strings_partial fo v (by simpa using hq) h.1 (fun hh => h.2 ?_)⟩
      cases v with
      | nil => simp at hh
      | cons c r => simp at hh; subst hh; exact ⟨r, rfl⟩
  | int i => exact ⟨_, _, rfl, Props.C05_int_roundtrip fo i h⟩
  | float f => exact ⟨_, _, rfl, h.back⟩
  | null => exact ⟨_, _, rfl, rfl⟩
  | bool b => exact ⟨_, _, rfl, (Props.C41_bool_exact fo _ b).2 (by cases b <;> simp [scalarTxt])⟩

theorem bind_zero (A : Anchored F) (x : Yaml F) : A.bind 0 x = A := by funext i; simp [Anchored.bind]

theorem printable_key {fo : FloatOps F} {ec doc k} (h : Printable fo ec doc k) (hnt : ∀ t y, k ≠ .tagged t y) : UntaggedKey k :=
  ⟨by cases h <;> simp, hnt⟩

/-- no tag, or one that is kept -/
def Kept (t : Option Tag) : Prop := ∀ t', t = some t' → t'.isYamlCoreSchema = false

theorem scalar_tagged {fo : FloatOps F} {v st x t} (h : valueFromCowAndMetadata fo v st none = .scalar x) (ht : Kept t) :
    valueFromCowAndMetadata fo v st t = taggedAs t (.scalar x) := by
  cases t with
  | none => exact h
  | some t =>
    have h1 := ht t rfl
    have h2 : valueFromCowAndMetadata fo v st (some t) = .tagged t (valueFromCowAndMetadata fo v st none) := by
      simp [valueFromCowAndMetadata, h1]
    rw [h2, h]
    simp [taggedAs, h1]

theorem node_events {fo : FloatOps F} {ec doc x} (h : Printable fo ec doc x) (look : List Byte → Option (List Byte)) (hlook : look bs!"!" = none) (ns : List (List Byte)) :
    ((∀ t y, x ≠ .tagged t y) → ∀ t, Kept t → ∃ evs, (∀ p, p ≠ .flow → Derives look (.content p 0 t) ns (nodeToks fo ec x) evs ns) ∧
      ∀ A, Tree UntaggedKey fo A evs (taggedAs t x) A) ∧
    ∃ evs, (∀ p, p ≠ .flow → Derives look (.node p) ns (nodeToks fo ec x) evs ns) ∧ ∀ A, Tree UntaggedKey fo A evs x A := by
  have bare : ∀ {x : Yaml F}, (∀ t, Kept t → ∃ evs, (∀ p, p ≠ .flow → Derives look (.content p 0 t) ns (nodeToks fo ec x) evs ns) ∧
      ∀ A, Tree UntaggedKey fo A evs (taggedAs t x) A) → ∃ evs, (∀ p, p ≠ .flow → Derives look (.node p) ns (nodeToks fo ec x) evs ns) ∧ ∀ A, Tree UntaggedKey fo A evs x A := by
    intro x h
    obtain ⟨evs, h1, h2⟩ := h none (by simp [Kept])
    exact ⟨evs, fun p hp => .bare (h1 p hp), h2⟩
  induction h with
  | @scalar _ x h =>
    have key : ∀ t, Kept t → ∃ evs, (∀ p, p ≠ .flow → Derives look (.content p 0 t) ns (nodeToks fo ec (.scalar x)) evs ns) ∧
        ∀ A, Tree UntaggedKey fo A evs (taggedAs t (.scalar x)) A := by
      intro t ht
      obtain ⟨st, v, h1, h2⟩ := scalar_back h
      refine ⟨[.scalar ⟨v, st, 0, t⟩], fun p _ => ?_, fun A => ?_⟩
      · rw [nodeToks, h1]; exact .scalar
      · have := Tree.scalar (okKey := UntaggedKey) (fo := fo) (A := A) ⟨v, st, 0, t⟩
        rwa [bind_zero, scalar_tagged h2 ht] at this
    exact ⟨fun _ => key, bare key⟩
  | @seq _ xs _ ih =>
    have items : ∀ ys, (∀ x ∈ ys, x ∈ xs) → ∃ evs, Derives look (.items false) ns (itemToks fo ec ys) evs ns ∧ ∀ A, Trees UntaggedKey fo A evs ys A := by
      intro ys
      induction ys with
      | nil => exact fun _ => ⟨[], by rw [itemToks]; exact .noItems, fun A => .nil⟩
      | cons y ys ihy =>
        intro hy
        obtain ⟨e1, h1, h1'⟩ := (ih y (hy y (by simp))).2
        obtain ⟨e2, h2, h2'⟩ := ihy (fun z hz => hy z (by simp [hz]))
        exact ⟨e1 ++ e2, by rw [itemToks]; exact .item (.present (h1 _ (by simp))) h2, fun A => .cons (h1' A) (h2' A)⟩
    have key : ∀ t, Kept t → ∃ evs, (∀ p, p ≠ .flow → Derives look (.content p 0 t) ns (nodeToks fo ec (.seq xs)) evs ns) ∧
        ∀ A, Tree UntaggedKey fo A evs (taggedAs t (.seq xs)) A := by
      intro t ht
      obtain ⟨evs, h1, h2⟩ := items xs (fun _ h => h)
      refine ⟨.sequenceStart 0 t :: (evs ++ [.sequenceEnd]), fun p hp => ?_, fun A => ?_⟩
      · cases xs with
        | nil =>
          rw [nodeToks, seqToks]
          rw [itemToks] at h1
          have : evs = [] := by cases h1; rfl
          subst this
          exact .flowSeq (c := []) .noFlowItems
        | cons x xs =>
          have := DerivesL.blockSeq (a := 0) (t := t) hp h1
          rw [nodeToks, seqToks]
          rw [itemToks] at this
          simpa using this
      · have := Tree.seq (a := 0) (t := t) (h2 A)
        rwa [bind_zero] at this
    exact ⟨fun _ => key, bare key⟩
  | @map _ es hp1 _ _ hnt _ ih1 ih2 =>
    have entries : ∀ ys, (∀ x ∈ ys, x ∈ es) → ∃ evs, Derives look .entries ns (entriesToks fo ec ys) evs ns ∧ ∀ A, TreePairs UntaggedKey fo A evs ys A := by
      intro ys
      induction ys with
      | nil => exact fun _ => ⟨[], by rw [entriesToks]; exact .noEntries, fun A => .nil⟩
      | cons y ys ihy =>
        intro hy
        obtain ⟨k, v⟩ := y
        obtain ⟨e1, h1, h1'⟩ := (ih1 _ (hy (k, v) (by simp))).2
        obtain ⟨e2, h2, h2'⟩ := (ih2 _ (hy (k, v) (by simp))).2
        obtain ⟨e3, h3, h3'⟩ := ihy (fun z hz => hy z (by simp [hz]))
        refine ⟨e1 ++ (e2 ++ e3), ?_, fun A => .cons (h1' A) (printable_key (hp1 _ (hy (k, v) (by simp))) (hnt _ (hy (k, v) (by simp)))) (h2' A) (h3' A)⟩
        have := DerivesL.keyValue (.present (h1 .pair (by simp))) (.present (h2 .pair (by simp))) h3
        rw [entriesToks, entryToks]
        simpa using this
    have key : ∀ t, Kept t → ∃ evs, (∀ p, p ≠ .flow → Derives look (.content p 0 t) ns (nodeToks fo ec (.map es)) evs ns) ∧
        ∀ A, Tree UntaggedKey fo A evs (taggedAs t (.map es)) A := by
      intro t ht
      obtain ⟨evs, h1, h2⟩ := entries es (fun _ h => h)
      refine ⟨.mappingStart 0 t :: (evs ++ [.mappingEnd]), fun p hp => ?_, fun A => ?_⟩
      · cases es with
        | nil =>
          rw [nodeToks, mapToks]
          rw [entriesToks] at h1
          have : evs = [] := by cases h1; rfl
          subst this
          exact .flowMap (c := []) .noFlowEntries
        | cons x xs =>
          have := DerivesL.blockMap (a := 0) (t := t) hp h1
          rw [nodeToks, mapToks]
          rw [entriesToks] at this
          simpa using this
      · have := Tree.map (a := 0) (t := t) (h2 A)
        rwa [bind_zero] at this
    exact ⟨fun _ => key, bare key⟩
  | @tagged _ suffix x h1 h2 h3 _ ih =>
    refine ⟨fun hx => absurd rfl (hx _ _), ?_⟩
    obtain ⟨evs, h4, h5⟩ := ih.1 h3 (some ⟨bs!"!", suffix⟩) (by intro t' ht; cases ht; rfl)
    refine ⟨evs, fun p hp => ?_, h5⟩
    rw [nodeToks]
    have : Properties look ns [.tag bs!"!" suffix] 0 (some ⟨bs!"!", suffix⟩) ns := .tag (.other hlook (by decide) (by decide))
    exact .props this (h4 p hp)
theorem node_clean {evs} (h : Node evs) : .streamEnd ∉ evs := by
  refine Node.rec (motive_1 := fun l _ => .streamEnd ∉ l) (motive_2 := fun l _ => .streamEnd ∉ l) (motive_3 := fun l _ => .streamEnd ∉ l)
    ?_ ?_ ?_ ?_ ?_ ?_ ?_ ?_ h <;> intros <;> simp_all

theorem tree_node {fo : FloatOps F} {ok A evs x A'} (h : Tree ok fo A evs x A') : Node evs := by
  refine Tree.rec (motive_1 := fun _ l _ _ _ => Node l) (motive_2 := fun _ l _ _ _ => Nodes l) (motive_3 := fun _ l _ _ _ => Pairs l)
    ?_ ?_ ?_ ?_ ?_ ?_ ?_ ?_ ?_ h
  · intros; exact .scalar _
  · intros; exact .alias _
  · intros; exact .alias _
  · intro _ _ _ _ _ _ _ h; exact .seq _ _ h
  · intro _ _ _ _ _ _ _ h; exact .map _ _ h
  · exact .nil
  · intro _ _ _ _ _ _ _ _ _ h1 h2; exact .cons h1 h2
  · exact .nil
  · intro _ _ _ _ _ _ _ _ _ _ _ _ _ _ h1 h2 h3; exact .cons h1 h2 h3

/-- from the tokens of a stream of one document to its tree -/
theorem load_doc' {fo : FloatOps F} {toks : List Token} {tts evs x A b} (htoks : toks.map (·.tt) = .streamStart :: tts)
    (hdocs : DerivesDocs true [] tts (.documentStart b :: (evs ++ [.documentEnd, .streamEnd])))
    (ht : Tree UntaggedKey fo (fun _ => none) evs x A) (tail m) :
    Loader.loadFromParser fo (Parser.new toks tail m false) = .ok [x] ∧ Loader.loadSingleFromParser fo (Parser.new toks tail m false) = .ok x := by
  obtain ⟨s, hs, -⟩ := Props.C42_complete_partial hdocs toks htoks tail m
  have hn := tree_node ht
  have hlen := Props.C39_bounded hs
  simp at hlen
  have key : ∀ multi, ∃ out, Parser.load multi ⟨Parser.new toks tail m false, []⟩ = (.ok (), out) ∧
      ∃ s, Loader.onEvents fo Loader.init (out.out.map (·.1)) = some s ∧ s.docs = [x] := by
    intro multi
    obtain ⟨out, h1, h2⟩ := Parser.load_one multi hn hs (by omega) (node_clean hn)
    refine ⟨out, h1, ?_⟩
    rw [h2]
    obtain ⟨s1, h3, -, h4⟩ := Loader.docs_run (fo := fo) (TreeDocs.cons b ht .nil) (s := Loader.init) rfl rfl
    have h5 : Loader.onEvents fo (Loader.init : Loader.LdSt F) (.streamStart :: .documentStart b :: (evs ++ .documentEnd :: (if multi then [.streamEnd] else []))) =
        Loader.onEvents fo Loader.init ((.documentStart b :: (evs ++ [.documentEnd])) ++ (if multi then [.streamEnd] else [])) := by
      simp [Loader.onEvents, Loader.onEvent]
    rw [h5, Loader.onEvents_append, h3]
    cases multi
    · exact ⟨s1, rfl, by simpa [Loader.init] using h4⟩
    · exact ⟨s1, by simp [Loader.onEvents, Loader.onEvent], by simpa [Loader.init] using h4⟩
  constructor
  · obtain ⟨out, h1, s, h2, h3⟩ := key true
    simp [Loader.loadFromParser, h1, h2, h3]
  · obtain ⟨out, h1, s, h2, h3⟩ := key false
    simp [Loader.loadSingleFromParser, h1, h2, h3]

/-- from the tokens of a document to its tree -/
theorem load_doc {fo : FloatOps F} {toks : List Token} {tts evs x A} (htoks : toks.map (·.tt) = .streamStart :: .documentStart :: (tts ++ [.streamEnd]))
    (hd : Derives (fun _ => none) (.node? .block) [] tts evs []) (ht : Tree UntaggedKey fo (fun _ => none) evs x A) (tail m) :
    Loader.loadFromParser fo (Parser.new toks tail m false) = .ok [x] ∧ Loader.loadSingleFromParser fo (Parser.new toks tail m false) = .ok x := by
  have hdocs : DerivesDocs true [] (.documentStart :: (tts ++ [.streamEnd])) (.documentStart true :: (evs ++ [.documentEnd, .streamEnd])) := by
    have := DerivesDocsL.explicit (free := true) (ns := []) (v := []) (d := []) (closed := false) (.inl rfl) (.inl rfl) (.inl rfl)
      (by simpa [declaredBy] using hd) .stop
    simpa using this
  exact load_doc' htoks hdocs ht tail m

/-- from the tokens of a document without `---` to its tree -/
theorem load_bare {fo : FloatOps F} {toks : List Token} {tts evs x A ns} (htoks : toks.map (·.tt) = .streamStart :: (tts ++ [.streamEnd]))
    (hd : Derives (fun _ => none) (.node .block) [] tts evs ns) (ht : Tree UntaggedKey fo (fun _ => none) evs x A) (tail m) :
    Loader.loadFromParser fo (Parser.new toks tail m false) = .ok [x] ∧ Loader.loadSingleFromParser fo (Parser.new toks tail m false) = .ok x := by
  have hdocs : DerivesDocs true [] (tts ++ [.streamEnd]) (.documentStart false :: (evs ++ [.documentEnd, .streamEnd])) := by
    have := DerivesDocsL.implicit (closed := false) hd .stop
    simpa using this
  exact load_doc' htoks hdocs ht tail m

/-- loading what the emitter wrote for `x`, when the tokens of `x` describe `y` -/
theorem dump_load {fo : FloatOps F} {ec : Config} {x y : Yaml F} {evs A} (h2 : ec.bestIndent = 2) (hx : Simple ec x)
    (hs : Scans fo ec true x) (hd : Derives (fun _ => none) (.node? .block) [] (nodeToks fo ec x) evs []) (ht : Tree UntaggedKey fo (fun _ => none) evs y A) :
    ∃ N, ∀ cfg n, N ≤ cfg.fuel → N ≤ n → Loader.loadFrom fo cfg n (dump fo ec x) = .ok [y] ∧ Loader.loadSingle fo cfg n (dump fo ec x) = .ok y := by
  refine ⟨(nodeTxt fo ec 0 x).length + (nodeToks fo ec x).length + 9, fun cfg n hf hn => ?_⟩
  rw [dump_txt h2 hx]
  obtain ⟨toks, h3, h4⟩ := scan_tree (ec := ec) (cfg := cfg) (N := n) hs (by omega) (by omega)
  unfold Loader.loadFrom Loader.loadSingle Loader.parserOn
  simp only [h3]
  exact load_doc h4 hd ht _ _

end Verif.Emitter
