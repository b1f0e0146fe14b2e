import Verif.Lemmas.DeWhole
import Verif.Props.Flow
import Verif.Model.FromStr
/-!
# C66: the mistakes in a text, and `from_str`
-/
namespace Verif.Props
open Verif Verif.Parser Verif.ParserIter Verif.De Verif.Spec Verif.Scanner
variable {F : Type}

/-- the tree loader refuses the text -/
def Refused (fo : FloatOps F) (text : List Byte) (e : YErr) : Prop :=
  ∃ N, ∀ cfg n, N ≤ cfg.fuel → N ≤ n → Loader.loadFrom fo cfg n text = .err e

/-- `from_str` gives no value for the text -/
def NoValue (fo : FloatOps F) (ofInt : Int → F) (ty : Ty) (text : List Byte) : Prop :=
  ∃ N, ∀ cfg n fuel v, N ≤ cfg.fuel → N ≤ n → fromStr fo ofInt cfg n fuel ty text ≠ .ok v

/-- C66 in full: a text that is not YAML, so that the tree loader refuses it, has no value of any type. -/
def C66_full : Prop := ∀ (F : Type) (fo : FloatOps F) (ofInt : Int → F) (ty : Ty) (text : List Byte) (e : YErr), Refused fo text e → NoValue fo ofInt ty text

/-- with what comes before the end of the document -/
theorem events_whole (fo : FloatOps F) (ofInt : Int → F) (t : Ty) (ht : HandledTop true t = true) (ho : WithoutOptionsTop t = true)
    (toks : List Token) (tail : Tail) (m : Marker) (k : Bool) (fuel : Nat) (v : Val F)
    (h : fromIter fo ofInt fuel t (ParserIter.start (new toks tail m k)) = .ok v) :
    ∃ b n s, Delivers (new toks tail m k) (.streamStart :: .documentStart b :: n) s ∧ .documentEnd ∉ n ∧
      Reads fo ofInt (textReading fo) t ((n.filter notAlias).filterMap item) v := by
  have rf := new_facts toks tail m k
  unfold fromIter at h
  cases hr : deTy fo ofInt fuel t (fresh (ParserIter.start (new toks tail m k))) with
  | error e => rw [hr] at h; simp [Except.map] at h
  | ok r =>
    obtain ⟨v', s'⟩ := r
    rw [hr] at h
    simp only [Except.map, Except.ok.injEq] at h
    subst h
    by_cases hs : Stuck (ParserIter.start (new toks tail m k))
    · exfalso
      refine deTy_nothing ?_ (fun e s1 hh => ?_) hr
      · unfold WithoutOptionsTop at ho
        split at ho
        · rfl
        · exact ho
      · rcases skipDoc_stuck (s := fresh (ParserIter.start (new toks tail m k))) ((ahead_fresh rfl).2 .nil) hs with ⟨s2, h2⟩ | ⟨e2, h2⟩ <;> rw [h2] at hh <;> simp at hh
    · unfold Stuck at hs
      simp only [ne_eq, Classical.not_forall, Classical.not_not] at hs
      obtain ⟨e, it1, hn⟩ := hs
      obtain ⟨rfl, hl, b, hd, hi⟩ := next_first hn
      rw [deTy_skipDoc fuel fo ofInt t (skipDoc_first hn hl)] at hr
      obtain ⟨L, it', hf, hen, hnd⟩ := items_ahead rf _ hi (Nat.le_refl _)
      obtain ⟨evs, rest, rfl, hR, -⟩ := (top_ty (q := true) fuel fo ofInt t ht fun _ => ho).sound rfl ⟨it1, .docStart, false⟩ L it' _ _ ⟨hl, by simp⟩ rfl
        ((ahead_fresh rfl).2 hf) hen hr
      obtain ⟨it2, hf1, -⟩ := feeds_append.1 hf
      obtain ⟨n, h1, h2⟩ := feeds_delivers rf hf1 hi (shape_noEnd (reads_shape t evs v' hR) hnd)
      have h3 : .docEnd ∉ evs := shape_noEnd (reads_shape t evs v' hR) hnd
      refine ⟨b, n, it2.p, delivers_trans hd h1, fun hm => h3 ?_, ?_⟩
      · rw [← h2]
        exact List.mem_filterMap.2 ⟨.documentEnd, List.mem_filter.2 ⟨hm, rfl⟩, rfl⟩
      rw [show (n.filter notAlias).filterMap item = evs from h2]
      exact hR

/-- C66 without options, whatever the tokens and however they end: if a type gives a value, the parser has delivered all the events of a node
that denotes it, without an error up to there. Missing: what comes after the value, and options; there the claim is false, see below. -/
theorem C66_events_partial (fo : FloatOps F) (ofInt : Int → F) (t : Ty) (ht : HandledTop true t = true) (ho : WithoutOptionsTop t = true)
    (toks : List Token) (tail : Tail) (m : Marker) (k : Bool) (fuel : Nat) (v : Val F)
    (h : fromIter fo ofInt fuel t (ParserIter.start (new toks tail m k)) = .ok v) :
    ∃ b n s, Delivers (new toks tail m k) (.streamStart :: .documentStart b :: n) s ∧
      Reads fo ofInt (textReading fo) t ((n.filter notAlias).filterMap item) v := by
  obtain ⟨b, n, s, h1, -, h2⟩ := events_whole fo ofInt t ht ho toks tail m k fuel v h
  exact ⟨b, n, s, h1, h2⟩

/-- C66 without options, on texts. -/
theorem C66_text_partial (fo : FloatOps F) (ofInt : Int → F) (t : Ty) (ht : HandledTop true t = true) (ho : WithoutOptionsTop t = true)
    (cfg : Scanner.Cfg) (n fuel : Nat) (text : List Byte) (v : Val F) (h : fromStr fo ofInt cfg n fuel t text = .ok v) :
    ∃ b evs s, Delivers (Loader.parserOn cfg n text) (.streamStart :: .documentStart b :: evs) s ∧
      Reads fo ofInt (textReading fo) t ((evs.filter notAlias).filterMap item) v :=
  C66_events_partial fo ofInt t ht ho _ _ _ _ fuel v h

theorem from_ok {fo : FloatOps F} {ofInt : Int → F} {ty i k fuel v cfg n} (hs : ∀ d, Stopped (Spec.scanInput ⟨k, d⟩ i k).2)
    (h : ∀ d, fromStr fo ofInt ⟨k, d⟩ k fuel ty i = .ok v) (hf : k ≤ cfg.fuel) (hn : k ≤ n) : fromStr fo ofInt cfg n fuel ty i = .ok v := by
  rw [← h cfg.debug]
  unfold fromStr
  rw [parserOn_more (cfg := ⟨k, cfg.debug⟩) (cfg' := cfg) ⟨hf, rfl⟩ hn (hs _)]

theorem scan_of_failed {i k e} (h : ∀ d, (Spec.scanInput ⟨k, d⟩ i k).2 = .failed e) : ∀ d, Stopped (Spec.scanInput ⟨k, d⟩ i k).2 := fun d => .inr ⟨e, h d⟩

theorem scan_of_ended {i k} (h : ∀ d, (Spec.scanInput ⟨k, d⟩ i k).2 = .ended) : ∀ d, Stopped (Spec.scanInput ⟨k, d⟩ i k).2 := fun d => .inl (h d)

/-- `HashMap<i64, Option<i64>>` -/
def optionMap : Ty := .map (.int .i64) (.option (.int .i64))

/-- the result is a value that meets `p` -/
def gives (p : Val Unit → Bool) : Except DErr (Val Unit) → Bool
  | .ok v => p v
  | .error _ => false

theorem of_gives {p r} (h : gives p r = true) : ∃ v, r = .ok v ∧ p v = true := by
  cases r with
  | ok v => exact ⟨v, rfl, h⟩
  | error e => simp [gives] at h

/-- the value is `{1: Some(1)}` -/
def isOneOne : Val Unit → Bool
  | .map [(.int 1, .some (.int 1))] => true
  | _ => false

theorem isOneOne_iff {v} (h : isOneOne v = true) : v = .map [(.int 1, .some (.int 1))] := by
  unfold isOneOne at h; split at h
  · rfl
  · simp at h

/-- the value is `[1]` -/
def isOneList : Val Unit → Bool
  | .vec [.int 1] => true
  | _ => false

theorem isOneList_iff {v} (h : isOneList v = true) : v = .vec [.int 1] := by
  unfold isOneList at h; split at h
  · rfl
  · simp at h

theorem oneOne (d : Bool) : fromStr deFloats (fun _ => ()) ⟨14, d⟩ 14 20 optionMap bs!"{1: *u}" = .ok (.map [(.int 1, .some (.int 1))]) := by
  have : gives isOneOne (fromStr deFloats (fun _ => ()) ⟨14, d⟩ 14 20 optionMap bs!"{1: *u}") = true := by
    revert d; decide +kernel
  obtain ⟨v, h1, h2⟩ := of_gives this
  rw [h1, isOneOne_iff h2]

theorem oneList (d : Bool) : fromStr deFloats (fun _ => ()) ⟨14, d⟩ 14 20 (.vec (.int .i64)) bs!"[1] x" = .ok (.vec [.int 1]) := by
  have : gives isOneList (fromStr deFloats (fun _ => ()) ⟨14, d⟩ 14 20 (.vec (.int .i64)) bs!"[1] x") = true := by
    revert d; decide +kernel
  obtain ⟨v, h1, h2⟩ := of_gives this
  rw [h1, isOneList_iff h2]

/-- C66 is false with options: `{1: *u}` refers to an anchor that does not exist, and reads as `{1: Some(1)}`: the key is read again. -/
theorem C66_unknown_alias_false : (∃ e, Refused deFloats bs!"{1: *u}" e) ∧ (∀ cfg n, 14 ≤ cfg.fuel → 14 ≤ n →
      fromStr deFloats (fun _ => ()) cfg n 20 optionMap bs!"{1: *u}" = .ok (.map [(.int 1, .some (.int 1))])) ∧ ¬ C66_full := by
  have hr : ∃ e, Refused deFloats bs!"{1: *u}" e :=
    ⟨_, 14, fun cfg n h1 h2 => load_refused (e := .scanner ⟨4, 5, 1⟩ "while parsing node, found unknown anchor") (k := 14) (by decide +kernel) (by decide +kernel) h1 h2⟩
  have hv : ∀ cfg n, 14 ≤ cfg.fuel → 14 ≤ n →
      fromStr deFloats (fun _ => ()) cfg n 20 optionMap bs!"{1: *u}" = .ok (.map [(.int 1, .some (.int 1))]) :=
    fun cfg n h1 h2 => from_ok (k := 14) (scan_of_ended (by decide +kernel)) oneOne h1 h2
  refine ⟨hr, hv, fun h => ?_⟩
  obtain ⟨e, hr⟩ := hr
  obtain ⟨N, hN⟩ := h _ deFloats (fun _ => ()) optionMap _ e hr
  exact hN ⟨N + 14, false⟩ (N + 14) 20 _ (by simp) (by simp) (hv _ _ (by simp) (by simp))

/-- C66 is false also without options: in `[1] x` the text after the value is never looked at. -/
theorem C66_after_value_false : (∃ e, Refused deFloats bs!"[1] x" e) ∧ (∀ cfg n, 14 ≤ cfg.fuel → 14 ≤ n →
      fromStr deFloats (fun _ => ()) cfg n 20 (.vec (.int .i64)) bs!"[1] x" = .ok (.vec [.int 1])) := by
  refine ⟨⟨_, 14, fun cfg n h1 h2 => load_refused (e := .scanner ⟨4, 5, 1⟩ "did not find expected <document start>") (k := 14) (by decide +kernel) (by decide +kernel) h1 h2⟩,
    fun cfg n h1 h2 => from_ok (k := 14) (scan_of_ended (by decide +kernel)) oneList h1 h2⟩

/-- the list of `[1] x` is a node the parser has delivered -/
example : ∃ b evs s, Delivers (Loader.parserOn ⟨14, false⟩ 14 bs!"[1] x") (.streamStart :: .documentStart b :: evs) s ∧
    Reads deFloats (fun _ => ()) (textReading deFloats) (.vec (.int .i64)) ((evs.filter notAlias).filterMap item) (.vec [.int 1]) :=
  C66_text_partial deFloats (fun _ => ()) (.vec (.int .i64)) (by decide) (by decide) ⟨14, false⟩ 14 20 bs!"[1] x" _ (oneList false)

/-- a struct, a tuple and an enum without options -/
example : HandledTop true (.record true [(bs!"a", .vec .str), (bs!"b", .tuple [.int .u8, .bool]), (bs!"c", .map .str .float)]) = true ∧
    WithoutOptionsTop (.record true [(bs!"a", .vec .str), (bs!"b", .tuple [.int .u8, .bool]), (bs!"c", .map .str .float)]) = true ∧
    HandledTop true (.choice [(bs!"a", .unit), (bs!"b", .newtype (.vec .bool))]) = true ∧
    WithoutOptionsTop (.choice [(bs!"a", .unit), (bs!"b", .newtype (.vec .bool))]) = true := by decide

end Verif.Props
