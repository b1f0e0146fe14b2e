import Verif.Lemmas.ParserCount
import Verif.Lemmas.ScanBegin
import Verif.Props.De
import Verif.Props.Truncated
import Verif.Props.Whole
/-!
# C71: `from_str` gives no value for a text whose brackets or quotation marks are left open
-/
namespace Verif.Props
open Verif Verif.Parser Verif.Grammar Verif.ParserIter Verif.De Verif.Spec Verif.Scanner
variable {F : Type}

/-- C71, the full statement: a JSON array, object or string that is cut off has no value of any type. -/
def C71_full : Prop := ∀ (F : Type) (fo : FloatOps F) (ofInt : Int → F) (ty : Ty) (w : List Byte) (x : Yaml F) (p : List Byte),
  Json.Value true fo w x → Closes x → CutOff p w → ∀ cfg n fuel v, fromStr fo ofInt cfg n fuel ty p ≠ .ok v

/-! ## Events -/

/-- collections that are open -/
def weight : List Frame → Int
  | [] => 0
  | .seq :: fs | .key :: fs | .val :: fs => 1 + weight fs
  | _ :: fs => weight fs

theorem weight_append (a b) : weight (a ++ b) = weight a + weight b := by
  induction a with
  | nil => simp [weight]
  | cons f a ih => cases f <;> simp [weight, ih] <;> omega

theorem weight_nonneg (a) : 0 ≤ weight a := by
  induction a with
  | nil => simp [weight]
  | cons f a ih => cases f <;> simp [weight] <;> omega

/-- the frames of a document -/
def InDocument (fs : List Frame) : Prop := ∀ f ∈ fs, f ≠ .docStart ∧ f ≠ .streamStart

theorem after_weight {f a} (h : after f = some a) : weight a = weight [f] ∧ .node ∉ a ∧ InDocument a := by
  cases f <;> simp [after] at h <;> subst h <;> simp [weight, InDocument]

theorem step_weight {fs e fs'} (h : step fs e = some fs') (hi : InDocument fs) (hd : e ≠ .documentEnd) :
    weight fs' = weight fs + depth (([e].filter notAlias).filterMap item) ∧ InDocument fs' ∧ e ≠ .streamEnd ∧ (.node ∉ fs.drop 1 → .node ∉ fs') := by
  have key : ∀ {f fs a}, after f = some a → InDocument (f :: fs) → weight (a ++ fs) = weight (f :: fs) ∧ InDocument (a ++ fs) ∧ (.node ∉ fs → .node ∉ a ++ fs) := by
    intro f fs a h hi
    obtain ⟨h1, h2, h3⟩ := after_weight h
    refine ⟨by rw [weight_append, h1, ← weight_append]; rfl, fun x hx => ?_, fun h => by simp [h, h2]⟩
    rcases List.mem_append.1 hx with hx | hx
    · exact h3 x hx
    · exact hi x (by simp [hx])
  unfold step at h
  split at h
  · simp only [Option.map_eq_some_iff] at h
    obtain ⟨a, ha, rfl⟩ := h
    obtain ⟨k1, k2, k3⟩ := key ha hi
    exact ⟨by rw [k1]; simp [notAlias, isAlias, item, depth], k2, by simp, k3⟩
  · simp only [Option.map_eq_some_iff] at h
    obtain ⟨a, ha, rfl⟩ := h
    obtain ⟨k1, k2, k3⟩ := key ha hi
    exact ⟨by rw [k1]; simp [notAlias, isAlias, depth], k2, by simp, k3⟩
  · simp only [Option.map_eq_some_iff] at h
    obtain ⟨a, ha, rfl⟩ := h
    obtain ⟨k1, k2, k3⟩ := key ha hi
    refine ⟨by rw [weight, k1]; simp [notAlias, isAlias, item, depth]; omega, ?_, by simp, fun h => by simpa using k3 h⟩
    intro x hx
    rcases List.mem_cons.1 hx with rfl | hx
    · simp
    · exact k2 x hx
  · simp only [Option.map_eq_some_iff] at h
    obtain ⟨a, ha, rfl⟩ := h
    obtain ⟨k1, k2, k3⟩ := key ha hi
    refine ⟨by rw [weight, k1]; simp [notAlias, isAlias, item, depth]; omega, ?_, by simp, fun h => by simpa using k3 h⟩
    intro x hx
    rcases List.mem_cons.1 hx with rfl | hx
    · simp
    · exact k2 x hx
  · cases h
    exact ⟨by simp [notAlias, isAlias, item, depth, weight]; omega, fun x hx => hi x (by simp [hx]), by simp, fun h => h⟩
  · cases h
    exact ⟨by simp [notAlias, isAlias, item, depth, weight]; omega, fun x hx => hi x (by simp [hx]), by simp, fun h => h⟩
  · exact absurd rfl (hi .streamStart (by simp)).2
  · exact absurd rfl (hi .docStart (by simp)).1
  · exact absurd rfl (hi .docStart (by simp)).1
  · exact absurd rfl hd
  · cases h

theorem steps_weight {evs fs fs'} (h : steps fs evs = some fs') (hi : InDocument fs) (hd : .documentEnd ∉ evs) (hn : .node ∉ fs.drop 1) :
    weight fs' = weight fs + depth ((evs.filter notAlias).filterMap item) ∧ .streamEnd ∉ evs ∧ (evs ≠ [] → .node ∉ fs') ∧ InDocument fs' := by
  induction evs generalizing fs with
  | nil => simp [steps] at h; subst h; simpa [depth] using hi
  | cons e evs ih =>
    rw [steps] at h
    obtain ⟨fs1, h1, h2⟩ := Option.bind_eq_some_iff.1 h
    simp only [List.mem_cons, not_or] at hd
    obtain ⟨k1, k2, k3, k4⟩ := step_weight h1 hi (Ne.symm hd.1)
    obtain ⟨i1, i2, i3, i4⟩ := ih h2 k2 hd.2 (fun hm => k4 hn (List.mem_of_mem_drop hm))
    refine ⟨?_, by simp [i2, Ne.symm k3], fun _ => ?_, i4⟩
    · rw [i1, k1, show e :: evs = [e] ++ evs from rfl, List.filter_append, List.filterMap_append, depth_append]; omega
    · cases evs with
      | nil => simp [steps] at h2; subst h2; exact k4 hn
      | cons e' evs => exact i3 (by simp)

/-- a whole node was delivered: the parser waits for the end of the document -/
theorem whole_node {s0 : PSt} (h0 : RunFacts s0 [] s0) {b evs s} (h : Delivers s0 (.streamStart :: .documentStart b :: evs) s) (hd : .documentEnd ∉ evs)
    (hz : depth ((evs.filter notAlias).filterMap item) = 0) (hne : (evs.filter notAlias).filterMap item ≠ []) : .streamEnd ∉ evs ∧ frames s = [.docEnd] := by
  have rf := run_facts h0 h
  have hg : steps [.node, .docEnd] evs = some (frames s) := by simpa [steps, step] using rf.gram
  obtain ⟨h1, h2, h3, h6⟩ := steps_weight hg (by simp [InDocument]) hd (by simp)
  refine ⟨h2, ?_⟩
  have hne' : evs ≠ [] := by rintro rfl; exact hne rfl
  have hse : s.streamEndEmitted = false := by
    rw [← Bool.not_eq_true]
    intro hx
    obtain ⟨-, l, hl⟩ := rf.dead hx
    have : Event.streamEnd ∈ Event.streamStart :: .documentStart b :: evs := by rw [hl]; simp
    simp [h2] at this
  rw [hz] at h1
  rcases rf.live hse with h4 | h4 | ⟨l, h4, h5⟩
  · exact absurd rfl (h6 .streamStart (by rw [h4]; simp)).2
  · exact absurd rfl (h6 .docStart (by rw [h4]; simp)).1
  · rw [h4] at h1 h3 ⊢
    cases l with
    | nil => rfl
    | cons f l =>
      exfalso
      have hf := h5 f (by simp)
      rw [weight_append] at h1
      have hw := weight_nonneg l
      cases f <;> simp [after] at hf <;> simp [weight] at h1
      · exact h3 hne' (by simp)
      all_goals omega

/-- nothing is delivered without tokens -/
theorem no_tokens {s0 : PSt} (h0 : RunFacts s0 [] s0) (hst : s0.state = .streamStart) (hp : pend s0 = []) {evs s} (h : Delivers s0 evs s) : evs = [] := by
  induction h with
  | nil => rfl
  | @snoc evs s ev sp s' hdl hn ih =>
    exfalso
    have : s = s0 := by
      subst ih
      generalize hx : ([] : List Event) = l at hdl
      cases hdl with
      | nil => rfl
      | snoc => simp at hx
    subst this
    obtain ⟨hse, s1, hi1, -⟩ := next_facts h0.invc h0.live hn
    have hdis : dispatch s.state s = (.ok (ev, sp), s1) := by
      simpa [nextEventImpl, h0.invc.cur, parse, hst, stateMachine] using hi1
    rw [hst] at hdis
    have hw : wp streamStart (fun _ _ => False) (fun _ => True) s := by
      unfold streamStart
      wp_run
      all_goals first | trivial | skip
      all_goals simp_all
    exact wp_ok hw hdis

theorem opener_of {t} (h : Exceeds [.streamStart, t]) : t = .flowSequenceStart ∨ t = .flowMappingStart := by
  unfold Exceeds sqOf brOf at h
  simp only [List.count_cons, List.count_nil] at h
  by_cases h1 : t = .flowSequenceStart
  · exact .inl h1
  · by_cases h2 : t = .flowMappingStart
    · exact .inr h2
    · simp [h1, h2] at h
      omega

theorem no_whole {fo : FloatOps F} {ofInt : Int → F} {t : Ty} (ht : HandledTop true t = true) (ho : WithoutOptionsTop t = true) {cfg : Scanner.Cfg} {n fuel : Nat} {text : List Byte}
    (hss' : ∀ a r, (scanInput cfg text n).1 = a :: r → a.tt = .streamStart) (hq : ∀ d e, (scanInput cfg text n).1.map (·.tt) = d ++ e → NoneYet d ∨ Exceeds d) (v : Val F) : fromStr fo ofInt cfg n fuel t text ≠ .ok v := by
  intro h
  obtain ⟨b, evs, s, h1, h2, h3⟩ := events_whole fo ofInt t ht ho _ _ _ _ fuel v h
  have h0 := new_facts (scanInput cfg text n).1 (Loader.tailOf (scanInput cfg text n).2) (afterNext cfg n (Scanner.new text)).mark false
  have hp : pend (new (scanInput cfg text n).1 (Loader.tailOf (scanInput cfg text n).2) (afterNext cfg n (Scanner.new text)).mark false) = (scanInput cfg text n).1 := rfl
  have hst : (new (scanInput cfg text n).1 (Loader.tailOf (scanInput cfg text n).2) (afterNext cfg n (Scanner.new text)).mark false).state = .streamStart := rfl
  have hss : (new (scanInput cfg text n).1 (Loader.tailOf (scanInput cfg text n).2) (afterNext cfg n (Scanner.new text)).mark false).states = [] := rfl
  generalize new (scanInput cfg text n).1 (Loader.tailOf (scanInput cfg text n).2) (afterNext cfg n (Scanner.new text)).mark false = s0 at h0 hp hst hss h1
  generalize (scanInput cfg text n).1 = toks at hss' hq hp
  obtain ⟨h4, h5⟩ := whole_node h0 h1 h2 (reads_depth t _ _ h3) (reads_shape t _ _ h3).ne_nil
  have hne : toks ≠ [] := by
    rintro rfl
    have := no_tokens h0 hst hp h1
    cases this
  obtain ⟨a, rest, rfl⟩ := List.exists_cons_of_ne_nil hne
  have hr : ∀ t r, rest = t :: r → Opens t.tt := by
    rintro t r rfl
    rcases hq [a.tt, t.tt] (r.map (·.tt)) rfl with h | h
    · rcases h t.tt (by simp) with h | h | h <;> simp [Parser.Opens, h]
    · rw [hss' _ _ rfl] at h
      rcases opener_of h with h | h <;> simp [Parser.Opens, h]
  obtain ⟨u, k1, k2, k3, x, k4, k5⟩ := root_count h0 hst hss hp hr h1 (by simp [h2]) (by simp [h4]) h5
  rcases hq (kinds u) (kinds (pend s)) (by rw [← hp, k1]; simp [kinds]) with h | h
  · rcases h x k4 with rfl | rfl | rfl <;> rcases k5 with k | k <;> cases k
  · unfold Exceeds at h; omega

/-! ## Texts -/

theorem begins_noValue {fo : FloatOps F} {ofInt : Int → F} {t : Ty} (ht : HandledTop true t = true) (ho : WithoutOptionsTop t = true) {text : List Byte} (hb : Begins text)
    (cfg : Scanner.Cfg) (n fuel : Nat) (v : Val F) : fromStr fo ofInt cfg n fuel t text ≠ .ok v := by
  refine no_whole ht ho (fun a r h => ?_) (begins_ever hb n) v
  rcases scan_first cfg text n with h' | ⟨M, h'⟩
  · rw [h'] at h; cases h
  · rw [h'] at h; cases h; rfl

/-- C71 for flow collections, for all types without options: from a text that is, after white space, a flow collection with more brackets of one kind
opened than closed, `from_str` gives no value, of whatever type and whatever was in it before the end. What is missing: options, and in the text
comments, tags, carriage returns and `:` at the beginning of a word. -/
theorem C71_unclosed_partial (fo : FloatOps F) (ofInt : Int → F) (t : Ty) (ht : HandledTop true t = true) (ho : WithoutOptionsTop t = true) {a : List Byte} {c : Byte} {r : List Byte}
    (ha : WhiteSpace a) (hc : c ∈ bs!"[{") (hu : Faults.unclosed (c :: r) .start 0 0 = true) (cfg : Scanner.Cfg) (n fuel : Nat) (v : Val F) :
    fromStr fo ofInt cfg n fuel t (a ++ c :: r) ≠ .ok v := by
  simp at hc
  exact begins_noValue ht ho ⟨a, c, r, rfl, white_of ha, .inl ⟨hc, hu⟩⟩ cfg n fuel v

/-- C71 for JSON: an array, an object or a string that was cut off, anywhere, has no value of any type without options. What is missing: options, and
carriage returns. -/
theorem C71_cut_partial (fo : FloatOps F) (ofInt : Int → F) (t : Ty) (ht : HandledTop true t = true) (ho : WithoutOptionsTop t = true) {a w : List Byte} {x : Yaml F} {p : List Byte}
    (ha : WhiteSpace a) (h : Json.Value true fo w x) (hx : Closes x) (hr : b%'\r' ∉ w) (hp : CutOff p w) (cfg : Scanner.Cfg) (n fuel : Nat) (v : Val F) :
    fromStr fo ofInt cfg n fuel t (a ++ p) ≠ .ok v := by
  exact begins_noValue ht ho (cut_begins ha h hx hr hp) cfg n fuel v

/-! ## Texts it applies to -/

/-- the value has two elements, 1 and 2 -/
def isOneTwo : Val Unit → Bool
  | .vec [.int 1, .int 2] => true
  | _ => false

/-- The whole text has a value; none of the texts to which it can be cut off has one, after any white space. -/
example : (gives isOneTwo (fromStr deFloats (fun _ => ()) ⟨20, false⟩ 20 20 (.vec (.int .i64)) bs!"\t[1, 2]") = true) ∧
    ∀ p ∈ [bs!"\t[", bs!"\t[1", bs!"\t[1,", bs!"\t[1, ", bs!"\t[1, 2"], ∀ cfg n fuel v, fromStr deFloats (fun _ => ()) cfg n fuel (.vec (.int .i64)) p ≠ .ok v := by
  refine ⟨by decide +kernel, fun p hp cfg n fuel v => ?_⟩
  have go : ∀ {c r}, c ∈ bs!"[{" → Faults.unclosed (c :: r) .start 0 0 = true → fromStr deFloats (fun _ => ()) cfg n fuel (.vec (.int .i64)) (bs!"\t" ++ c :: r) ≠ .ok v := fun hc hu =>
    C71_unclosed_partial deFloats (fun _ => ()) (.vec (.int .i64)) (by decide) (by decide) (by unfold WhiteSpace; decide) hc hu cfg n fuel v
  simp only [List.mem_cons, List.not_mem_nil, or_false] at hp
  rcases hp with rfl | rfl | rfl | rfl | rfl
  · exact go (by decide) (by decide)
  · exact go (by decide) (by decide)
  · exact go (by decide) (by decide)
  · exact go (by decide) (by decide)
  · exact go (by decide) (by decide)

/-- a struct with a list and a tuple; any of the 51 texts to which `sample` can be cut off -/
example (fo : FloatOps F) (ofInt : Int → F) {f} (hf : fo.parse bs!"-1.5e+3" = some f) (k : Nat) (hk : 0 < k) (hl : k < sample.length) (cfg : Scanner.Cfg) (n fuel : Nat) (v : Val F) :
    fromStr fo ofInt cfg n fuel (.record true [(bs!"a", .vec .str), (bs!"b", .tuple [.int .u8, .bool])]) (bs!" \n" ++ sample.take k) ≠ .ok v := by
  obtain ⟨x, hv, hx⟩ := sample_json fo hf
  refine C71_cut_partial fo ofInt _ (by decide) (by decide) (by unfold WhiteSpace; decide) hv hx (by decide) ⟨List.take_prefix _ _, fun h => ?_, fun h => ?_⟩ cfg n fuel v
  · have := congrArg List.length h
    rw [List.length_take, show sample.length = 52 by decide, List.length_nil] at this
    omega
  · have := congrArg List.length h
    simp at this
    omega

/-- a string that was cut off, also within an escape -/
example (fo : FloatOps F) (ofInt : Int → F) (cfg : Scanner.Cfg) (n fuel : Nat) (v : Val F) : fromStr fo ofInt cfg n fuel .str bs!"\"ab\\" ≠ .ok v :=
  C71_cut_partial (a := []) fo ofInt .str (by decide) (by decide) (by simp [WhiteSpace]) (w := bs!"\"ab\\n\"") (x := .scalar (.str (bs!"ab\n")))
    (.string (.raw (b := b%'a') (by decide) (by decide) (by decide) (.raw (b := b%'b') (by decide) (by decide) (by decide) (.short (by decide) .nil)))) (.inr (.inr ⟨_, rfl⟩)) (by decide)
    ⟨by decide, by decide, by decide⟩ cfg n fuel v

end Verif.Props
