import Verif.Lemmas.ScanHang
/-!
# Properties of the scanner: C08, C09, C10, C11, C12, C36

`Spec.scanInput cfg input k` makes a scanner for `input` and pulls at most `k` tokens from it. `cfg.fuel` is the number of
iterations granted to each loop of the code; all statements hold as soon as it is at least the length of the input plus 4.
-/
namespace Verif.Props
open Verif Verif.Scanner Verif.Spec

private theorem facts (cfg : Cfg) (input : List Byte) (k : Nat) (hf : input.length + 4 ≤ cfg.fuel) :
    Whole (ctxOf cfg input) (scanInput cfg input k).1 ∧
      StopOk (ctxOf cfg input) k (scanInput cfg input k).1 (scanInput cfg input k).1 (scanInput cfg input k).2 := by
  have := scan_live k (live_new cfg input hf)
  rw [List.nil_append] at this
  exact this

/-! ## C08 -/

/-- C08, the full statement: whatever the input, pulling tokens does not panic. -/
def C08_full : Prop := ∀ (cfg : Cfg) (input : List Byte) (k : Nat), input.length + 4 ≤ cfg.fuel → (scanInput cfg input k).2 ≠ .panicked

/-- C08 does not hold: the one character text `@` makes the scanner panic instead of reporting the reserved character. -/
theorem C08_scan_never_panics_false : ¬ C08_full := by
  intro h
  exact h ⟨10, false⟩ [64] 2 (by decide) (by decide +kernel)

/-- In a build with overflow checks `%YAML 256.0` panics as well. -/
theorem C08_version_overflow_false : ∃ input, ¬ LateIndicator input ∧ (scanInput ⟨50, true⟩ input 2).2 = .panicked := by
  refine ⟨bs!"%YAML 256.0\n---\n", ?_, by decide +kernel⟩
  intro ⟨pre, c, post, h1, h2, h3⟩
  have hl := congrArg List.length h1
  simp at hl
  have : c ∈ (bs!"%YAML 256.0\n---\n").drop 13 := by
    rw [h1, List.drop_append_of_le_length (by omega)]
    simp
  revert this
  simp
  omega

/-- C08 for all texts that have no `%`, `@` or backtick among the last three bytes and, in a build with overflow checks, no
three digits in a row after a percent sign: no sequence of pulls panics. Missing: the texts excluded, some of which do panic. -/
theorem C08_scan_never_panics_partial (cfg : Cfg) (input : List Byte) (k : Nat) (hf : input.length + 4 ≤ cfg.fuel)
    (h1 : ¬ LateIndicator input) (h2 : cfg.debug = true → ¬ LongVersion input) :
    (scanInput cfg input k).2 ≠ .panicked := by
  intro h
  have hs := (facts cfg input k hf).2
  rw [h] at hs
  rcases hs with hs | hs
  · exact h1 hs
  · exact h2 hs.1 hs.2

/-- a text the theorem applies to -/
example : ¬ LateIndicator bs!"%YAML 1.2\n---\n- a: [b, \"c\"]\n" ∧ ¬ LongVersion bs!"%YAML 1.2\n---\n- a: [b, \"c\"]\n" ∧
    (scanInput ⟨60, true⟩ bs!"%YAML 1.2\n---\n- a: [b, \"c\"]\n" 60).2 = .ended := by
  refine ⟨?_, ?_, by decide +kernel⟩
  · intro ⟨pre, c, post, h1, h2, h3⟩
    have hl := congrArg List.length h1
    simp at hl
    have : c ∈ (bs!"%YAML 1.2\n---\n- a: [b, \"c\"]\n").drop 25 := by
      rw [h1, List.drop_append_of_le_length (by omega)]
      simp
    revert this
    simp
    omega
  · intro ⟨pre, ds, post, h1, h2, h3, h4⟩
    obtain ⟨a, b, c, r, rfl⟩ : ∃ a b c r, ds = a :: b :: c :: r := by
      rcases ds with _ | ⟨a, _ | ⟨b, _ | ⟨c, r⟩⟩⟩
      · simp at h3
      · simp at h3
      · simp at h3
      · exact ⟨a, b, c, r, rfl⟩
    have ha := h4 a (by simp)
    have hb := h4 b (by simp)
    have : (bs!"%YAML 1.2\n---\n- a: [b, \"c\"]\n")[pre.length]? = some a ∧ (bs!"%YAML 1.2\n---\n- a: [b, \"c\"]\n")[pre.length + 1]? = some b := by
      rw [h1]; simp
    have hlt : pre.length < 40 := by
      have hl := congrArg List.length h1
      simp at hl; omega
    generalize pre.length = i at this hlt
    have hall : ∀ i < 40, ∀ a b, (bs!"%YAML 1.2\n---\n- a: [b, \"c\"]\n")[i]? = some a →
        (bs!"%YAML 1.2\n---\n- a: [b, \"c\"]\n")[i + 1]? = some b → ¬ (48 ≤ a ∧ a ≤ 57 ∧ 48 ≤ b ∧ b ≤ 57) := by
      have : ∀ i < 40, (match (bs!"%YAML 1.2\n---\n- a: [b, \"c\"]\n")[i]?, (bs!"%YAML 1.2\n---\n- a: [b, \"c\"]\n")[i + 1]? with
        | some a, some b => decide (48 ≤ a ∧ a ≤ 57 ∧ 48 ≤ b ∧ b ≤ 57) | _, _ => false) = false := by decide +kernel
      intro i hi a b e1 e2
      have := this i hi
      rw [e1, e2] at this
      simpa using this
    exact hall i hlt a b this.1 this.2 ⟨ha.1, ha.2, hb.1, hb.2⟩

/-! ## C09 -/

/-- C09, the full statement: for every input, with enough iterations for the loops and enough pulls the stream end or an error is
reached. -/
def C09_full : Prop := ∀ debug input, ∃ fuel k, (scanInput ⟨fuel, debug⟩ input k).2 = .ended ∨ ∃ e, (scanInput ⟨fuel, debug⟩ input k).2 = .failed e

/-- A text that starts with a carriage return that is not followed by a line feed makes the scanner loop for ever, whatever comes
after it: the second pull does not return. -/
theorem C09_lone_cr_false (cfg : Cfg) (rest : List Byte) (hr : rest.head? ≠ some 10) (hf : 2 ≤ cfg.fuel) :
    (scanInput cfg (13 :: rest) 2).2 = .hung := by
  rw [scan_two_hang (hangs_cr rfl rfl hr rfl) hf]

/-- So does a text that starts with a quotation mark and a NUL. -/
theorem C09_quoted_nul_false (cfg : Cfg) (rest : List Byte) (hf : 2 ≤ cfg.fuel) :
    (scanInput cfg (34 :: 0 :: rest) 2).2 = .hung := by
  obtain ⟨n, d⟩ := cfg
  obtain ⟨m, rfl⟩ : ∃ m, n = m + 2 := ⟨n - 2, by simp at hf; omega⟩
  rw [scan_two_hang hangs_nul (by simp)]

/-- So does a literal block scalar that ends with its first line, when that line is indented by 125 spaces or more. -/
theorem C09_deep_indent_false (cfg : Cfg) (n : Nat) (hn : 125 ≤ n) (hf : n + 2 ≤ cfg.fuel) :
    (scanInput cfg (124 :: 10 :: (List.replicate n 32 ++ [120, 10])) 2).2 = .hung := by
  obtain ⟨m, d⟩ := cfg
  rw [scan_two_hang (hangs_deep hf hn) (by simp at hf ⊢; omega)]

/-- C09 does not hold: on `\r` alone no number of iterations is enough. -/
theorem C09_scan_finishes_false : ¬ C09_full := by
  intro h
  obtain ⟨fuel, k, h⟩ := h false [13]
  have key : (scanInput ⟨fuel, false⟩ [13] k).2 = .more ∨ (scanInput ⟨fuel, false⟩ [13] k).2 = .hung := by
    have h1 : fuel < 2 ∨ 2 ≤ fuel := by omega
    rcases h1 with h1 | h1
    · have hh : ∀ f, f < 2 → (next ⟨f, false⟩ (Scanner.new [13])).1 = .hang := by decide +kernel
      cases k with
      | zero => exact .inl rfl
      | succ k =>
        right
        have := hh fuel h1
        unfold scanInput
        simp only [scan]
        revert this
        rcases next ⟨fuel, false⟩ (Scanner.new [13]) with ⟨_ | _ | _ | _, s1⟩ <;> simp
    · have hh := hangs_next (s := started [13]) rfl rfl rfl (hangs_cr (cfg := ⟨fuel, false⟩) (r := []) rfl rfl (by simp) rfl)
      match k with
      | 0 => exact .inl rfl
      | 1 => left; unfold scanInput; simp only [scan, next_new (cfg := ⟨fuel, false⟩) h1]
      | k + 2 =>
        right
        unfold scanInput
        simp only [scan, next_new (cfg := ⟨fuel, false⟩) h1]
        revert hh
        rcases next ⟨fuel, false⟩ (started [13]) with ⟨_ | _ | _ | _, s1⟩ <;> simp
  rcases key with key | key <;> rw [key] at h <;> simp at h

/-- C09 for all texts without a carriage return alone, without a NUL after a quotation mark, and without lines of 110 bytes
together with a block scalar indicator, provided the scanner does not panic on them (C08): the scanner stops after at most six
tokens for each byte and three more, and none of its loops runs more than the length of the text and four iterations. Missing: the
texts excluded, on some of which the scanner does loop for ever. -/
theorem C09_scan_finishes_partial (cfg : Cfg) (input : List Byte) (k : Nat) (hf : input.length + 4 ≤ cfg.fuel)
    (hk : 6 * input.length + 3 ≤ k) (h1 : ¬ LoneCR input) (h2 : ¬ QuotedNul input)
    (h3 : ¬ (LongLine input ∧ HasBlockIndicator input)) (h4 : ¬ LateIndicator input) (h5 : cfg.debug = true → ¬ LongVersion input) :
    (scanInput cfg input k).2 = .ended ∨ ∃ e, (scanInput cfg input k).2 = .failed e := by
  have hs := facts cfg input k hf
  revert hs
  cases (scanInput cfg input k).2 with
  | more => 
    intro ⟨hw, hs⟩
    have := hw.size
    simp only [StopOk] at hs
    simp only [ctxOf] at this
    omega
  | ended => intro _; exact .inl rfl
  | failed e => intro _; exact .inr ⟨e, rfl⟩
  | panicked =>
    intro ⟨_, hs⟩
    rcases hs with hs | hs
    · exact absurd hs h4
    · exact absurd hs.2 (h5 hs.1)
  | hung =>
    intro ⟨_, hs⟩
    rcases hs with hs | hs | hs
    · exact absurd hs h1
    · exact absurd hs h2
    · exact absurd hs h3

/-- a text the theorem applies to, with a block scalar and CRLF line ends -/
example : ¬ LoneCR bs!"a: |\r\n b\r\n" ∧ ¬ QuotedNul bs!"a: |\r\n b\r\n" ∧ ¬ LongLine bs!"a: |\r\n b\r\n" ∧
    ¬ LateIndicator bs!"a: |\r\n b\r\n" ∧ ¬ LongVersion bs!"a: |\r\n b\r\n" ∧
    (scanInput ⟨14, true⟩ bs!"a: |\r\n b\r\n" 64).2 = .ended := by
  refine ⟨?_, ?_, ?_, ?_, ?_, by decide +kernel⟩
  · intro ⟨pre, post, h1, h2⟩
    have hlt : pre.length < 10 := by
      have hl := congrArg List.length h1
      simp at hl; omega
    have e1 : (bs!"a: |\r\n b\r\n")[pre.length]? = some 13 := by rw [h1]; simp
    have e2 : (bs!"a: |\r\n b\r\n")[pre.length + 1]? = post.head? := by rw [h1]; cases post <;> simp
    generalize pre.length = i at e1 e2 hlt
    have : ∀ i < 10, (bs!"a: |\r\n b\r\n")[i]? = some 13 → (bs!"a: |\r\n b\r\n")[i + 1]? = some 10 := by decide
    exact h2 (e2 ▸ this i hlt e1)
  · intro ⟨pre, post, h1, _⟩
    have : 0 ∈ bs!"a: |\r\n b\r\n" := by rw [h1]; simp
    revert this; decide
  · intro ⟨pre, w, post, h1, _, h2⟩
    have hl := congrArg List.length h1
    simp at hl; omega
  · intro ⟨pre, c, post, h1, h2, _⟩
    have : c ∈ bs!"a: |\r\n b\r\n" := by rw [h1]; simp
    revert this
    rcases h2 with rfl | rfl | rfl <;> decide
  · intro ⟨pre, ds, post, h1, h2, _⟩
    have : 37 ∈ bs!"a: |\r\n b\r\n" := by rw [h1]; simp [h2]
    revert this; decide

/-! ## C10 -/

/-- C10: for every input, every token has an extent inside the input that starts no later than it ends, both ends are given with
the exact line and column (only the end of the stream is reported on a line of its own), the tokens come out ordered by where they
start, and errors carry an exact position as well. -/
theorem C10_positions_exact (cfg : Cfg) (input : List Byte) (k : Nat) (hf : input.length + 4 ≤ cfg.fuel) :
    (scanInput cfg input k).1.Pairwise (fun t u => t.span.start.pos ≤ u.span.start.pos) ∧
    (∀ t ∈ (scanInput cfg input k).1,
      t.span.start.pos ≤ t.span.stop.pos ∧ t.span.stop.pos ≤ input.length ∧
      (Located input t.span.start ∨ t.span.start = streamEndMark input) ∧
      (Located input t.span.stop ∨ t.span.stop = streamEndMark input)) ∧
    (∀ e, (scanInput cfg input k).2 = .failed e →
      ∃ m msg, e = .scanner m msg ∧ m.pos ≤ input.length ∧ (Located input m ∨ m = streamEndMark input)) := by
  have hs := facts cfg input k hf
  refine ⟨hs.1.sorted, fun t ht => ?_, fun e he => ?_⟩
  · have := hs.1.toks t ht
    exact ⟨this.order, this.stop, this.at1, this.at2⟩
  · have h2 := hs.2
    rw [he] at h2
    obtain ⟨m, msg, e, h2⟩ := h2
    exact ⟨m, msg, e, At.le (x := ctxOf cfg input) h2, h2⟩

/-- the `b` of `- a\n- b` is at line 2, column 3 -/
example : ((scanInput ⟨20, true⟩ bs!"- a\n- b" 20).1.filter fun t => t.tt = .scalar .plain bs!"b").map (·.span.start) = [⟨6, 3, 2⟩] := by
  decide +kernel

/-- an error with its position: line 2, column 7 -/
example : (match (scanInput ⟨20, true⟩ bs!"a:\n  b: c: d" 20).2 with | .failed (.scanner m _) => some m | _ => none) =
    some ⟨9, 7, 2⟩ := by decide +kernel

/-! ## C11 -/

/-- C11, the full statement: at the end of the stream no block collection is open. -/
def C11_full : Prop := ∀ (cfg : Cfg) (input : List Byte) (k : Nat), input.length + 4 ≤ cfg.fuel →
  (scanInput cfg input k).2 = .ended → blockDepth 0 (scanInput cfg input k).1 = some 0

/-- C11 does not hold: in `a: [` the block mapping is never closed. -/
theorem C11_blocks_balance_false : ¬ C11_full := by
  intro h
  exact absurd (h ⟨20, false⟩ bs!"a: [" 20 (by decide) (by decide +kernel)) (by decide +kernel)

/-- C11: in every prefix of the token stream of every input each `BlockEnd` closes a collection, and if all brackets and braces
are closed at the end of the stream then so are all block collections. Missing: texts that end inside brackets. -/
theorem C11_blocks_balance_partial (cfg : Cfg) (input : List Byte) (k : Nat) (hf : input.length + 4 ≤ cfg.fuel) :
    (∃ d, blockDepth 0 (scanInput cfg input k).1 = some d) ∧
    ((scanInput cfg input k).2 = .ended → flowDepth (scanInput cfg input k).1 = 0 → blockDepth 0 (scanInput cfg input k).1 = some 0) := by
  have hs := facts cfg input k hf
  refine ⟨hs.1.depth, fun he hfl => ?_⟩
  have h2 := hs.2
  rw [he] at h2
  obtain ⟨pre, t, e, ht⟩ := h2
  obtain ⟨_, hsp, hd⟩ := hs.1.last pre t [] (by simpa using e) ht
  rw [e] at hfl ⊢
  have h0 : flowDepth pre = 0 := by
    simpa [flowDepth, flowStep, hsp, Span.empty] using hfl
  rw [blockDepth_append, hd h0]
  simp [blockDepth, ht]

/-- two nested block collections -/
example : (scanInput ⟨30, true⟩ bs!"- a: [b]\n  c: d\n- e" 60).2 = .ended ∧ flowDepth (scanInput ⟨30, true⟩ bs!"- a: [b]\n  c: d\n- e" 60).1 = 0 ∧
    ((scanInput ⟨30, true⟩ bs!"- a: [b]\n  c: d\n- e" 60).1.filter fun t => t.tt = .blockEnd).length = 2 := by decide +kernel

/-! ## C12 -/

/-- C12: for every input the first token is `StreamStart`, which does not come again, and nothing follows a `StreamEnd`: it is the
last token, and every further pull, however many, yields `None` without an error. A run that ends without an error has delivered
`StreamEnd`. -/
theorem C12_stream_end_final (cfg : Cfg) (input : List Byte) (k : Nat) (hf : input.length + 4 ≤ cfg.fuel) :
    (∀ t r, (scanInput cfg input k).1 = t :: r → t.tt = .streamStart ∧ ∀ u ∈ r, u.tt ≠ .streamStart) ∧
    (∀ a t b, (scanInput cfg input k).1 = a ++ t :: b → t.tt = .streamEnd → b = []) ∧
    ((∃ t ∈ (scanInput cfg input k).1, t.tt = .streamEnd) → ∀ m, scanInput cfg input (k + m + 1) = ((scanInput cfg input k).1, .ended)) ∧
    ((scanInput cfg input k).2 = .ended → ∃ t ∈ (scanInput cfg input k).1, t.tt = .streamEnd) := by
  have hs := facts cfg input k hf
  refine ⟨hs.1.first, fun a t b e ht => (hs.1.last a t b e ht).1, fun he m => ?_, fun he => ?_⟩
  · have := scan_end k m (live_new cfg input hf) he
    exact this
  have h2 := hs.2
  rw [he] at h2
  obtain ⟨pre, t, e, ht⟩ := h2
  exact ⟨t, by rw [e]; simp, ht⟩

/-- C12, for the other way of pulling tokens: once `StreamEnd` has been produced, `next_token` returns it again and again and
changes nothing. -/
theorem C12_next_token_repeats (cfg : Cfg) (s s' : SSt) (t : Token) (h : nextToken cfg s = (.ok t, s')) (ht : t.tt = .streamEnd) :
    ∃ u, u.tt = .streamEnd ∧ ∀ cfg', nextToken cfg' s' = (.ok u, s') := by
  refine ⟨⟨⟨Marker.default, Marker.default⟩, .streamEnd⟩, rfl, fun cfg' => ?_⟩
  have hp : s'.streamEndProduced = true := by
    have key : ∀ s0, popToken s0 = (.ok t, s') → s'.streamEndProduced = true := by
      intro s0 h
      unfold popToken at h
      split at h
      · simp at h
      · simp only [Prod.mk.injEq, Res.ok.injEq] at h
        rw [← h.2, h.1]
        simp [ht]
    have e : nextToken cfg s = match s.streamEndProduced, s.tokensAvailable, fetchMoreTokens cfg s with
        | true, _, _ => (.ok ⟨⟨Marker.default, Marker.default⟩, .streamEnd⟩, s)
        | false, true, _ => popToken s
        | false, false, (.ok _, s1) => popToken s1
        | false, false, (.err e, s1) => (.err e, s1)
        | false, false, (.panic, s1) => (.panic, s1)
        | false, false, (.hang, s1) => (.hang, s1) := by
      cases h1 : s.streamEndProduced <;> cases h2 : s.tokensAvailable <;>
        simp [nextToken, bind, gets, Scanner.when, pure, h1, h2]
      rcases fetchMoreTokens cfg s with ⟨_ | _ | _ | _, s1⟩ <;> rfl
    rw [e] at h
    split at h
    · simp only [Prod.mk.injEq] at h
      rw [← h.2]; assumption
    · exact key _ h
    · exact key _ h
    · simp at h
    · simp at h
    · simp at h
  simp [nextToken, bind, gets, hp, pure]

/-- C12, errors: once the iterator has returned `None`, whatever the state, it returns `None` for ever, and the error that
`get_error` reports stays the same. -/
theorem C12_errors_latch (cfg : Cfg) (s s' : SSt) (h : next cfg s = (.ok none, s')) :
    ∀ cfg' n, next cfg' (afterNext cfg' n s') = (.ok none, afterNext cfg' n s') ∧ (afterNext cfg' n s').error = s'.error := by
  have h1 : (s'.error.isSome || s'.streamEndReached) = true := by
    unfold next at h
    split at h
    · rename_i hc; simp only [Prod.mk.injEq, true_and] at h; rw [← h]; exact hc
    · split at h
      · simp at h
      · simp only [Prod.mk.injEq, true_and] at h; rw [← h]; simp
      · simp at h
      · simp at h
  intro cfg' n
  have h2 : next cfg' s' = (.ok none, s') := by simp only [next, h1, if_true]
  have h3 : afterNext cfg' n s' = s' := by
    induction n with
    | zero => rfl
    | succ n ih => simp only [afterNext, h2, ih]
  rw [h3]
  exact ⟨h2, rfl⟩

/-- a run that ends, and one that fails -/
example : (scanInput ⟨20, true⟩ bs!"a" 20).2 = .ended ∧
    (match (scanInput ⟨20, true⟩ bs!"[a" 20).2 with | .ended => true | _ => false) = true ∧
    (match (scanInput ⟨20, true⟩ bs!"a: b\n\tc: d: e" 20).2 with | .failed _ => true | _ => false) = true := by decide +kernel

/-! ## C36 -/

/-- C36: if the input is valid UTF-8 then so is every piece of text of every token, for every input and any number of pulls. -/
theorem C36_token_text_utf8 (cfg : Cfg) (input : List Byte) (k : Nat) (hf : input.length + 4 ≤ cfg.fuel) (hu : Utf8Text input) :
    ∀ t ∈ (scanInput cfg input k).1, ∀ w ∈ tokenTexts t.tt, Utf8Text w := by
  intro t ht w hw
  have := (facts cfg input k hf).1.toks t ht
  refine (Utf8.run_iff_text w).1 (this.text w ?_ hu)
  revert hw
  cases t.tt <;> simp [tokenTexts, texts]

/-- a scalar with characters of two and three bytes between ASCII -/
example : Utf8Text (utf8 "- é→".toList) ∧
    ((scanInput ⟨20, true⟩ (utf8 "- é→".toList) 20).1.flatMap fun t => tokenTexts t.tt) = [utf8 "é→".toList] :=
  ⟨⟨_, rfl⟩, by decide +kernel⟩

end Verif.Props
