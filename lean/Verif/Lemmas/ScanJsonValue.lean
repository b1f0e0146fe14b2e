import Verif.Lemmas.ScanJsonFlow
import Verif.Lemmas.ScanTree
import Verif.Lemmas.RoundTrip
/-!
# Scanning JSON: whole texts
-/
namespace Verif.Scanner
open Verif Verif.CharUtils Verif.Source Verif.Emitter Verif.Spec Verif.Scalar
variable {F : Type}

/-! ## Words: numbers, `true`, `false`, `null` -/

/-- a word the scanner reads as one plain scalar, wherever a value may be -/
def JWord (w : List Byte) : Prop := w ≠ [] ∧ (∀ b ∈ w, JByte b) ∧ w ≠ [45] ∧ (∀ b r', w = 45 :: b :: r' → b ≠ 45) ∧
  ∃ c w', w = c :: w' ∧ c ∉ bs!"[]{},*&!|>'\"%@`:?." ∧ TokenHead w

theorem digit_ten {d : Nat} (h : 48 ≤ d ∧ d ≤ 57) : Core.digit 10 d = some (d - 48) := by
  have : '0'.toNat = 48 ∧ '9'.toNat = 57 := by decide
  simp only [Core.digit, this]
  rw [if_pos h]
  simp
  omega

theorem value_decimal {i : List Byte} (h : Digits i) : Core.value 10 i = some (decimal i) := by
  unfold Core.value decimal
  generalize 0 = v
  induction i generalizing v with
  | nil => rfl
  | cons d i ih =>
    rw [List.foldl_cons, List.foldl_cons, digit_ten (h d (by simp))]
    exact ih (fun x hx => h x (by simp [hx])) _

theorem digit_ten_inv {d v : Nat} (h : Core.digit 10 d = some v) : 48 ≤ d ∧ d ≤ 57 := by
  have e : '0'.toNat = 48 ∧ '9'.toNat = 57 ∧ 'a'.toNat = 97 ∧ 'f'.toNat = 102 ∧ 'A'.toNat = 65 ∧ 'F'.toNat = 70 := by decide
  simp only [Core.digit, e] at h
  split at h
  · assumption
  · split at h
    · simp at h; omega
    · split at h
      · simp at h; omega
      · simp at h

theorem digits_of_value {s : List Byte} {v} (h : Core.value 10 s = some v) : Digits s := by
  have key : ∀ (s : List Byte) (a : Option Nat), s.foldl (fun acc c => do return (← acc) * 10 + (← Core.digit 10 c)) a = some v → Digits s ∧ a ≠ none := by
    intro s
    induction s with
    | nil => intro a h; exact ⟨by simp [Digits], by simp at h; simp [h]⟩
    | cons d s ih =>
      intro a h
      rw [List.foldl_cons] at h
      obtain ⟨h1, h2⟩ := ih _ h
      cases a with
      | none => simp at h2
      | some a =>
        cases hd : Core.digit 10 d with
        | none => simp [hd] at h2
        | some x =>
          refine ⟨?_, by simp⟩
          intro y hy
          simp at hy
          rcases hy with rfl | hy
          · exact digit_ten_inv hd
          · exact h1 y hy
  exact (key s (some 0) h).1

/-- the bytes of a number -/
def NumByte (b : Byte) : Prop := (48 ≤ b ∧ b ≤ 57) ∨ b = 43 ∨ b = 45 ∨ b = 46 ∨ b = 101 ∨ b = 69

theorem number_parts {w} (h : Json.Number w) : ∃ sg d r, (sg = [] ∨ sg = [45]) ∧ w = sg ++ d :: r ∧ (48 ≤ d ∧ d ≤ 57) ∧ (∀ b ∈ r, NumByte b) ∧
    (Digits r → ∃ v, Json.Integer w v ∧ v = if sg = [] then (decimal (d :: r) : Int) else -(decimal (d :: r) : Int)) := by
  obtain ⟨minus, i, f, e, ⟨hi, hdi, hz⟩, hf, he, rfl⟩ := h
  cases i with
  | nil => exact absurd rfl hi
  | cons d i =>
    have hfb : ∀ b ∈ f, NumByte b := by
      rcases hf with rfl | ⟨x, rfl, -, hx⟩
      · simp
      · intro b hb
        simp at hb
        rcases hb with rfl | hb
        · simp [NumByte]
        · exact .inl (hx b hb)
    have heb : ∀ b ∈ e, NumByte b := by
      rcases he with rfl | ⟨c, sg, x, hc, hsg, -, hx, rfl⟩
      · simp
      · intro b hb
        simp at hb
        rcases hb with rfl | hb | hb
        · rcases hc with rfl | rfl <;> simp [NumByte]
        · rcases hsg with rfl | rfl | rfl <;> simp at hb <;> simp [NumByte, hb]
        · exact .inl (hx b hb)
    refine ⟨Json.sign minus, d, i ++ (f ++ e), ?_, by simp, hdi d (by simp), ?_, ?_⟩
    · cases minus
      · exact .inl rfl
      · exact .inr rfl
    · intro b hb
      simp only [List.mem_append] at hb
      rcases hb with hb | hb | hb
      · exact .inl (hdi b (by simp [hb]))
      · exact hfb b hb
      · exact heb b hb
    · intro hd
      have hf0 : f = [] := by
        rcases hf with hf | ⟨x, rfl, -, -⟩
        · exact hf
        · have := hd 46 (by simp); omega
      have he0 : e = [] := by
        rcases he with he | ⟨c, sg, x, hc, -, -, -, rfl⟩
        · exact he
        · have := hd c (by simp); rcases hc with rfl | rfl <;> omega
      subst hf0 he0
      refine ⟨_, ⟨minus, d :: i, ⟨hi, hdi, hz⟩, by simp, rfl⟩, ?_⟩
      cases minus <;> simp [Json.sign]

theorem number_word {w} (h : Json.Number w) : JWord w := by
  obtain ⟨sg, d, r, hsg, rfl, hd, hr, -⟩ := number_parts h
  have nb : ∀ b, NumByte b → JByte b := by
    intro b hb
    refine ⟨?_, ?_⟩
    · unfold WordByte; unfold NumByte at hb; omega
    · unfold NumByte at hb
      simp only [isFlow]
      simp
      omega
  have hall : ∀ b ∈ sg ++ d :: r, JByte b := by
    intro b hb
    simp at hb
    rcases hb with hb | rfl | hb
    · rcases hsg with rfl | rfl
      · simp at hb
      · simp at hb; subst hb; exact nb _ (by simp [NumByte])
    · exact nb _ (.inl hd)
    · exact nb _ (hr b hb)
  rcases hsg with rfl | rfl
  · refine ⟨by simp, hall, ?_, ?_, d, r, rfl, by simp; omega, ?_⟩
    · intro h; simp at h; omega
    · intro b r' h; simp at h; omega
    · intro c hc; simp at hc; subst hc; omega
  · refine ⟨by simp, hall, by simp, ?_, 45, d :: r, rfl, by simp, ?_⟩
    · intro b r' h; simp at h; omega
    · intro c hc; simp at hc; subst hc; omega

theorem integer_number {w v} (h : Json.Integer w v) : Json.Number w := by
  obtain ⟨minus, i, hi, rfl, -⟩ := h
  exact ⟨minus, i, [], [], hi, .inl rfl, .inl rfl, by simp⟩

theorem integer_core {w v} (h : Json.Integer w v) : Core.CoreInt w v := by
  obtain ⟨minus, i, ⟨h0, hd, -⟩, rfl, rfl⟩ := h
  have hn : Core.IsNumeral 10 i (decimal i) := ⟨h0, value_decimal hd⟩
  cases minus
  · exact .dec hn
  · exact .minus hn

theorem number_float {fo : FloatOps F} {w f} (h : Json.Number w) (hi : ∀ v, Json.Integer w v → ¬ Core.Fits64 v) (hp : fo.parse w = some f) :
    valueFromCowAndMetadata fo w .plain none = .scalar (.float f) := by
  obtain ⟨sg, d, r, hsg, rfl, hd, hr, hint⟩ := number_parts h
  rw [Props.C41_float_exact]
  have hx : ∀ b ∈ sg ++ d :: r, NumByte b := by
    intro b hb
    simp at hb
    rcases hb with hb | rfl | hb
    · rcases hsg with rfl | rfl
      · simp at hb
      · simp at hb; subst hb; simp [NumByte]
    · exact .inl hd
    · exact hr b hb
  have hhead : ∀ c q, sg ++ d :: r = c :: q → c ≠ 43 ∧ c ≠ 46 ∧ (c = 45 → sg = [45] ∧ q = d :: r) := by
    intro c q h
    rcases hsg with rfl | rfl
    · simp at h; omega
    · simp at h; obtain ⟨rfl, rfl⟩ := h; simp
  refine ⟨?_, .inr ⟨?_, ⟨d, by simp, hd⟩, hp⟩⟩
  · rintro v ⟨h1 | h1, h2⟩
    · -- an integer of the core schema that is a JSON number is a JSON integer
      generalize hw : sg ++ d :: r = w at *
      cases h1 with
      | dec hn =>
        have hds := digits_of_value hn.2
        rw [← hw] at hds
        have hsg' : sg = [] := by
          rcases hsg with h | rfl
          · exact h
          · have := hds 45 (by simp); omega
        subst hsg'
        obtain ⟨v', h3, h4⟩ := hint (fun b hb => hds b (by simp [hb]))
        have := hn.2
        rw [← hw, value_decimal (by simpa using hds)] at this
        simp at this h4
        rw [← hw] at hi
        simp at hi
        refine hi v' (by simpa [← hw] using h3) ?_
        rw [h4, this]
        exact h2
      | plus hn => exact absurd rfl (hhead _ _ rfl).1
      | @minus s v hn =>
        obtain ⟨rfl, rfl⟩ := (hhead _ _ rfl).2.2 rfl
        have hds := digits_of_value hn.2
        obtain ⟨v', h3, h4⟩ := hint (fun b hb => hds b (by simp [hb]))
        have := hn.2
        rw [value_decimal hds] at this
        simp at this h4
        refine hi v' h3 ?_
        rw [h4, this]
        exact h2
      | oct hn => have := hx 111 (by simp); simp [NumByte] at this
      | hex hn => have := hx 120 (by simp); simp [NumByte] at this
    · generalize hw : sg ++ d :: r = w at *
      cases h1 with
      | octPlus hn => have := hx 111 (by simp); simp [NumByte] at this
      | octMinus hn => have := hx 111 (by simp); simp [NumByte] at this
      | hexPlus hn => have := hx 120 (by simp); simp [NumByte] at this
      | hexMinus hn => have := hx 120 (by simp); simp [NumByte] at this
      | plusPlus hn => exact absurd rfl (hhead _ _ rfl).1
      | plusMinus hn => exact absurd rfl (hhead _ _ rfl).1
  · intro g hg
    have key : ∃ b ∈ sg ++ d :: r, b = 105 ∨ b = 73 ∨ b = 110 ∨ b = 78 := by
      generalize sg ++ d :: r = t at hg
      have h1 : ∀ t ∈ [bs!".inf", bs!".Inf", bs!".INF", bs!"+.inf", bs!"+.Inf", bs!"+.INF"], ∃ b ∈ t, b = 105 ∨ b = 73 ∨ b = 110 ∨ b = 78 := by decide
      have h2 : ∀ t ∈ [bs!"-.inf", bs!"-.Inf", bs!"-.INF"], ∃ b ∈ t, b = 105 ∨ b = 73 ∨ b = 110 ∨ b = 78 := by decide
      have h3 : ∀ t ∈ [bs!".nan", bs!".NaN", bs!".NAN"], ∃ b ∈ t, b = 105 ∨ b = 73 ∨ b = 110 ∨ b = 78 := by decide
      rcases hg with ⟨hg, -⟩ | ⟨hg, -⟩ | ⟨hg, -⟩
      · exact h1 t hg
      · exact h2 t hg
      · exact h3 t hg
    obtain ⟨b, hb, hb'⟩ := key
    have := hx b hb
    unfold NumByte at this
    omega

/-- a word and the value it has -/
def JScalar (fo : FloatOps F) (w : List Byte) (x : Scalar F) : Prop := (w = bs!"null" ∧ x = .null) ∨ (w = bs!"true" ∧ x = .bool true) ∨ (w = bs!"false" ∧ x = .bool false) ∨
  (∃ v, Json.Integer w v ∧ Core.Fits64 v ∧ x = .int v) ∨ (∃ f, Json.Number w ∧ (∀ v, Json.Integer w v → ¬ Core.Fits64 v) ∧ fo.parse w = some f ∧ x = .float f)

theorem word_value {fo : FloatOps F} {w : List Byte} {x : Scalar F} (h : JScalar fo w x) :
    JWord w ∧ valueFromCowAndMetadata fo w .plain none = .scalar x := by
  have jb : ∀ w ∈ [bs!"null", bs!"true", bs!"false"], ∀ b ∈ w, b ≠ 0 ∧ b ≠ 9 ∧ b ≠ 10 ∧ b ≠ 13 ∧ b ≠ 32 ∧ b ≠ 35 ∧ b ≠ 58 ∧ isFlow b = false := by decide
  have lit : ∀ w ∈ [bs!"null", bs!"true", bs!"false"], JWord w := by
    intro w hw
    have h1 := jb w hw
    simp only [List.mem_cons, List.not_mem_nil, or_false] at hw
    refine ⟨by rcases hw with rfl | rfl | rfl <;> simp, fun b hb => ?_, ?_, ?_, ?_⟩
    · obtain ⟨a1, a2, a3, a4, a5, a6, a7, a8⟩ := h1 b hb
      exact ⟨⟨a1, a2, a3, a4, a5, a6, a7⟩, a8⟩
    · rcases hw with rfl | rfl | rfl <;> simp
    · rcases hw with rfl | rfl | rfl <;> simp
    · rcases hw with rfl | rfl | rfl <;> exact ⟨_, _, rfl, by decide, by intro c hc; simp at hc; subst hc; decide⟩
  rcases h with ⟨rfl, rfl⟩ | ⟨rfl, rfl⟩ | ⟨rfl, rfl⟩ | ⟨v, h1, h2, rfl⟩ | ⟨f, h1, h2, h3, rfl⟩
  · exact ⟨lit _ (by simp), (Props.C07_null_spellings_partial fo _).2 (by simp)⟩
  · exact ⟨lit _ (by simp), (Props.C41_bool_exact fo _ true).2 (by simp)⟩
  · exact ⟨lit _ (by simp), (Props.C41_bool_exact fo _ false).2 (by simp)⟩
  · exact ⟨number_word (integer_number h1), Props.C05_core_int_accepted fo _ _ (integer_core h1) h2⟩
  · exact ⟨number_word h1, number_float h1 h2 h3⟩

/-! ## Values -/

theorem JWs.append {a b} (h : JWs a) (h' : JWs b) : JWs (a ++ b) := by
  induction h with
  | nil => exact h'
  | blank hc _ ih => exact .blank hc ih
  | lf _ ih => exact .lf ih
  | crlf _ ih => exact .crlf ih

theorem Fl.ws {cfg s out k ks n a rest} (h : Fl cfg s out k ks n (a ++ rest)) (ha : JWs a) : Fl cfg s out k ks n rest := by
  obtain ⟨w, hw, hr⟩ := h.rest
  exact ⟨⟨w ++ a, hw.append ha, by simp [hr]⟩, h.fuel, h.col, h.indents, h.indent, h.toks, h.keys, h.req, h.level, h.impl, h.parsed, h.started, h.fit⟩

/-- what may follow a value -/
def VEnd (n : Nat) (q : List Byte) : Prop := q = [] ∨ (0 < n ∧ ∃ c q', q = c :: q' ∧ (c = 44 ∨ c = 93 ∨ c = 125))

theorem VEnd.follow {n q} (h : VEnd n q) : Follow n q := by
  rcases h with h | ⟨h, c, q', rfl, hc⟩
  · exact .inl h
  · exact .inr ⟨h, c, q', rfl, by omega⟩

/-- fetching from `s` gives the tokens `toks` and gets to `q` -/
def Gets (cfg : Cfg) (s : SSt) (b : Nat) (out : List TokenType) (ks : List SimpleKey) (n : Nat) (q : List Byte) : Prop :=
  ∃ m s' k', Fetches cfg m s s' ∧ Fl cfg s' out k' ks n q ∧ (s.flowMappingStarted = true → s'.flowMappingStarted = true) ∧ m + q.length ≤ b

/-- a text that is read as one value with the events `evs` -/
def VGoal (w : List Byte) (evs : List Event) : Prop := w ≠ [] ∧ TokenHead w ∧
  ∃ toks, (∀ L p ns, Derives L (.node p) ns toks evs ns) ∧
    ∀ cfg s out k ks n g q, JWs g → VEnd n q → Fl cfg s out k ks n (w ++ (g ++ q)) → (n = 0 → k.possible = false ∧ ks = [] ∧ s.simpleKeyAllowed = true) →
      Gets cfg s (w ++ (g ++ q)).length (out ++ toks) ks n q

/-- a text that is read as elements with the events `evs` -/
def EGoal (w : List Byte) (evs : List Event) : Prop := ∃ a w', w = a ++ w' ∧ JWs a ∧ w' ≠ [] ∧ TokenHead w' ∧
  ∃ toks, (∀ L ns, Derives L .flowItems ns toks evs ns) ∧
    ∀ cfg s out k ks n q, Fl cfg s out k ks (n + 1) (w' ++ 93 :: q) → Gets cfg s (w' ++ 93 :: q).length (out ++ toks) ks (n + 1) (93 :: q)

/-- a text that is read as a member with the name `key` and the events `ev` of its value -/
def MGoal (w : List Byte) (key : List Byte) (ev : List Event) : Prop := ∃ a w', w = a ++ w' ∧ JWs a ∧ w' ≠ [] ∧ TokenHead w' ∧
  ∃ tk tv, (∀ L ns, Derives L (.node? .flow) ns tk [.scalar ⟨key, .doubleQuote, 0, none⟩] ns) ∧ (∀ L ns, Derives L (.node? .flow) ns tv ev ns) ∧
    ∀ cfg s out k ks n c q, (c = 44 ∨ c = 125) → Fl cfg s out k ks (n + 1) (w' ++ c :: q) → s.simpleKeyAllowed = true → s.flowMappingStarted = true →
      Gets cfg s (w' ++ c :: q).length (out ++ (.key :: (tk ++ .value :: tv))) ks (n + 1) (c :: q)

/-- a text that is read as members with the events `evs` -/
def MsGoal (w : List Byte) (evs : List Event) : Prop := ∃ a w', w = a ++ w' ∧ JWs a ∧ w' ≠ [] ∧ TokenHead w' ∧
  ∃ toks, (∀ L ns, Derives L .flowEntries ns toks evs ns) ∧
    ∀ cfg s out k ks n q, Fl cfg s out k ks (n + 1) (w' ++ 125 :: q) → s.simpleKeyAllowed = true → s.flowMappingStarted = true →
      Gets cfg s (w' ++ 125 :: q).length (out ++ toks) ks (n + 1) (125 :: q)

theorem tokenHead_append {w q : List Byte} (h : TokenHead w) (h0 : w ≠ []) : TokenHead (w ++ q) := by
  cases w with
  | nil => exact absurd rfl h0
  | cons c w => intro d hd; exact h d (by simpa using hd)

theorem bind_zero {A : Anchored F} {x} : Anchored.bind A 0 x = A := by
  funext i
  simp [Anchored.bind]

theorem word_goal {w} (h : JWord w) : VGoal w [.scalar ⟨w, .plain, 0, none⟩] := by
  obtain ⟨h0, h1, h2, h3, h4⟩ := h
  refine ⟨h0, ?_, [.scalar .plain w], fun L p ns => .bare .scalar, ?_⟩
  · obtain ⟨_, _, _, _, h⟩ := h4; exact h
  · intro cfg s out k ks n g q hg hq hs hn
    obtain ⟨s', k', e, hf, hm⟩ := plain_fetch h0 h1 h2 h3 h4 hg hq hs hn
    have : 0 < w.length := List.length_pos_iff.2 h0
    exact ⟨1, s', k', .step e .refl, hf, hm, by simp; omega⟩

theorem string_goal {w v} (h : Folded w v) : VGoal (34 :: (w ++ [34])) [.scalar ⟨v, .doubleQuote, 0, none⟩] := by
  refine ⟨by simp, by intro c hc; simp at hc; subst hc; decide, [.scalar .doubleQuote v], fun L p ns => .bare .scalar, ?_⟩
  · intro cfg s out k ks n g q hg hq hs hn
    obtain ⟨s', k', e, hf, -, -, -, hm⟩ := string_fetch h hg hq.follow (by simpa using hs) hn
    exact ⟨1, s', k', .step e .refl, hf, hm, by simp; omega⟩

theorem array_goal {w evs} (h : EGoal w evs) : VGoal (91 :: (w ++ [93])) (.sequenceStart 0 none :: (evs ++ [.sequenceEnd])) := by
  obtain ⟨a, w', rfl, ha, h0, hh, toks, hd, hg⟩ := h
  refine ⟨by simp, by intro c hc; simp at hc; subst hc; decide, .flowSequenceStart :: (toks ++ [.flowSequenceEnd]), fun L p ns => .bare (.flowSeq (hd L ns)), ?_⟩
  · intro cfg s out k ks n g q hg' hq hs hn
    have hs : Fl cfg s out k ks n (91 :: (a ++ (w' ++ 93 :: (g ++ q)))) := by simpa using hs
    obtain ⟨s1, k1, e1, f1, al1, m1⟩ := open_fetch (.inl ⟨rfl, rfl⟩) ha (tokenHead_append hh h0) hs hn
    obtain ⟨m, s2, k2, e2, f2, m2, hl⟩ := hg cfg s1 _ _ _ n _ f1
    obtain ⟨s3, e3, f3, m3⟩ := close_fetch (.inl ⟨rfl, rfl⟩) hg' hq.follow.head f2
    refine ⟨1 + (m + 1), s3, k1, .trans (.step e1 e2) (.step e3 .refl), ?_, fun hx => m3 (m2 (m1 (.inr hx))), ?_⟩
    · simpa using f3
    · simp at hl ⊢; omega

theorem emptyArray_goal {a} (ha : JWs a) : VGoal (91 :: (a ++ [93])) (.sequenceStart 0 none :: ([] ++ [.sequenceEnd])) := by
  refine ⟨by simp, by intro c hc; simp at hc; subst hc; decide, .flowSequenceStart :: ([] ++ [.flowSequenceEnd]), fun L p ns => .bare (.flowSeq .noFlowItems), ?_⟩
  · intro cfg s out k ks n g q hg' hq hs hn
    have hs : Fl cfg s out k ks n (91 :: (a ++ 93 :: (g ++ q))) := by simpa using hs
    obtain ⟨s1, k1, e1, f1, al1, m1⟩ := open_fetch (.inl ⟨rfl, rfl⟩) ha (by intro c hc; simp at hc; subst hc; decide) hs hn
    obtain ⟨s3, e3, f3, m3⟩ := close_fetch (.inl ⟨rfl, rfl⟩) hg' hq.follow.head f1
    refine ⟨2, s3, k1, .step e1 (.step e3 .refl), ?_, fun hx => m3 (m1 (.inr hx)), ?_⟩
    · simpa using f3
    · simp; omega

theorem object_goal {w evs} (h : MsGoal w evs) : VGoal (123 :: (w ++ [125])) (.mappingStart 0 none :: (evs ++ [.mappingEnd])) := by
  obtain ⟨a, w', rfl, ha, h0, hh, toks, hd, hg⟩ := h
  refine ⟨by simp, by intro c hc; simp at hc; subst hc; decide, .flowMappingStart :: (toks ++ [.flowMappingEnd]), fun L p ns => .bare (.flowMap (hd L ns)), ?_⟩
  · intro cfg s out k ks n g q hg' hq hs hn
    have hs : Fl cfg s out k ks n (123 :: (a ++ (w' ++ 125 :: (g ++ q)))) := by simpa using hs
    obtain ⟨s1, k1, e1, f1, al1, m1⟩ := open_fetch (.inr ⟨rfl, rfl⟩) ha (tokenHead_append hh h0) hs hn
    obtain ⟨m, s2, k2, e2, f2, m2, hl⟩ := hg cfg s1 _ _ _ n _ f1 al1 (m1 (.inl rfl))
    obtain ⟨s3, e3, f3, m3⟩ := close_fetch (.inr ⟨rfl, rfl⟩) hg' hq.follow.head f2
    refine ⟨1 + (m + 1), s3, k1, .trans (.step e1 e2) (.step e3 .refl), ?_, fun hx => m3 (m2 (m1 (.inr hx))), ?_⟩
    · simpa using f3
    · simp at hl ⊢; omega

theorem emptyObject_goal {a} (ha : JWs a) : VGoal (123 :: (a ++ [125])) (.mappingStart 0 none :: ([] ++ [.mappingEnd])) := by
  refine ⟨by simp, by intro c hc; simp at hc; subst hc; decide, .flowMappingStart :: ([] ++ [.flowMappingEnd]), fun L p ns => .bare (.flowMap .noFlowEntries), ?_⟩
  · intro cfg s out k ks n g q hg' hq hs hn
    have hs : Fl cfg s out k ks n (123 :: (a ++ 125 :: (g ++ q))) := by simpa using hs
    obtain ⟨s1, k1, e1, f1, al1, m1⟩ := open_fetch (.inr ⟨rfl, rfl⟩) ha (by intro c hc; simp at hc; subst hc; decide) hs hn
    obtain ⟨s3, e3, f3, m3⟩ := close_fetch (.inr ⟨rfl, rfl⟩) hg' hq.follow.head f1
    refine ⟨2, s3, k1, .step e1 (.step e3 .refl), ?_, fun hx => m3 (m1 (.inr hx)), ?_⟩
    · simpa using f3
    · simp; omega

theorem one_goal {a w evs b} (ha : JWs a) (h : VGoal w evs) (hb : JWs b) : EGoal (a ++ (w ++ b)) (evs ++ []) := by
  obtain ⟨h0, hh, toks, hd, hg⟩ := h
  refine ⟨a, w ++ b, rfl, ha, by simp [h0], tokenHead_append hh h0, toks ++ ([] ++ []), fun L ns => .flowItem (hd L _ ns) .noFlowItems (.inr ⟨rfl, rfl⟩), ?_⟩
  intro cfg s out k ks n q hs
  have := hg cfg s out k ks (n + 1) b (93 :: q) hb (.inr ⟨by omega, 93, q, rfl, by omega⟩) (by simpa using hs) (by simp)
  simpa using this

theorem more_goal {a w evs b r evs'} (ha : JWs a) (h : VGoal w evs) (hb : JWs b) (hr : EGoal r evs') : EGoal (a ++ (w ++ (b ++ 44 :: r))) (evs ++ evs') := by
  obtain ⟨h0, hh, toks, hd, hg⟩ := h
  obtain ⟨a', r', rfl, ha', h0', hh', toks', hd', hg'⟩ := hr
  refine ⟨a, w ++ (b ++ 44 :: (a' ++ r')), rfl, ha, by simp [h0], tokenHead_append hh h0, toks ++ ([.flowEntry] ++ toks'),
    fun L ns => .flowItem (hd L _ ns) (hd' L ns) (.inl rfl), ?_⟩
  intro cfg s out k ks n q hs
  obtain ⟨m1, s1, k1, e1, f1, p1, l1⟩ := hg cfg s out k ks (n + 1) b (44 :: (a' ++ (r' ++ 93 :: q))) hb (.inr ⟨by omega, 44, _, rfl, by omega⟩) (by simpa using hs) (by simp)
  obtain ⟨s2, k2, e2, f2, -, p2⟩ := comma_fetch ha' (tokenHead_append hh' h0') f1
  obtain ⟨m3, s3, k3, e3, f3, p3, l3⟩ := hg' cfg s2 _ _ _ n q f2
  refine ⟨m3 + 1 + m1, s3, k3, e1.trans (.step e2 e3), by simpa using f3, fun hx => p3 (p2 (p1 hx)), ?_⟩
  simp at l1 l3 ⊢
  omega

theorem member_goal {a k v b c w evs d} (ha : JWs a) (hk : Folded k v) (hb : JWs b) (hc : JWs c) (h : VGoal w evs) (hd : JWs d)
    (ht : ¬ Json.OnlyTabs c w) : MGoal (a ++ (34 :: (k ++ (34 :: (b ++ (58 :: (c ++ (w ++ d)))))))) v evs := by
  obtain ⟨h0, hh, toks, hD, hg⟩ := h
  refine ⟨a, _, rfl, ha, by simp, by intro c hc; simp at hc; subst hc; decide, [.scalar .doubleQuote v], toks,
    fun L ns => .present (.bare .scalar), fun L ns => .present (hD L _ ns), ?_⟩
  · intro cfg s out k0 ks n e q he hs hal hfm
    have hs : Fl cfg s out k0 ks (n + 1) (34 :: (k ++ 34 :: (b ++ 58 :: (c ++ (w ++ (d ++ e :: q)))))) := by simpa using hs
    obtain ⟨s1, k1, e1, f1, r1, adj1, pos1, m1⟩ := string_fetch hk hb (.inr ⟨by omega, 58, _, rfl, by omega⟩) hs (by simp)
    obtain ⟨p1, t1⟩ := pos1 hal
    obtain ⟨s2, k2, e2, f2, m2⟩ := colon_fetch hc (tokenHead_append hh h0) f1 r1 adj1 p1 t1 (m1 hfm) (by
      intro hc0 hct
      obtain ⟨y, w', rfl⟩ : ∃ y w', w = y :: w' := by cases w with | nil => exact absurd rfl h0 | cons y w' => exact ⟨y, w', rfl⟩
      refine ⟨y, _, rfl, Classical.byContradiction fun hy => ht ⟨hc0, hct, ?_⟩⟩
      intro z hz
      simp at hz
      subst hz
      omega)
    obtain ⟨m3, s3, k3, e3, f3, p3, l3⟩ := hg cfg s2 _ _ _ (n + 1) d (e :: q) hd (.inr ⟨by omega, e, q, rfl, by omega⟩) f2 (by simp)
    refine ⟨m3 + 1 + 1, s3, k3, .step e1 (.step e2 e3), by simpa using f3, fun _ => p3 m2, ?_⟩
    simp at l3 ⊢
    omega

theorem oneMember_goal {w k ev} (h : MGoal w k ev) : MsGoal w ([.scalar ⟨k, .doubleQuote, 0, none⟩] ++ (ev ++ [])) := by
  obtain ⟨a, w', rfl, ha, h0, hh, tk, tv, hdk, hdv, hg⟩ := h
  refine ⟨a, w', rfl, ha, h0, hh, .key :: (tk ++ (.value :: (tv ++ ([] ++ [])))), fun L ns => .flowKeyValue (hdk L ns) (hdv L ns) .noFlowEntries (.inr ⟨rfl, rfl⟩), ?_⟩
  intro cfg s out k ks n q hs hal hfm
  have := hg cfg s out k ks n 125 q (.inr rfl) hs hal hfm
  simpa using this

theorem moreMembers_goal {w k ev r evs} (h : MGoal w k ev) (hr : MsGoal r evs) : MsGoal (w ++ 44 :: r) ([.scalar ⟨k, .doubleQuote, 0, none⟩] ++ (ev ++ evs)) := by
  obtain ⟨a, w', rfl, ha, h0, hh, tk, tv, hdk, hdv, hg⟩ := h
  obtain ⟨a', r', rfl, ha', h0', hh', toks', hd', hg'⟩ := hr
  refine ⟨a, w' ++ 44 :: (a' ++ r'), by simp, ha, by simp, tokenHead_append hh h0, .key :: (tk ++ (.value :: (tv ++ ([.flowEntry] ++ toks')))),
    fun L ns => .flowKeyValue (hdk L ns) (hdv L ns) (hd' L ns) (.inl rfl), ?_⟩
  intro cfg s out k ks n q hs hal hfm
  obtain ⟨m1, s1, k1, e1, f1, p1, l1⟩ := hg cfg s out k ks n 44 (a' ++ (r' ++ 125 :: q)) (.inl rfl) (by simpa using hs) hal hfm
  obtain ⟨s2, k2, e2, f2, al2, p2⟩ := comma_fetch ha' (tokenHead_append hh' h0') f1
  obtain ⟨m3, s3, k3, e3, f3, p3, l3⟩ := hg' cfg s2 _ _ _ n q f2 al2 (p2 (p1 hfm))
  refine ⟨m3 + 1 + m1, s3, k3, e1.trans (.step e2 e3), by simpa using f3, fun hx => p3 (p2 (p1 hx)), ?_⟩
  simp at l1 l3 ⊢
  omega

theorem jev_word {fo : FloatOps F} {w x} (h : JScalar fo w x) (A) : Tree UntaggedKey fo A [.scalar ⟨w, .plain, 0, none⟩] (.scalar x) A := by
  have := Tree.scalar (okKey := UntaggedKey) (fo := fo) (A := A) ⟨w, .plain, 0, none⟩
  rw [(word_value h).2] at this
  simpa only [bind_zero] using this

theorem jev_string {fo : FloatOps F} (v A) : Tree UntaggedKey fo A [.scalar ⟨v, .doubleQuote, 0, none⟩] (.scalar (.str v)) A := by
  have := Tree.scalar (okKey := UntaggedKey) (fo := fo) (A := A) ⟨v, .doubleQuote, 0, none⟩
  rw [Props.C03_quoted_is_string fo _ _ (by simp)] at this
  simpa only [bind_zero] using this

theorem word_tree {fo : FloatOps F} {w x} (h : JScalar fo w x) : ∃ evs, VGoal w evs ∧ ∀ A, Tree UntaggedKey fo A evs (.scalar x) A :=
  ⟨_, word_goal (word_value h).1, jev_word h⟩

mutual
  theorem value_goal {fo : FloatOps F} {w x} : Json.Value false fo w x → ∃ evs, VGoal w evs ∧ ∀ A, Tree UntaggedKey fo A evs x A
    | .null => word_tree (.inl ⟨rfl, rfl⟩)
    | .true => word_tree (.inr (.inl ⟨rfl, rfl⟩))
    | .false => word_tree (.inr (.inr (.inl ⟨rfl, rfl⟩)))
    | .int h1 h2 => word_tree (.inr (.inr (.inr (.inl ⟨_, h1, h2, rfl⟩))))
    | .float h1 h2 h3 => word_tree (.inr (.inr (.inr (.inr ⟨_, h1, h2, h3, rfl⟩))))
    | .string h => ⟨_, string_goal (json_chars h), jev_string _⟩
    | .emptyArray h => ⟨_, emptyArray_goal (.of h), fun A => by
        simpa only [bind_zero, taggedAs] using Tree.seq (a := 0) (t := none) (okKey := UntaggedKey) (fo := fo) (.nil (A := A))⟩
    | .array h =>
      have ⟨_, hg, ht⟩ := elements_goal h
      ⟨_, array_goal hg, fun A => by simpa only [bind_zero, taggedAs] using Tree.seq (a := 0) (t := none) (ht A)⟩
    | .emptyObject h => ⟨_, emptyObject_goal (.of h), fun A => by
        simpa only [bind_zero, taggedAs] using Tree.map (a := 0) (t := none) (okKey := UntaggedKey) (fo := fo) (.nil (A := A))⟩
    | .object h =>
      have ⟨_, hg, ht⟩ := members_goal h
      ⟨_, object_goal hg, fun A => by simpa only [bind_zero, taggedAs] using Tree.map (a := 0) (t := none) (ht A)⟩
  theorem elements_goal {fo : FloatOps F} {w xs} : Json.Elements false fo w xs → ∃ evs, EGoal w evs ∧ ∀ A, Trees UntaggedKey fo A evs xs A
    | .one h1 h2 h3 =>
      have ⟨_, hg, ht⟩ := value_goal h2
      ⟨_, one_goal (.of h1) hg (.of h3), fun A => .cons (ht A) .nil⟩
    | .more h1 h2 h3 h4 =>
      have ⟨_, hg, ht⟩ := value_goal h2
      have ⟨_, hg', ht'⟩ := elements_goal h4
      ⟨_, more_goal (.of h1) hg (.of h3) hg', fun A => .cons (ht A) (ht' A)⟩
  theorem memb_goal {fo : FloatOps F} {w p} : Json.Member false fo w p → ∃ k evs, p.1 = .scalar (.str k) ∧ MGoal w k evs ∧ ∀ A, Tree UntaggedKey fo A evs p.2 A
    | .mk h1 h2 h3 h4 h5 h6 h7 =>
      have ⟨_, hg, ht⟩ := value_goal h5
      ⟨_, _, rfl, member_goal (.of h1) (json_chars h2) (.of h3) (.of h4) hg (.of h6) (by
        rcases h7 with h | h
        · cases h
        · exact h), ht⟩
  theorem members_goal {fo : FloatOps F} {w ps} : Json.Members false fo w ps → ∃ evs, MsGoal w evs ∧ ∀ A, TreePairs UntaggedKey fo A evs ps A
    | .one (p := (_, _)) h =>
      have ⟨_, _, hk, hg, ht⟩ := memb_goal h
      ⟨_, oneMember_goal hg, fun A => by cases hk; exact .cons (jev_string _ A) ⟨by simp, by simp⟩ (ht A) .nil⟩
    | .more (p := (_, _)) h1 h2 =>
      have ⟨_, _, hk, hg, ht⟩ := memb_goal h1
      have ⟨_, hg', ht'⟩ := members_goal h2
      ⟨_, moreMembers_goal hg hg', fun A => by cases hk; exact .cons (jev_string _ A) ⟨by simp, by simp⟩ (ht A) (ht' A)⟩
end

/-! ## Texts -/

theorem derives_end {L nt ns toks evs ns'} (h : Derives L nt ns toks evs ns') : TokenType.streamEnd ∉ toks := by
  have props : ∀ {ns q a t ns1}, Properties L ns q a t ns1 → TokenType.streamEnd ∉ q := by
    intro ns q a t ns1 h
    cases h <;> simp
  have sep : ∀ {sep c : List TokenType}, (sep = [.flowEntry] ∨ sep = [] ∧ c = []) → TokenType.streamEnd ∉ sep := by
    rintro sep c (rfl | ⟨rfl, -⟩) <;> simp
  induction h with
  | props hp _ ih => simp [props hp, ih]
  | propsOnly hp => exact props hp
  | flowItem _ _ hs ih1 ih2 => simp [sep hs, ih1, ih2]
  | flowPair _ _ _ hs ih1 ih2 ih3 => simp [sep hs, ih1, ih2, ih3]
  | flowPairKey _ _ hs ih1 ih2 => simp [sep hs, ih1, ih2]
  | flowSingle _ _ hs ih1 ih2 => simp [sep hs, ih1, ih2]
  | flowKeyValue _ _ _ hs ih1 ih2 ih3 => simp [sep hs, ih1, ih2, ih3]
  | flowKeyOnly _ _ hs ih1 ih2 => simp [sep hs, ih1, ih2]
  | flowValueOnly _ _ hs ih1 ih2 => simp [sep hs, ih1, ih2]
  | _ => simp_all

/-- the tokens of a JSON text -/
theorem scan_json {a w b evs} (ha : JWs a) (hv : VGoal w evs) (hb : JWs b) :
    ∃ tts, (∀ L p ns, Derives L (.node p) ns tts evs ns) ∧
      ∀ cfg N, (a ++ (w ++ b)).length + 4 < cfg.fuel → tts.length + 3 < N →
        ∃ toks, Spec.scanInput cfg (a ++ (w ++ b)) N = (toks, .ended) ∧ toks.map (·.tt) = .streamStart :: (tts ++ [.streamEnd]) := by
  obtain ⟨h0, hh, tts, hd, hg⟩ := hv
  refine ⟨tts, hd, fun cfg N hf hN => ?_⟩
  generalize hS : (fetchStreamStart (Scanner.new (a ++ (w ++ b)))).2 = S
  have hFl : Fl cfg S [.streamStart] (SimpleKey.new Marker.default) [] 0 (w ++ (b ++ [])) := by
    refine ⟨⟨a, ha, by rw [← hS, List.append_nil]; rfl⟩, ?_, by rw [← hS]; exact Nat.le_refl 1, by rw [← hS]; rfl, by rw [← hS]; rfl, by rw [← hS]; rfl, by rw [← hS]; rfl, ?_,
      by rw [← hS]; rfl, ?_, by rw [← hS]; rfl, by rw [← hS]; rfl, ?_⟩
    · have : S.src.rest = a ++ (w ++ b) := by rw [← hS]; rfl
      rw [this]; omega
    · intro x hx; simp at hx; subst hx; rfl
    · have : S.implicitFlowMappingStates = [] := by rw [← hS]; rfl
      simp [this]
    · rw [← hS]; simp [Fit, fetchStreamStart, Scanner.new, Src.new, upd]
  obtain ⟨m, s1, k1, f1, h1, -, hm⟩ := hg cfg S _ _ _ 0 b [] hb (.inl rfl) hFl (fun _ => ⟨rfl, rfl, by rw [← hS]; rfl⟩)
  obtain ⟨g, hgw, hr1⟩ := h1.rest
  have hfu := h1.fuel
  obtain ⟨mk, l, al, e1, -, -, -⟩ := jws_skip (q := []) (by simp [TokenHead]) hgw hr1 (k := cfg.fuel) (by rw [hr1] at hfu; simp at hfu; omega) h1.indents h1.col
  obtain ⟨s2, e2, hk2, ht2⟩ := stream_ends (cfg := cfg) (s := s1) (k := k1) (I := []) (i := 0) (n := 0) e1 (adv_rest hr1 rfl)
    (by show unroll 0 s1.indent s1.indents = _; rw [h1.indent, h1.indents]; exact unroll_ok (by omega))
    (by show s1.simpleKeys = _; exact h1.keys) (fun _ => h1.req k1 (by simp)) h1.level h1.started
  have hF : Fetches cfg (1 + m) (fetchStreamStart (Scanner.new (a ++ (w ++ b)))).2 s2 := by
    rw [hS]
    exact f1.trans (.step e2 .refl)
  have ht2' : s2.tokens.map (·.tt) = (.streamStart :: tts) ++ [.streamEnd] := by
    have h3 : types s2 = types (adv s1 g.length mk l al) ++ List.replicate 0 .blockEnd ++ [.streamEnd] := ht2
    have h4 : types (adv s1 g.length mk l al) = [.streamStart] ++ tts := h1.toks
    rw [h4] at h3
    simpa [types] using h3
  obtain ⟨body, last, hbl⟩ : ∃ body last, s2.tokens = body ++ [last] := by
    rcases List.eq_nil_or_concat s2.tokens with h | ⟨a, b, h⟩
    · rw [h] at ht2'; simp at ht2'
    · exact ⟨a, b, by simpa using h⟩
  have hsplit : body.map (·.tt) = .streamStart :: tts ∧ last.tt = .streamEnd := by
    rw [hbl, List.map_append] at ht2'
    obtain ⟨h1, h2⟩ := List.append_inj' ht2' rfl
    exact ⟨h1, by simpa using h2⟩
  have hlen : body.length = tts.length + 1 := by
    have := congrArg List.length hsplit.1
    simpa using this
  refine ⟨s2.tokens, ?_, ht2'⟩
  rw [hbl]
  refine scan_of_fetches hF hk2 hbl (fun t ht => ?_) hsplit.2 (by simp at hm hf; omega) (by omega)
  have : t.tt ∈ body.map (·.tt) := List.mem_map_of_mem ht
  rw [hsplit.1] at this
  simp only [List.mem_cons] at this
  rcases this with h | h
  · rw [h]; simp
  · intro hx
    rw [hx] at h
    exact derives_end (hd (fun _ => none) .block []) h

/-- loading a JSON text -/
theorem load_json {fo : FloatOps F} {t x} (h : Json.Text false fo t x) :
    ∃ N, ∀ cfg n, N ≤ cfg.fuel → N ≤ n → Loader.loadFrom fo cfg n t = .ok [x] ∧ Loader.loadSingle fo cfg n t = .ok x := by
  obtain ⟨a, w, b, ha, hv, hb, rfl⟩ := h
  obtain ⟨evs, hg, ht⟩ := value_goal hv
  obtain ⟨tts, hd, hs⟩ := scan_json (.of ha) hg (.of hb)
  refine ⟨(a ++ (w ++ b)).length + tts.length + 5, fun cfg n hf hn => ?_⟩
  obtain ⟨toks, h3, h4⟩ := hs cfg n (by omega) (by omega)
  unfold Loader.loadFrom Loader.loadSingle Loader.parserOn
  simp only [h3]
  exact load_bare h4 (hd _ _ _) (ht _) _ _

end Verif.Scanner
