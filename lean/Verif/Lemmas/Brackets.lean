import Verif.Lemmas.ParserUsual
/-!
# Opening and closing tokens in streams of the token grammar
-/
namespace Verif.Scanner
open Verif Verif.Spec

/-- how many more `[` than `]`, and `{` than `}` -/
def sqOf (l : List TokenType) : Int := (l.count .flowSequenceStart : Int) - l.count .flowSequenceEnd
def brOf (l : List TokenType) : Int := (l.count .flowMappingStart : Int) - l.count .flowMappingEnd

@[simp] theorem sqOf_nil : sqOf [] = 0 := rfl
@[simp] theorem brOf_nil : brOf [] = 0 := rfl

@[simp] theorem sqOf_append (a b : List TokenType) : sqOf (a ++ b) = sqOf a + sqOf b := by
  simp [sqOf, List.count_append]; omega

@[simp] theorem brOf_append (a b : List TokenType) : brOf (a ++ b) = brOf a + brOf b := by
  simp [brOf, List.count_append]; omega

theorem sqOf_cons (t : TokenType) (b : List TokenType) : sqOf (t :: b) = sqOf [t] + sqOf b := sqOf_append [t] b
theorem brOf_cons (t : TokenType) (b : List TokenType) : brOf (t :: b) = brOf [t] + brOf b := brOf_append [t] b

theorem props_count {lookup ns q a t ns1} (h : Properties lookup ns q a t ns1) : sqOf q = 0 ∧ brOf q = 0 := by
  cases h <;> simp [sqOf, brOf]

theorem sep_count {sep c : List TokenType} (h : sep = [.flowEntry] ∨ sep = [] ∧ c = []) : sqOf sep = 0 ∧ brOf sep = 0 := by
  rcases h with rfl | ⟨rfl, -⟩ <;> simp [sqOf, brOf]

theorem derives_count {loose lookup nt ns toks evs ns'} (h : DerivesL loose lookup nt ns toks evs ns') :
    sqOf toks ≤ 0 ∧ brOf toks = 0 ∧ (loose = false → sqOf toks = 0) := by
  induction h with
  | alias _ => simp [sqOf, brOf]
  | bare _ ih => exact ih
  | props hq _ ih => have := props_count hq; simp only [sqOf_append, brOf_append]; grind
  | propsOnly hq => have := props_count hq; grind
  | absent => simp
  | present _ ih => exact ih
  | scalar => simp [sqOf, brOf]
  | blockSeq _ _ ih => rw [sqOf_cons, brOf_cons]; simp only [sqOf_append, brOf_append]; simpa [sqOf, brOf] using ih
  | indentless _ _ ih => exact ih
  | blockMap _ _ ih => rw [sqOf_cons, brOf_cons]; simp only [sqOf_append, brOf_append]; simpa [sqOf, brOf] using ih
  | @flowSeq _ _ _ _ c _ _ _ ih =>
    have e1 : sqOf [TokenType.flowSequenceStart] = 1 ∧ brOf [TokenType.flowSequenceStart] = 0 := by decide
    have e2 : sqOf [TokenType.flowSequenceEnd] = -1 ∧ brOf [TokenType.flowSequenceEnd] = 0 := by decide
    rw [sqOf_cons, brOf_cons]; simp only [sqOf_append, brOf_append]; grind
  | flowMap _ ih =>
    have e1 : sqOf [TokenType.flowMappingStart] = 0 ∧ brOf [TokenType.flowMappingStart] = 1 := by decide
    have e2 : sqOf [TokenType.flowMappingEnd] = 0 ∧ brOf [TokenType.flowMappingEnd] = -1 := by decide
    rw [sqOf_cons, brOf_cons]; simp only [sqOf_append, brOf_append]; grind
  | noItems => simp
  | item _ _ ih1 ih2 =>
    have e1 : sqOf [TokenType.blockEntry] = 0 ∧ brOf [TokenType.blockEntry] = 0 := by decide
    rw [sqOf_cons, brOf_cons]; simp only [sqOf_append, brOf_append]; grind
  | noEntries => simp
  | @keyValue _ k _ _ v _ _ c _ _ _ _ _ ih1 ih2 ih3 =>
    have e1 : sqOf [TokenType.key] = 0 ∧ brOf [TokenType.key] = 0 := by decide
    have e2 : sqOf [TokenType.value] = 0 ∧ brOf [TokenType.value] = 0 := by decide
    rw [sqOf_cons, brOf_cons, sqOf_append, brOf_append, sqOf_cons .value, brOf_cons .value]; simp only [sqOf_append, brOf_append]; grind
  | keyOnly _ _ _ ih1 ih2 =>
    have e1 : sqOf [TokenType.key] = 0 ∧ brOf [TokenType.key] = 0 := by decide
    rw [sqOf_cons, brOf_cons]; simp only [sqOf_append, brOf_append]; grind
  | valueOnly _ _ ih1 ih2 =>
    have e2 : sqOf [TokenType.value] = 0 ∧ brOf [TokenType.value] = 0 := by decide
    rw [sqOf_cons, brOf_cons]; simp only [sqOf_append, brOf_append]; grind
  | noFlowItems => simp
  | flowItem _ _ hs ih1 ih2 => have := sep_count hs; simp only [sqOf_append, brOf_append]; grind
  | flowPair _ _ _ hs ih1 ih2 ih3 =>
    have := sep_count hs
    have e1 : sqOf [TokenType.key] = 0 ∧ brOf [TokenType.key] = 0 := by decide
    have e2 : sqOf [TokenType.value] = 0 ∧ brOf [TokenType.value] = 0 := by decide
    rw [sqOf_cons, brOf_cons, sqOf_append, brOf_append, sqOf_cons .value, brOf_cons .value]; simp only [sqOf_append, brOf_append]; grind
  | flowPairKey _ _ hs ih1 ih2 =>
    have := sep_count hs
    have e1 : sqOf [TokenType.key] = 0 ∧ brOf [TokenType.key] = 0 := by decide
    rw [sqOf_cons, brOf_cons]; simp only [sqOf_append, brOf_append]; grind
  | @oddPair _ x _ _ _ _ _ _ _ hl hx _ _ hs ih1 ih2 =>
    have := sep_count hs
    have e1 : sqOf [TokenType.key] = 0 ∧ brOf [TokenType.key] = 0 := by decide
    have e2 : sqOf [TokenType.value] = 0 ∧ brOf [TokenType.value] = 0 := by decide
    have e3 : sqOf [x] ≤ 0 ∧ brOf [x] = 0 := by rcases hx with rfl | rfl | rfl <;> decide
    rw [sqOf_cons, brOf_cons, sqOf_cons x, brOf_cons x, sqOf_cons .value, brOf_cons .value]; simp only [sqOf_append, brOf_append]; grind
  | @oddPairKey _ x _ _ _ _ hl hx _ hs ih =>
    have := sep_count hs
    have e1 : sqOf [TokenType.key] = 0 ∧ brOf [TokenType.key] = 0 := by decide
    have e3 : sqOf [x] ≤ 0 ∧ brOf [x] = 0 := by rcases hx with rfl | rfl | rfl <;> decide
    rw [sqOf_cons, brOf_cons, sqOf_cons x, brOf_cons x]; simp only [sqOf_append, brOf_append]; grind
  | noFlowEntries => simp
  | flowSingle _ _ hs ih1 ih2 => have := sep_count hs; simp only [sqOf_append, brOf_append]; grind
  | flowKeyValue _ _ _ hs ih1 ih2 ih3 =>
    have := sep_count hs
    have e1 : sqOf [TokenType.key] = 0 ∧ brOf [TokenType.key] = 0 := by decide
    have e2 : sqOf [TokenType.value] = 0 ∧ brOf [TokenType.value] = 0 := by decide
    rw [sqOf_cons, brOf_cons, sqOf_append, brOf_append, sqOf_cons .value, brOf_cons .value]; simp only [sqOf_append, brOf_append]; grind
  | flowKeyOnly _ _ hs ih1 ih2 =>
    have := sep_count hs
    have e1 : sqOf [TokenType.key] = 0 ∧ brOf [TokenType.key] = 0 := by decide
    rw [sqOf_cons, brOf_cons]; simp only [sqOf_append, brOf_append]; grind
  | flowValueOnly _ _ hs ih1 ih2 =>
    have := sep_count hs
    have e2 : sqOf [TokenType.value] = 0 ∧ brOf [TokenType.value] = 0 := by decide
    rw [sqOf_cons, brOf_cons]; simp only [sqOf_append, brOf_append]; grind

theorem derivesL_end {loose L nt ns toks evs ns'} (h : DerivesL loose L nt ns toks evs ns') : TokenType.streamEnd ∉ toks := by
  have props : ∀ {ns q a t ns1}, Properties L ns q a t ns1 → TokenType.streamEnd ∉ q := by
    intro ns q a t ns1 h
    cases h <;> simp
  have sep : ∀ {sep c : List TokenType}, (sep = [.flowEntry] ∨ sep = [] ∧ c = []) → TokenType.streamEnd ∉ sep := by
    rintro sep c (rfl | ⟨rfl, -⟩) <;> simp
  induction h with
  | props hp _ ih => simp [props hp, ih]
  | propsOnly hp => exact props hp
  | flowItem _ _ hs ih1 ih2 => simp [sep hs, ih1, ih2]
  | flowPair _ _ _ hs ih1 ih2 ih3 => simp [sep hs, ih1, ih2, ih3]
  | flowPairKey _ _ hs ih1 ih2 => simp [sep hs, ih1, ih2]
  | flowSingle _ _ hs ih1 ih2 => simp [sep hs, ih1, ih2]
  | flowKeyValue _ _ _ hs ih1 ih2 ih3 => simp [sep hs, ih1, ih2, ih3]
  | flowKeyOnly _ _ hs ih1 ih2 => simp [sep hs, ih1, ih2]
  | flowValueOnly _ _ hs ih1 ih2 => simp [sep hs, ih1, ih2]
  | oddPair _ hx _ _ hs ih1 ih2 => rcases hx with rfl | rfl | rfl <;> simp [sep hs, ih1, ih2]
  | oddPairKey _ hx _ hs ih => rcases hx with rfl | rfl | rfl <;> simp [sep hs, ih]
  | _ => simp_all

theorem directives_count {ds : List TokenType} (h : ∀ d ∈ ds, isDirectiveTok d = true) : .streamEnd ∉ ds ∧ sqOf ds = 0 ∧ brOf ds = 0 := by
  have hn : ∀ t, isDirectiveTok t = false → ds.count t = 0 := fun t ht => List.count_eq_zero.2 fun hm => by rw [h t hm] at ht; cases ht
  refine ⟨fun hm => (by have := h _ hm; cases this), ?_, ?_⟩
  · simp only [sqOf]; rw [hn _ rfl, hn _ rfl]; rfl
  · simp only [brOf]; rw [hn _ rfl, hn _ rfl]; rfl

/-- a stream: the end, and before it never more of one kind opened than closed -/
theorem docs_count {loose free ns toks evs} (h : DerivesDocsL loose free ns toks evs) : ∃ d, toks = d ++ [.streamEnd] ∧ .streamEnd ∉ d ∧ sqOf d ≤ 0 ∧ brOf d = 0 ∧ (loose = false → sqOf d = 0) := by
  have ed : ∀ closed : Bool, .streamEnd ∉ (if closed then [TokenType.documentEnd] else []) ∧ sqOf (if closed then [TokenType.documentEnd] else []) = 0 ∧
      brOf (if closed then [TokenType.documentEnd] else []) = 0 := by decide
  have e1 : sqOf [TokenType.documentStart] = 0 ∧ brOf [TokenType.documentStart] = 0 := by decide
  have e2 : sqOf [TokenType.documentEnd] = 0 ∧ brOf [TokenType.documentEnd] = 0 := by decide
  induction h with
  | stop => exact ⟨[], rfl, by simp, by simp, by simp, by simp⟩
  | strayEnd _ ih =>
    obtain ⟨d, rfl, h1, h2, h3, hs⟩ := ih
    refine ⟨.documentEnd :: d, rfl, by simp [h1], ?_, ?_, fun hl => ?_⟩
    · rw [sqOf_cons]; omega
    · rw [brOf_cons]; omega
    · have := hs hl
      rw [sqOf_cons]; omega
  | @implicit _ c _ _ closed _ _ hc _ ih =>
    obtain ⟨d, rfl, h1, h2, h3, hs⟩ := ih
    have h4 := derives_count hc
    have h5 := derivesL_end hc
    have h6 := ed closed
    refine ⟨c ++ ((if closed then [.documentEnd] else []) ++ d), by simp, by simp only [List.mem_append]; grind, ?_, ?_, fun hl => ?_⟩ <;> simp only [sqOf_append, brOf_append] <;> first | omega | (have := hs hl; have := h4.2.2 hl; omega)
  | @explicit _ _ v d' c _ _ closed _ _ hv hd _ hc _ ih =>
    obtain ⟨d, rfl, h1, h2, h3, hs⟩ := ih
    have h4 := derives_count hc
    have h5 := derivesL_end hc
    have h6 := ed closed
    have h7 : .streamEnd ∉ v ∧ sqOf v = 0 ∧ brOf v = 0 := by rcases hv with rfl | ⟨a, b, rfl⟩ <;> simp [sqOf, brOf]
    have h8 : .streamEnd ∉ d' ∧ sqOf d' = 0 ∧ brOf d' = 0 := by rcases hd with rfl | ⟨a, b, rfl⟩ <;> simp [sqOf, brOf]
    refine ⟨v ++ (d' ++ ([.documentStart] ++ (c ++ ((if closed then [.documentEnd] else []) ++ d)))), by simp, by simp only [List.mem_append]; grind, ?_, ?_, fun hl => ?_⟩ <;> simp only [sqOf_append, brOf_append] <;> first | omega | (have := hs hl; have := h4.2.2 hl; omega)
  | @directives _ _ ds c _ _ closed _ _ _ hds _ _ hc _ ih =>
    obtain ⟨d, rfl, h1, h2, h3, hs⟩ := ih
    have h4 := derives_count hc
    have h5 := derivesL_end hc
    have h6 := ed closed
    have h7 := directives_count hds
    refine ⟨ds ++ ([.documentStart] ++ (c ++ ((if closed then [.documentEnd] else []) ++ d))), by simp, by simp only [List.mem_append]; grind, ?_, ?_, fun hl => ?_⟩ <;> simp only [sqOf_append, brOf_append] <;> first | omega | (have := hs hl; have := h4.2.2 hl; omega)

end Verif.Scanner
