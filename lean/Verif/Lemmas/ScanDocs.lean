import Verif.Lemmas.ScanDirective
import Verif.Lemmas.ParserLocal
import Verif.Props.MultiDoc
/-!
# Reading several documents, as people write them
-/
namespace Verif.Scanner
open Verif Verif.Spec Verif.CharUtils Verif.Source Verif.Emitter
variable {F : Type}

/-! ## From the beginning to the end -/

/-- before the first token of a text -/
theorem text_here {cfg : Cfg} {a n q} (ha : Block.IdleLines a) (hq : TokenHead q) (hf : (a ++ Block.spaces n).length < cfg.fuel) :
    Here cfg (fetchStreamStart (Scanner.new (a ++ (Block.spaces n ++ q)))).2 [.streamStart] [] 0 q (n + 1) true := by
  generalize hS : (fetchStreamStart (Scanner.new (a ++ (Block.spaces n ++ q)))).2 = S
  have hr : S.src.rest = a ++ (Block.spaces n ++ q) := by rw [← hS]; rfl
  have hk : S.simpleKeys = [SimpleKey.new Marker.default] := by rw [← hS]; rfl
  have hi : S.indent = 0 := by rw [← hS]; rfl
  have hI : S.indents = [] := by rw [← hS]; rfl
  have hc : S.mark = ⟨0, 1, 1⟩ := by rw [← hS]; rfl
  have hty : types S = [.streamStart] := by rw [← hS]; rfl
  have hal : S.simpleKeyAllowed = true := by rw [← hS]; rfl
  have hcalm : Calm S := by
    rw [← hS]
    exact ⟨rfl, rfl, rfl, rfl, by simp [Fit, fetchStreamStart, Scanner.new, Src.new, upd]⟩
  have hcol : (gapMark S.mark (a ++ Block.spaces n)).col = n + 1 := by
    rcases idles_end ha with rfl | ⟨l', rfl⟩
    · rw [List.nil_append, spaces_col, hc]; exact Nat.add_comm _ _
    · rw [List.append_assoc]; exact gapMark_after _ l' n
  have h0 := here_lay (cfg := cfg) (s := S) (w := a ++ Block.spaces n) (q := q) (I := []) (i := 0) (n := 0) (c := n + 1)
    (idles_lay ha spaces_lay') (by rw [hr]; simp) hq hf hcalm (fun _ => hcol) (by rw [hi, hI]; exact unroll_ok (by omega)) hk (fun hx => by cases hx)
    (fun _ _ _ _ => .inr rfl)
  rw [hty, hal] at h0
  exact h0

/-- the tokens of a text that is read to its end -/
theorem text_scan {cfg : Cfg} {t toks c al} {N : Nat} (h : Goes cfg (fetchStreamStart (Scanner.new t)).2 t.length (.streamStart :: toks) [] 0 [] c al)
    (hd : .streamEnd ∉ toks) (hf : t.length + 4 < cfg.fuel) (hN : toks.length + 3 < N) :
    ∃ tks, Spec.scanInput cfg t N = (tks, .ended) ∧ tks.map (·.tt) = .streamStart :: (toks ++ [.streamEnd]) := by
  obtain ⟨m, s1, f1, h1, hm⟩ := h
  obtain ⟨s2, e2, hk2, ht2⟩ := stream_end h1
  have hF : Fetches cfg (1 + m) (fetchStreamStart (Scanner.new t)).2 s2 := f1.trans (.step e2 .refl)
  have ht2' : s2.tokens.map (·.tt) = (.streamStart :: toks) ++ [.streamEnd] := ht2
  obtain ⟨body, last, hbl⟩ : ∃ body last, s2.tokens = body ++ [last] := by
    rcases List.eq_nil_or_concat s2.tokens with h | ⟨a, b, h⟩
    · rw [h] at ht2'; simp at ht2'
    · exact ⟨a, b, by simpa using h⟩
  have hsplit : body.map (·.tt) = .streamStart :: toks ∧ last.tt = .streamEnd := by
    rw [hbl, List.map_append] at ht2'
    obtain ⟨h1, h2⟩ := List.append_inj' ht2' rfl
    exact ⟨h1, by simpa using h2⟩
  have hlen : body.length = toks.length + 1 := by
    have := congrArg List.length hsplit.1
    simpa using this
  refine ⟨s2.tokens, ?_, ht2'⟩
  rw [hbl]
  refine scan_of_fetches hF hk2 hbl (fun u hu => ?_) hsplit.2 (by simp at hm hf; omega) (by omega)
  have : u.tt ∈ body.map (·.tt) := List.mem_map_of_mem hu
  rw [hsplit.1] at this
  simp only [List.mem_cons] at this
  rcases this with h | h
  · rw [h]; simp
  · intro hx
    rw [hx] at h
    exact hd h

/-! ## After a marker -/

theorem FirstBlank.z {r} (h : FirstBlank r) : isBlankOrBreakz (r.headD 0) = true := by
  rcases h with rfl | h | h
  · rfl
  · cases r <;> simp at h; subst h; rfl
  · cases r <;> simp at h; subst h; rfl

theorem tail_blank {b} (h : Block.Tail b) : FirstBlank b := by
  rcases h with h | ⟨e, ls, l, he, -, -, rfl⟩
  · exact eol_first h
  · rcases eol_first he with rfl | h | h
    · exact .inr (.inr rfl)
    · cases e <;> simp at h; subst h; exact .inr (.inl rfl)
    · cases e <;> simp at h; subst h; exact .inr (.inr rfl)

/-- after `---`, layout, and then the next token -/
theorem after_start {cfg : Cfg} {s out w q c al} (h : Here cfg s out [] 0 (45 :: 45 :: 45 :: (w ++ q)) 1 al) (ha : al = true ∨ Quiet cfg s) (hw : Lay w q) (hb : FirstBlank (w ++ q)) (hq : TokenHead q)
    (hcol : ∀ m : Marker, m.col = 4 → q ≠ [] → (gapMark m w).col = c) (hf : w.length < cfg.fuel) :
    ∃ s', fetchNextToken cfg s = (.ok (), s') ∧ Here cfg s' (out ++ [.documentStart]) [] 0 q c (w.contains 10) := by
  obtain ⟨s', k, h1, h2, h3, h4, h5, h6, h7, h8, h9, h10⟩ := start_mark h ha hb.z
  refine ⟨s', h1, ?_⟩
  have := here_lay (cfg := cfg) (s := s') (w := w) (q := q) (I := []) (i := 0) (n := 0) (c := c) hw h2 hq hf h6 (hcol _ h10) (by rw [h4, h5]; exact unroll_ok (by omega)) h7
    (fun hx => by rw [h8] at hx; cases hx)
    (fun _ _ _ _ => .inr rfl)
  rw [h3, h9] at this
  simpa using this

/-- `...`, and the rest of its line -/
theorem after_end {cfg : Cfg} {s out o w q c} (h : Here cfg s out [] 0 (46 :: 46 :: 46 :: (o ++ (w ++ q))) 1 true) (ho : Block.Eol o) (hw : Lay w q) (hq : TokenHead q)
    (hwq : w ++ q = [] ∨ ∃ r, w ++ q = 10 :: r) (hcol : ∀ m : Marker, q ≠ [] → (gapMark m w).col = c) (hf : w.length < cfg.fuel) :
    ∃ s', fetchNextToken cfg s = (.ok (), s') ∧ Here cfg s' (out ++ [.documentEnd]) [] 0 q c (w.contains 10) := by
  have hz : isBlankOrBreakz ((o ++ (w ++ q)).headD 0) = true := by
    refine FirstBlank.z ?_
    rcases eol_first ho with rfl | h | h
    · rcases hwq with h | ⟨r, h⟩ <;> rw [h]
      · exact .inl rfl
      · exact .inr (.inr rfl)
    · cases o <;> simp at h; subst h; exact .inr (.inl rfl)
    · cases o <;> simp at h; subst h; exact .inr (.inr rfl)
  obtain ⟨S, s', k, h1, h2, h3, h4, h5, h6, h7, h8, h9, -⟩ := end_mark h hz
  obtain ⟨x, he⟩ := eol_run ho h2 (by rcases hwq with h | ⟨r, h⟩ <;> simp [h])
  have hr := pass_rest (l := s'.leadingWhitespace) h2
  refine ⟨pass s' o s'.leadingWhitespace, ?_, ?_⟩
  · rw [h1, bind_run he, peekz_bind, getMark_bind]
    have : isBreakz ((pass s' o s'.leadingWhitespace).src.peekz 0) = true := by
      rcases hwq with h | ⟨r, h⟩ <;> rw [h] at hr <;> simp [Src.peekz, hr, isBreakz]
    rw [this]
    rfl
  · have := here_lay (cfg := cfg) (s := pass s' o s'.leadingWhitespace) (w := w) (q := q) (I := []) (i := 0) (n := 0) (c := c) hw hr hq hf
      ⟨h6.level, h6.impl, h6.parsed, h6.started, h6.fit.skip (by rw [h2]; simp)⟩ (hcol _) (by show unroll _ s'.indent s'.indents = _; rw [h4, h5]; exact unroll_ok (by omega)) h7
      (fun hx => by rw [h8] at hx; cases hx)
      (NP.last (s := s') h3 rfl)
    have e1 : types (pass s' o s'.leadingWhitespace) = out ++ [.documentEnd] := h3
    have e2 : (pass s' o s'.leadingWhitespace).simpleKeyAllowed = false := h9
    rw [e1, e2] at this
    simpa using this

/-! ## Documents -/

theorem firstBlank_append {g r : List Byte} (h : FirstBlank g) (hr : FirstBlank r) : FirstBlank (g ++ r) := by
  rcases h with rfl | h | h
  · exact hr
  · cases g <;> simp at h; subst h; exact .inr (.inl rfl)
  · cases g <;> simp at h; subst h; exact .inr (.inr rfl)

/-- a document is read as `toks` -/
def DocG (f : Option Nat) (n : Nat) (t : List Byte) (toks : List TokenType) : Prop :=
  ∀ {cfg s out w q c'}, Here cfg s out [] 0 (t ++ (w ++ q)) (n + 1) true → EndL w q c' 0 → Fits f w q → (t ++ (w ++ q)).length < cfg.fuel →
    Goes cfg s (t ++ (w ++ q)).length (out ++ toks) [] 0 q c' true

/-- a document that begins with `---` is read as `toks` -/
def ExG (f : Option Nat) (t : List Byte) (toks : List TokenType) : Prop :=
  ∀ {cfg s out w q c' al}, Here cfg s out [] 0 (t ++ (w ++ q)) 1 al → al = true ∨ Quiet cfg s → EndL w q c' 0 → Fits f w q → (t ++ (w ++ q)).length < cfg.fuel →
    Goes cfg s (t ++ (w ++ q)).length (out ++ toks) [] 0 q c' true

/-- `toks` are a document, whatever documents came before it -/
def DocSem (fo : FloatOps F) (bare : Bool) (toks : List TokenType) (x : Yaml F) : Prop :=
  ∀ ns A, ∃ b evs ns' A', (∀ closed T E, DerivesDocs closed ns' T E →
      DerivesDocs bare ns (toks ++ ((if closed then [.documentEnd] else []) ++ T)) (.documentStart b :: (evs ++ (.documentEnd :: E)))) ∧
    Tree UntaggedKey fo A evs x A' ∧ AliasesLocal [] evs

/-- what is said of a document -/
structure DocGoal (fo : FloatOps F) (bare : Bool) (n : Nat) (f : Option Nat) (t : List Byte) (x : Yaml F) (toks : List TokenType) : Prop where
  head : t ≠ [] ∧ ∀ r, FirstBlank r → TokenHead (t ++ r)
  mark : bare = false → ∀ r, FirstBlank r → DocMark (t ++ r)
  goes : DocG f n t toks
  clean : .streamEnd ∉ toks
  sem : DocSem fo bare toks x

theorem unroll_top {q c} : unroll (lowCol q c) 0 [] = some ([], 0, 0) := unroll_ok (by omega)

theorem nodeG_doc {f n t toks} (h : NodeG true f 0 (n + 1) t toks) : DocG f n t toks := by
  intro cfg s out w q c' hh he hfi hf
  have := h hh (fun h => h) (.inl ⟨rfl, rfl⟩) (.inl rfl) (fun _ => ⟨rfl, rfl⟩) (by omega) rfl he hfi hf unroll_top
  simpa using this

theorem sem_clean [Block.Handles] {nt T E toks} {E' : Block.Names F} (h : Sem nt T E toks E') : .streamEnd ∉ toks := by
  obtain ⟨evs, h, -⟩ := h [] (fun _ => none)
  exact derives_end h

/-- the first node of a document -/
theorem Sem.first [Block.Handles] {fo : FloatOps F} {nt x toks E} (h : Sem nt (T1 fo x) [] toks E) (ns : List (List Byte)) (A : Anchored F) :
    ∃ evs A', Derives tagTable nt ns toks evs (ns ++ anames E) ∧ Tree UntaggedKey fo A evs x A' ∧ AliasesLocal [] evs := by
  obtain ⟨evs, h1, h2, h3⟩ := h ns A
  rw [vals_nil] at h2
  exact ⟨evs, _, by simpa [anames] using h1, h2, (h3 [] (by simp)).1⟩

/-- what is said of a document that begins with `---` -/
structure ExGoal [Block.Handles] (fo : FloatOps F) (f : Option Nat) (t : List Byte) (x : Yaml F) (toks : List TokenType) : Prop where
  head : ∃ t', t = bs!"---" ++ t' ∧ ∀ r, FirstBlank r → FirstBlank (t' ++ r)
  goes : ExG f t (.documentStart :: toks)
  sem : ∃ E, Sem (.node? .block) (T1 fo x) [] toks E

theorem ExGoal.mark [Block.Handles] {fo : FloatOps F} {f t x toks} (h : ExGoal fo f t x toks) {r} (hr : FirstBlank r) : DocMark (t ++ r) := by
  obtain ⟨t', rfl, hb⟩ := h.head
  exact ⟨.inl rfl, (hb r hr).z⟩

/-- the directives that the parser reads before a document -/
theorem aims_split {ds toks} (h : AimToks ds toks) (hp : ds = [] ∨ (∃ d, ds = [d]) ∨ ∃ d, d ≠ .version ∧ ds = [.version, d]) :
    ∃ v d, toks = v ++ d ∧ (v = [] ∨ ∃ a b, v = [.versionDirective a b]) ∧ (d = [] ∨ ∃ h p, d = [.tagDirective h p]) := by
  rcases hp with rfl | ⟨d, rfl⟩ | ⟨d, hd, rfl⟩
  · cases h; exact ⟨[], [], rfl, .inl rfl, .inl rfl⟩
  · obtain _ | ⟨h1, h2⟩ := h
    cases h2
    cases h1 with
    | version => exact ⟨[_], [], rfl, .inr ⟨_, _, rfl⟩, .inl rfl⟩
    | tag => exact ⟨[], [_], rfl, .inl rfl, .inr ⟨_, _, rfl⟩⟩
    | other => exact ⟨[], [_], rfl, .inl rfl, .inr ⟨_, _, rfl⟩⟩
  · obtain _ | ⟨h1, h2⟩ := h
    obtain _ | ⟨h2, h3⟩ := h2
    cases h3
    cases h1
    cases h2 with
    | version => exact absurd rfl hd
    | tag => exact ⟨[_], [_], rfl, .inr ⟨_, _, rfl⟩, .inr ⟨_, _, rfl⟩⟩
    | other => exact ⟨[_], [_], rfl, .inr ⟨_, _, rfl⟩, .inr ⟨_, _, rfl⟩⟩

theorem aims_clean {ds toks} (h : AimToks ds toks) : .streamEnd ∉ toks := by
  induction h with
  | nil => simp
  | cons h _ ih => cases h <;> simpa using ih

/-- a document with directives or without them -/
theorem ExGoal.doc {fo : FloatOps F} {ds} {bare : Bool} {f dt t x toks} (hds : Block.Directives dt ds) (hp : ds = [] ∨ (∃ d, ds = [d]) ∨ ∃ d, d ≠ .version ∧ ds = [.version, d])
    (hb : bare = true ∨ dt = [] ∧ ds = []) (h : @ExGoal F ⟨Block.declares ds⟩ fo f t x toks) : ∃ toks', DocGoal fo bare 0 f (dt ++ t) x toks' := by
  have hmark := @ExGoal.mark F ⟨Block.declares ds⟩ _ _ _ _ _ h
  obtain ⟨⟨t', rfl, -⟩, hgoes, E, hsem⟩ := h
  have hclean := @sem_clean F ⟨Block.declares ds⟩ _ _ _ _ _ hsem
  obtain ⟨dtoks, htoks, hrun⟩ := directives_run hds
  obtain ⟨v, d, rfl, hv, hd⟩ := aims_split htoks hp
  have hth : ∀ r, TokenHead (bs!"---" ++ t' ++ r) := fun r => by simp [TokenHead]
  refine ⟨v ++ (d ++ (.documentStart :: toks)), ⟨?_, fun r _ => ?_⟩, fun hx r hr => ?_, ?_, ?_, fun ns A => ?_⟩
  · simp
  · rw [List.append_assoc]; exact directives_head hds (hth r)
  · rcases hb with hb | ⟨rfl, -⟩
    · rw [hb] at hx; cases hx
    · exact hmark hr
  · intro cfg s out w q c' hh he hfi hf
    rw [List.append_assoc] at hh hf ⊢
    obtain ⟨m, s', al', h1, h2, h3, h4⟩ := hrun (hth _) hh (.inl rfl) hf
    obtain ⟨m2, s2, f2, h5, h6⟩ := hgoes h2 h3 he hfi (by simp at hf ⊢; omega)
    refine ⟨_, s2, h1.trans f2, by simpa using h5, by simp at h6 ⊢; omega⟩
  · have := aims_clean htoks
    simp at this ⊢
    exact ⟨this.1, this.2, hclean⟩
  · obtain ⟨evs, A', h1, h2, h3⟩ := @Sem.first F ⟨Block.declares ds⟩ _ _ _ _ _ hsem ns A
    refine ⟨true, evs, ns ++ anames E, A', fun closed T E hT => ?_, h2, h3⟩
    have := DerivesDocsL.explicit (free := bare) (ns := ns) (v := v) (d := d) hv hd
      (by
        rcases hb with hb | ⟨-, rfl⟩
        · exact .inl hb
        · exact .inr (by generalize v ++ d = z at htoks; cases htoks; rfl))
      (derives_mono (declared_reads htoks) h1) hT
    simpa using this

/-- `---`, layout, and a node -/
theorem mark_node {al f g t toks c} (h : NodeG al f 0 c t toks) (hs : Starts t) (hg : ∀ q, Lay g q) (hb : g.head? = some 32 ∨ g.head? = some 10)
    (hcol : ∀ m : Marker, m.col = 4 → (gapMark m g).col = c) (hc : 0 < c) (hal : al = true → g.contains 10 = true) : ExG f (bs!"---" ++ (g ++ t)) (.documentStart :: toks) := by
  intro cfg s out w q c' al' hh ha he hfi hf
  have e : bs!"---" ++ (g ++ t) ++ (w ++ q) = 45 :: 45 :: 45 :: (g ++ (t ++ (w ++ q))) := by simp
  rw [e] at hh hf ⊢
  have hbl : FirstBlank (w ++ q) := he.blank.firstBlank
  obtain ⟨s', h1, h2⟩ := after_start hh ha (hg _) (.inr (head_or hb)) (hs.2 _ hbl).1 (fun m hm _ => hcol m hm) (by simp at hf; omega)
  refine Goes.then (Goes.one h1 h2 (by simp; omega)) (fun s2 h3 => ?_)
  have := h h3 hal (.inl ⟨rfl, rfl⟩) (.inl rfl) (fun _ => ⟨rfl, rfl⟩) hc rfl he hfi (by simp at hf ⊢; omega) unroll_top
  simpa using this

/-- a document that begins with `---` -/
theorem marker_goal [Block.Handles] {fo : FloatOps F} {f t x} (h : Block.Explicit false fo emptyStr f t x) : ∃ toks, ExGoal fo f t x toks := by
  cases h with
  | absent =>
    refine ⟨[], ⟨[], rfl, fun r hr => hr⟩, ?_, _, sem_absent⟩
    intro cfg s out w q c' al hh ha he _ hf
    have hbl : FirstBlank (w ++ q) := he.blank.firstBlank
    have e : bs!"---" ++ (w ++ q) = 45 :: 45 :: 45 :: (w ++ q) := by simp
    rw [e] at hh hf ⊢
    obtain ⟨h1, h2, h3, h4⟩ := he
    obtain ⟨s', h5, h6⟩ := after_start (c := c') hh ha h1 hbl h3 (fun m _ hq => (h4.resolve_left hq).2.1 m) (by simp at hf; omega)
    refine Goes.one h5 ?_ (by simp; omega)
    rcases h4 with rfl | ⟨h4, -⟩
    · exact h6.nil _
    · rw [h4] at h6; exact h6
  | @inline _ k _ _ _ h =>
    obtain ⟨toks, h1, h2, h3⟩ := bare_goal h
    exact ⟨_, ⟨_, rfl, fun r hr => .inr (.inl rfl)⟩, mark_node (al := false) (c := 4 + (k + 1)) (h2 _) h1 (fun _ => spaces_lay') (.inl rfl) (fun m hm => by rw [spaces_col, hm]) (by omega) (by simp),
      _, (h3 _).bare.present⟩
  | @marked _ k _ _ _ h =>
    obtain ⟨toks, h1, h2, h3⟩ := marked_block h
    exact ⟨_, ⟨_, rfl, fun r hr => .inr (.inl rfl)⟩, mark_node (al := false) (c := 4 + (k + 1)) (h2 _) h1 (fun _ => spaces_lay') (.inl rfl) (fun m hm => by rw [spaces_col, hm]) (by omega) (by simp),
      _, (h3 _ (by simp)).present⟩
  | under hg h =>
    obtain ⟨toks, h1, h2, h3⟩ := node_block h
    exact ⟨_, ⟨_, rfl, fun r hr => by rw [List.append_assoc]; exact break_pend hg⟩,
      mark_node h2 h1 (fun _ => break_lay hg) (break_first hg) (fun m _ => break_col hg m) (by omega) (fun _ => break_newline hg), _, (h3 _ (by simp)).present⟩

theorem doc_goal {fo : FloatOps F} {bare n f t x} (h : Block.Doc false fo emptyStr bare n f t x) : ∃ toks, DocGoal fo bare n f t x toks := by
  cases h with
  | bare h =>
    obtain ⟨toks, h1, h2, h3⟩ := node_block h
    have h4 := h3 .block (by simp)
    refine ⟨toks, ⟨h1.1, fun r hr => (h1.2 r hr).1⟩, by simp, nodeG_doc h2, sem_clean h4, fun ns A => ?_⟩
    obtain ⟨evs, A', h5, h6, h7⟩ := h4.first ns A
    rw [tagTable_none] at h5
    exact ⟨false, evs, _, A', fun closed T E hT => .implicit h5 hT, h6, h7⟩
  | explicit h =>
    obtain ⟨toks, h⟩ := marker_goal h
    exact h.doc .nil (.inl rfl) (.inr ⟨rfl, rfl⟩)
  | @directed _ _ ds _ _ h1 _ h3 h =>
    obtain ⟨toks, h⟩ := @marker_goal F ⟨Block.declares ds⟩ _ _ _ _ h
    refine h.doc h1 (.inr ?_) (.inl rfl)
    rcases h3.2 rfl with h | ⟨d, rfl⟩
    · exact .inl h
    · refine .inr ⟨d, ?_, rfl⟩
      rintro rfl
      exact absurd h3.1.1 (by decide)

theorem markGap_break {left f g} (h : Block.MarkGap left f g) : Block.Break 0 g := by
  rcases h with h | ⟨-, -, rfl⟩
  · exact gap_break h
  · exact ⟨[], [], .inl ⟨0, rfl⟩, .nil, rfl⟩

theorem markGap_end {left f g q} (h : Block.MarkGap left f g) (hq : DocMark q) : EndL g q 1 0 := by
  have hb := markGap_break h
  refine ⟨break_lay hb, ?_, hq.head.1, .inr ⟨break_newline hb, break_col hb, by omega, .inr ⟨rfl, rfl, hq⟩, hq.head.2⟩⟩
  rcases break_first hb with h | h <;> simp [h]

theorem markGap_fits {left f g q} (h : Block.MarkGap left f g) (hq : DocMark q) (hl : left = true → q.head? = some 46) : Fits f g q := by
  rcases h with h | ⟨h1, rfl, rfl⟩
  · exact gap_fits h hq.head.1 hq.head.2
  · obtain ⟨x, r, hx, rfl, hz⟩ := hq.cons
    refine ⟨0, [], rfl, .nil, by omega, ?_, ?_, .inr (.inr ⟨rfl, hq, hl h1⟩)⟩
    · rcases hx with rfl | rfl <;> simp [NoBreak, isBreak]
    · rcases hx with rfl | rfl <;> simp

theorem tail_split {b} (h : Block.Tail b) : ∃ o w, b = o ++ w ∧ Block.Eol o ∧ Lay w [] ∧ (w = [] ∨ ∃ r, w = 10 :: r) := by
  rcases h with h | ⟨e, ls, l, he, hls, hl, rfl⟩
  · exact ⟨b, [], by simp, h, .nil, .inl rfl⟩
  · exact ⟨e, _, rfl, he, eol_newline (e := []) (.inl ⟨0, rfl⟩) (idles_lay hls (idle_last hl)), .inr ⟨_, rfl⟩⟩

theorem dots_mark {r} (h : FirstBlank r) : DocMark (bs!"..." ++ r) := ⟨.inr rfl, h.z⟩

/-- `toks` are documents, whatever documents came before them -/
def DocsSem (fo : FloatOps F) (bare : Bool) (toks : List TokenType) (xs : List (Yaml F)) : Prop :=
  ∀ ns A, ∃ ds, DerivesDocs bare ns (toks ++ [.streamEnd]) (Parser.docEvents ds ++ [.streamEnd]) ∧ (∀ d ∈ ds, Node d.2) ∧
    TreeDocs UntaggedKey fo A (Parser.docEvents ds) xs ∧ ∀ D, AliasesLocal D (Parser.docEvents ds)

theorem DocsSem.nil {fo : FloatOps F} {bare} : DocsSem fo bare [] [] := fun _ _ => ⟨[], .stop, by simp, .nil, fun _ => trivial⟩

theorem local_cons {b evs ds} (h : AliasesLocal [] evs) (h' : ∀ D, AliasesLocal D (Parser.docEvents ds)) (D : List Nat) : AliasesLocal D (Parser.docEvents ((b, evs) :: ds)) := by
  refine ⟨by simp, ?_⟩
  show AliasesLocal [] (evs ++ (.documentEnd :: Parser.docEvents ds))
  exact (Parser.aliasesLocal_append _ _ _).2 ⟨h, by simp, h' _⟩

/-- a document and those after it -/
theorem DocSem.cons {fo : FloatOps F} {bare toks x} {toks' : List TokenType} {xs} (closed : Bool) (h : DocSem fo bare toks x) (h' : DocsSem fo closed toks' xs) :
    DocsSem fo bare (toks ++ ((if closed then [.documentEnd] else []) ++ toks')) (x :: xs) := by
  intro ns A
  obtain ⟨b, evs, ns', A', h1, h2, h3⟩ := h ns A
  obtain ⟨ds, h4, h5, h6, h7⟩ := h' ns' A'
  refine ⟨(b, evs) :: ds, ?_, ?_, .cons _ h2 h6, local_cons h3 h7⟩
  · have := h1 closed _ _ h4
    simpa [Parser.docEvents] using this
  · intro d hd
    rcases List.mem_cons.1 hd with rfl | hd
    · exact tree_node h2
    · exact h5 d hd

/-- what is said of documents -/
structure DocsGoal (fo : FloatOps F) (bare : Bool) (n : Nat) (t : List Byte) (xs : List (Yaml F)) (toks : List TokenType) : Prop where
  head : t ≠ [] ∧ TokenHead t
  mark : bare = false → DocMark t
  goes : ∀ {cfg s out}, Here cfg s out [] 0 t (n + 1) true → t.length < cfg.fuel → ∃ c, Goes cfg s t.length (out ++ toks) [] 0 [] c true
  clean : .streamEnd ∉ toks
  sem : DocsSem fo bare toks xs

theorem oneDoc_goal {fo : FloatOps F} {bare n f t x b toks} (h : DocGoal fo bare n f t x toks) (hb : Block.End false f b) :
    DocsGoal fo bare n (t ++ b) [x] toks := by
  have hbl := tail_blank (end_tail hb)
  refine ⟨⟨by simp [h.head.1], h.head.2 b hbl⟩, fun hx => h.mark hx b hbl, fun {cfg s out} hh hf => ⟨1, ?_⟩, h.clean, ?_⟩
  · have := h.goes (w := b) (q := []) (c' := 1) (by simpa using hh) (tail_end (end_tail hb)) (end_fits hb) (by simpa using hf)
    simpa using this
  · simpa using h.sem.cons false .nil


theorem lastDoc_goal {fo : FloatOps F} {bare n f t x g b toks} (h : DocGoal fo bare n f t x toks) (hg : Block.MarkGap true f g) (hb : Block.Tail b) :
    DocsGoal fo bare n (t ++ (g ++ (bs!"..." ++ b))) [x] (toks ++ [.documentEnd]) := by
  have hbl := break_pend (r := bs!"..." ++ b) (markGap_break hg)
  have hm := dots_mark (tail_blank hb)
  refine ⟨⟨by simp [h.head.1], h.head.2 _ hbl⟩, fun hx => h.mark hx _ hbl, fun {cfg s out} hh hf => ⟨1, ?_⟩, ?_, ?_⟩
  · refine Goes.then (h.goes hh (markGap_end hg hm) (markGap_fits hg hm (fun _ => rfl)) hf) (fun s' h' => ?_)
    obtain ⟨o, w, rfl, ho, hw, hn⟩ := tail_split hb
    obtain ⟨s2, h1, h2⟩ := after_end (q := []) (w := w) (c := 1) (o := o) (by simpa using h') ho hw (by simp [TokenHead]) (by simpa using hn) (by simp) (by simp at hf; omega)
    have := Goes.one (b := (bs!"..." ++ (o ++ w)).length) h1 (h2.nil true) (by simp)
    simpa using this
  · simp [h.clean]
  · simpa using h.sem.cons true .nil


theorem nextDoc_goal {fo : FloatOps F} {bare n f t x g r xs toks toks'} (h : DocGoal fo bare n f t x toks) (hg : Block.MarkGap false f g) (h' : DocsGoal fo false 0 r xs toks') :
    DocsGoal fo bare n (t ++ (g ++ r)) (x :: xs) (toks ++ toks') := by
  have hbl := break_pend (r := r) (markGap_break hg)
  have hm := h'.mark rfl
  refine ⟨⟨by simp [h.head.1], h.head.2 _ hbl⟩, fun hx => h.mark hx _ hbl, fun {cfg s out} hh hf => ?_, ?_, ?_⟩
  · obtain ⟨m, s1, f1, h1, hb⟩ := h.goes hh (markGap_end hg hm) (markGap_fits hg hm (by simp)) hf
    obtain ⟨c, m2, s2, f2, h2, hb2⟩ := h'.goes h1 (by simp at hf; omega)
    exact ⟨c, _, s2, f1.trans f2, by simpa using h2, by omega⟩
  · simp [h.clean, h'.clean]
  · simpa using h.sem.cons false h'.sem


theorem closedDoc_goal {fo : FloatOps F} {bare n f t x g m e r xs toks toks'} (h : DocGoal fo bare n f t x toks) (hg : Block.MarkGap true f g) (he : Block.Break m e)
    (h' : DocsGoal fo true m r xs toks') :
    DocsGoal fo bare n (t ++ (g ++ (bs!"..." ++ (e ++ r)))) (x :: xs) (toks ++ (.documentEnd :: toks')) := by
  have hbl := break_pend (r := bs!"..." ++ (e ++ r)) (markGap_break hg)
  have hm := dots_mark (break_pend (r := r) he)
  refine ⟨⟨by simp [h.head.1], h.head.2 _ hbl⟩, fun hx => h.mark hx _ hbl, fun {cfg s out} hh hf => ?_, ?_, ?_⟩
  · obtain ⟨m1, s1, f1, h1, hb⟩ := h.goes hh (markGap_end hg hm) (markGap_fits hg hm (fun _ => rfl)) hf
    obtain ⟨o, ls, ho, hls, rfl⟩ := he
    have hb10 : Block.Break m (10 :: (ls ++ Block.spaces m)) := ⟨[], ls, .inl ⟨0, rfl⟩, hls, rfl⟩
    obtain ⟨s2, h2, h3⟩ := after_end (q := r) (w := 10 :: (ls ++ Block.spaces m)) (c := m + 1) (o := o) (by simpa using h1) ho (break_lay hb10) h'.head.2 (.inr ⟨_, rfl⟩)
      (fun mk _ => break_col hb10 mk) (by simp at hf ⊢; omega)
    rw [break_newline hb10] at h3
    obtain ⟨c, m3, s3, f3, h4, hb3⟩ := h'.goes h3 (by simp at hf; omega)
    refine ⟨c, _, s3, (f1.trans (.step h2 .refl)).trans f3, by simpa using h4, ?_⟩
    simp at hb hb3 ⊢
    omega
  · simp [h.clean, h'.clean]
  · simpa using h.sem.cons true h'.sem


theorem docs_goal {fo : FloatOps F} {bare n t xs} (h : Block.Docs false fo emptyStr bare n t xs) : ∃ toks, DocsGoal fo bare n t xs toks := by
  induction h with
  | one h hb => obtain ⟨_, h⟩ := doc_goal h; exact ⟨_, oneDoc_goal h hb⟩
  | last h hg hb => obtain ⟨_, h⟩ := doc_goal h; exact ⟨_, lastDoc_goal h hg hb⟩
  | next h hg _ ih => obtain ⟨_, h⟩ := doc_goal h; obtain ⟨_, ih⟩ := ih; exact ⟨_, nextDoc_goal h hg ih⟩
  | closed h hg he _ ih => obtain ⟨_, h⟩ := doc_goal h; obtain ⟨_, ih⟩ := ih; exact ⟨_, closedDoc_goal h hg he ih⟩

/-- the documents of a stream, from their tokens -/
theorem load_tokens {fo : FloatOps F} {cfg : Cfg} {n : Nat} {t xs tks toks} (hs : Spec.scanInput cfg t n = (tks, .ended)) (ht : tks.map (·.tt) = .streamStart :: (toks ++ [.streamEnd]))
    (hsem : DocsSem fo true toks xs) : Loader.loadFrom fo cfg n t = .ok xs := by
  obtain ⟨ds, hd, hn, hx, hl⟩ := hsem [] (fun _ => none)
  unfold Loader.loadFrom Loader.parserOn
  simp only [hs]
  obtain ⟨s, h1, -⟩ := Props.C42_complete_partial hd tks ht (Loader.tailOf .ended) (afterNext cfg n (Scanner.new t)).mark
  obtain ⟨out, h8, h9⟩ := Parser.load_local hn (hl []) h1 (docEvents_clean hn)
  obtain ⟨s1, h10, -, h11⟩ := Loader.docs_run (fo := fo) hx (s := Loader.init) rfl rfl
  have h12 : Loader.onEvents fo (Loader.init : Loader.LdSt F) (.streamStart :: (Parser.docEvents ds ++ [.streamEnd])) = some s1 := by
    have : Loader.onEvents fo (Loader.init : Loader.LdSt F) (.streamStart :: (Parser.docEvents ds ++ [.streamEnd])) =
        Loader.onEvents fo Loader.init (Parser.docEvents ds ++ [.streamEnd]) := by
      simp [Loader.onEvents, Loader.onEvent]
    rw [this, Loader.onEvents_append, h10]
    simp [Loader.onEvents, Loader.onEvent]
  have h13 : s1.docs = xs := by simpa [Loader.init] using h11
  simp [Loader.loadFromParser, h8, h9, h12, h13]

/-- a text without documents -/
theorem idle_here {cfg : Cfg} {a l} (ha : Block.IdleLines a) (hl : Block.Idle l) (hf : (a ++ l).length < cfg.fuel) :
    Here cfg (fetchStreamStart (Scanner.new (a ++ l))).2 [.streamStart] [] 0 [] 1 true := by
  generalize hS : (fetchStreamStart (Scanner.new (a ++ l))).2 = S
  have hr : S.src.rest = a ++ l := by rw [← hS]; rfl
  have hk : S.simpleKeys = [SimpleKey.new Marker.default] := by rw [← hS]; rfl
  have hi : S.indent = 0 := by rw [← hS]; rfl
  have hI : S.indents = [] := by rw [← hS]; rfl
  have hty : types S = [.streamStart] := by rw [← hS]; rfl
  have hal : S.simpleKeyAllowed = true := by rw [← hS]; rfl
  have hcalm : Calm S := by
    rw [← hS]
    exact ⟨rfl, rfl, rfl, rfl, by simp [Fit, fetchStreamStart, Scanner.new, Src.new, upd]⟩
  have h0 := here_lay (cfg := cfg) (s := S) (w := a ++ l) (q := []) (I := []) (i := 0) (n := 0) (c := 1)
    (idles_lay ha (idle_last hl)) (by rw [hr]; simp) (by simp [TokenHead]) hf hcalm (fun hx => absurd rfl hx) (by rw [hi, hI]; exact unroll_ok (by omega)) hk (fun hx => by cases hx)
    (fun _ _ _ _ => .inr rfl)
  rw [hty, hal] at h0
  exact h0

theorem load_stream {fo : FloatOps F} {t xs} (h : Block.Stream false fo emptyStr t xs) :
    ∃ N, ∀ cfg n, N ≤ cfg.fuel → N ≤ n → Loader.loadFrom fo cfg n t = .ok xs := by
  rcases h with ⟨a, n, r, ha, hr, rfl, -⟩ | ⟨a, l, ha, hl, rfl, rfl⟩
  · obtain ⟨toks, h⟩ := docs_goal hr
    refine ⟨(a ++ (Block.spaces n ++ r)).length + toks.length + 5, fun cfg m hf hn => ?_⟩
    have h0 := text_here (cfg := cfg) (n := n) ha h.head.2 (by simp at hf ⊢; omega)
    obtain ⟨c, m1, s1, f1, h1, hb⟩ := h.goes h0 (by simp at hf; omega)
    obtain ⟨tks, h2, h3⟩ := text_scan (cfg := cfg) (N := m) (toks := toks) ⟨m1, s1, f1, h1, by simp at hb ⊢; omega⟩ h.clean (by omega) (by omega)
    exact load_tokens h2 h3 h.sem
  · refine ⟨(a ++ l).length + 5, fun cfg m hf hn => ?_⟩
    obtain ⟨tks, h2, h3⟩ := text_scan (cfg := cfg) (N := m) (toks := []) ⟨0, _, .refl, idle_here ha hl (by omega), by simp⟩ (by simp) (by omega) (by simp; omega)
    exact load_tokens h2 h3 .nil

end Verif.Scanner
