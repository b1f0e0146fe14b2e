import Verif.Lemmas.ScanNode
/-!
# Scanning a whole document the emitter wrote
-/
namespace Verif.Scanner
open Verif Verif.CharUtils Verif.Source Verif.Emitter
variable {F : Type}

theorem unroll_comp {c I' i' n} : ∀ {I i}, unroll 0 i I = some (I', i', n) →
    ∃ J j n1 n2, unroll c i I = some (J, j, n1) ∧ unroll 0 j J = some (I', i', n2) ∧ n1 + n2 = n := by
  intro I
  induction I generalizing n with
  | nil =>
    intro i h
    have : i = 0 := by
      unfold unroll at h
      split at h
      · cases h
      · omega
    subst this
    exact ⟨[], 0, 0, n, unroll_ok (by omega), h, by omega⟩
  | cons x xs ih =>
    intro i h
    by_cases hc : c < i
    · rw [unroll_step (by omega)] at h
      cases hu : unroll 0 x.indent xs with
      | none => simp [hu] at h
      | some r =>
        obtain ⟨a, b, d⟩ := r
        simp only [hu, Option.map_some, Option.some.injEq, Prod.mk.injEq] at h
        obtain ⟨rfl, rfl, rfl⟩ := h
        obtain ⟨J, j, n1, n2, h1, h2, h3⟩ := ih hu
        refine ⟨J, j, _, n2, by rw [unroll_step hc, h1]; rfl, h2, ?_⟩
        dsimp only
        omega
    · exact ⟨x :: xs, i, 0, n, unroll_ok (by omega), h, by omega⟩

/-- the fetch at the end of the text -/
theorem stream_ends {cfg s s1 I i n k} (h1 : skipToNextToken cfg s = (.ok (), s1)) (hrest : s1.src.rest = []) (hu : unroll 0 s1.indent s1.indents = some (I, i, n))
    (hk : s1.simpleKeys = [k]) (hkp : k.possible = true → k.required = false) (hlevel : s1.flowLevel = 0) (hst : s.streamStartProduced = true) :
    ∃ s', fetchNextToken cfg s = (.ok (), s') ∧ NoKeys s' ∧ types s' = types s1 ++ List.replicate n .blockEnd ++ [.streamEnd] := by
  have hs : ∃ k', staleSimpleKeys s1 = (.ok (), { s1 with simpleKeys := [k'] }) ∧ (k'.required && k'.possible) = false := by
    refine ⟨if isStale s1 k then { k with possible := false } else k, ?_, ?_⟩
    · rw [stale_run (fun k' hk' hx => ?_)]
      · rw [hk]; rfl
      · rw [hk, List.mem_singleton] at hk'
        subst hk'
        simp only [isStale, Bool.and_eq_true] at hx
        exact hkp hx.1.1
    · split
      · simp
      · by_cases hp : k.possible = true
        · simp [hkp hp]
        · simp [hp]
  obtain ⟨k', hs, hk'⟩ := hs
  obtain ⟨J, j, n1, n2, u1, u2, rfl⟩ := unroll_comp (c := s1.mark.col) hu
  unfold fetchNextToken
  rw [gets_bind, if_pos hst, bind_run h1, bind_run hs, getMark_bind]
  have hun : unrollIndent s1.mark.col { s1 with simpleKeys := [k'] } = (.ok (), settled s1 k' J j n1) := by
    unfold unrollIndent
    rw [if_neg (by simp [hlevel])]
    simp only [u1]
    rfl
  rw [bind_run hun, atEof_bind]
  have he : (settled s1 k' J j n1).src.bufIsEmpty = true := by
    show s1.src.bufIsEmpty = true
    simp [Src.bufIsEmpty, hrest]
  rw [he, if_pos rfl]
  unfold fetchStreamEnd setAllowed push
  rw [upd_bind]
  obtain ⟨m, hm⟩ : ∃ m, (if (settled s1 k' J j n1).mark.col ≠ 0 then { settled s1 k' J j n1 with mark := ⟨(settled s1 k' J j n1).mark.pos, 1, (settled s1 k' J j n1).mark.line + 1⟩ }
      else settled s1 k' J j n1) = { settled s1 k' J j n1 with mark := m } := by
    split
    · exact ⟨_, rfl⟩
    · exact ⟨_, rfl⟩
  rw [hm]
  have hbad : (({ settled s1 k' J j n1 with mark := m } : SSt).simpleKeys.any fun k => k.required && k.possible) = false := by
    simp [settled, hk']
  ev [hbad]
  have hun2 : unrollIndent 0 { settled s1 k' J j n1 with mark := m, simpleKeys := [{ k' with possible := false }] } =
      (.ok (), { settled s1 k' I i n1 with mark := m, simpleKeys := [{ k' with possible := false }], tokens := (s1.tokens ++ List.replicate n1 ⟨Span.empty s1.mark, .blockEnd⟩) ++ List.replicate n2 ⟨Span.empty m, .blockEnd⟩ }) := by
    unfold unrollIndent
    rw [if_neg (by simp [settled, hlevel])]
    simp only [settled, u2]
  have hkeys : (settled s1 k' J j n1).simpleKeys.map (fun k => { k with possible := false }) = [{ k' with possible := false }] := rfl
  rw [hkeys, bind_run hun2, bind_run (remove_run (k := { k' with possible := false }) rfl rfl)]
  ev []
  refine ⟨_, rfl, ?_, ?_⟩
  · intro k hk
    simp [settled] at hk
    rw [hk]
  · simp [types, ← List.replicate_append_replicate]

theorem stream_end {cfg s out I i c al} (h : Here cfg s out I i [] c al) : ∃ s', fetchNextToken cfg s = (.ok (), s') ∧ NoKeys s' ∧ types s' = out ++ [.streamEnd] := by
  obtain ⟨s1, n, k, h1, hrest, -, hu, rfl, hk, hkp, hc, hnp, hst⟩ := h
  rw [lowCol_nil] at hu
  exact stream_ends h1 hrest hu hk (fun hp => (hkp hp).1) hc.level hst

/-- before the first document -/
theorem first_here {cfg : Cfg} {t} (hf : 0 < cfg.fuel) :
    Here cfg (fetchStreamStart (Scanner.new (bs!"---\n" ++ t))).2 [.streamStart] [] 0 (bs!"---\n" ++ t) 1 true := by
  generalize hS : (fetchStreamStart (Scanner.new (bs!"---\n" ++ t))).2 = S
  have hr : S.src.rest = bs!"---\n" ++ t := by rw [← hS]; rfl
  have hst : S.streamStartProduced = true := by rw [← hS]; rfl
  have hk : S.simpleKeys = [SimpleKey.new Marker.default] := by rw [← hS]; rfl
  have hi : S.indent = 0 := by rw [← hS]; rfl
  have hI : S.indents = [] := by rw [← hS]; rfl
  have hc : S.mark = ⟨0, 1, 1⟩ := by rw [← hS]; rfl
  have hl : S.flowLevel = 0 := by rw [← hS]; rfl
  have ht : types S = [.streamStart] := by rw [← hS]; rfl
  have hp : S.tokensParsed = 0 := by rw [← hS]; rfl
  have ha : S.simpleKeyAllowed = true := by rw [← hS]; rfl
  have him : S.implicitFlowMappingStates = [] := by rw [← hS]; rfl
  have hfit : Fit S.src := by rw [← hS]; simp [Fit, fetchStreamStart, Scanner.new, Src.new, upd]
  clear hS
  refine ⟨S, 0, _, skip_nil (q := bs!"---\n" ++ t) (by simp [TokenHead]) hr hf, hr, fun _ => ⟨by rw [hc], ha⟩, ?_, by rw [ht]; rfl, hk, (fun hx => by cases hx), ⟨hl, him, hp, hst, hfit⟩, ?_, hst⟩
  · rw [hI, hi]; exact unroll_ok (by omega)
  · exact NP.last (a := []) ht rfl

/-- no key is possible when the next token is reached -/
def Quiet (cfg : Cfg) (s : SSt) : Prop := ∃ s1, skipToNextToken cfg s = (.ok (), s1) ∧ ∀ k ∈ s1.simpleKeys, k.possible = false

theorem unroll_zero {n} : ∀ {I : List Indent} {i}, unroll 1 i I = some ([], 0, n) → unroll 0 i I = some ([], 0, n) := by
  intro I
  induction I generalizing n with
  | nil =>
    intro i h
    unfold unroll at h
    split at h
    · cases h
    · simp only [Option.some.injEq, Prod.mk.injEq] at h
      obtain ⟨-, rfl, rfl⟩ := h
      rfl
  | cons x xs ih =>
    intro i h
    unfold unroll at h ⊢
    split at h
    · rw [if_pos (by omega)]
      cases hu : unroll 1 x.indent xs with
      | none => simp [hu] at h
      | some r =>
        obtain ⟨a, b, d⟩ := r
        simp only [hu, Option.map_some, Option.some.injEq, Prod.mk.injEq] at h
        obtain ⟨rfl, rfl, rfl⟩ := h
        rw [ih hu]
        rfl
    · simp at h

/-- the fetch of a document marker or a directive, up to the place where it is looked at -/
theorem at_first {cfg s out q al} (hq : q ≠ []) (h : Here cfg s out [] 0 q 1 al) (ha : al = true ∨ Quiet cfg s) : ∃ S k, fetchNextToken cfg s = fetchAtToken cfg S ∧ S.src.rest = q ∧ S.mark.col = 1 ∧
    Calm S ∧ S.simpleKeys = [k] ∧ k.possible = false ∧
    ∃ n, unrollIndent 0 S = (.ok (), { S with indents := [], indent := 0, tokens := S.tokens ++ List.replicate n ⟨Span.empty S.mark, .blockEnd⟩ }) ∧ out = types S ++ List.replicate n .blockEnd := by
  obtain ⟨s1, n, k, h1, hrest, hcol, hu, rfl, hk, hkp, hc, hnp, hst⟩ := h
  obtain ⟨hcol, hal⟩ := hcol hq
  have hu : unroll 0 s1.indent s1.indents = some ([], 0, n) := by
    unfold lowCol at hu
    split at hu
    · exact hu
    · exact unroll_zero hu
  have hs : ∃ k', staleSimpleKeys s1 = (.ok (), { s1 with simpleKeys := [k'] }) ∧ k'.possible = false := by
    refine ⟨if isStale s1 k then { k with possible := false } else k, ?_, ?_⟩
    · rw [stale_run (fun k' hk' hx => ?_)]
      · rw [hk]; rfl
      · rw [hk, List.mem_singleton] at hk'
        subst hk'
        simp only [isStale, Bool.and_eq_true] at hx
        exact (hkp hx.1.1).1
    · split
      · rfl
      · rename_i hx
        cases hp : k.possible with
        | false => rfl
        | true =>
          rcases ha with rfl | ⟨s2, h2, h3⟩
          · rcases (hkp hp).2 hq with h2 | ⟨h2, -⟩
            · exact absurd (by simp [isStale, hp, hc.level, h2]) hx
            · cases h2
          · rw [h1] at h2
            cases h2
            rw [h3 k (by rw [hk]; simp)] at hp
            cases hp
  obtain ⟨k', hs, hk'⟩ := hs
  obtain ⟨J, j, n1, n2, u1, u2, rfl⟩ := unroll_comp (c := s1.mark.col) hu
  have hun : unrollIndent s1.mark.col { s1 with simpleKeys := [k'] } = (.ok (), settled s1 k' J j n1) := by
    unfold unrollIndent
    rw [if_neg (by simp [hc.level])]
    simp only [u1]
    rfl
  refine ⟨settled s1 k' J j n1, k', ?_, hrest, hcol, ⟨hc.level, hc.impl, hc.parsed, hc.started, hc.fit⟩, rfl, hk', n2, ?_, ?_⟩
  · unfold fetchNextToken
    rw [gets_bind, if_pos hst, bind_run h1, bind_run hs, getMark_bind]
    rw [bind_run hun, atEof_bind]
    have he : (settled s1 k' J j n1).src.bufIsEmpty = false := by
      show s1.src.bufIsEmpty = false
      simp [Src.bufIsEmpty, hrest, hq]
    rw [he]
    rfl
  · unfold unrollIndent
    rw [if_neg (by simp [settled, hc.level])]
    simp only [settled, u2]
  · simp [types, settled, ← List.replicate_append_replicate]

/-- a document marker is read -/
theorem indicator_run {S : SSt} {k tt q n} (hr : S.src.rest = q) (hq3 : 3 ≤ q.length) (hk : S.simpleKeys = [k]) (hkp : k.possible = false) (hc : Calm S)
    (hu : unrollIndent 0 S = (.ok (), { S with indents := [], indent := 0, tokens := S.tokens ++ List.replicate n ⟨Span.empty S.mark, .blockEnd⟩ })) :
    ∃ s', fetchDocumentIndicator tt S = (.ok (), s') ∧ s'.src.rest = q.drop 3 ∧ types s' = types S ++ List.replicate n .blockEnd ++ [tt] ∧ s'.indents = [] ∧ s'.indent = 0 ∧
      Calm s' ∧ s'.simpleKeys = [k] ∧ s'.simpleKeyAllowed = false ∧ s'.mark.col = S.mark.col + 3 := by
  unfold fetchDocumentIndicator setAllowed push skipN
  rw [bind_run hu, bind_run (remove_run (k := k) (s := { S with indents := [], indent := 0, tokens := S.tokens ++ List.replicate n ⟨Span.empty S.mark, .blockEnd⟩ }) hk hkp)]
  ev []
  refine ⟨_, rfl, ?_, ?_, rfl, rfl, ⟨hc.level, hc.impl, hc.parsed, hc.started, hc.fit.skip (by rw [hr]; exact hq3)⟩, hk, rfl, rfl⟩
  · simp [Src.skip, hr]
  · simp [types]

/-- the fetch of `---` -/
theorem start_mark {cfg s out r al} (h : Here cfg s out [] 0 (45 :: 45 :: 45 :: r) 1 al) (ha : al = true ∨ Quiet cfg s) (hr : isBlankOrBreakz (r.headD 0) = true) :
    ∃ s' k, fetchNextToken cfg s = (.ok (), s') ∧ s'.src.rest = r ∧ types s' = out ++ [.documentStart] ∧ s'.indents = [] ∧ s'.indent = 0 ∧ Calm s' ∧
      s'.simpleKeys = [k] ∧ k.possible = false ∧ s'.simpleKeyAllowed = false ∧ s'.mark.col = 4 := by
  obtain ⟨S, k, e, r2, c2, hc, hk, hkp, n, hu, rfl⟩ := at_first (by simp) h ha
  obtain ⟨s', h1, h2, h3, h4, h5, h6, h7, h8, h9⟩ := indicator_run (tt := .documentStart) r2 (by simp) hk hkp hc hu
  refine ⟨s', k, ?_, h2, h3, h4, h5, h6, h7, hkp, h8, by rw [h9, c2]⟩
  rw [e, ← h1]
  have p0 : S.src.peekz 0 = 45 := peekz_cons r2
  have p3 : isBlankOrBreakz (S.src.peekz 3) = true := by rw [← hr]; cases r <;> simp [Src.peekz, r2]
  have hd : nextIsDocumentStart S = true := by simp [nextIsDocumentStart, Src.nextIsThree, p3]; simp [Src.peekz, r2]
  have h1 : (S.mark.col == 1) = true := by rw [c2]; rfl
  unfold fetchAtToken
  ev [h1, hd, p0, Bool.true_and, if_pos]
  simp only [show ((45 : Nat) == 37) = false from rfl, if_neg Bool.false_ne_true]

/-- the fetch of `...` -/
theorem end_mark {cfg s out r} (h : Here cfg s out [] 0 (46 :: 46 :: 46 :: r) 1 true) (hr : isBlankOrBreakz (r.headD 0) = true) :
    ∃ S s' k, fetchNextToken cfg s = (do let _ ← skipWsToEol true false
                                         let c ← peekz 0
                                         let m ← getMark
                                         failIf (!(isBreakz c || c == b%'#')) m "Invalid content after document end marker") s' ∧ s'.src.rest = r ∧ types s' = out ++ [.documentEnd] ∧ s'.indents = [] ∧ s'.indent = 0 ∧ Calm s' ∧
      s'.simpleKeys = [k] ∧ k.possible = false ∧ s'.simpleKeyAllowed = false ∧ fetchDocumentIndicator .documentEnd S = (.ok (), s') := by
  obtain ⟨S, k, e, r2, c2, hc, hk, hkp, n, hu, rfl⟩ := at_first (by simp) h (.inl rfl)
  obtain ⟨s', h1, h2, h3, h4, h5, h6, h7, h8, h9⟩ := indicator_run (tt := .documentEnd) r2 (by simp) hk hkp hc hu
  refine ⟨S, s', k, ?_, h2, h3, h4, h5, h6, h7, hkp, h8, h1⟩
  rw [e]
  have p0 : S.src.peekz 0 = 46 := peekz_cons r2
  have p3 : isBlankOrBreakz (S.src.peekz 3) = true := by rw [← hr]; cases r <;> simp [Src.peekz, r2]
  have hd : nextIsDocumentEnd S = true := by simp [nextIsDocumentEnd, Src.nextIsThree, p3]; simp [Src.peekz, r2]
  have hd' : nextIsDocumentStart S = false := by simp [nextIsDocumentStart, Src.nextIsThree, p0]
  have hcol : (S.mark.col == 1) = true := by rw [c2]; rfl
  unfold fetchAtToken
  ev [hcol, hd, hd', p0, Bool.true_and, if_pos]
  simp only [show ((46 : Nat) == 37) = false from rfl, if_neg Bool.false_ne_true]
  unfold finishDocument
  rw [bind_run h1]

/-- the fetch of `---` at the end of a line -/
theorem doc_mark {cfg s out t} (h : Here cfg s out [] 0 (bs!"---\n" ++ t) 1 true) : ∃ s', fetchNextToken cfg s = (.ok (), s') ∧ s'.src.rest = 10 :: t ∧
    types s' = out ++ [.documentStart] ∧ s'.indents = [] ∧ s'.indent = 0 ∧ Calm s' ∧ ∃ k, s'.simpleKeys = [k] ∧ k.possible = false := by
  obtain ⟨s', k, h1, h2, h3, h4, h5, h6, h7, h8, -⟩ := start_mark (r := 10 :: t) h (.inl rfl) rfl
  exact ⟨s', h1, h2, h3, h4, h5, h6, k, h7, h8⟩

/-- neither the end of the stream nor an anchor -/
@[simp] def dull : TokenType → Bool
  | .streamEnd => false
  | .anchor _ => false
  | _ => true

mutual
theorem nodeToks_dull {fo : FloatOps F} {ec : Config} (x : Yaml F) : ∀ t ∈ nodeToks fo ec x, dull t = true := by
  match x with
  | .seq xs => rw [nodeToks]; exact seqToks_dull xs
  | .map es => rw [nodeToks]; exact mapToks_dull es
  | .scalar x =>
    rw [nodeToks]
    cases x with
    | str v => rw [leafTok]; split <;> simp [scalarTok, dull]
    | _ => simp [leafTok, scalarTok, dull]
  | .bad => rw [nodeToks]; simp; all_goals simp
  | .tagged _ y =>
    have h1 := nodeToks_dull (fo := fo) (ec := ec) y
    rw [nodeToks]
    intro t ht
    rcases List.mem_cons.1 ht with rfl | ht
    · simp
    · exact h1 t ht
  | .alias _ => rw [nodeToks]; simp; all_goals simp
theorem seqToks_dull {fo : FloatOps F} {ec : Config} (xs : List (Yaml F)) : ∀ t ∈ seqToks fo ec xs, dull t = true := by
  match xs with
  | [] => simp [seqToks]
  | x :: xs =>
    have h1 := nodeToks_dull (fo := fo) (ec := ec) x
    have h2 := itemToks_dull (fo := fo) (ec := ec) xs
    rw [seqToks]
    intro t ht
    simp only [List.mem_cons, List.mem_append, List.mem_nil_iff, or_false] at ht
    rcases ht with rfl | rfl | ht | ht | rfl
    · simp
    · simp
    · exact h1 t ht
    · exact h2 t ht
    · simp
theorem itemToks_dull {fo : FloatOps F} {ec : Config} (xs : List (Yaml F)) : ∀ t ∈ itemToks fo ec xs, dull t = true := by
  match xs with
  | [] => simp [itemToks]
  | x :: xs =>
    have h1 := nodeToks_dull (fo := fo) (ec := ec) x
    have h2 := itemToks_dull (fo := fo) (ec := ec) xs
    rw [itemToks]
    intro t ht
    simp only [List.mem_cons, List.mem_append] at ht
    rcases ht with rfl | ht | ht
    · simp
    · exact h1 t ht
    · exact h2 t ht
theorem mapToks_dull {fo : FloatOps F} {ec : Config} (es : List (Yaml F × Yaml F)) : ∀ t ∈ mapToks fo ec es, dull t = true := by
  match es with
  | [] => simp [mapToks]
  | e :: es =>
    have h1 := entryToks_dull (fo := fo) (ec := ec) e
    have h2 := entriesToks_dull (fo := fo) (ec := ec) es
    rw [mapToks]
    intro t ht
    simp only [List.mem_cons, List.mem_append, List.mem_nil_iff, or_false] at ht
    rcases ht with rfl | ht | ht | rfl
    · simp
    · exact h1 t ht
    · exact h2 t ht
    · simp
theorem entriesToks_dull {fo : FloatOps F} {ec : Config} (es : List (Yaml F × Yaml F)) : ∀ t ∈ entriesToks fo ec es, dull t = true := by
  match es with
  | [] => simp [entriesToks]
  | e :: es =>
    have h1 := entryToks_dull (fo := fo) (ec := ec) e
    have h2 := entriesToks_dull (fo := fo) (ec := ec) es
    rw [entriesToks]
    intro t ht
    simp only [List.mem_append] at ht
    rcases ht with ht | ht
    · exact h1 t ht
    · exact h2 t ht
theorem entryToks_dull {fo : FloatOps F} {ec : Config} (e : Yaml F × Yaml F) : ∀ t ∈ entryToks fo ec e, dull t = true := by
  match e with
  | (k, v) =>
    have h1 := nodeToks_dull (fo := fo) (ec := ec) k
    have h2 := nodeToks_dull (fo := fo) (ec := ec) v
    rw [entryToks]
    intro t ht
    simp only [List.mem_cons, List.mem_append] at ht
    rcases ht with rfl | ht | rfl | ht
    · simp
    · exact h1 t ht
    · simp
    · exact h2 t ht
end

/-- the text of documents, one after the other -/
def docsTxt (fo : FloatOps F) (ec : Config) : List (Yaml F) → List Byte
  | [] => []
  | [x] => bs!"---\n" ++ nodeTxt fo ec 0 x
  | x :: xs => bs!"---\n" ++ (nodeTxt fo ec 0 x ++ (10 :: docsTxt fo ec xs))

/-- the tokens of documents -/
def docsToks (fo : FloatOps F) (ec : Config) : List (Yaml F) → List TokenType
  | [] => []
  | x :: xs => .documentStart :: (nodeToks fo ec x ++ docsToks fo ec xs)

theorem docsTxt_cons {fo : FloatOps F} {ec x xs} : docsTxt fo ec (x :: xs) =
    bs!"---\n" ++ (nodeTxt fo ec 0 x ++ ((if xs = [] then [] else [10]) ++ docsTxt fo ec xs)) := by
  cases xs <;> simp [docsTxt]

theorem docsTxt_mark {fo : FloatOps F} {ec x xs} : ∃ t, docsTxt fo ec (x :: xs) = bs!"---\n" ++ t := ⟨_, docsTxt_cons⟩

theorem docs_goes {fo : FloatOps F} {ec : Config} {cfg : Cfg} : ∀ {xs : List (Yaml F)} {s out}, xs ≠ [] → (∀ x ∈ xs, Scans fo ec true x) →
    (∀ x ∈ xs.dropLast, topBlock ec x = false) → Here cfg s out [] 0 (docsTxt fo ec xs) 1 true → (docsTxt fo ec xs).length < cfg.fuel →
    ∃ c, Goes cfg s (docsTxt fo ec xs).length (out ++ docsToks fo ec xs) [] 0 [] c true := by
  intro xs
  induction xs with
  | nil => intro _ _ h; exact absurd rfl h
  | cons x xs ih =>
    intro s out _ hx htb h hf
    have hx0 := hx x (by simp)
    rw [docsTxt_cons] at h hf
    obtain ⟨s0, e0, hr0, ht0, hI0, hi0, hc0, k, hk0, hkp0⟩ := doc_mark h
    obtain ⟨hn, hh⟩ := nodeTxt_head (ec := ec) (l := 0) x hx0
    have h0 := here_gap (cfg := cfg) (s := s0) (w := [10]) (q := nodeTxt fo ec 0 x ++ ((if xs = [] then [] else [10]) ++ docsTxt fo ec xs)) (c := 1) (k := k) (I := []) (i := 0) (n := 0)
      (by simp) hr0 (head_append hn hh) (by simp at hf ⊢; omega) hc0 (fun _ => by simp [gapMark]) (by rw [hI0, hi0]; exact unroll_ok (by omega)) hk0
      (fun hx => by rw [hkp0] at hx; cases hx) (fun _ _ _ _ => .inr rfl)
    rw [ht0] at h0
    have h0' : Here cfg s0 (out ++ [.documentStart]) [] 0 (nodeTxt fo ec 0 x ++ ((if xs = [] then [] else [10]) ++ docsTxt fo ec xs)) 1 true := by simpa using h0
    have hend : End (if xs = [] then [] else [10]) (docsTxt fo ec xs) 1 0 := by
      cases xs with
      | nil => exact .inl ⟨rfl, rfl⟩
      | cons y ys =>
        obtain ⟨t, ht⟩ := docsTxt_mark (fo := fo) (ec := ec) (x := y) (xs := ys)
        rw [ht]
        exact .inr ⟨rfl, by omega, .inr ⟨rfl, rfl, .inl rfl, rfl⟩, by simp [TokenHead], by simp⟩
    have hg := node_goes (I' := []) (i' := 0) (n := 0) (c' := 1) x hx0 (fun _ => rfl) h0' (by omega) (fun _ => rfl) (fun _ => ⟨rfl, rfl⟩) (.inl ⟨rfl, rfl⟩) (.inl rfl) (by omega) hend
      (by simp at hf ⊢; omega) (unroll_ok (by omega)) (by
        intro _ hb
        cases xs with
        | nil => simp [docsTxt, DocMark]
        | cons y ys => rw [htb x (by simp)] at hb; cases hb)
    obtain ⟨m, s1, f1, h1, hm⟩ := hg
    have h1' : Here cfg s1 (out ++ (.documentStart :: nodeToks fo ec x)) [] 0 (docsTxt fo ec xs) 1 true := by simpa using h1
    cases xs with
    | nil =>
      refine ⟨1, m + 1, s1, .step e0 f1, by simpa [docsToks, docsTxt] using h1', ?_⟩
      rw [docsTxt_cons]
      simp [docsTxt] at hm ⊢
      omega
    | cons y ys =>
      obtain ⟨c, m', s2, f2, h2, hm2⟩ := ih (s := s1) (out := out ++ (.documentStart :: nodeToks fo ec x)) (by simp) (fun z hz => hx z (List.mem_cons_of_mem _ hz))
        (fun z hz => htb z (by rw [List.dropLast_cons_of_ne_nil (by simp)]; exact List.mem_cons_of_mem _ hz)) h1' (by simp at hf; omega)
      have hF := (Fetches.step e0 f1).trans f2
      refine ⟨c, _, s2, hF, ?_, ?_⟩
      · rw [docsToks]; simpa using h2
      · rw [docsTxt_cons]
        simp at hm hm2 ⊢
        omega

theorem docsToks_dull {fo : FloatOps F} {ec : Config} (xs : List (Yaml F)) : ∀ t ∈ docsToks fo ec xs, dull t = true := by
  induction xs with
  | nil => simp [docsToks]
  | cons x xs ih =>
    rw [docsToks]
    intro t ht
    simp only [List.mem_cons, List.mem_append] at ht
    rcases ht with rfl | ht | ht
    · simp
    · exact nodeToks_dull x t ht
    · exact ih t ht

/-- The emitter's texts for trees, one after the other, are scanned into the tokens of the trees. -/
theorem scan_docs {fo : FloatOps F} {ec : Config} {cfg : Cfg} {xs : List (Yaml F)} {N : Nat} (hne : xs ≠ []) (hx : ∀ x ∈ xs, Scans fo ec true x)
    (htb : ∀ x ∈ xs.dropLast, topBlock ec x = false) (hf : (docsTxt fo ec xs).length + 4 < cfg.fuel) (hN : (docsToks fo ec xs).length + 3 < N) :
    ∃ toks, Spec.scanInput cfg (docsTxt fo ec xs) N = (toks, .ended) ∧
      toks.map (·.tt) = .streamStart :: (docsToks fo ec xs ++ [.streamEnd]) := by
  have h0 : Here cfg (fetchStreamStart (Scanner.new (docsTxt fo ec xs))).2 [.streamStart] [] 0 (docsTxt fo ec xs) 1 true := by
    cases xs with
    | nil => exact absurd rfl hne
    | cons x xs =>
      obtain ⟨t, ht⟩ := docsTxt_mark (fo := fo) (ec := ec) (x := x) (xs := xs)
      rw [ht]
      exact first_here (by omega)
  obtain ⟨c, m, s1, f1, h1, hm⟩ := docs_goes hne hx htb h0 (by omega)
  obtain ⟨s2, e2, hk2, ht2⟩ := stream_end h1
  have hF : Fetches cfg (1 + m) (fetchStreamStart (Scanner.new (docsTxt fo ec xs))).2 s2 := f1.trans (.step e2 .refl)
  have ht2' : s2.tokens.map (·.tt) = .streamStart :: (docsToks fo ec xs ++ [.streamEnd]) := by
    have : types s2 = _ := ht2
    simpa [types] using this
  obtain ⟨body, last, hbl⟩ : ∃ body last, s2.tokens = body ++ [last] := by
    rcases List.eq_nil_or_concat s2.tokens with h | ⟨a, b, h⟩
    · rw [h] at ht2'; simp at ht2'
    · exact ⟨a, b, by simpa using h⟩
  have hsplit : body.map (·.tt) = .streamStart :: docsToks fo ec xs ∧ last.tt = .streamEnd := by
    rw [hbl, List.map_append] at ht2'
    have : body.map (·.tt) ++ [last.tt] = (.streamStart :: docsToks fo ec xs) ++ [.streamEnd] := by simpa using ht2'
    obtain ⟨h1, h2⟩ := List.append_inj' this rfl
    exact ⟨h1, by simpa using h2⟩
  have hlen : body.length = (docsToks fo ec xs).length + 1 := by
    have := congrArg List.length hsplit.1
    simpa using this
  refine ⟨s2.tokens, ?_, ht2'⟩
  rw [hbl]
  refine scan_of_fetches hF hk2 hbl (fun t ht => ?_) hsplit.2 (by simp at hm; omega) (by omega)
  have : t.tt ∈ body.map (·.tt) := List.mem_map_of_mem ht
  rw [hsplit.1] at this
  simp only [List.mem_cons] at this
  rcases this with h | h
  · rw [h]; simp
  · intro h'
    have := docsToks_dull xs _ h
    rw [h'] at this
    cases this

/-- The emitter's text for a tree is scanned into the tokens of the tree. -/
theorem scan_tree {fo : FloatOps F} {ec : Config} {cfg : Cfg} {x : Yaml F} {N : Nat} (hx : Scans fo ec true x)
    (hf : (nodeTxt fo ec 0 x).length + 8 < cfg.fuel) (hN : (nodeToks fo ec x).length + 4 < N) :
    ∃ toks, Spec.scanInput cfg (bs!"---\n" ++ nodeTxt fo ec 0 x) N = (toks, .ended) ∧
      toks.map (·.tt) = .streamStart :: .documentStart :: (nodeToks fo ec x ++ [.streamEnd]) := by
  have := scan_docs (ec := ec) (cfg := cfg) (xs := [x]) (N := N) (by simp) (by simpa using hx) (by simp) (by simp [docsTxt]; omega) (by simp [docsToks]; omega)
  simpa [docsTxt, docsToks] using this

end Verif.Scanner
