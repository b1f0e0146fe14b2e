import Verif.Lemmas.ScanWrong
import Verif.Spec.Head
import Verif.Spec.ParserRuns
import Verif.Lemmas.ParserLocal
/-!
# Directives that no document follows, or with two `%YAML` among them
-/
namespace Verif.Parser
open Verif Verif.Spec

theorem peek_left {s : PSt} {t ts} (h : remaining s = t :: ts) : ∃ s', peekToken s = (.ok t, s') ∧ s'.token = some t ∧ s'.toks = ts := by
  unfold peekToken
  unfold remaining at h
  cases hs : s.token with
  | some u =>
    rw [hs] at h
    simp at h
    exact ⟨s, by simp [h.1], by rw [hs, h.1], h.2⟩
  | none =>
    rw [hs] at h
    simp at h
    simp only [scanNextToken, h]
    exact ⟨_, rfl, rfl, rfl⟩

/-- not what the next directive or `---` is -/
def Stray (tt : TokenType) : Prop := tt ≠ .documentStart ∧ isDirectiveTok tt = false

/-- the directives `ds` come to nothing before `x` -/
def Refused (ds : List Token) (x : Token) : Prop := (isVersion x.tt = true ∧ ∃ d ∈ ds, isVersion d.tt = true) ∨ (ds ≠ [] ∧ Stray x.tt)

theorem directives_left {x : Token} {rest} : ∀ {ds : List Token} {fuel vr} {s : PSt}, remaining s = ds ++ x :: rest → (∀ d ∈ ds, isDirectiveTok d.tt = true) → ds.length < fuel →
    (∃ e s', processDirectivesLoop fuel vr s = (.err e, s')) ∨ (isVersion x.tt = true ∧ vr = false ∧ ∀ d ∈ ds, isVersion d.tt = false) ∨ (∃ a b, x.tt = .tagDirective a b) ∨
    (isDirectiveTok x.tt = false ∧ ∃ s', processDirectivesLoop fuel vr s = (.ok (), s') ∧ remaining s' = x :: rest) := by
  intro ds
  induction ds with
  | nil =>
    intro fuel vr s h hd hf
    obtain ⟨fuel, rfl⟩ : ∃ m, fuel = m + 1 := ⟨fuel - 1, by simp at hf; omega⟩
    obtain ⟨s', h1, h2, h3⟩ := peek_left h
    rw [processDirectivesLoop, pm_bind, h1]
    dsimp only
    cases hx : x.tt with
    | versionDirective a b =>
      cases vr with
      | true => exact .inl ⟨_, _, rfl⟩
      | false => exact .inr (.inl ⟨rfl, rfl, by simp⟩)
    | tagDirective a b => exact .inr (.inr (.inl ⟨a, b, rfl⟩))
    | _ => exact .inr (.inr (.inr ⟨rfl, s', rfl, by simp [remaining, h2, h3]⟩))
  | cons d ds ih =>
    intro fuel vr s h hd hf
    obtain ⟨fuel, rfl⟩ : ∃ m, fuel = m + 1 := ⟨fuel - 1, by simp at hf; omega⟩
    obtain ⟨s', h1, h2, h3⟩ := peek_left h
    have hd1 := hd d (by simp)
    have hd' : ∀ d ∈ ds, isDirectiveTok d.tt = true := fun d' h' => hd d' (by simp [h'])
    rw [processDirectivesLoop, pm_bind, h1]
    dsimp only
    cases hx : d.tt with
    | versionDirective a b =>
      cases vr with
      | true => exact .inl ⟨_, _, rfl⟩
      | false =>
        rcases ih (fuel := fuel) (vr := true) (s := { s' with tags := [], token := none }) (by simp [remaining, h3]) hd' (by simp at hf; omega) with h4 | h4 | h4 | h4
        · exact .inl h4
        · cases h4.2.1
        · exact .inr (.inr (.inl h4))
        · exact .inr (.inr (.inr h4))
    | tagDirective a b =>
      rcases ih (fuel := fuel) (vr := vr) (s := { s' with tags := mapInsert [] a b, token := none }) (by simp [remaining, h3]) hd' (by simp at hf; omega) with h4 | h4 | h4 | h4
      · exact .inl h4
      · refine .inr (.inl ⟨h4.1, h4.2.1, fun d' h' => ?_⟩)
        rcases List.mem_cons.mp h' with rfl | h'
        · rw [hx]; rfl
        · exact h4.2.2 d' h'
      · exact .inr (.inr (.inl h4))
      · exact .inr (.inr (.inr h4))
    | _ => rw [hx] at hd1; cases hd1

theorem explicit_refused {ds : List Token} {x rest} {s : PSt} (h : remaining s = ds ++ x :: rest) (hd : ∀ d ∈ ds, isDirectiveTok d.tt = true) (hx : Refused ds x) :
    ∃ e s', explicitDocumentStart s = (.err e, s') := by
  unfold explicitDocumentStart
  rw [pm_bind]
  have hpd : processDirectives s = processDirectivesLoop (s.toks.length + 2) false s := rfl
  rw [hpd]
  have hlen : ds.length < s.toks.length + 2 := by
    have := congrArg List.length h
    simp [remaining] at this
    have h2 : s.token.toList.length ≤ 1 := by cases s.token <;> simp
    omega
  rcases directives_left h hd hlen with ⟨e, s', h4⟩ | h4 | ⟨a, b, h4⟩ | ⟨h4, s', h5, h6⟩
  · exact ⟨e, s', by rw [h4]⟩
  · rcases hx with ⟨h1, d, hd1, hd2⟩ | h1
    · rw [h4.2.2 d hd1] at hd2; cases hd2
    · have := h1.2.2
      rcases x with ⟨sp, tt⟩
      cases tt <;> simp_all [isVersion, isDirectiveTok]
  · rcases hx with ⟨h1, -⟩ | h1
    · rw [h4] at h1; cases h1
    · have := h1.2.2; rw [h4] at this; cases this
  · rw [h5]
    dsimp only
    have hs : x.tt ≠ .documentStart := by
      rcases hx with ⟨h1, -⟩ | h1
      · intro h'; rw [h'] at h1; cases h1
      · exact h1.2.1
    obtain ⟨s1, h7, -⟩ := peek_left h6
    rw [pm_bind, h7]
    dsimp only
    cases hx' : x.tt with
    | documentStart => exact absurd hx' hs
    | _ => exact ⟨_, _, rfl⟩

theorem start_refused {ds : List Token} {x rest} {s : PSt} (h : remaining s = ds ++ x :: rest) (hd : ∀ d ∈ ds, isDirectiveTok d.tt = true) (hx : Refused ds x) (b : Bool) :
    ∃ e s', documentStart b s = (.err e, s') := by
  obtain ⟨d, ds', rfl⟩ : ∃ d ds', ds = d :: ds' := by
    cases ds with
    | nil =>
      rcases hx with ⟨-, d, hd, -⟩ | h
      · cases hd
      · exact absurd rfl h.1
    | cons d ds' => exact ⟨d, ds', rfl⟩
  have hd1 := hd d (by simp)
  obtain ⟨s1, h1, h2, h3⟩ := peek_left h
  have hr1 : remaining s1 = d :: ds' ++ x :: rest := by simp [remaining, h2, h3]
  obtain ⟨e, s2, he⟩ := explicit_refused hr1 hd hx
  have hk : skipDocumentEnds (s.toks.length + 2) s = (.ok (), s1) := by
    rw [skipDocumentEnds, pm_bind, h1]
    dsimp only
    cases hx' : d.tt with
    | versionDirective a b => rfl
    | tagDirective a b => rfl
    | _ => rw [hx'] at hd1; cases hd1
  have hp : peekToken s1 = (.ok d, s1) := by unfold peekToken; rw [h2]
  refine ⟨e, s2, ?_⟩
  unfold documentStart
  rw [pm_bind]
  show (skipDocumentEnds (s.toks.length + 2) >>= _) s = _
  rw [pm_bind, hk]
  dsimp only
  rw [pm_bind, hp]
  dsimp only
  cases hx : d.tt with
  | versionDirective a b => exact he
  | tagDirective a b => exact he
  | _ => rw [hx] at hd1; cases hd1

theorem lm_bind {α β} (m : LM α) (f : α → LM β) (s : LSt) : (m >>= f) s = match m s with
    | (.ok a, s') => f a s'
    | (.err e, s') => (.err e, s')
    | (.panic, s') => (.panic, s')
    | (.hang, s') => (.hang, s') := rfl

/-- A stream that begins with directives that come to nothing: one event, then an error. -/
theorem refused_run {ss : Token} {ds : List Token} {x rest tail m} (hss : ss.tt = .streamStart) (hd : ∀ d ∈ ds, isDirectiveTok d.tt = true) (hx : Refused ds x) :
    ∃ e, (∀ k, (pullAll (k + 2) (new (ss :: (ds ++ x :: rest)) tail m false)) = ([(.streamStart, ss.span)], .failed e)) ∧
      ∀ multi, ∃ s', Parser.load multi ⟨new (ss :: (ds ++ x :: rest)) tail m false, []⟩ = (.err e, s') := by
  have h1 : nextEventImpl (new (ss :: (ds ++ x :: rest)) tail m false) =
      (.ok (.streamStart, ss.span), { new (ds ++ x :: rest) tail m false with started := true, state := .implicitDocumentStart }) := by
    rcases ss with ⟨sp, tt⟩
    obtain rfl : tt = .streamStart := hss
    rfl
  generalize hS : ({ new (ds ++ x :: rest) tail m false with started := true, state := .implicitDocumentStart } : PSt) = S at h1
  have hr : remaining S = ds ++ x :: rest := by rw [← hS]; rfl
  obtain ⟨e, s', he⟩ := start_refused hr hd hx true
  have h2 : nextEventImpl S = (.err e, s') := by
    rw [← he, ← hS]
    rfl
  refine ⟨e, fun k => ?_, ?_⟩
  · have e1 : nextEvent (new (ss :: (ds ++ x :: rest)) tail m false) = (.ok (some (.streamStart, ss.span)), S) := by
      unfold nextEvent
      rw [if_neg (by exact Bool.false_ne_true), h1]
      rfl
    have e2 : nextEvent S = (.err e, s') := by
      unfold nextEvent
      rw [if_neg (by rw [← hS]; exact Bool.false_ne_true), h2]
    simp only [pullAll, e1, e2]
  · intro multi
    refine ⟨⟨s', [(.streamStart, ss.span)]⟩, ?_⟩
    have e1 : liftP nextEventImpl ⟨new (ss :: (ds ++ x :: rest)) tail m false, []⟩ = (.ok (.streamStart, ss.span), ⟨S, []⟩) := by
      unfold liftP
      rw [h1]
    have e2 : ∀ o, liftP nextEventImpl ⟨S, o⟩ = (.err e, ⟨s', o⟩) := fun o => by
      unfold liftP
      rw [h2]
    have e3 : ∀ f o, loadRest multi (f + 1) ⟨S, o⟩ = (.err e, ⟨s', o⟩) := fun f o => by
      have : loadRest multi (f + 1) ⟨S, o⟩ = loadLoop multi (f + 1) ⟨S, o⟩ := by
        have hE : S.ended = false := by rw [← hS]; rfl
        show (if S.ended then _ else _ : LM Unit) ⟨S, o⟩ = _
        rw [hE]
        rfl
      rw [this, loadLoop, lm_bind, e2]
    unfold Parser.load
    rw [if_neg (by exact Bool.false_ne_true), lm_bind, e1]
    dsimp only
    rw [if_neg (by simp), lm_bind]
    exact e3 _ _

end Verif.Parser

namespace Verif.Scanner
open Verif Verif.CharUtils Verif.Source Verif.Spec Verif.Spec.Faults

/-! ## The first tokens -/

theorem scan_begin {cfg} {body : List Token} (hb : ∀ t ∈ body, t.tt ≠ .streamEnd) :
    ∀ (k : Nat) {p n e eN N}, k = body.length - p → EOk p (body.take p) e → Fetches cfg n e eN → NoKeys eN → eN.tokens = body →
    p ≤ body.length → n < cfg.fuel → k ≤ N → ∃ r, (scan cfg N (view p e)).1 = body.drop p ++ r := by
  intro k
  induction k with
  | zero =>
    intro p n e eN N hk ho hf hnk ht hp hn hN
    exact ⟨_, by rw [List.drop_eq_nil_of_le (by omega)]; rfl⟩
  | succ k ih =>
    intro p n e eN N hk ho hf hnk ht hp hn hN
    obtain ⟨N, rfl⟩ : ∃ j, N = j + 1 := ⟨N - 1, by omega⟩
    have hpl : p < body.length := by omega
    obtain ⟨n', e', t, h1, ho', hf', hn'⟩ := next_run ho hf hnk (by rw [ht]; omega) hn
    have htake : eN.tokens.take (p + 1) = body.take p ++ [t] := by
      clear h1 hf ho hn'
      induction hf' with
      | refl => exact ho'.taken
      | step h2 _ ih => exact ih hnk ht ((sim_fetchNextToken _ ho').1 _ _ h2).2
    have htt : t = body[p] := by
      rw [ht, List.take_add_one, List.getElem?_eq_getElem hpl] at htake
      have := List.append_cancel_left htake
      simpa using this.symm
    have hne : (t.tt == TokenType.streamEnd) = false := by
      rw [htt]; simpa using hb body[p] (List.getElem_mem hpl)
    rw [scan, h1]
    simp only [hne]
    have fl' := ho'.flag
    simp only [flags, Prod.mk.injEq] at fl'
    have hv : ({ view (p + 1) e' with streamEndReached := false, streamEndProduced := false } : SSt) = view (p + 1) e' := by
      have h1 : (view (p + 1) e').streamEndReached = false := fl'.2.1
      have h2 : (view (p + 1) e').streamEndProduced = false := fl'.2.2.2.1
      generalize view (p + 1) e' = w at h1 h2
      rcases w with ⟨⟩
      dsimp only at h1 h2
      rw [h1, h2]
    rw [hv]
    have htk : body.take (p + 1) = body.take p ++ [t] := by
      rw [List.take_add_one, List.getElem?_eq_getElem hpl, htt]; rfl
    obtain ⟨r, hr⟩ := ih (p := p + 1) (N := N) (by omega) (by rw [htk]; exact ho') hf' hnk ht (by omega) (by omega) (by omega)
    exact ⟨r, by rw [hr, List.drop_eq_getElem_cons hpl, ← htt]; rfl⟩

/-- What has been fetched, with no key in view, is what the iteration begins with. -/
theorem scan_begins {cfg input n eN} {N : Nat} (h : Fetches cfg n (fetchStreamStart (Scanner.new input)).2 eN)
    (hk : NoKeys eN) (hb : ∀ t ∈ eN.tokens, t.tt ≠ .streamEnd) (hn : n + 1 < cfg.fuel) (hN : eN.tokens.length ≤ N) : ∃ r, (scanInput cfg input N).1 = eN.tokens ++ r := by
  have hb1 : fetchMoreBody cfg () (Scanner.new input) = (.ok (.next ()), (fetchStreamStart (Scanner.new input)).2) := rfl
  have hb2 : fetchMoreBody cfg () (fetchStreamStart (Scanner.new input)).2 = (.ok (.done ()), (fetchStreamStart (Scanner.new input)).2) := rfl
  obtain ⟨m, hm⟩ : ∃ m, cfg.fuel = m + 2 := ⟨cfg.fuel - 2, by omega⟩
  have hl : loopM (fetchMoreBody cfg) cfg.fuel () (Scanner.new input) = (.ok (), (fetchStreamStart (Scanner.new input)).2) := by
    rw [hm]
    exact (loop_next hb1).trans (loop_done hb2)
  have hfm : fetchMoreTokens cfg (Scanner.new input) =
      (.ok (), { (fetchStreamStart (Scanner.new input)).2 with tokensAvailable := true }) := by
    unfold fetchMoreTokens
    rw [bind_run hl]
    rfl
  have hnt : nextToken cfg (Scanner.new input) = (.ok ⟨Span.empty ⟨0, 1, 1⟩, .streamStart⟩, view 1 (fetchStreamStart (Scanner.new input)).2) := by
    unfold nextToken
    rw [gets_bind, if_neg (by exact Bool.false_ne_true), gets_bind, show (!(Scanner.new input).tokensAvailable) = true from rfl]
    unfold when
    rw [if_pos rfl, bind_run hfm]
    rfl
  have ho : EOk 1 [⟨Span.empty ⟨0, 1, 1⟩, .streamStart⟩] (fetchStreamStart (Scanner.new input)).2 := by
    refine ⟨rfl, Nat.le_refl _, rfl, rfl, fun k hk hp => ?_⟩
    obtain rfl : k = SimpleKey.new Marker.default := by simpa [fetchStreamStart, upd, Scanner.new] using hk
    cases hp
  have htake : eN.tokens.take 1 = [⟨Span.empty ⟨0, 1, 1⟩, .streamStart⟩] := by
    clear hnt hfm hl hb1 hb2
    generalize (fetchStreamStart (Scanner.new input)).2 = e at h ho
    clear hn
    induction h with
    | refl => exact ho.taken
    | step h2 _ ih => exact ih hk hb hN ((sim_fetchNextToken _ ho).1 _ _ h2).2
  generalize ht : eN.tokens = body at htake hb hN
  cases body with
  | nil => cases htake
  | cons t body =>
    obtain ⟨N, rfl⟩ : ∃ j, N = j + 1 := ⟨N - 1, by simp at hN; omega⟩
    simp only [List.take_succ_cons, List.take_zero, List.cons.injEq, and_true] at htake
    subst htake
    unfold scanInput
    rw [scan]
    have hnx : next cfg (Scanner.new input) = (.ok (some ⟨Span.empty ⟨0, 1, 1⟩, .streamStart⟩), view 1 (fetchStreamStart (Scanner.new input)).2) := by
      unfold next
      rw [if_neg (by exact Bool.false_ne_true), hnt]
    rw [hnx]
    dsimp only
    obtain ⟨r, hr⟩ := scan_begin hb body.length (p := 1) (N := N) (by simp) ho h hk ht (by simp) (by omega) (by simp at hN ⊢; omega)
    exact ⟨r, by rw [hr]; rfl⟩

/-! ## Directives -/

/-- a directive, whatever comes after its line -/
theorem directive_last {cfg : Cfg} {s out t d tok e q al} (h : Here cfg s out [] 0 (t ++ (e ++ 10 :: q)) 1 al) (ha : al = true ∨ Quiet cfg s) (ht : Block.Directive t d) (htok : DirG t tok) (he : Block.Eol e)
    (hf : (t ++ (e ++ 10 :: q)).length < cfg.fuel) :
    ∃ s', fetchNextToken cfg s = (.ok (), s') ∧ types s' = out ++ [tok] ∧ NoKeys s' := by
  obtain ⟨t', rfl, ht'⟩ := directive_head ht
  obtain ⟨S, k, e1, r1, c1, hc, hk, hkp, n, hu, rfl⟩ := at_first (by simp) h ha
  generalize hU : ({ S with indents := [], indent := 0, tokens := S.tokens ++ List.replicate n ⟨Span.empty S.mark, .blockEnd⟩ } : SSt) = U at hu
  have hUk : U.simpleKeys = [k] := by rw [← hU]; exact hk
  have hUr : U.src.rest = (37 :: t') ++ (e ++ 10 :: q) := by rw [← hU]; exact r1
  have hUt : types U = types S ++ List.replicate n .blockEnd := by rw [← hU]; simp [types]
  generalize hV : ({ U with simpleKeyAllowed := false } : SSt) = V
  have hVr : V.src.rest = (37 :: t') ++ (e ++ 10 :: q) := by rw [← hV]; exact hUr
  obtain ⟨sp, hd⟩ := htok (cfg := cfg) he hVr (by simp at hf ⊢; omega)
  generalize hW : brk (on V ((37 :: t').length + e.length)) = W at hd
  have hWk : W.simpleKeys = [k] := by rw [← hW, ← hV]; exact hUk
  have hWt : types W = types S ++ List.replicate n .blockEnd := by rw [← hW, ← hV]; exact hUt
  refine ⟨{ W with tokens := W.tokens ++ [⟨sp, tok⟩] }, ?_, ?_, ?_⟩
  · rw [e1]
    have p0 : S.src.peekz 0 = 37 := peekz_cons r1
    have hcol : (S.mark.col == 1) = true := by rw [c1]; rfl
    unfold fetchAtToken
    ev [hcol, p0, Bool.true_and, beq_self_eq_true, if_pos]
    unfold fetchDirective setAllowed
    rw [bind_run hu, bind_run (remove_run hUk hkp), upd_bind, hV, bind_run hd]
    rfl
  · rw [← hWt]; simp [types]
  · show ∀ k ∈ W.simpleKeys, _
    rw [hWk]
    simpa using hkp

theorem aims_directive {ds toks} (h : AimToks ds toks) : ∀ t ∈ toks, isDirectiveTok t = true := by
  induction h with
  | nil => simp
  | cons h _ ih =>
    intro t ht
    rcases List.mem_cons.mp ht with rfl | ht
    · cases h <;> rfl
    · exact ih t ht

theorem aims_version {ds toks} (h : AimToks ds toks) (hv : .version ∈ ds) : ∃ t ∈ toks, isVersion t = true := by
  induction h with
  | nil => cases hv
  | cons h _ ih =>
    rcases List.mem_cons.mp hv with rfl | hv
    · cases h; exact ⟨_, List.mem_cons_self .., rfl⟩
    · obtain ⟨t, h1, h2⟩ := ih hv
      exact ⟨t, by simp [h1], h2⟩

theorem aims_length {ds toks} (h : AimToks ds toks) : toks.length = ds.length := by
  induction h with
  | nil => rfl
  | cons _ _ ih => simp [ih]

theorem directives_length {t ds} (h : Block.Directives t ds) : 2 * ds.length ≤ t.length := by
  induction h with
  | nil => simp
  | cons h _ _ _ ih =>
    obtain ⟨r, rfl, -⟩ := directive_head h
    simp
    omega

theorem tokens_split {tks : List Token} {a b : List TokenType} {c : TokenType} (h : tks.map (·.tt) = a ++ c :: b) :
    ∃ xs x ys, tks = xs ++ x :: ys ∧ xs.map (·.tt) = a ∧ x.tt = c ∧ ys.map (·.tt) = b := by
  obtain ⟨xs, zs, rfl, h1, h2⟩ := List.map_eq_append_iff.mp h
  obtain ⟨x, ys, rfl, h3, h4⟩ := List.map_eq_cons_iff.mp h2
  exact ⟨xs, x, ys, rfl, h1, h3, h4⟩

/-- two `%YAML`: the tokens -/
theorem versions_scan {cfg : Cfg} {t : List Byte} (h : TwoVersions t) (hf : t.length + 2 < cfg.fuel) {N : Nat} (hN : t.length + 2 ≤ N) :
    ∃ ss ds x r, (scanInput cfg t N).1 = ss :: (ds ++ x :: r) ∧ ss.tt = .streamStart ∧ (∀ d ∈ ds, isDirectiveTok d.tt = true) ∧ Parser.Refused ds x := by
  obtain ⟨a, d, ds, v, e, q, ha, hd, hv, hd2, he, rfl⟩ := h
  obtain ⟨v', hv'⟩ := directive_head hd2
  have hq : TokenHead (v ++ (e ++ 10 :: q)) := by rw [hv'.1]; simp [TokenHead]
  have h0 := text_here (cfg := cfg) (n := 0) ha (directives_head hd hq) (by simp [Block.spaces] at hf ⊢; omega)
  obtain ⟨toks, hk, hrun⟩ := directives_run hd
  obtain ⟨m, s', al', hfe, hh, hal, hm⟩ := hrun hq h0 (.inl rfl) (by simp at hf ⊢; omega)
  obtain ⟨tok, htok, htt⟩ := directive_tok hd2
  obtain ⟨s2, h1, h2, h3⟩ := directive_last hh hal hd2 (directive_run htt) he (by simp at hf ⊢; omega)
  have hF : Fetches cfg (1 + m) (fetchStreamStart (Scanner.new (a ++ (d ++ (v ++ (e ++ 10 :: q)))))).2 s2 := by
    simpa [Block.spaces] using hfe.trans (.step h1 .refl)
  have hx : isVersion tok = true := by cases htok; rfl
  have hx2 : isDirectiveTok tok = true := by cases htok; rfl
  have h2' : s2.tokens.map (·.tt) = (.streamStart :: toks) ++ tok :: [] := by simpa [types] using h2
  obtain ⟨xs, x, ys, e1, e2, e3, e4⟩ := tokens_split h2'
  obtain ⟨ss, ds', rfl, e5, e6⟩ := List.map_eq_cons_iff.mp e2
  have hall := aims_directive hk
  obtain ⟨u, hu, hu'⟩ := aims_version hk hv
  have hlen : s2.tokens.length ≤ N := by
    have : toks.length ≤ d.length := by
      have := aims_length hk
      have := directives_length hd
      omega
    have h4 := congrArg List.length h2'
    have h5 : 0 < v.length := by rw [hv'.1]; simp
    simp at h4 hN
    omega
  obtain ⟨r, hr⟩ := scan_begins hF h3 (N := N) (fun t ht => by
    have : t.tt ∈ s2.tokens.map (·.tt) := List.mem_map_of_mem ht
    rw [h2'] at this
    intro hend
    rw [hend] at this
    simp at this
    rcases this with h | h
    · have := hall _ h; cases this
    · rw [← h] at hx; cases hx) (by simp at hf hm ⊢; omega) hlen
  refine ⟨ss, ds', x, r, by rw [hr, e1, List.map_eq_nil_iff.mp e4]; simp, e5, fun d' h' => hall _ (by rw [← e6]; exact List.mem_map_of_mem h'), .inl ⟨by rw [e3]; exact hx, ?_⟩⟩
  rw [← e6] at hu
  obtain ⟨d', hd', rfl⟩ := List.mem_map.mp hu
  exact ⟨d', hd', hu'⟩

/-- nothing after the directives: the tokens -/
theorem only_scan {cfg : Cfg} {t : List Byte} (h : OnlyDirectives t) (hf : t.length + 4 < cfg.fuel) {N : Nat} (hN : t.length + 4 ≤ N) :
    ∃ ss ds x r, (scanInput cfg t N).1 = ss :: (ds ++ x :: r) ∧ ss.tt = .streamStart ∧ (∀ d ∈ ds, isDirectiveTok d.tt = true) ∧ Parser.Refused ds x := by
  obtain ⟨a, d, ds, ha, hd, hne, rfl⟩ := h
  have hq : TokenHead [] := by intro c hc; simp at hc
  have h0 := text_here (cfg := cfg) (n := 0) ha (directives_head hd hq) (by simp [Block.spaces] at hf ⊢; omega)
  obtain ⟨toks, hk, hrun⟩ := directives_run hd
  obtain ⟨m, s', al', hfe, hh, hal, hm⟩ := hrun hq h0 (.inl rfl) (by simp at hf ⊢; omega)
  have hall := aims_directive hk
  have hlen : toks.length ≤ d.length - 1 := by
    have := aims_length hk
    have := directives_length hd
    cases ds with
    | nil => exact absurd rfl hne
    | cons => simp at *; omega
  obtain ⟨tks, h1, h2⟩ := text_scan (cfg := cfg) (t := a ++ d) (N := N) ⟨m, s', by simpa [Block.spaces] using hfe, by simpa using hh, by simp; omega⟩
    (fun h => by have := hall _ h; cases this) (by simp at hf ⊢; omega) (by simp at hN; omega)
  obtain ⟨xs, x, ys, e1, e2, e3, e4⟩ := tokens_split (tks := tks) (a := .streamStart :: toks) (b := []) (c := .streamEnd) (by simpa using h2)
  obtain ⟨ss, ds', rfl, e5, e6⟩ := List.map_eq_cons_iff.mp e2
  refine ⟨ss, ds', x, ys, by rw [h1, e1]; simp, e5, fun d' h' => hall _ (by rw [← e6]; exact List.mem_map_of_mem h'), .inr ⟨?_, by rw [e3]; exact ⟨by simp, rfl⟩⟩⟩
  rintro rfl
  simp at e6
  subst e6
  cases hk
  exact hne rfl

end Verif.Scanner
