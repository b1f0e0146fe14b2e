import Verif.Lemmas.ParserCompleteInd
/-!
# The parser delivers the events of every token stream of the grammar: documents
-/
namespace Verif.Parser
open Verif Verif.Spec

variable {loose : Bool} {lk lk' : List Byte → Option (List Byte)} {s : PSt} {st st' : PState} {stack : List PState} {tt : TokenType}
  {X : List TokenType} {ns ns' ns1 ns2 : List (List Byte)} {t : Token} {P P' : PSt → Prop} {p : Place}
  {evs evs' ex : List Event} {f : TokenType} {sts : List PState} {toks c x : List TokenType}
  {Q : Event × Span → PSt → Prop}

unseal runs in
theorem runs_setTags {Q : Unit → PSt → Prop} {g : PSt → List (List Byte × List Byte)} {o} (h : At lk s st stack toks ns)
    (ho : s.token = o) (hg : ∀ k, mapGet (g s) k = lk' k)
    (k : ∀ s1, At lk' s1 st stack toks ns → s1.token = o → Q () s1) : runs (modify fun s => { s with tags := g s }) Q s :=
  ⟨(), _, rfl, k _ ⟨h.state, h.stack, h.toks, h.anchors, h.count, hg, h.keep, h.current, h.live⟩ ho⟩

theorem At.length (h : At lk s st stack toks ns) : toks.length ≤ s.toks.length + 1 := by
  have := congrArg List.length h.toks
  simp only [List.length_map, pend, List.length_append] at this
  cases ht : s.token <;> simp [ht] at this <;> omega

theorem skipDocumentEnds_runs {Q : Unit → PSt → Prop} {n fuel} (hn : n < fuel) (hf : f ≠ .documentEnd)
    (h : At lk s st stack (List.replicate n .documentEnd ++ f :: X) ns)
    (k : ∀ s1, At lk s1 st stack (f :: X) ns → Q () s1) : runs (skipDocumentEnds fuel) Q s := by
  induction n generalizing fuel s with
  | zero =>
    obtain ⟨fuel, rfl⟩ : ∃ m, fuel = m + 1 := ⟨fuel - 1, by omega⟩
    unfold skipDocumentEnds
    simp only [List.replicate, List.nil_append] at h
    rstep; rstep
    rename_i t s1 ht _ h1
    rw [ht]
    cases f <;> first | exact absurd rfl hf | (apply runs_pure; exact k _ h1)
  | succ n ih =>
    obtain ⟨fuel, rfl⟩ : ∃ m, fuel = m + 1 := ⟨fuel - 1, by omega⟩
    unfold skipDocumentEnds
    simp only [List.replicate, List.cons_append] at h
    rstep; rstep
    rename_i t s1 ht _ h1
    simp only [ht]
    rstep; rstep
    exact ih (by omega) (by assumption)

unseal runs in
theorem processDirectives_of {Q : Unit → PSt → Prop}
    (h : runs (processDirectivesLoop (s.toks.length + 2) false) Q s) : runs processDirectives Q s := h

/-- a `%YAML` directive at most, a `%TAG` directive at most, then anything else -/
theorem processDirectives_runs {Q : Unit → PSt → Prop} {v d : List TokenType}
    (hv : v = [] ∨ ∃ a b, v = [.versionDirective a b]) (hd : d = [] ∨ ∃ h p, d = [.tagDirective h p])
    (hf : (∀ a b, f ≠ .versionDirective a b) ∧ (∀ a b, f ≠ .tagDirective a b))
    (h : At (fun _ => none) s st stack (v ++ (d ++ f :: X)) ns)
    (k : ∀ s1, At (declaredBy (v ++ d)) s1 st stack (f :: X) ns → Q () s1) : runs processDirectives Q s := by
  apply processDirectives_of
  have hl := h.length
  simp only [List.length_append, List.length_cons] at hl
  have last : ∀ {s fuel vr lk}, At lk s st stack (f :: X) ns → 0 < fuel →
      (∀ s1, At lk s1 st stack (f :: X) ns → Q () s1) → runs (processDirectivesLoop fuel vr) Q s := by
    intro s fuel vr lk h hfu k
    obtain ⟨fuel, rfl⟩ : ∃ m, fuel = m + 1 := ⟨fuel - 1, by omega⟩
    unfold processDirectivesLoop
    rstep; rstep
    rename_i t s1 ht _ h1
    rw [ht]
    cases f <;> first
      | exact absurd rfl (hf.1 _ _)
      | exact absurd rfl (hf.2 _ _)
      | (apply runs_pure; exact k _ h1)
  have tag : ∀ {s fuel vr d}, (d = [] ∨ ∃ h p, d = [.tagDirective h p]) → At (fun _ => none) s st stack (d ++ f :: X) ns →
      d.length < fuel → (∀ s1, At (declaredBy d) s1 st stack (f :: X) ns → Q () s1) →
      runs (processDirectivesLoop fuel vr) Q s := by
    intro s fuel vr d hd h hfu k
    rcases hd with rfl | ⟨hh, p, rfl⟩
    · exact last h hfu k
    · obtain ⟨fuel, rfl⟩ : ∃ m, fuel = m + 1 := ⟨fuel - 1, by omega⟩
      unfold processDirectivesLoop
      simp only [List.cons_append, List.nil_append] at h
      rstep; rstep
      rename_i t s1 ht _ h1
      simp only [ht]
      rstep
      refine runs_setTags (lk' := declaredBy [.tagDirective hh p]) (by assumption) (by assumption)
        (fun k => by simp [mapGet_insert, declaredBy]; rfl) ?_
      intro _ _ _
      rstep; rstep
      exact last (by assumption) (by simp at hfu; omega) k
  rcases hv with rfl | ⟨a, b, rfl⟩
  · exact tag hd h (by simp at hl; omega) k
  · obtain ⟨n, hn⟩ : ∃ m, s.toks.length + 2 = m + 1 := ⟨s.toks.length + 1, rfl⟩
    rw [hn]
    unfold processDirectivesLoop
    simp only [List.cons_append, List.nil_append] at h k
    rstep; rstep
    rename_i t s1 ht _ h1
    simp only [ht, Bool.false_eq_true, if_false]
    rstep
    refine runs_setTags (lk' := fun _ => none) (by assumption) (by assumption) (fun k => by simp [mapGet]) ?_
    intro _ _ _
    rstep; rstep
    exact tag hd (by assumption) (by simp at hl; omega) k

/-- any directives with at most one `%YAML`; only the last counts -/
theorem processDirectives_all {Q : Unit → PSt → Prop} {ds : List TokenType} (hds : ∀ d ∈ ds, isDirectiveTok d = true)
    (hv : ds.countP isVersion ≤ 1)
    (hf : (∀ a b, f ≠ .versionDirective a b) ∧ (∀ a b, f ≠ .tagDirective a b))
    (h : At (fun _ => none) s st stack (ds ++ f :: X) ns)
    (k : ∀ s1, At (declaredBy ds.getLast?.toList) s1 st stack (f :: X) ns → Q () s1) : runs processDirectives Q s := by
  apply processDirectives_of
  have hl := h.length
  simp only [List.length_append, List.length_cons] at hl
  have key : ∀ {ds lk s fuel vr}, (∀ d ∈ ds, isDirectiveTok d = true) → ds.countP isVersion + (if vr then 1 else 0) ≤ 1 →
      At lk s st stack (ds ++ f :: X) ns → ds.length < fuel →
      (∀ s1, At (if ds = [] then lk else declaredBy ds.getLast?.toList) s1 st stack (f :: X) ns → Q () s1) →
      runs (processDirectivesLoop fuel vr) Q s := by
    intro ds
    induction ds with
    | nil =>
      intro lk s fuel vr _ _ h hfu k
      obtain ⟨fuel, rfl⟩ : ∃ m, fuel = m + 1 := ⟨fuel - 1, by omega⟩
      unfold processDirectivesLoop
      rw [List.nil_append] at h
      rstep; rstep
      rename_i t s1 ht _ h1
      rw [ht]
      cases f <;> first
        | exact absurd rfl (hf.1 _ _)
        | exact absurd rfl (hf.2 _ _)
        | (apply runs_pure; exact k _ (by simpa using h1))
    | cons d ds ih =>
      intro lk s fuel vr hds hv h hfu k
      obtain ⟨fuel, rfl⟩ : ∃ m, fuel = m + 1 := ⟨fuel - 1, by omega⟩
      have hd := hds d (by simp)
      have hds' : ∀ d ∈ ds, isDirectiveTok d = true := fun e he => hds e (by simp [he])
      have hk : ∀ s1, At (if ds = [] then declaredBy [d] else declaredBy ds.getLast?.toList) s1 st stack (f :: X) ns → Q () s1 := by
        intro s1 h1
        refine k s1 ?_
        simp only [reduceCtorEq, if_false]
        cases ds with
        | nil => simpa using h1
        | cons e es =>
          simp only [reduceCtorEq, if_false] at h1
          simpa [List.getLast?_cons_cons] using h1
      unfold processDirectivesLoop
      simp only [List.cons_append, List.length_cons] at h hfu
      rstep; rstep
      rename_i t s1 ht _ h1
      cases d <;> simp only [isDirectiveTok, Bool.false_eq_true] at hd
      · have hvr : vr = false := by
          cases vr
          · rfl
          · simp [isVersion] at hv
        subst hvr
        simp only [ht, Bool.false_eq_true, if_false]
        rstep
        refine runs_setTags (lk' := fun _ => none) (by assumption) (by assumption) (fun k => by simp [mapGet]) ?_
        intro _ _ _
        rstep; rstep
        refine ih hds' ?_ (by assumption) (by omega) hk
        rw [List.countP_cons_of_pos rfl] at hv
        simpa using hv
      · rename_i hh p
        simp only [ht]
        rstep
        refine runs_setTags (lk' := declaredBy [.tagDirective hh p]) (by assumption) (by assumption)
          (fun k => by simp [mapGet_insert, declaredBy]; rfl) ?_
        intro _ _ _
        rstep; rstep
        refine ih hds' ?_ (by assumption) (by omega) hk
        simpa [isVersion] using hv
  refine key hds (by simpa using hv) h (by omega) fun s1 h1 => k s1 ?_
  cases ds with
  | nil => exact h1
  | cons d ds => simpa using h1

theorem gets_runs {α} {g : PSt → α} {Q : α → PSt → Prop} (h : Q (g s) s) : runs (gets g) Q s := runs_gets h

attribute [local irreducible] skipDocumentEnds processDirectives parseNode

theorem ds_stop {b n} (h : At lk s st stack (List.replicate n .documentEnd ++ [.streamEnd]) ns)
    (k : ∀ sp s1, Q (.streamEnd, sp) s1) : runs (documentStart b) Q s := by
  unfold documentStart
  apply runs_bind; apply runs_gets
  apply runs_bind
  refine skipDocumentEnds_runs ?_ (by simp) h fun s1 h1 => ?_
  · have := h.length; simp at this; omega
  rgo

theorem ds_explicit {b n v d} (hv : v = [] ∨ ∃ a b, v = [.versionDirective a b]) (hd : d = [] ∨ ∃ h p, d = [.tagDirective h p])
    (h : At (fun _ => none) s st stack (List.replicate n .documentEnd ++ (v ++ (d ++ .documentStart :: X))) ns)
    (k : ∀ sp s1, At (declaredBy (v ++ d)) s1 .documentContent (.documentEnd :: stack) X ns → Q (.documentStart true, sp) s1) :
    runs (documentStart b) Q s := by
  unfold documentStart
  apply runs_bind; apply runs_gets
  apply runs_bind
  have hl := h.length
  have key : ∀ s, At (fun _ => none) s st stack (v ++ (d ++ .documentStart :: X)) ns → runs explicitDocumentStart Q s := by
    intro s h
    unfold explicitDocumentStart
    apply runs_bind
    refine processDirectives_runs hv hd ⟨by simp, by simp⟩ h fun s1 h1 => ?_
    rgo
  have hx : ∃ f Y, v ++ (d ++ .documentStart :: X) = f :: Y ∧ ((∃ a b, f = .versionDirective a b) ∨ (∃ a b, f = .tagDirective a b) ∨ f = .documentStart) := by
    rcases hv with rfl | ⟨a, b, rfl⟩
    · rcases hd with rfl | ⟨h, p, rfl⟩
      · exact ⟨_, _, rfl, .inr (.inr rfl)⟩
      · exact ⟨_, _, rfl, .inr (.inl ⟨_, _, rfl⟩)⟩
    · exact ⟨_, _, rfl, .inl ⟨_, _, rfl⟩⟩
  obtain ⟨f, Y, hY, hf⟩ := hx
  rw [hY] at h key
  refine skipDocumentEnds_runs ?_ ?_ h fun s1 h1 => ?_
  · simp at hl; omega
  · rcases hf with ⟨_, _, rfl⟩ | ⟨_, _, rfl⟩ | rfl <;> simp
  rstep; rstep
  rename_i t s2 ht _ h2
  rw [ht]
  rcases hf with ⟨_, _, rfl⟩ | ⟨_, _, rfl⟩ | rfl <;> exact key _ h2

theorem ds_directives {b n ds} (hds : ∀ d ∈ ds, isDirectiveTok d = true) (hv : ds.countP isVersion ≤ 1)
    (h : At (fun _ => none) s st stack (List.replicate n .documentEnd ++ (ds ++ .documentStart :: X)) ns)
    (k : ∀ sp s1, At (declaredBy ds.getLast?.toList) s1 .documentContent (.documentEnd :: stack) X ns → Q (.documentStart true, sp) s1) :
    runs (documentStart b) Q s := by
  unfold documentStart
  apply runs_bind; apply runs_gets
  apply runs_bind
  have hl := h.length
  have key : ∀ s, At (fun _ => none) s st stack (ds ++ .documentStart :: X) ns → runs explicitDocumentStart Q s := by
    intro s h
    unfold explicitDocumentStart
    apply runs_bind
    refine processDirectives_all hds hv ⟨by simp, by simp⟩ h fun s1 h1 => ?_
    rgo
  have hx : ∃ f Y, ds ++ .documentStart :: X = f :: Y ∧ ((∃ a b, f = .versionDirective a b) ∨ (∃ a b, f = .tagDirective a b) ∨ f = .documentStart) := by
    cases ds with
    | nil => exact ⟨_, _, rfl, .inr (.inr rfl)⟩
    | cons d ds =>
      refine ⟨_, _, rfl, ?_⟩
      have := hds d (by simp)
      cases d <;> simp [isDirectiveTok] at this ⊢
  obtain ⟨f, Y, hY, hf⟩ := hx
  rw [hY] at h key
  refine skipDocumentEnds_runs ?_ ?_ h fun s1 h1 => ?_
  · simp at hl; omega
  · rcases hf with ⟨_, _, rfl⟩ | ⟨_, _, rfl⟩ | rfl <;> simp
  rstep; rstep
  rename_i t s2 ht _ h2
  rw [ht]
  rcases hf with ⟨_, _, rfl⟩ | ⟨_, _, rfl⟩ | rfl <;> exact key _ h2

theorem ds_implicit {n} (hf : follow .block f = false)
    (h : At (fun _ => none) s st stack (List.replicate n .documentEnd ++ f :: X) ns)
    (k : ∀ sp s1, At (fun _ => none) s1 .blockNode (.documentEnd :: stack) (f :: X) ns → Q (.documentStart false, sp) s1) :
    runs (documentStart true) Q s := by
  unfold documentStart
  apply runs_bind; apply runs_gets
  apply runs_bind
  have hl := h.length
  refine skipDocumentEnds_runs ?_ (by intro h; subst h; simp [follow] at hf) h fun s1 h1 => ?_
  · simp at hl; omega
  rstep; rstep
  rename_i t s2 ht _ h2
  have key : runs (do
      processDirectives
      pushState .documentEnd
      setState .blockNode
      pure (Event.documentStart false, t.span)) Q s2 := by
    apply runs_bind
    refine processDirectives_runs (v := []) (d := []) (.inl rfl) (.inl rfl) ?_ h2 fun s1 h1 => ?_
    · constructor <;> intro a b h <;> subst h <;> simp [follow] at hf
    rgo
    have hl : declaredBy ([] ++ []) = fun _ => none := rfl
    refine k _ _ ?_
    rw [← hl]
    assumption
  rw [ht]
  cases f <;> first
    | (simp [follow] at hf; done)
    | exact key

theorem dc_empty (hf : f = .documentEnd ∨ f = .documentStart ∨ f = .streamEnd)
    (h : At lk s st (st' :: sts) (f :: X) ns)
    (k : ∀ sp s1, At lk s1 st' sts (f :: X) ns → Q (.emptyScalar, sp) s1) : runs documentContent Q s := by
  unfold documentContent
  rcases hf with rfl | rfl | rfl <;> rgo
  all_goals exact k _ _ (by assumption)

theorem dc_node (hf : follow .block f = false) (h : At lk s st sts (f :: X) ns)
    (k : ∀ s1, At lk s1 st sts (f :: X) ns → runs (parseNode true false) Q s1) : runs documentContent Q s := by
  unfold documentContent
  cases f <;> simp only [follow, Bool.true_eq_false] at hf <;> rgo
  all_goals exact k _ (by assumption)

theorem de_explicit (h : At lk s st sts (.documentEnd :: X) ns)
    (k : ∀ sp s1, At (fun _ => none) s1 .implicitDocumentStart sts X ns → Q (.documentEnd, sp) s1) :
    runs documentEnd Q s := by
  unfold documentEnd
  rgo
  refine runs_setTags (lk' := fun _ => none) (by assumption) rfl (fun k => ?_) ?_
  · rename_i h2; simp [h2.keep, mapGet]
  intro _ _ _
  rgo
  all_goals exact k _ _ (by assumption)

theorem de_implicit (hf : f = .documentStart ∨ f = .streamEnd) (h : At lk s st sts (f :: X) ns)
    (k : ∀ sp s1, At (fun _ => none) s1 .documentStart sts (f :: X) ns → Q (.documentEnd, sp) s1) :
    runs documentEnd Q s := by
  unfold documentEnd
  rcases hf with rfl | rfl <;> rgo
  all_goals
    refine runs_setTags (lk' := fun _ => none) (by assumption) rfl (fun k => ?_) ?_
    · rename_i h2; simp [h2.keep, mapGet]
    intro _ _ _
    rgo
  all_goals exact k _ _ (by assumption)

theorem docs_head {free} (h : DerivesDocsL loose free ns toks evs) (hfree : free = false) :
    ∃ f X, toks = f :: X ∧ (f = .documentStart ∨ f = .streamEnd) := by
  cases h with
  | stop => exact ⟨_, _, rfl, .inr rfl⟩
  | strayEnd => cases hfree
  | implicit => cases hfree
  | explicit _ _ h3 =>
    rcases h3 with h | h
    · rw [hfree] at h; cases h
    · obtain ⟨rfl, rfl⟩ := List.append_eq_nil_iff.1 h
      exact ⟨_, _, rfl, .inl rfl⟩
  | directives _ _ _ h3 =>
    rcases h3 with h | h
    · rw [hfree] at h; cases h
    · subst h
      exact ⟨_, _, rfl, .inl rfl⟩

/-- what follows the node of a document -/
theorem docs_follow {closed} (h : DerivesDocsL loose closed ns toks evs) :
    ∃ f X, (if closed then [.documentEnd] else []) ++ toks = f :: X ∧ (f = .documentEnd ∨ f = .documentStart ∨ f = .streamEnd) := by
  cases closed with
  | true => exact ⟨_, _, rfl, .inl rfl⟩
  | false =>
    obtain ⟨f, X, rfl, hf⟩ := docs_head h rfl
    exact ⟨f, X, rfl, .inr hf⟩

/-- the state in which a document is expected -/
def docState (free : Bool) : PState := if free then .implicitDocumentStart else .documentStart

/-- the events up to `StreamEnd` are delivered and then `StreamEnd` is -/
def DocsOk (free : Bool) (ns : List (List Byte)) (toks : List TokenType) (evs : List Event) : Prop :=
  ∃ l, evs = l ++ [.streamEnd] ∧ ∀ n s, (free = false → n = 0) →
    At (fun _ => none) s (docState free) [] (List.replicate n .documentEnd ++ toks) ns →
    Ends s l (fun s2 => runs stateMachine (fun r _ => r.1 = .streamEnd) s2)

/-- the end of a document and everything after it -/
theorem de_ends {closed} (hd : DerivesDocsL loose closed ns toks evs) (hok : DocsOk closed ns toks evs)
    (h : At lk s .documentEnd [] ((if closed then [.documentEnd] else []) ++ toks) ns) {l} (hl : evs = l ++ [.streamEnd]) :
    Ends s (.documentEnd :: l) (fun s2 => runs stateMachine (fun r _ => r.1 = .streamEnd) s2) := by
  obtain ⟨l', hl', hok⟩ := hok
  have : l = l' := by rw [hl] at hl'; exact (List.append_inj' hl' rfl).1
  subst this
  refine Goes.ends h.state ?_
  cases closed with
  | true => exact de_explicit h fun sp s1 h1 => goes_of (hok 0 _ (by simp) h1)
  | false =>
    obtain ⟨f, X, rfl, hf⟩ := docs_head hd rfl
    exact de_implicit hf h fun sp s1 h1 => goes_of (hok 0 _ (by simp) h1)

unseal runs in
theorem sm_runs {Q : Event × Span → PSt → Prop} (hs : s.state = st) (h : runs (dispatch st) Q s) : runs stateMachine Q s := by
  obtain ⟨a, s', h, hq⟩ := h
  exact ⟨a, s', by simp [stateMachine, hs, h], hq⟩

theorem dispatch_doc (b) : dispatch (docState b) = documentStart b := by cases b <;> rfl

theorem docs_ok {free} (h : DerivesDocsL loose free ns toks evs) : DocsOk free ns toks evs := by
  induction h with
  | stop =>
    refine ⟨[], rfl, fun n s _ h => .nil (sm_runs h.state ?_)⟩
    rw [dispatch_doc]
    exact ds_stop h fun _ _ => rfl
  | strayEnd _ ih =>
    obtain ⟨l, hl, ih⟩ := ih
    refine ⟨l, hl, fun n s _ h => ih (n + 1) s (by simp) ?_⟩
    have : ∀ (n : Nat) (X : List TokenType), List.replicate n .documentEnd ++ .documentEnd :: X
        = List.replicate (n + 1) .documentEnd ++ X := by
      intro n X
      rw [List.replicate_succ']; simp
    rwa [this] at h
  | @implicit _ _ ec _ _ _ _ hn hd ih =>
    have ih' := ih
    obtain ⟨l, hl, -⟩ := ih'
    refine ⟨.documentStart false :: (ec ++ (.documentEnd :: l)), by rw [hl]; simp, fun n s _ h => Goes.ends h.state ?_⟩
    obtain ⟨⟨hh, tl, rfl, hhd⟩, hnode⟩ := derives_ok hn
    rw [dispatch_doc]
    obtain ⟨f, X, hX, hf⟩ := docs_follow hd
    rw [hX] at h
    refine ds_implicit hhd h fun sp s1 h1 => goes_of (Goes.ends h1.state ?_)
    refine Goes.bind (hnode _ _ _ _ _ _ h1 ?_) fun s2 h2 => ?_
    · rcases hf with rfl | rfl | rfl <;> rfl
    rw [← hX] at h2
    exact de_ends hd ih h2 hl
  | @explicit _ _ _ _ _ ec _ _ _ _ hv hdir _ hn hd ih =>
    have ih' := ih
    obtain ⟨l, hl, -⟩ := ih'
    refine ⟨.documentStart true :: (ec ++ (.documentEnd :: l)), by rw [hl]; simp, fun n s _ h => Goes.ends h.state ?_⟩
    rw [dispatch_doc]
    obtain ⟨f, X, hX, hf⟩ := docs_follow hd
    rw [hX] at h
    refine ds_explicit hv hdir h fun sp s1 h1 => goes_of (Goes.ends h1.state ?_)
    rcases derives_ok hn with ⟨rfl, rfl, rfl⟩ | ⟨⟨hh, tl, rfl, hhd⟩, hnode⟩
    · refine dc_empty hf h1 fun sp s2 h2 => goes_of ?_
      rw [← hX] at h2
      exact de_ends hd ih h2 hl
    · refine dc_node hhd h1 fun s2 h2 => Goes.bind (hnode _ _ _ _ _ _ h2 ?_) fun s2 h2 => ?_
      · rcases hf with rfl | rfl | rfl <;> rfl
      rw [← hX] at h2
      exact de_ends hd ih h2 hl
  | @directives _ _ _ _ ec _ _ _ _ _ hdir hv _ hn hd ih =>
    have ih' := ih
    obtain ⟨l, hl, -⟩ := ih'
    refine ⟨.documentStart true :: (ec ++ (.documentEnd :: l)), by rw [hl]; simp, fun n s _ h => Goes.ends h.state ?_⟩
    rw [dispatch_doc]
    obtain ⟨f, X, hX, hf⟩ := docs_follow hd
    rw [hX] at h
    refine ds_directives hdir hv h fun sp s1 h1 => goes_of (Goes.ends h1.state ?_)
    rcases derives_ok hn with ⟨rfl, rfl, rfl⟩ | ⟨⟨hh, tl, rfl, hhd⟩, hnode⟩
    · refine dc_empty hf h1 fun sp s2 h2 => goes_of ?_
      rw [← hX] at h2
      exact de_ends hd ih h2 hl
    · refine dc_node hhd h1 fun s2 h2 => Goes.bind (hnode _ _ _ _ _ _ h2 ?_) fun s2 h2 => ?_
      · rcases hf with rfl | rfl | rfl <;> rfl
      rw [← hX] at h2
      exact de_ends hd ih h2 hl

theorem derives_noEnd {nt} (h : DerivesL loose lk nt ns toks evs ns') : .streamEnd ∉ evs := by
  induction h <;> simp_all

theorem docs_noEnd {free} (h : DerivesDocsL loose free ns toks evs) : ∃ l, evs = l ++ [.streamEnd] ∧ .streamEnd ∉ l := by
  induction h with
  | stop => exact ⟨[], rfl, by simp⟩
  | strayEnd _ ih => exact ih
  | @implicit _ _ ec _ _ _ _ hn _ ih =>
    obtain ⟨l, rfl, h⟩ := ih
    exact ⟨.documentStart false :: (ec ++ (.documentEnd :: l)), by simp, by simp [derives_noEnd hn, h]⟩
  | @explicit _ _ _ _ _ ec _ _ _ _ _ _ _ hn _ ih =>
    obtain ⟨l, rfl, h⟩ := ih
    exact ⟨.documentStart true :: (ec ++ (.documentEnd :: l)), by simp, by simp [derives_noEnd hn, h]⟩
  | @directives _ _ _ _ ec _ _ _ _ _ _ _ _ hn _ ih =>
    obtain ⟨l, rfl, h⟩ := ih
    exact ⟨.documentStart true :: (ec ++ (.documentEnd :: l)), by simp, by simp [derives_noEnd hn, h]⟩

theorem sm_next {s ev sp s'} (hc : s.current = none) (hl : s.streamEndEmitted = false)
    (h : stateMachine s = (.ok (ev, sp), s')) :
    nextEvent s = (.ok (some (ev, sp)), if ev = .streamEnd then { s' with streamEndEmitted := true } else s') := by
  have hne : s.state ≠ .endState := by
    intro he
    simp [stateMachine, he, dispatch, panic] at h
  simp [nextEvent, hl, nextEventImpl, hc, parse, hne, h]

unseal wp in
theorem sm_keeps {s ev sp s'} (hg : Good s) (h : stateMachine s = (.ok (ev, sp), s')) :
    s'.current = s.current ∧ s'.streamEndEmitted = s.streamEndEmitted ∧ Good s' := by
  have hne : s.state ≠ .endState := by
    intro he
    simp [stateMachine, he, dispatch, panic] at h
  have := stateMachine_frm hne hg
  simp only [wp, h] at this
  exact ⟨this.2.1.cur, this.2.1.emitted, this.2.2.1⟩

theorem evs_delivers {s0 pre s evs s2} (h0 : Delivers s0 pre s) (hg : Good s) (hc : s.current = none)
    (hl : s.streamEndEmitted = false) (h : Evs s evs s2) (hne : .streamEnd ∉ evs) :
    Delivers s0 (pre ++ evs) s2 ∧ s2.current = none ∧ s2.streamEndEmitted = false := by
  induction h generalizing pre with
  | nil => simpa using ⟨h0, hc, hl⟩
  | @cons s ev sp s1 evs s2 h1 _ ih =>
    simp only [List.mem_cons, not_or] at hne
    obtain ⟨k1, k2, k3⟩ := sm_keeps hg h1
    have := sm_next hc hl h1
    rw [if_neg (Ne.symm hne.1)] at this
    have := ih (.snoc h0 this) k3 (by rw [k1, hc]) (by rw [k2, hl]) hne.2
    simpa using this

theorem stream_ends {tks tail m} {l : List Event} (hd : DocsOk true [] toks (l ++ [.streamEnd]))
    (htk : tks.map (·.tt) = .streamStart :: toks) :
    Ends (new tks tail m false) (.streamStart :: l) (fun s2 => runs stateMachine (fun r _ => r.1 = .streamEnd) s2) := by
  obtain ⟨l', hl', hok⟩ := hd
  obtain ⟨rfl, -⟩ := List.append_inj' hl' rfl
  have h0 : At (fun _ => none) (new tks tail m false) .streamStart [] (.streamStart :: toks) [] :=
    ⟨rfl, rfl, by simpa [pend, new] using htk, by simp [new, mapGet, lastDef], rfl, by simp [new, mapGet], rfl, rfl, rfl⟩
  refine Goes.ends h0.state ?_
  show runs streamStart _ _
  unfold streamStart
  rgo
  obtain ⟨s2, h1, h2⟩ := hok 0 _ (by simp) (by assumption)
  exact ⟨_, s2, rfl, h1, h2⟩

unseal runs in
/-- the whole stream -/
theorem stream_delivers {tks tail m} (hd : DerivesDocsL loose true [] toks evs) (htk : tks.map (·.tt) = .streamStart :: toks) :
    ∃ s, Delivers (new tks tail m false) (.streamStart :: evs) s := by
  obtain ⟨l, rfl, hne⟩ := docs_noEnd hd
  obtain ⟨s2, h2, ⟨⟨ev, sp⟩, s3, h3, rfl⟩⟩ := stream_ends (tail := tail) (m := m) (docs_ok hd) htk
  obtain ⟨h4, h5, h6⟩ := evs_delivers .nil (new_facts tks tail m false).invc.inv.good rfl rfl h2 (by simpa using hne)
  have := Delivers.snoc h4 (sm_next h5 h6 h3)
  exact ⟨_, by simpa using this⟩

end Verif.Parser
