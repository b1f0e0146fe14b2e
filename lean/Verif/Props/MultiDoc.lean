import Verif.Lemmas.LoadDocs
import Verif.Lemmas.LoadEval
import Verif.Props.RoundTrip
import Verif.Props.Limits
/-!
# Property C48: several documents written one after the other load again as the same documents
-/
namespace Verif.Emitter
open Verif Verif.Spec Verif.Scanner Verif.Parser
variable {F : Type}

theorem topBlock_lone {fo : FloatOps F} {ec x} (hx : Printable fo ec true x) (h : ¬ LoneBlock ec x) : topBlock ec x = false := by
  have leaf : ∀ (y : Scalar F), (∀ v, y = .str v → shouldEmitStringAsBlock ec v = false) → isBlockScalar ec y = false := by
    intro y hy
    cases y with
    | str v => exact hy v rfl
    | _ => rfl
  cases hx with
  | scalar _ =>
    rw [topBlock]
    refine leaf _ (fun v hv => ?_)
    subst hv
    exact Bool.eq_false_iff.2 fun hb => h ⟨v, .inl rfl, hb⟩
  | seq _ => rfl
  | map _ _ _ _ _ => rfl
  | tagged _ _ hnt hy =>
    rw [topBlock]
    cases hy with
    | scalar _ =>
      rw [topBlock]
      refine leaf _ (fun v hv => ?_)
      subst hv
      exact Bool.eq_false_iff.2 fun hb => h ⟨v, .inr ⟨_, rfl⟩, hb⟩
    | seq _ => rfl
    | map _ _ _ _ _ => rfl
    | tagged _ _ _ _ => exact absurd rfl (hnt _ _)

theorem docsTxt_dump {fo : FloatOps F} {ec : Config} (h2 : ec.bestIndent = 2) : ∀ {xs : List (Yaml F)}, (∀ x ∈ xs, Simple ec x) → dumpLines fo ec xs = docsTxt fo ec xs := by
  intro xs
  induction xs with
  | nil => intro _; rfl
  | cons x xs ih =>
    intro h
    cases xs with
    | nil => rw [dumpLines, docsTxt, dump_txt h2 (h x (by simp))]
    | cons y ys =>
      rw [dumpLines, docsTxt, dump_txt h2 (h x (by simp)), ih (fun z hz => h z (by simp at hz ⊢; exact .inr hz))]
      · simp
      · simp
      · simp

theorem docs_events {fo : FloatOps F} {ec : Config} : ∀ {xs : List (Yaml F)}, (∀ x ∈ xs, Printable fo ec true x) →
    ∃ ds, (∀ free, DerivesDocs free [] (docsToks fo ec xs ++ [.streamEnd]) (docEvents ds ++ [.streamEnd])) ∧ (∀ d ∈ ds, Node d.2) ∧
      ∀ A, TreeDocs UntaggedKey fo A (docEvents ds) xs := by
  intro xs
  induction xs with
  | nil => exact fun _ => ⟨[], fun _ => .stop, by simp, fun _ => .nil⟩
  | cons x xs ih =>
    intro h
    obtain ⟨ds, h1, h2, h3⟩ := ih (fun y hy => h y (List.mem_cons_of_mem _ hy))
    obtain ⟨evs, h4, h5⟩ := (node_events (h x (by simp)) (fun _ => none) rfl []).2
    refine ⟨(true, evs) :: ds, fun free => ?_, ?_, fun A => ?_⟩
    · have := DerivesDocsL.explicit (free := free) (ns := []) (v := []) (d := []) (closed := false) (.inl rfl) (.inl rfl) (.inr rfl)
        (by simpa [declaredBy] using DerivesL.present (h4 .block (by simp))) (h1 _)
      rw [docsToks, docEvents]
      simpa using this
    · intro d hd
      rcases List.mem_cons.1 hd with rfl | hd
      · exact tree_node (h5 (fun _ => none))
      · exact h2 d hd
    · rw [docEvents]
      exact .cons true (h5 A) (h3 A)

theorem docEvents_clean : ∀ {ds : List (Bool × List Event)}, (∀ d ∈ ds, Node d.2) → .streamEnd ∉ docEvents ds := by
  intro ds
  induction ds with
  | nil => simp [docEvents]
  | cons d ds ih =>
    intro h
    rw [docEvents]
    have h1 := node_clean (h d (by simp))
    have h2 := ih (fun e he => h e (List.mem_cons_of_mem _ he))
    simp [h1, h2]

theorem anchorNames_dull : ∀ {toks : List Token}, (∀ t ∈ toks.map (·.tt), ∀ n, t ≠ .anchor n) → anchorNames toks = [] := by
  intro toks
  induction toks with
  | nil => intro _; rfl
  | cons t ts ih =>
    intro h
    rw [anchorNames]
    split
    · rename_i n hn
      exact absurd hn (h _ (by simp) n)
    · exact ih (fun u hu => h u (by simp at hu ⊢; exact .inr hu))

end Verif.Emitter

namespace Verif.Props
open Verif Verif.Spec Verif.Emitter Verif.Scanner Verif.Loader
variable {F : Type}

/-- **C48 (partial)** Printable documents, as many as one likes, written one after the other with a line break between them load again as exactly those
documents, in order. Partial: the restrictions on each document are those of C44, and only the last document may be a
string written as a literal block; see `C48_documents_false`. -/
theorem C48_documents_partial (fo : FloatOps F) (ec : Config) (xs : List (Yaml F)) (hi : ec.bestIndent = 2)
    (hne : xs ≠ []) (hx : ∀ x ∈ xs, Printable fo ec true x) (hb : ∀ x ∈ xs.dropLast, ¬ LoneBlock ec x) :
    ∃ N, ∀ cfg n, N ≤ cfg.fuel → N ≤ n → loadFrom fo cfg n (dumpLines fo ec xs) = .ok xs := by
  refine ⟨(docsTxt fo ec xs).length + (docsToks fo ec xs).length + 5, fun cfg n hf hn => ?_⟩
  rw [docsTxt_dump hi (fun x h => printable_simple (hx x h))]
  obtain ⟨toks, h3, h4⟩ := scan_docs (ec := ec) (cfg := cfg) (N := n) hne (fun x h => printable_scans hi (hx x h))
    (fun x h => topBlock_lone (hx x (List.dropLast_subset _ h)) (hb x h)) (by omega) (by omega)
  unfold Loader.loadFrom Loader.parserOn
  simp only [h3]
  obtain ⟨ds, h5, h6, h7⟩ := docs_events hx
  obtain ⟨s, hs, -⟩ := C42_complete_partial (h5 true) toks h4 (tailOf .ended) (afterNext cfg n (Scanner.new (docsTxt fo ec xs))).mark
  have ha : Parser.anchorNames toks = [] := by
    refine anchorNames_dull (fun t ht m h => ?_)
    rw [h4] at ht
    subst h
    have := docsToks_dull (fo := fo) (ec := ec) xs (.anchor m)
    simp at ht this
    exact this ht
  obtain ⟨out, h8, h9⟩ := Parser.load_docs h6 ha hs (docEvents_clean h6)
  obtain ⟨s1, h10, -, h11⟩ := Loader.docs_run (fo := fo) (h7 (fun _ => none)) (s := Loader.init) rfl rfl
  have h12 : Loader.onEvents fo (Loader.init : Loader.LdSt F) (.streamStart :: (Parser.docEvents ds ++ [.streamEnd])) = some s1 := by
    have : Loader.onEvents fo (Loader.init : Loader.LdSt F) (.streamStart :: (Parser.docEvents ds ++ [.streamEnd])) =
        Loader.onEvents fo Loader.init (Parser.docEvents ds ++ [.streamEnd]) := by
      simp [Loader.onEvents, Loader.onEvent]
    rw [this, Loader.onEvents_append, h10]
    simp [Loader.onEvents, Loader.onEvent]
  have h13 : s1.docs = xs := by simpa [Loader.init] using h11
  simp [Loader.loadFromParser, h8, h9, h12, h13]

/-- the text of three documents -/
example : dumpLines noFloats ⟨2, true, true⟩ [.seq [.scalar (.str bs!"a\n"), .scalar .null], .scalar (.int 7), .map [(.scalar (.bool true), .scalar (.str bs!"---"))]] =
    bs!"---\n- |\n  a\n- ~\n---\n7\n---\ntrue: \"---\"" := by
  decide +kernel

/-- they meet the hypotheses -/
example : (∀ x ∈ [Yaml.seq [.scalar (.str bs!"a\n"), .scalar .null], .scalar (.int 7), .map [(.scalar (.bool true), .scalar (.str bs!"---"))]],
      Printable noFloats ⟨2, true, true⟩ true x) ∧
    ∀ x ∈ [Yaml.seq [.scalar (.str bs!"a\n"), .scalar .null], .scalar (.int 7), .map [(.scalar (.bool true), .scalar (.str bs!"---"))]].dropLast,
      ¬ LoneBlock (F := Unit) ⟨2, true, true⟩ x := by
  constructor
  · intro x hx
    simp at hx
    rcases hx with rfl | rfl | rfl
    · refine .seq ?_
      intro y hy
      simp at hy
      rcases hy with rfl | rfl
      · refine .scalar ?_
        rw [ScalarBack, if_pos (by decide +kernel)]
        exact ⟨by decide, by decide, by decide, by decide, by simp, by simp⟩
      · exact .scalar trivial
    · exact .scalar (by simp [ScalarBack, Spec.Core.Fits64])
    · refine .map ?_ ?_ ?_ (by simp) (by simp)
      · simp; exact .scalar trivial
      · simp; exact .scalar (by simp [ScalarBack, shouldEmitStringAsBlock])
      · intro p hp k hk
        simp at hp
        subst hp
        simp at hk
        subst hk
        decide +kernel
  · simp [LoneBlock]

/-- **C48 without the restriction and without the line break is false.** A document that is a string written as a literal block swallows the documents after it:
the markers `---` are taken for lines of the string. Two documents written by one emitter without a line break between them load as one. -/
theorem C48_documents_false : (∀ cfg n, 100 ≤ cfg.fuel → 100 ≤ n →
      loadFrom noFloats cfg n (dumpLines noFloats ⟨2, true, true⟩ [.scalar (.str bs!"a\nb"), .scalar (.int 7)]) = .ok [.scalar (.str bs!"a\nb\n---\n7")]) ∧
    (∀ cfg n, 100 ≤ cfg.fuel → 100 ≤ n →
      loadFrom noFloats cfg n (dump noFloats ⟨2, true, true⟩ (.scalar (.int 1)) ++ dump noFloats ⟨2, true, true⟩ (.scalar (.int 2))) =
        .ok [.scalar (.str bs!"1--- 2")]) := by
  constructor
  · rintro ⟨f, d⟩ n hf hn
    have := (C09_limits_partial (F := Unit) (f := 100) (k := 100) (d := d)
      (i := dumpLines noFloats ⟨2, true, true⟩ [.scalar (.str bs!"a\nb"), .scalar (.int 7)]) noFloats (by cases d <;> exact .inl (by decide +kernel)) hf hn).2.1
    rw [this]
    cases d <;> exact load_ok (evs := [.streamStart, .documentStart true, .scalar ⟨bs!"a\nb\n---\n7", .literal, 0, none⟩, .documentEnd, .streamEnd])
      (by decide +kernel) rfl
  · rintro ⟨f, d⟩ n hf hn
    have := (C09_limits_partial (F := Unit) (f := 100) (k := 100) (d := d)
      (i := dump noFloats ⟨2, true, true⟩ (.scalar (.int 1)) ++ dump noFloats ⟨2, true, true⟩ (.scalar (.int 2))) noFloats (by cases d <;> exact .inl (by decide +kernel)) hf hn).2.1
    rw [this]
    cases d <;> exact load_ok (evs := [.streamStart, .documentStart true, .scalar ⟨bs!"1--- 2", .plain, 0, none⟩, .documentEnd, .streamEnd])
      (by decide +kernel) rfl

end Verif.Props
