import Verif.Props.Docs
import Verif.Props.Labels
/-!
# C65: directives

`Directives`, `declares`, `Proper` and `Explicit` are in `Verif.Spec.Block`. C57 has directives before any of several documents.
-/
namespace Verif.Props
open Verif Verif.Spec Verif.Spec.Block Verif.Spec.Core Verif.Scanner
variable {F : Type}

/-- C65, the full statement: a document with directives loads, with enough iterations, as the value it has with the handles that the directives
declare. -/
def C65_full (fo : FloatOps F) : Prop :=
  ∀ t ds f r x b, Directives t ds → ds ≠ [] → Proper true ds → @Explicit ⟨declares ds⟩ F true fo (.scalar .null) f r x → End true f b →
    ∃ N, ∀ cfg n, N ≤ cfg.fuel → N ≤ n → Loader.loadFrom fo cfg n (t ++ r ++ b) = .ok [x]

theorem directives_percent {t ds} (h : Directives t ds) (hd : ds ≠ []) : ∃ r, t = b%'%' :: r := by
  cases h with
  | nil => exact absurd rfl hd
  | cons h => cases h <;> exact ⟨_, rfl⟩

/-- C65 for one directive, or for `%YAML` and another one, and with the empty string for nodes that are missing. What is missing: more
directives, for which the claim is false, and what is missing in C54–C59. -/
theorem C65_directives_partial {fo : FloatOps F} {t ds f r x b} (ht : Directives t ds) (hd : ds ≠ []) (hp : Proper false ds)
    (hr : @Explicit ⟨declares ds⟩ F false fo (.scalar (.str [])) f r x) (hb : End false f b) :
    ∃ N, ∀ cfg n, N ≤ cfg.fuel → N ≤ n → Loader.loadFrom fo cfg n (t ++ r ++ b) = .ok [x] := by
  refine C57_documents_partial (.inl ⟨[], 0, _, .nil, .one (.directed ht hd hp hr) hb, rfl, ?_⟩)
  obtain ⟨r', rfl⟩ := directives_percent ht hd
  exact not_bom (by decide)

/-! ## Cases -/

/-- a handle, and a tag that uses it -/
theorem named_word {full} {fo : FloatOps F} {absent ds h p} (hh : h ∈ bs!"ae") (hp : declares ds (b%'!' :: ([h] ++ bs!"!")) = some p) (hc : p ≠ coreTags) :
    @Explicit ⟨declares ds⟩ F full fo absent none (bs!"--- !" ++ ([h] ++ bs!"!x y")) (.tagged ⟨p, bs!"x"⟩ (.scalar (.str bs!"y"))) := by
  letI : Handles := ⟨declares ds⟩
  have hb : ∀ b ∈ [h], HandleByte b := by
    simp at hh
    rcases hh with rfl | rfl <;> simp [HandleByte]
  refine .marked (m := 0) (t := b%'!' :: ([h] ++ bs!"!x y")) (E := []) (.inline (l := b%'!' :: ([h] ++ b%'!' :: bs!"x")) (a := none) (tg := some ⟨p, bs!"x"⟩) (m := 0) (t := bs!"y") (.tag ?_) (.leaf ?_) .none)
  · exact .named (by simp) hb hp (by simp) (by simp [UriByte])
  · exact .plain (begins (by decide)) (.one (.one ⟨by simp, by simp [Block.Ink], by simp, by simp⟩)) (.custom hc (resolves_str rfl (by decide)))

/-- a prefix that has nothing to do with the core schema -/
theorem prefix_example : Prefix bs!"tag:example.com,2000:" :=
  ⟨⟨_, _, rfl, .inl (by simp [UriByte]), by simp [UriByte]⟩, .inr fun r => by simp [coreTags]⟩

/-- `%YAML` and `%TAG`, a comment, an empty line, and a tag with the declared handle -/
def directivesText : List Byte := bs!"%YAML 1.2 # v\n%TAG !e!  tag:example.com,2000:\n\n--- !e!x y\n"

theorem directives_hello {full} : Directives bs!"%YAML 1.2 # v\n%TAG !e!  tag:example.com,2000:\n\n" [.version, .tag bs!"!e!" bs!"tag:example.com,2000:"] ∧
    Proper full [.version, .tag bs!"!e!" bs!"tag:example.com,2000:"] := by
  refine ⟨?_, ⟨by decide, by simp⟩, fun _ => .inr ⟨_, rfl⟩⟩
  refine .cons (t := bs!"%YAML 1.2") (e := bs!" # v") (ls := []) (r := bs!"%TAG !e!  tag:example.com,2000:\n\n") (.version (n := 0) (d := b%'2') (by decide) (by decide)) (.inr ⟨0, bs!"# v", ⟨bs!" v", rfl, by simp⟩, rfl⟩) .nil ?_
  exact .cons (t := bs!"%TAG !e!  tag:example.com,2000:") (e := []) (ls := bs!"\n") (r := []) (.tag (n := 0) (m := 1) (h := bs!"!e!") (.inr ⟨bs!"e", by simp [HandleByte], rfl⟩) prefix_example) (.inl ⟨0, rfl⟩)
    (.cons (l := []) (.inl ⟨0, rfl⟩) .nil) .nil

example (fo : FloatOps F) : ∃ N, ∀ cfg n, N ≤ cfg.fuel → N ≤ n →
    Loader.loadFrom fo cfg n directivesText = .ok [.tagged ⟨bs!"tag:example.com,2000:", bs!"x"⟩ (.scalar (.str bs!"y"))] := by
  rw [show directivesText = bs!"%YAML 1.2 # v\n%TAG !e!  tag:example.com,2000:\n\n" ++ (bs!"--- !" ++ ([b%'e'] ++ bs!"!x y")) ++ bs!"\n" by decide]
  exact C65_directives_partial (b := bs!"\n") (directives_hello (full := false)).1 (by simp) directives_hello.2 (named_word (h := b%'e') (by simp) rfl (by decide)) (.inr ⟨[], [], [], .inl ⟨0, rfl⟩, .nil, .inl ⟨0, rfl⟩, rfl⟩)

/-- directives before the second document, and one that is not known -/
example (fo : FloatOps F) : ∃ N, ∀ cfg n, N ≤ cfg.fuel → N ≤ n →
    Loader.loadFrom fo cfg n bs!"---\n...\n%FOO a: [\n---" = .ok [.scalar (.str []), .scalar (.str [])] := by
  refine C57_documents_partial (.inl ⟨[], 0, _, .nil, ?_, rfl, by decide⟩)
  refine .closed (t := bs!"---") (f := none) (g := bs!"\n") (m := 0) (e := bs!"\n") (r := bs!"%FOO a: [\n---") (.explicit .absent) (.inl gap_lf) break_lf ?_
  refine .one (f := none) (t := bs!"%FOO a: [\n---") (b := []) (.directed (t := bs!"%FOO a: [\n") (ds := [.other]) (r := bs!"---") ?_ (by simp) ⟨⟨by decide, by simp⟩, fun _ => .inl ⟨_, rfl⟩⟩ .absent) (.inl (.inl ⟨0, rfl⟩))
  exact .cons (t := bs!"%FOO a: [") (e := []) (ls := []) (r := []) (.other (n := bs!"FOO") (r := bs!" a: [") (by simp) (by simp [HandleByte]) (by simp) (by simp) (.inr rfl) (by simp)) (.inl ⟨0, rfl⟩) .nil .nil

/-! ## What is false -/

/-- C65 is false: of several `%TAG` directives only the last one has an effect, so that a tag with another declared handle is refused. -/
theorem C65_directives_false (fo : FloatOps F) :
    (Directives bs!"%TAG !a! !p\n%TAG !b! !q\n" [.tag bs!"!a!" bs!"!p", .tag bs!"!b!" bs!"!q"] ∧ Proper true [.tag bs!"!a!" bs!"!p", .tag bs!"!b!" bs!"!q"] ∧
      (∀ absent, @Explicit ⟨declares [.tag bs!"!a!" bs!"!p", .tag bs!"!b!" bs!"!q"]⟩ F true fo absent none bs!"--- !a!x y" (.tagged ⟨bs!"!p", bs!"x"⟩ (.scalar (.str bs!"y")))) ∧
      ∀ cfg n, 60 ≤ cfg.fuel → 60 ≤ n → ∃ e, Loader.loadFrom fo cfg n bs!"%TAG !a! !p\n%TAG !b! !q\n--- !a!x y" = .err e) ∧
    ¬ C65_full fo := by
  have pr : ∀ c ∈ bs!"pq", Prefix (b%'!' :: [c]) := fun c hc => by
    simp at hc
    rcases hc with rfl | rfl <;> exact ⟨⟨_, _, rfl, .inr rfl, by simp [UriByte]⟩, .inr fun r => by simp [coreTags]⟩
  have hd : Directives bs!"%TAG !a! !p\n%TAG !b! !q\n" [.tag bs!"!a!" bs!"!p", .tag bs!"!b!" bs!"!q"] := by
    refine .cons (t := bs!"%TAG !a! !p") (e := []) (ls := []) (r := bs!"%TAG !b! !q\n") (.tag (n := 0) (m := 0) (h := bs!"!a!") (p := bs!"!p") (.inr ⟨bs!"a", by simp [HandleByte], rfl⟩) (pr 112 (by simp))) (.inl ⟨0, rfl⟩) .nil ?_
    exact .cons (t := bs!"%TAG !b! !q") (e := []) (ls := []) (r := []) (.tag (n := 0) (m := 0) (h := bs!"!b!") (p := bs!"!q") (.inr ⟨bs!"b", by simp [HandleByte], rfl⟩) (pr 113 (by simp))) (.inl ⟨0, rfl⟩) .nil .nil
  have hp : Proper true [.tag bs!"!a!" bs!"!p", .tag bs!"!b!" bs!"!q"] := ⟨⟨by decide, by
    simp only [List.pairwise_cons, List.mem_singleton, forall_eq]
    refine ⟨?_, by simp⟩
    rintro h p p' ⟨h1, h2⟩
    cases h1
    cases h2⟩, by simp⟩
  have hx : ∀ absent, @Explicit ⟨declares [.tag bs!"!a!" bs!"!p", .tag bs!"!b!" bs!"!q"]⟩ F true fo absent none bs!"--- !a!x y" (.tagged ⟨bs!"!p", bs!"x"⟩ (.scalar (.str bs!"y"))) :=
    fun absent => named_word (h := b%'a') (by simp) rfl (by decide)
  have he : ∀ cfg n, 60 ≤ cfg.fuel → 60 ≤ n → ∃ e, Loader.loadFrom fo cfg n bs!"%TAG !a! !p\n%TAG !b! !q\n--- !a!x y" = .err e := fun cfg n h1 h2 =>
    ⟨.scanner ⟨28, 5, 3⟩ "the handle wasn't declared", load_refused (k := 60) (by decide +kernel) (by decide +kernel) h1 h2⟩
  refine ⟨⟨hd, hp, hx, he⟩, fun h => ?_⟩
  obtain ⟨N, hN⟩ := h _ _ none _ _ [] hd (by simp) hp (hx _) (.inl (.inl ⟨0, rfl⟩))
  have := hN ⟨N + 60, false⟩ (N + 60) (by simp) (by simp)
  obtain ⟨e, he⟩ := he ⟨N + 60, false⟩ (N + 60) (by simp) (by simp)
  rw [List.append_nil, show bs!"%TAG !a! !p\n%TAG !b! !q\n" ++ bs!"--- !a!x y" = bs!"%TAG !a! !p\n%TAG !b! !q\n--- !a!x y" from rfl, he] at this
  cases this

end Verif.Props
