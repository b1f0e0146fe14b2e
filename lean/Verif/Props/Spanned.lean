import Verif.Model.Spanned
/-!
# Property C68: a node with a span is the plain node and a place
-/
namespace Verif.Props
open Verif Verif.Spanned
variable {F : Type}

mutual
/-- the node without the spans -/
def plainOf : SNode F → Yaml F
  | .bad _ => .bad
  | .scalar _ s => .scalar s
  | .seq _ xs => .seq (plainAll xs)
  | .map _ es => .map (plainEntries es)
  | .tagged _ t n => .tagged t (plainOf n)
  | .alias _ i => .alias i
def plainAll : List (SNode F) → List (Yaml F)
  | [] => []
  | x :: xs => plainOf x :: plainAll xs
def plainEntries : List (SNode F × SNode F) → List (Yaml F × Yaml F)
  | [] => []
  | (k, v) :: es => (plainOf k, plainOf v) :: plainEntries es
end

mutual
theorem spanned_clone : ∀ n : SNode F, Spanned.clone n = n
  | .bad _ => rfl
  | .alias _ _ => rfl
  | .scalar _ _ => rfl
  | .seq _ xs => by simp [Spanned.clone, spanned_cloneVec xs]
  | .map _ es => by simp [Spanned.clone, spanned_cloneEntries es]
  | .tagged _ t n => by simp [Spanned.clone, spanned_clone n]
theorem spanned_cloneVec : ∀ xs : List (SNode F), Spanned.cloneVec xs = xs
  | [] => rfl
  | x :: xs => by simp [Spanned.cloneVec, spanned_clone x, spanned_cloneVec xs]
theorem spanned_cloneEntries : ∀ xs : List (SNode F × SNode F), Spanned.cloneEntries xs = xs
  | [] => rfl
  | (k, v) :: xs => by simp [Spanned.cloneEntries, spanned_clone k, spanned_clone v, spanned_cloneEntries xs]
end

/-- **C68** Everything a `SpannedYaml` answers is what the `Yaml` without the spans answers: its type, its value (of which the elements and entries
keep their spans), its tag, and whether it is a collection with something in it. -/
theorem C68_reads (n : SNode F) :
    Spanned.getType n = Index.getType (plainOf n) ∧
    Spanned.asBool n = Access.asBool (plainOf n) ∧ Spanned.asI64 n = Access.asI64 (plainOf n) ∧
    Spanned.asF64 n = Access.asF64 (plainOf n) ∧ Spanned.asStr n = Access.asStr (plainOf n) ∧
    (Spanned.asSequence n).map plainAll = Access.asSequence (plainOf n) ∧
    (Spanned.asMapping n).map plainEntries = Access.asMapping (plainOf n) ∧
    Spanned.getTag n = Access.getTag (plainOf n) ∧ Spanned.isNonEmptyCollection n = Access.isNonEmptyCollection (plainOf n) ∧
    (∀ xs, Spanned.asSequence n = some xs ↔ n = .seq n.span xs) ∧ (∀ es, Spanned.asMapping n = some es ↔ n = .map n.span es) ∧
    (∃ sp, n.span = sp ∧ (n = .bad sp ∨ (∃ v, n = .scalar sp v) ∨ (∃ xs, n = .seq sp xs) ∨ (∃ es, n = .map sp es) ∨ (∃ t m, n = .tagged sp t m) ∨ ∃ i, n = .alias sp i)) ∧
    Spanned.clone n = n := by
  refine ⟨?_, ?_, ?_, ?_, ?_, ?_, ?_, ?_, ?_, ?_, ?_, ?_, spanned_clone n⟩ <;>
    rcases n with _ | ⟨_, _ | _ | _ | _ | _⟩ | ⟨_, _ | _⟩ | ⟨_, _ | ⟨⟨_, _⟩, _⟩⟩ | _ | _ <;>
    simp [Spanned.getType, Index.getType, plainOf, plainAll, plainEntries, Spanned.asBool, Access.asBool, Spanned.asI64, Access.asI64, Spanned.asF64,
      Access.asF64, Spanned.asStr, Access.asStr, Spanned.asSequence, Access.asSequence, Spanned.asMapping, Access.asMapping, Spanned.getTag,
      Access.getTag, Spanned.isNonEmptyCollection, Access.isNonEmptyCollection, SNode.span]

/-- a write to a spanned node, seen without the spans; the node keeps its own span -/
def WritesLike (s : Option (SNode F)) (p : Option (Yaml F)) (sp : Span) : Prop :=
  s.map plainOf = p ∧ ∀ m, s = some m → m.span = sp

/-- **C68 (partial)** Writing through an accessor does to a `SpannedYaml` what it does to the `Yaml` without the spans, and leaves the place of
the node alone. Giving it a tag keeps its place too, a bad value is made at the place that is asked for, and `take` returns the node with its
place. Partial: the place cannot be set, see `C68_place_false`. -/
theorem C68_writes_partial (n : SNode F) :
    (∀ v, WritesLike (Spanned.setBool v n) (Access.setBool v (plainOf n)) n.span) ∧
    (∀ v, WritesLike (Spanned.setI64 v n) (Access.setI64 v (plainOf n)) n.span) ∧
    (∀ v, WritesLike (Spanned.setF64 v n) (Access.setF64 v (plainOf n)) n.span) ∧
    (∀ v, WritesLike (Spanned.setSequence v n) (Access.setSequence (plainAll v) (plainOf n)) n.span) ∧
    (∀ v, WritesLike (Spanned.setMapping v n) (Access.setMapping (plainEntries v) (plainOf n)) n.span) ∧
    (∀ t, plainOf (Spanned.intoTagged n t) = Access.intoTagged (plainOf n) t ∧ (Spanned.intoTagged n t).span = n.span) ∧
    (∀ sp, plainOf (Spanned.badSpanValue sp : SNode F) = .bad ∧ (Spanned.badSpanValue sp : SNode F).span = sp) ∧
    (Spanned.take n).1 = n ∧ plainOf (Spanned.take n).2 = (Access.take (plainOf n)).2 ∧ plainOf (Spanned.null : SNode F) = .scalar .null ∧
    (∀ i, (∀ k : Yaml F, Index.isIntKey i k = true ↔ k = plainOf (Spanned.keyFromUsize i))) ∧
    (∀ s, (∀ k : Yaml F, Index.isStrKey s k = true ↔ k = plainOf (Spanned.keyFromStr s))) := by
  have h1 : ∀ i, (∀ k : Yaml F, Index.isIntKey i k = true ↔ k = plainOf (Spanned.keyFromUsize i)) := by
    intro i k
    rcases k with _ | (_ | _ | _ | _ | _) | _ | _ | _ | _ <;> simp [Index.isIntKey, Spanned.keyFromUsize, plainOf]
  have h2 : ∀ s, (∀ k : Yaml F, Index.isStrKey s k = true ↔ k = plainOf (Spanned.keyFromStr s)) := by
    intro i k
    rcases k with _ | (_ | _ | _ | _ | _) | _ | _ | _ | _ <;> simp [Index.isStrKey, Spanned.keyFromStr, plainOf]
  refine ⟨?_, ?_, ?_, ?_, ?_, ?_, ?_, ?_, ?_, ?_, h1, h2⟩ <;>
    rcases n with _ | ⟨_, _ | _ | _ | _ | _⟩ | ⟨_, _ | _⟩ | ⟨_, _ | ⟨⟨_, _⟩, _⟩⟩ | _ | _ <;>
    simp [WritesLike, Spanned.setBool, Access.setBool, Spanned.setI64, Access.setI64, Spanned.setF64, Access.setF64, Spanned.setSequence,
      Access.setSequence, Spanned.setMapping, Access.setMapping, plainOf, plainAll, plainEntries, Spanned.intoTagged, Access.intoTagged, SNode.span,
      Spanned.badSpanValue, Spanned.take, Access.take, Spanned.null]

/-- the hypotheses are met: a sequence inside a tag, with a new element written through its accessor -/
example : Spanned.setSequence [.bad ⟨⟨3, 4, 1⟩, ⟨5, 6, 1⟩⟩] (.seq ⟨⟨0, 1, 1⟩, ⟨2, 3, 1⟩⟩ [.scalar defaultSpan (.int 1)] : SNode Unit) =
    some (.seq ⟨⟨0, 1, 1⟩, ⟨2, 3, 1⟩⟩ [.bad ⟨⟨3, 4, 1⟩, ⟨5, 6, 1⟩⟩]) := rfl

/-- C68 as stated, for setting the place: a node given a place has it. -/
def C68_full (F : Type) : Prop :=
  ∀ (n : SNode F) (sp : Span), (Spanned.withSpan n sp).span = sp ∧ (Spanned.withStart n sp.start).span.start = sp.start ∧
    (Spanned.withEnd n sp.stop).span.stop = sp.stop

/-- **C68 as stated is false.** `with_start`, `with_end` and `with_span` change nothing, although `SpannedYaml` has a span: the trait's defaults,
meant for nodes without one, are not overridden. So the place of a node can only be written to the field itself. -/
theorem C68_place_false : ¬ C68_full F ∧ ∀ (n : SNode F) (sp : Span) (m : Marker), Spanned.withSpan n sp = n ∧ Spanned.withStart n m = n ∧
    Spanned.withEnd n m = n := by
  refine ⟨fun h => ?_, fun n sp m => ⟨rfl, rfl, rfl⟩⟩
  have := (h (.bad defaultSpan) ⟨⟨1, 1, 1⟩, ⟨1, 1, 1⟩⟩).1
  simp [Spanned.withSpan, SNode.span, defaultSpan, Marker.default] at this

end Verif.Props
