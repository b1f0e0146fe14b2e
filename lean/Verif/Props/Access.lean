import Verif.Model.Access
/-!
# Property C45: the type predicates and the accessors of a node agree
-/
namespace Verif.Props
open Verif Verif.Index Verif.Access
variable {F : Type}

/-- the nine `is_…` predicates that name a kind of node, in the order bad, null, string, bool, float, integer, alias, mapping, sequence -/
def kinds (n : Yaml F) : List Bool :=
  [isBadValue n, isNull n, isString n, isBool n, isFloatingPoint n, isInteger n, isAlias n, isMapping n, isSequence n]

/-- **C45 (partial)** Exactly one of the predicates that name a kind is true of a node. An accessor succeeds exactly on nodes of its kind, and
what it returns is all there is to the node (the node with that value in it is the node again). `is_collection` and `is_non_empty_collection` say
what their names say. Partial: "bad" includes tagged nodes, see `C45_tagged_false`. -/
theorem C45_access_partial (n : Yaml F) :
    (kinds n).count true = 1 ∧
    (∀ b, asBool n = some b ↔ n = .scalar (.bool b)) ∧ ((asBool n).isSome = isBool n) ∧
    (∀ i, asI64 n = some i ↔ n = .scalar (.int i)) ∧ ((asI64 n).isSome = isInteger n) ∧
    (∀ f, asF64 n = some f ↔ n = .scalar (.float f)) ∧ ((asF64 n).isSome = isFloatingPoint n) ∧
    (∀ s, asStr n = some s ↔ n = .scalar (.str s)) ∧ ((asStr n).isSome = isString n) ∧
    (∀ xs, asSequence n = some xs ↔ n = .seq xs) ∧ ((asSequence n).isSome = isSequence n) ∧
    (∀ es, asMapping n = some es ↔ n = .map es) ∧ ((asMapping n).isSome = isMapping n) ∧
    (isNull n = true ↔ n = .scalar .null) ∧ (isAlias n = true ↔ ∃ i, n = .alias i) ∧
    (isCollection n = true ↔ isSequence n = true ∨ isMapping n = true) ∧
    (isNonEmptyCollection n = true ↔ (∃ x xs, asSequence n = some (x :: xs)) ∨ ∃ e es, asMapping n = some (e :: es)) ∧
    (isBadValue n = true ↔ n = .bad ∨ (getTag n).isSome) := by
  rcases n with _ | (_ | _ | _ | _ | _) | (_ | _) | (_ | _) | _ | _ <;>
    simp [kinds, isBadValue, isNull, isString, isBool, isFloatingPoint, isInteger, isAlias, isMapping, isSequence, isCollection, isNonEmptyCollection,
      getType, asBool, asI64, asF64, asStr, asSequence, asMapping, getTag]

/-- **C45** Writing through a mutable accessor succeeds exactly when the accessor that reads succeeds; afterwards the written value is read, and the kind of the
node is what it was. Taking a node gives it and leaves a bad value. A node that is given a tag has that tag. -/
theorem C45_write (n : Yaml F) :
    (∀ v, (setBool v n).isSome = (asBool n).isSome ∧ ∀ m, setBool v n = some m → asBool m = some v ∧ kinds m = kinds n) ∧
    (∀ v, (setI64 v n).isSome = (asI64 n).isSome ∧ ∀ m, setI64 v n = some m → asI64 m = some v ∧ kinds m = kinds n) ∧
    (∀ v, (setF64 v n).isSome = (asF64 n).isSome ∧ ∀ m, setF64 v n = some m → asF64 m = some v ∧ kinds m = kinds n) ∧
    (∀ v, (setSequence v n).isSome = (asSequence n).isSome ∧ ∀ m, setSequence v n = some m → asSequence m = some v ∧ kinds m = kinds n) ∧
    (∀ v, (setMapping v n).isSome = (asMapping n).isSome ∧ ∀ m, setMapping v n = some m → asMapping m = some v ∧ kinds m = kinds n) ∧
    (take n).1 = n ∧ isBadValue (take n).2 = true ∧ ∀ t, getTag (intoTagged n t) = some t := by
  rcases n with _ | (_ | _ | _ | _ | _) | _ | _ | _ | _ <;>
    simp [kinds, isBadValue, isNull, isString, isBool, isFloatingPoint, isInteger, isAlias, isMapping, isSequence, getType, setBool, setI64, setF64,
      setSequence, setMapping, asBool, asI64, asF64, asStr, asSequence, asMapping, getTag, intoTagged, take]

/-- the hypotheses are met: a sequence is written through its accessor -/
example : setSequence [.scalar .null] (.seq [.scalar (.int 1), .bad] : Yaml Unit) = some (.seq [.scalar .null]) := rfl

/-- C45 as stated: a node is reported bad only if it is a bad value, and giving a node a tag does not change its kind and value. -/
def C45_full (F : Type) : Prop :=
  ∀ n : Yaml F, (isBadValue n = true → n = .bad) ∧ ∀ t, kinds (intoTagged n t) = kinds n ∧ asStr (intoTagged n t) = asStr n

/-- **C45 as stated is false.** Every tagged node is reported bad, and its value cannot be reached with the accessors: `!t abc` is a string only without
its tag. -/
theorem C45_tagged_false : ¬ C45_full F ∧ ∀ (n : Yaml F) (t : Tag), isBadValue (intoTagged n t) = true ∧ asBool (intoTagged n t) = none ∧
    asI64 (intoTagged n t) = none ∧ asF64 (intoTagged n t) = none ∧ asStr (intoTagged n t) = none ∧ asSequence (intoTagged n t) = none ∧
    asMapping (intoTagged n t) = none := by
  refine ⟨fun h => ?_, fun n t => ⟨rfl, rfl, rfl, rfl, rfl, rfl, rfl⟩⟩
  have := ((h (.scalar (.str bs!"abc"))).2 ⟨bs!"!", bs!"t"⟩).2
  simp [intoTagged, asStr] at this

end Verif.Props
