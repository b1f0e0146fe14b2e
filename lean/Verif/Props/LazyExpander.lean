import Verif.Model.LazyExpander
/-!
# C27: the expansion limit counts scalar leaves
-/
namespace Verif.Props
open Verif.Lazy

mutual
/-- Specification: the scalar leaves of a value, left to right. -/
def leaves {S} : Expander S → List S
  | .scalar s => [s]
  | .vector inner => leavesVec inner
  | .map inner => leavesMap inner
/-- leaves of a list of values -/
def leavesVec {S} : List (Expander S) → List S
  | [] => []
  | e :: es => leaves e ++ leavesVec es
/-- leaves of a list of entries, keys included -/
def leavesMap {S} : List (Expander S × Expander S) → List S
  | [] => []
  | e :: es => leavesPair e ++ leavesMap es
/-- leaves of one entry -/
def leavesPair {S} : Expander S × Expander S → List S
  | (k, v) => leaves k ++ leaves v
end

mutual
private theorem limit_eq {S} : ∀ e : Expander S, limit e = (leaves e).length
  | .scalar _ => by simp [limit, leaves]
  | .vector inner => by simp [limit, leaves, limitVec_eq 0 inner]
  | .map inner => by simp [limit, leaves, limitMap_eq 0 inner]
private theorem limitVec_eq {S} : ∀ (acc : Nat) (es : List (Expander S)), limitVec acc es = acc + (leavesVec es).length
  | acc, [] => by simp [limitVec, leavesVec]
  | acc, e :: es => by simp [limitVec, leavesVec, limitVec_eq _ es, limit_eq e]; omega
private theorem limitMap_eq {S} :
    ∀ (acc : Nat) (es : List (Expander S × Expander S)), limitMap acc es = acc + (leavesMap es).length
  | acc, [] => by simp [limitMap, leavesMap]
  | acc, e :: es => by simp [limitMap, leavesMap, limitMap_eq _ es, limitPair_eq acc e]; omega
private theorem limitPair_eq {S} :
    ∀ (acc : Nat) (e : Expander S × Expander S), limitPair acc e = acc + (leavesPair e).length
  | acc, (k, v) => by simp [limitPair, leavesPair, limit_eq k, limit_eq v]; omega
end

/-- **C27** The computed limit is the number of scalar leaves. -/
theorem C27_limit_counts_leaves {S} (e : Expander S) : limit e = (leaves e).length := limit_eq e

/-- **C27** A value may be expanded under a limit exactly when it has fewer leaves than the limit. -/
theorem C27_can_expand_iff {S} (e : Expander S) (lim : Nat) : canExpand e lim = true ↔ (leaves e).length < lim := by
  simp [canExpand, limit_eq]

example : canExpand (.vector [.scalar 1, .map [(.scalar 2, .vector [.scalar 3])]]) 4 = true ∧
    canExpand (.vector [.scalar 1, .map [(.scalar 2, .vector [.scalar 3])]]) 3 = false := ⟨rfl, rfl⟩

end Verif.Props
