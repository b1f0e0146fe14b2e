import Verif.Model.Types
/-!
# Expansion limits: `yam-core/src/lazy_expander.rs`

`usize` sums are unbounded naturals.
-/
namespace Verif.Lazy
open Verif

/-- `LazyExpander`, `LazyExpanderVec`, `LazyExpanderMap`: lazy_expander.rs 5–9, 31–33, 43–45.
The scalar payload is irrelevant here and is the type parameter `S`. -/
inductive Expander (S : Type)
  | scalar (s : S)
  | vector (inner : List (Expander S))
  | map (inner : List (Expander S × Expander S))

mutual
/-- `calculate_limit` for `LazyExpander`: lazy_expander.rs 18–26 -/
def limit {S} : Expander S → Nat
  | .scalar _ => 1
  | .vector inner => limitVec 0 inner
  | .map inner => limitMap 0 inner
/-- the fold of `LazyExpanderVec::calculate_limit`: lazy_expander.rs 35–41 -/
def limitVec {S} (acc : Nat) : List (Expander S) → Nat
  | [] => acc
  | e :: es => limitVec (acc + limit e) es
/-- the fold of `LazyExpanderMap::calculate_limit`: lazy_expander.rs 47–53 -/
def limitMap {S} (acc : Nat) : List (Expander S × Expander S) → Nat
  | [] => acc
  | e :: es => limitMap (limitPair acc e) es
/-- the closure `acc + expansion.0… + expansion.1…`: lazy_expander.rs 49–51 -/
def limitPair {S} (acc : Nat) : Expander S × Expander S → Nat
  | (k, v) => acc + limit k + limit v
end

/-- `can_expand`: lazy_expander.rs 13–15 -/
def canExpand {S} (e : Expander S) (lim : Nat) : Bool := decide (lim > limit e)

end Verif.Lazy
