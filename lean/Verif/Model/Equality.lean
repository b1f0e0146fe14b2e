import Verif.Model.Types
/-!
# Comparing and cloning nodes: `yam-core/src/node/scalar.rs` 30–46 and 205–220, `node/yaml_data.rs` 40–58 and 119–137, `node/yaml_owned.rs`

`YamlOwned` differs from `Yaml` in the type of its strings only, so both are `Yaml F` here.
-/
namespace Verif.Equality
open Verif
variable {F : Type}

/-- `PartialEq for YamlScalar`: scalar.rs 36–45. `feq` is `==` on floats, which is not an equivalence relation for `f64`. -/
def eqScalar (feq : F → F → Bool) : Scalar F → Scalar F → Bool
  | .null, .null => true
  | .str s1, .str s2 => s1 == s2
  | .bool s1, .bool s2 => s1 == s2
  | .int s1, .int s2 => s1 == s2
  | .float s1, .float s2 => feq s1 s2
  | _, _ => false

mutual
/-- `PartialEq for YamlData`: yaml_data.rs 47–57; the derived ones of `Yaml` (yaml.rs 41) and `YamlOwned` (yaml_owned.rs 4) -/
def eqNode (feq : F → F → Bool) : Yaml F → Yaml F → Bool
  | .bad, .bad => true
  | .scalar s1, .scalar s2 => eqScalar feq s1 s2
  | .seq s1, .seq s2 => eqVec feq s1 s2
  | .map s1, .map s2 => eqEntries feq s1 s2
  | .tagged t1 b1, .tagged t2 b2 => t1 == t2 && eqNode feq b1 b2
  | .alias a1, .alias a2 => a1 == a2
  | _, _ => false
/-- `PartialEq for Vec<Node>` (of the standard library) -/
def eqVec (feq : F → F → Bool) : List (Yaml F) → List (Yaml F) → Bool
  | [], [] => true
  | a :: s1, b :: s2 => eqNode feq a b && eqVec feq s1 s2
  | _, _ => false
/-- `PartialEq for Vec<YamlEntry>`: the one of `YamlEntry` is derived (prelude/mod.rs 1010) -/
def eqEntries (feq : F → F → Bool) : List (Yaml F × Yaml F) → List (Yaml F × Yaml F) → Bool
  | [], [] => true
  | (k1, v1) :: s1, (k2, v2) :: s2 => (eqNode feq k1 k2 && eqNode feq v1 v2) && eqEntries feq s1 s2
  | _, _ => false
end

/-- `Clone for YamlScalar`: scalar.rs 211–219 -/
def cloneScalar : Scalar F → Scalar F
  | .null => .null
  | .str s => .str s
  | .float f => .float f
  | .bool b => .bool b
  | .int i => .int i

mutual
/-- `Clone for YamlData`: yaml_data.rs 119–128, and of `Yaml` (yaml.rs 50–52) and `YamlOwned` (yaml_owned.rs 8–17) -/
def cloneNode : Yaml F → Yaml F
  | .alias a => .alias a
  | .bad => .bad
  | .scalar s => .scalar (cloneScalar s)
  | .seq s => .seq (cloneVec s)
  | .map m => .map (cloneEntries m)
  | .tagged t b => .tagged t (cloneNode b)
/-- `Clone for Vec<Node>` -/
def cloneVec : List (Yaml F) → List (Yaml F)
  | [] => []
  | a :: s => cloneNode a :: cloneVec s
/-- `Clone for Vec<YamlEntry>` (derived for the entry: prelude/mod.rs 1010) -/
def cloneEntries : List (Yaml F × Yaml F) → List (Yaml F × Yaml F)
  | [] => []
  | (k, v) :: s => (cloneNode k, cloneNode v) :: cloneEntries s
end

end Verif.Equality
