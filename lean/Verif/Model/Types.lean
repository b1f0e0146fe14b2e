import Verif.Model.Bytes
/-!
# Shared data types
-/
namespace Verif

/-- `ScalarType`: yam-core/src/prelude/mod.rs 1041–1085 -/
inductive ScalarType
  | plain | folded | literal | singleQuote | doubleQuote
deriving DecidableEq, Repr

/-- `Tag`: yam-core/src/parsing/mod.rs 188–193 -/
structure Tag where
  handle : List Byte
  suffix : List Byte
deriving DecidableEq, Repr

/-- `Tag::is_yaml_core_schema`: parsing/mod.rs 235–237 -/
def Tag.isYamlCoreSchema (t : Tag) : Bool := t.handle == bs!"tag:yaml.org,2002:"

/-- `YamlScalar`: yam-core/src/node/scalar.rs 17–28. `F` is the float type; integers are `Int`s produced only within
the range of `i64`. -/
inductive Scalar (F : Type)
  | null
  | str (s : List Byte)
  | bool (b : Bool)
  | float (f : F)
  | int (i : Int)
deriving DecidableEq, Repr

/-- `YamlData`/`Yaml`: yam-core/src/node/yaml_data.rs 16–38. A mapping is the list of its entries in order. -/
inductive Yaml (F : Type)
  | bad
  | scalar (s : Scalar F)
  | seq (items : List (Yaml F))
  | map (entries : List (Yaml F × Yaml F))
  | tagged (tag : Tag) (node : Yaml F)
  | alias (id : Nat)
deriving Repr

/-- Rust's `f64` text conversions, as parameters: nothing is assumed about them unless a theorem says so. -/
structure FloatOps (F : Type) where
  /-- `str::parse::<f64>().ok()` -/
  parse : List Byte → Option F
  /-- `Display for f64` -/
  display : F → List Byte
  inf : F
  ninf : F
  nan : F

end Verif
