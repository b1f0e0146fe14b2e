import Verif.Model.Index
/-!
# Asking a node for its type and value: `yam-core/src/prelude/mod.rs` 271–480 and 736–925, `yam-core/src/node/yaml.rs` 55–245

As in `Index`, a mutable reference is the function that writes through it. `none` is Rust's `None`, or `Err` for sequences and mappings (the error only
repeats what was asked for). A panic is `none` where the Rust function returns a plain reference.
-/
namespace Verif.Access
open Verif Verif.Index
variable {F : Type}

/-- `is_bad_value`: prelude/mod.rs 292–294 -/
def isBadValue (n : Yaml F) : Bool := getType n == .bad
/-- `is_null`: prelude/mod.rs 313–315 -/
def isNull (n : Yaml F) : Bool := getType n == .null
/-- `is_string`: prelude/mod.rs 335–337 -/
def isString (n : Yaml F) : Bool := getType n == .string
/-- `is_bool`: prelude/mod.rs 352–354 -/
def isBool (n : Yaml F) : Bool := getType n == .bool
/-- `is_floating_point`: prelude/mod.rs 368–370 -/
def isFloatingPoint (n : Yaml F) : Bool := getType n == .floating
/-- `is_integer`: prelude/mod.rs 384–386 -/
def isInteger (n : Yaml F) : Bool := getType n == .integer
/-- `is_alias`: prelude/mod.rs 401–403 -/
def isAlias (n : Yaml F) : Bool := getType n == .alias
/-- `is_collection`: prelude/mod.rs 425–427 -/
def isCollection (n : Yaml F) : Bool := getType n == .sequence || getType n == .mapping
/-- `is_mapping`: prelude/mod.rs 449–451 -/
def isMapping (n : Yaml F) : Bool := getType n == .mapping
/-- `is_sequence`: prelude/mod.rs 475–477 -/
def isSequence (n : Yaml F) : Bool := getType n == .sequence

/-- `is_non_empty_collection`: yaml.rs 77–83 -/
def isNonEmptyCollection : Yaml F → Bool
  | .seq s => !s.isEmpty
  | .map m => !m.isEmpty
  | _ => false

/-- `as_bool`: yaml.rs 85–90; `into_bool`: prelude/mod.rs 743–745 -/
def asBool : Yaml F → Option Bool
  | .scalar (.bool b) => some b
  | _ => none
/-- `as_i64`: yaml.rs 99–104; `into_i64`: prelude/mod.rs 780–782 -/
def asI64 : Yaml F → Option Int
  | .scalar (.int b) => some b
  | _ => none
/-- `as_f64`: yaml.rs 113–118; `into_f64`: prelude/mod.rs 766–768 -/
def asF64 : Yaml F → Option F
  | .scalar (.float b) => some b
  | _ => none
/-- `as_str`: yaml.rs 155–160; `into_string`: 208–213 -/
def asStr : Yaml F → Option (List Byte)
  | .scalar (.str s) => some s
  | _ => none
/-- `as_sequence`: yaml.rs 127–132; `into_sequence`: 222–227; `sequence` (a panic instead of the error): 176–181 -/
def asSequence : Yaml F → Option (List (Yaml F))
  | .seq s => some s
  | _ => none
/-- `as_mapping`: yaml.rs 141–146; `into_mapping`: 215–220; `mapping` (a panic instead of the error): 190–195 -/
def asMapping : Yaml F → Option (List (Yaml F × Yaml F))
  | .map s => some s
  | _ => none
/-- `get_tag`: yaml.rs 197–202 -/
def getTag : Yaml F → Option Tag
  | .tagged tag _ => some tag
  | _ => none

/-- a write through `as_bool_mut`: yaml.rs 92–97 -/
def setBool (v : Bool) : Yaml F → Option (Yaml F)
  | .scalar (.bool _) => some (.scalar (.bool v))
  | _ => none
/-- a write through `as_i64_mut`: yaml.rs 106–111 -/
def setI64 (v : Int) : Yaml F → Option (Yaml F)
  | .scalar (.int _) => some (.scalar (.int v))
  | _ => none
/-- a write through `as_f64_mut`: yaml.rs 120–125 -/
def setF64 (v : F) : Yaml F → Option (Yaml F)
  | .scalar (.float _) => some (.scalar (.float v))
  | _ => none
/-- a write through `as_sequence_mut`: yaml.rs 134–139; `sequence_mut` (a panic instead of the error): 169–174 -/
def setSequence (v : List (Yaml F)) : Yaml F → Option (Yaml F)
  | .seq _ => some (.seq v)
  | _ => none
/-- a write through `as_mapping_mut`: yaml.rs 148–153; `mapping_mut` (a panic instead of the error): 183–188 -/
def setMapping (v : List (Yaml F × Yaml F)) : Yaml F → Option (Yaml F)
  | .map _ => some (.map v)
  | _ => none

/-- `into_tagged`: yaml.rs 229–231 -/
def intoTagged (n : Yaml F) (t : Tag) : Yaml F := .tagged t n
/-- `take`: prelude/mod.rs 923–925 with `bad_value` (yaml.rs 237–239): what is returned, and what is left behind -/
def take (n : Yaml F) : Yaml F × Yaml F := (n, .bad)

end Verif.Access
