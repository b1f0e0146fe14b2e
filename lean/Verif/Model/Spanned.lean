import Verif.Model.Access
import Verif.Model.Tokens
/-!
# Nodes with the place they were read from: `yam-core/src/node/spanned_yaml.rs`

The float type is `f64`, so `Into<f64>` and `ToMut<f64>` are the identity. As in `Access`, a mutable reference is the function that writes through
it, `none` is Rust's `None`, `Err` for sequences and mappings, or a panic where the Rust function returns a plain reference.
-/
namespace Verif.Spanned
open Verif Verif.Index

/-- `SpannedYaml`: spanned_yaml.rs 54–57. The variants of its `YamlData` are the constructors, with the span as the first argument. -/
inductive SNode (F : Type)
  | bad (span : Span)
  | scalar (span : Span) (s : Scalar F)
  | seq (span : Span) (items : List (SNode F))
  | map (span : Span) (entries : List (SNode F × SNode F))
  | tagged (span : Span) (tag : Tag) (node : SNode F)
  | alias (span : Span) (id : Nat)

variable {F : Type}

/-- the field `span`: spanned_yaml.rs 55 -/
def SNode.span : SNode F → Span
  | .bad sp => sp
  | .scalar sp _ => sp
  | .seq sp _ => sp
  | .map sp _ => sp
  | .tagged sp _ _ => sp
  | .alias sp _ => sp

/-- `Span::default()` (derived): prelude/mod.rs 43 -/
def defaultSpan : Span := ⟨.default, .default⟩

mutual
/-- `Clone for SpannedYaml`: spanned_yaml.rs 63–68 with yaml_data.rs 119–128 and scalar.rs 211–219 (a scalar is copied whole) -/
def clone : SNode F → SNode F
  | .alias sp a => .alias sp a
  | .bad sp => .bad sp
  | .scalar sp s => .scalar sp s
  | .seq sp s => .seq sp (cloneVec s)
  | .map sp m => .map sp (cloneEntries m)
  | .tagged sp t b => .tagged sp t (clone b)
/-- `Clone for Vec<SpannedYaml>` -/
def cloneVec : List (SNode F) → List (SNode F)
  | [] => []
  | a :: s => clone a :: cloneVec s
/-- `Clone for Vec<YamlEntry>`: prelude/mod.rs 1010 -/
def cloneEntries : List (SNode F × SNode F) → List (SNode F × SNode F)
  | [] => []
  | (k, v) :: s => (clone k, clone v) :: cloneEntries s
end

/-- `key_from_usize`: spanned_yaml.rs 80–85 -/
def keyFromUsize (i : Nat) : SNode F := .scalar defaultSpan (.int (castSigned i))
/-- `key_from_str`: spanned_yaml.rs 87–92 -/
def keyFromStr (s : List Byte) : SNode F := .scalar defaultSpan (.str s)

/-- `is_non_empty_collection`: spanned_yaml.rs 94–100 -/
def isNonEmptyCollection : SNode F → Bool
  | .seq _ s => !s.isEmpty
  | .map _ m => !m.isEmpty
  | _ => false

/-- `as_bool`: spanned_yaml.rs 102–107 -/
def asBool : SNode F → Option Bool
  | .scalar _ (.bool b) => some b
  | _ => none
/-- `as_i64`: spanned_yaml.rs 116–121 -/
def asI64 : SNode F → Option Int
  | .scalar _ (.int b) => some b
  | _ => none
/-- `as_f64`: spanned_yaml.rs 130–135 -/
def asF64 : SNode F → Option F
  | .scalar _ (.float b) => some b
  | _ => none
/-- `as_str`: spanned_yaml.rs 172–177; `into_string`: 225–230 -/
def asStr : SNode F → Option (List Byte)
  | .scalar _ (.str s) => some s
  | _ => none
/-- `as_sequence`: spanned_yaml.rs 144–149; `into_sequence`: 239–244; `sequence` (a panic instead of the error): 193–198 -/
def asSequence : SNode F → Option (List (SNode F))
  | .seq _ s => some s
  | _ => none
/-- `as_mapping`: spanned_yaml.rs 158–163; `into_mapping`: 232–237; `mapping` (a panic instead of the error): 207–212 -/
def asMapping : SNode F → Option (List (SNode F × SNode F))
  | .map _ s => some s
  | _ => none
/-- `get_tag`: spanned_yaml.rs 214–219 -/
def getTag : SNode F → Option Tag
  | .tagged _ tag _ => some tag
  | _ => none
/-- `get_type`: spanned_yaml.rs 221–223 with yaml_data.rs 73–85 -/
def getType : SNode F → NodeType
  | .map _ _ => .mapping
  | .seq _ _ => .sequence
  | .scalar _ (.bool _) => .bool
  | .scalar _ (.int _) => .integer
  | .scalar _ (.float _) => .floating
  | .scalar _ (.str _) => .string
  | .alias _ _ => .alias
  | .scalar _ .null => .null
  | .bad _ => .bad
  | .tagged _ _ _ => .bad

/-- a write through `as_bool_mut`: spanned_yaml.rs 109–114 -/
def setBool (v : Bool) : SNode F → Option (SNode F)
  | .scalar sp (.bool _) => some (.scalar sp (.bool v))
  | _ => none
/-- a write through `as_i64_mut`: spanned_yaml.rs 123–128 -/
def setI64 (v : Int) : SNode F → Option (SNode F)
  | .scalar sp (.int _) => some (.scalar sp (.int v))
  | _ => none
/-- a write through `as_f64_mut`: spanned_yaml.rs 137–142 -/
def setF64 (v : F) : SNode F → Option (SNode F)
  | .scalar sp (.float _) => some (.scalar sp (.float v))
  | _ => none
/-- a write through `as_sequence_mut`: spanned_yaml.rs 151–156; `sequence_mut` (a panic instead of the error): 186–191 -/
def setSequence (v : List (SNode F)) : SNode F → Option (SNode F)
  | .seq sp _ => some (.seq sp v)
  | _ => none
/-- a write through `as_mapping_mut`: spanned_yaml.rs 165–170; `mapping_mut` (a panic instead of the error): 200–205 -/
def setMapping (v : List (SNode F × SNode F)) : SNode F → Option (SNode F)
  | .map sp _ => some (.map sp v)
  | _ => none

/-- `into_tagged`: spanned_yaml.rs 246–251 -/
def intoTagged (n : SNode F) (t : Tag) : SNode F := .tagged n.span t n
/-- `bad_span_value`: spanned_yaml.rs 253–258 -/
def badSpanValue (sp : Span) : SNode F := .bad sp
/-- `null`: spanned_yaml.rs 260–265 -/
def null : SNode F := .scalar defaultSpan .null
/-- `take`: prelude/mod.rs 923–925 with `bad_value` (878–880): what is returned, and what is left behind -/
def take (n : SNode F) : SNode F × SNode F := (n, badSpanValue defaultSpan)
/-- `with_start`: prelude/mod.rs 945–947, the default of the trait -/
def withStart (n : SNode F) (_ : Marker) : SNode F := n
/-- `with_end`: prelude/mod.rs 967–969, the default of the trait -/
def withEnd (n : SNode F) (_ : Marker) : SNode F := n
/-- `with_span`: prelude/mod.rs 989–991, the default of the trait -/
def withSpan (n : SNode F) (_ : Span) : SNode F := n

end Verif.Spanned
