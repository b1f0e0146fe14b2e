import Verif.Model.Types
/-!
# Indexing into a node: `yam-core/src/node/yaml.rs` 353–431

Rust returns references. A shared reference is modelled by the value it points to, a mutable reference by the function that
writes a new value through it (and returns the changed node). `none` is a panic.
-/
namespace Verif.Index
open Verif

/-- `NodeType`: yam-core/src/prelude/mod.rs 194–213 -/
inductive NodeType
  | bad | null | string | bool | floating | integer | alias | sequence | mapping
deriving DecidableEq, Repr

/-- `YamlData::get_type`: yam-core/src/node/yaml_data.rs 73–85 (`Tagged` falls into `_ => Bad`) -/
def getType {F} : Yaml F → NodeType
  | .map _ => .mapping
  | .seq _ => .sequence
  | .scalar (.bool _) => .bool
  | .scalar (.int _) => .integer
  | .scalar (.float _) => .floating
  | .scalar (.str _) => .string
  | .alias _ => .alias
  | .scalar .null => .null
  | .bad => .bad
  | .tagged _ _ => .bad

/-- `index.cast_signed() as i64` for a 64-bit `usize`: yaml.rs 67 -/
def castSigned (i : Nat) : Int := if i % 2 ^ 64 < 2 ^ 63 then (i % 2 ^ 64 : Nat) else (i % 2 ^ 64 : Nat) - 2 ^ 64

/-- `x.key == Yaml::key_from_usize(index)`: yaml.rs 65–69 with the derived equality (yaml_data.rs 47–57, scalar.rs 36–45) -/
def isIntKey {F} (i : Nat) : Yaml F → Bool
  | .scalar (.int j) => j == castSigned i
  | _ => false

/-- `x.key == Yaml::key_from_str(index)`: yaml.rs 71–75 -/
def isStrKey {F} (s : List Byte) : Yaml F → Bool
  | .scalar (.str t) => t == s
  | _ => false

/-- `Index<usize>`: yaml.rs 360–368 -/
def indexUsize {F} (n : Yaml F) (i : Nat) : Option (Yaml F) :=
  match n with
  | .map es => (es.find? fun e => isIntKey i e.1).map (·.2)
  | .seq xs => xs[i]?
  | _ => none

/-- `Index<&str>`: yaml.rs 401–408 -/
def indexStr {F} (n : Yaml F) (s : List Byte) : Option (Yaml F) :=
  match n with
  | .map es => (es.find? fun e => isStrKey s e.1).map (·.2)
  | _ => none

/-- Apply `f` to the first entry satisfying `p` (`iter_mut().find(p).unwrap()` and a write through it). -/
def updateFirst {α} (p : α → Bool) (f : α → α) : List α → Option (List α)
  | [] => none
  | x :: xs => if p x then some (f x :: xs) else (updateFirst p f xs).map (x :: ·)

/-- `IndexMut<usize>` followed by a write of `v`: yaml.rs 376–391. On a mapping the reference is to the **key**. -/
def setUsize {F} (n : Yaml F) (i : Nat) (v : Yaml F) : Option (Yaml F) :=
  match n with
  | .map es => (updateFirst (fun e => isIntKey i e.1) (fun e => (v, e.2)) es).map .map
  | .seq xs => if i < xs.length then some (.seq (xs.set i v)) else none
  | _ => none

/-- `IndexMut<&str>` followed by a write of `v`: yaml.rs 416–430 -/
def setStr {F} (n : Yaml F) (s : List Byte) (v : Yaml F) : Option (Yaml F) :=
  match n with
  | .map es => (updateFirst (fun e => isStrKey s e.1) (fun e => (e.1, v)) es).map .map
  | _ => none

/-- Reading through the mutable reference of `IndexMut<usize>`: yaml.rs 376–391 -/
def indexMutUsize {F} (n : Yaml F) (i : Nat) : Option (Yaml F) :=
  match n with
  | .map es => (es.find? fun e => isIntKey i e.1).map (·.1)
  | .seq xs => xs[i]?
  | _ => none

end Verif.Index
