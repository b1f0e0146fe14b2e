import Verif.Model.Types
import Verif.Model.CharUtils
/-!
# Scalar resolution: `yam-core/src/node/scalar.rs`, `node/yaml_data.rs`, and the integer conversions of Rust's core library
-/
namespace Verif.Scalar
open Verif

/-- Value fits Rust's `i64` -/
def inI64 (i : Int) : Bool := -(2 ^ 63) ≤ i && i < 2 ^ 63

/-- Rust core `char::to_digit(radix)` on an ASCII byte -/
def toDigit (radix : Nat) (c : Byte) : Option Nat :=
  let d := if b%'0' ≤ c ∧ c ≤ b%'9' then some (c - b%'0')
    else if b%'a' ≤ c ∧ c ≤ b%'z' then some (c - b%'a' + 10)
    else if b%'A' ≤ c ∧ c ≤ b%'Z' then some (c - b%'A' + 10)
    else none
  match d with
  | some d => if d < radix then some d else none
  | none => none

/-- The digit loop of Rust core `i64::from_str_radix`: `checked_mul`, `to_digit`, then `checked_add` (positive) or
`checked_sub` (negative). `none` is any `ParseIntError`. -/
def accDigits (radix : Nat) (positive : Bool) : Int → List Byte → Option Int
  | acc, [] => some acc
  | acc, c :: cs =>
    match toDigit radix c with
    | none => none
    | some d =>
      let m := acc * radix
      if inI64 m then
        let r := if positive then m + d else m - d
        if inI64 r then accDigits radix positive r cs else none
      else none

/-- Rust core `i64::from_str_radix`: empty and lone sign are errors, one leading sign is accepted. -/
def parseI64Radix (radix : Nat) (s : List Byte) : Option Int :=
  match s with
  | [] => none
  | c :: rest =>
    if c = b%'+' then (if rest = [] then none else accDigits radix true 0 rest)
    else if c = b%'-' then (if rest = [] then none else accDigits radix false 0 rest)
    else accDigits radix true 0 s

/-- Rust core `str::parse::<i64>().ok()`; also `parse_i64_from_cow`, scalar.rs 200–203 -/
def parseI64 (s : List Byte) : Option Int := parseI64Radix 10 s

/-- `parse_core_schema_fp`: scalar.rs 188–198 -/
def parseCoreSchemaFp {F} (fo : FloatOps F) (v : List Byte) : Option F :=
  if v = bs!".inf" ∨ v = bs!".Inf" ∨ v = bs!".INF" ∨ v = bs!"+.inf" ∨ v = bs!"+.Inf" ∨ v = bs!"+.INF" then some fo.inf
  else if v = bs!"-.inf" ∨ v = bs!"-.Inf" ∨ v = bs!"-.INF" then some fo.ninf
  else if v = bs!".nan" ∨ v = bs!".NaN" ∨ v = bs!".NAN" then some fo.nan
  else if v.any CharUtils.isAsciiDigit then fo.parse v
  else none

/-- The first `match` of `parse_from_cow`: scalar.rs 130–149. `some i` is the early return. -/
def earlyInt (s : List Byte) : Option Int :=
  match s with
  | a :: b :: rest =>
    if a = b%'0' ∧ b = b%'x' then parseI64Radix 16 rest
    else if a = b%'0' ∧ b = b%'o' then parseI64Radix 8 rest
    else if a = b%'+' then parseI64 (b :: rest)
    else none
  | _ => none

/-- The second `match` of `parse_from_cow`: scalar.rs 151–165. -/
def earlyWord {F} (s : List Byte) : Option (Scalar F) :=
  if s.length = 1 then (if s = bs!"~" then some .null else none)
  else if s.length = 4 then
    let f := s.headD 0 &&& 0xDF
    if f = b%'N' ∧ (s = bs!"null" ∨ s = bs!"Null" ∨ s = bs!"NULL") then some .null
    else if f = b%'T' ∧ (s = bs!"true" ∨ s = bs!"True" ∨ s = bs!"TRUE") then some (.bool true)
    else none
  else if s.length = 5 then
    if s = bs!"false" ∨ s = bs!"False" ∨ s = bs!"FALSE" then some (.bool false) else none
  else none

/-- `YamlScalar::parse_from_cow`: scalar.rs 126–176 -/
def parseFromCow {F} (fo : FloatOps F) (s : List Byte) : Scalar F :=
  match earlyInt s with
  | some i => .int i
  | none =>
    match earlyWord s with
    | some v => v
    | none =>
      match parseI64 s with
      | some i => .int i
      | none =>
        match parseCoreSchemaFp fo s with
        | some f => .float f
        | none => .str s

/-- Rust core `str::parse::<bool>().ok()` -/
def parseBool (s : List Byte) : Option Bool :=
  if s = bs!"true" then some true else if s = bs!"false" then some false else none

/-- `ScalarValue::is_null_tagged`: yam-core/src/parsing/parser.rs 89–97 -/
def isNullTagged (v : List Byte) (tag : Tag) : Bool :=
  if v.isEmpty || v == bs!"null" then true
  else if tag.isYamlCoreSchema then v == bs!"~" || v == bs!"null"
  else false

/-- `YamlScalar::parse_from_cow_and_metadata`: scalar.rs 82–117 -/
def parseFromCowAndMetadata {F} (fo : FloatOps F) (v : List Byte) (ty : ScalarType) (tag : Option Tag) :
    Option (Scalar F) :=
  if ty ≠ .plain then some (.str v)
  else match tag with
    | some tag =>
      if tag.isYamlCoreSchema then
        if tag.suffix = bs!"bool" then (parseBool v).map .bool
        else if tag.suffix = bs!"int" then (parseI64 v).map .int
        else if tag.suffix = bs!"float" then (parseCoreSchemaFp fo v).map .float
        else if tag.suffix = bs!"null" then (if isNullTagged v tag then some .null else none)
        else if tag.suffix = bs!"str" then some (.str v)
        else none
      else some (parseFromCow fo v)
    | none => some (parseFromCow fo v)

/-- `YamlData::value_from_cow_and_metadata`: yam-core/src/node/yaml_data.rs 96–109. The recursive call has `tag = None`
and is unfolded here. -/
def valueFromCowAndMetadata {F} (fo : FloatOps F) (v : List Byte) (ty : ScalarType) (tag : Option Tag) : Yaml F :=
  let untagged (tag : Option Tag) : Yaml F :=
    match parseFromCowAndMetadata fo v ty tag with
    | some x => .scalar x
    | none => .bad
  match tag with
  | some t => if !t.isYamlCoreSchema then .tagged t (untagged none) else untagged (some t)
  | none => untagged none

/-- Decimal digits of a natural number (most significant first); `fuel > n` suffices. Rust core `Display` for integers. -/
def natDigits : Nat → Nat → List Byte
  | 0, _ => []
  | fuel + 1, n => if n < 10 then [b%'0' + n] else natDigits fuel (n / 10) ++ [b%'0' + n % 10]

/-- Rust core `Display for i64` -/
def displayI64 (i : Int) : List Byte :=
  if i < 0 then b%'-' :: natDigits (i.natAbs + 1) i.natAbs else natDigits (i.natAbs + 1) i.natAbs

end Verif.Scalar
