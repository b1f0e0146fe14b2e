import Verif.Model.Convert
import Verif.Props.Access
import Verif.Props.RoundTrip
/-!
# Property C72: a node made of a Rust value holds that value
-/
namespace Verif.Props
open Verif Verif.Index Verif.Spec Verif.Emitter
variable {F G : Type}

/-- a Rust value that can be turned into a node: the numbers with their bits, booleans, strings, and vectors of such values -/
inductive RustValue (F G : Type)
  | i8 (v : BitVec 8) | i16 (v : BitVec 16) | i32 (v : BitVec 32) | i64 (v : BitVec 64)
  | bool (v : Bool) | str (v : List Byte) | f64 (v : F) | f32 (v : G)
  | vec (vs : List (RustValue F G))

/-- what it stands for -/
inductive Data (F : Type)
  | int (i : Int) | bool (b : Bool) | str (s : List Byte) | float (f : F) | list (ds : List (Data F))

mutual
/-- what a Rust value stands for: the integer its bits are in two's complement, whatever their number, and so on -/
def RustValue.data (widen : G → F) : RustValue F G → Data F
  | .i8 v => .int v.toInt
  | .i16 v => .int v.toInt
  | .i32 v => .int v.toInt
  | .i64 v => .int v.toInt
  | .bool v => .bool v
  | .str v => .str v
  | .f64 v => .float v
  | .f32 v => .float (widen v)
  | .vec vs => .list (dataVec widen vs)
/-- the same for the values of a vector -/
def dataVec (widen : G → F) : List (RustValue F G) → List (Data F)
  | [] => []
  | v :: vs => v.data widen :: dataVec widen vs
end

mutual
/-- `Yaml::from(value)`, for a vector after its elements were turned into nodes -/
def RustValue.node (widen : G → F) : RustValue F G → Yaml F
  | .i8 v => Convert.fromI8 v
  | .i16 v => Convert.fromI16 v
  | .i32 v => Convert.fromI32 v
  | .i64 v => Convert.fromI64 v
  | .bool v => Convert.fromBool v
  | .str v => Convert.fromStr v
  | .f64 v => Convert.fromF64 v
  | .f32 v => Convert.fromF32 widen v
  | .vec vs => Convert.fromVec (nodeVec widen vs)
/-- the same for the values of a vector -/
def nodeVec (widen : G → F) : List (RustValue F G) → List (Yaml F)
  | [] => []
  | v :: vs => v.node widen :: nodeVec widen vs
end

/-- What a user finds in a node with `as_i64`, `as_bool`, `as_str` and `as_f64`, and with `as_sequence` and then the same for all elements. -/
inductive Finds : Yaml F → Data F → Prop
  | int {n i} : Access.asI64 n = some i → Finds n (.int i)
  | bool {n b} : Access.asBool n = some b → Finds n (.bool b)
  | str {n s} : Access.asStr n = some s → Finds n (.str s)
  | float {n f} : Access.asF64 n = some f → Finds n (.float f)
  | list {n xs ds} : Access.asSequence n = some xs → xs.length = ds.length → (∀ (k : Nat) x d, xs[k]? = some x → ds[k]? = some d → Finds x d) →
      Finds n (.list ds)

/-- what each accessor returns says what the node is -/
theorem accessed (n : Yaml F) : (∀ i, Access.asI64 n = some i ↔ n = .scalar (.int i)) ∧ (∀ b, Access.asBool n = some b ↔ n = .scalar (.bool b)) ∧
    (∀ s, Access.asStr n = some s ↔ n = .scalar (.str s)) ∧ (∀ f, Access.asF64 n = some f ↔ n = .scalar (.float f)) ∧
    ∀ xs, Access.asSequence n = some xs ↔ n = .seq xs := by
  obtain ⟨_, h1, _, h2, _, h3, _, h4, _, h5, _⟩ := C45_access_partial n
  exact ⟨h2, h1, h4, h3, h5⟩

/-- what is found is determined -/
theorem Finds.unique {n : Yaml F} {d e : Data F} (h : Finds n d) : Finds n e → d = e := by
  induction h generalizing e with
  | int h => 
    rw [(accessed _).1] at h
    subst h
    rintro (g | g | g | g | ⟨g, _, _⟩) <;> simp_all [Access.asI64, Access.asBool, Access.asStr, Access.asF64, Access.asSequence]
  | bool h =>
    rw [(accessed _).2.1] at h
    subst h
    rintro (g | g | g | g | ⟨g, _, _⟩) <;> simp_all [Access.asI64, Access.asBool, Access.asStr, Access.asF64, Access.asSequence]
  | str h =>
    rw [(accessed _).2.2.1] at h
    subst h
    rintro (g | g | g | g | ⟨g, _, _⟩) <;> simp_all [Access.asI64, Access.asBool, Access.asStr, Access.asF64, Access.asSequence]
  | float h =>
    rw [(accessed _).2.2.2.1] at h
    subst h
    rintro (g | g | g | g | ⟨g, _, _⟩) <;> simp_all [Access.asI64, Access.asBool, Access.asStr, Access.asF64, Access.asSequence]
  | @list n xs ds h l g ih =>
    rw [(accessed _).2.2.2.2] at h
    subst h
    rintro (k | k | k | k | ⟨k, m, q⟩)
    · simp [Access.asI64] at k
    · simp [Access.asBool] at k
    · simp [Access.asStr] at k
    · simp [Access.asF64] at k
    · simp only [Access.asSequence, Option.some.injEq] at k
      subst k
      congr 1
      apply List.ext_getElem (by omega)
      intro j h1 h2
      have hx : j < xs.length := by omega
      exact ih j _ _ (List.getElem?_eq_getElem hx) (List.getElem?_eq_getElem h1) (q j _ _ (List.getElem?_eq_getElem hx) (List.getElem?_eq_getElem h2))

theorem asI64_wide {w : Nat} (h : w ≤ 64) (v : BitVec w) : Convert.asI64 v = v.toInt := by
  rw [Convert.asI64, BitVec.toInt_signExtend_of_le h]

theorem vec_get (widen : G → F) (vs : List (RustValue F G)) (k : Nat) :
    (nodeVec widen vs)[k]? = (vs[k]?).map (RustValue.node widen) ∧ (dataVec widen vs)[k]? = (vs[k]?).map (RustValue.data widen) ∧
    (nodeVec widen vs).length = vs.length ∧ (dataVec widen vs).length = vs.length := by
  induction vs generalizing k with
  | nil => simp [nodeVec, dataVec]
  | cons v vs ih => 
    cases k with
    | zero => simp [nodeVec, dataVec, (ih 0).2.2]
    | succ k => simp [nodeVec, dataVec, ih k]

mutual
theorem node_finds (widen : G → F) : (v : RustValue F G) → Finds (v.node widen) (v.data widen)
  | .i8 v => .int (by simp [RustValue.node, Convert.fromI8, Access.asI64, asI64_wide])
  | .i16 v => .int (by simp [RustValue.node, Convert.fromI16, Access.asI64, asI64_wide])
  | .i32 v => .int (by simp [RustValue.node, Convert.fromI32, Access.asI64, asI64_wide])
  | .i64 v => .int (by simp [RustValue.node, Convert.fromI64, Access.asI64])
  | .bool v => .bool rfl
  | .str v => .str rfl
  | .f64 v => .float rfl
  | .f32 v => .float rfl
  | .vec vs => .list (xs := nodeVec widen vs) rfl (by rw [(vec_get widen vs 0).2.2.1, (vec_get widen vs 0).2.2.2]) (by
      intro k x d hx hd
      rw [(vec_get widen vs k).1] at hx
      rw [(vec_get widen vs k).2.1] at hd
      cases hv : vs[k]? with
      | none => simp [hv] at hx
      | some v =>
        simp only [hv, Option.map_some, Option.some.injEq] at hx hd
        subst hx; subst hd
        exact vec_finds widen vs v (List.mem_of_getElem? hv))
theorem vec_finds (widen : G → F) : (vs : List (RustValue F G)) → ∀ v ∈ vs, Finds (v.node widen) (v.data widen)
  | [] => by simp
  | v :: vs => by
    intro w hw
    rcases List.mem_cons.1 hw with h | h
    · rw [h]; exact node_finds widen v
    · exact vec_finds widen vs w h
end

/-- **C72** In a node that was made of a Rust value with `Yaml::from` the accessors find exactly what the value stands for: an integer of
8, 16, 32 or 64 bits keeps its value and its sign, and a vector its length, its elements and their order. -/
theorem C72_from (widen : G → F) (v : RustValue F G) (d : Data F) : Finds (v.node widen) d ↔ d = v.data widen :=
  ⟨fun h => h.unique (node_finds widen v), fun h => h ▸ node_finds widen v⟩

/-- the smallest `i8`, a negative `i32` and a nested vector -/
example : (RustValue.vec [.i8 0x80#8, .i32 0xffffffff#32, .vec [.str bs!"a", .bool true]] : RustValue Unit Unit).data id =
    .list [.int (-128), .int (-1), .list [.str bs!"a", .bool true]] := rfl

mutual
/-- The strings and floats in a value are ones that the emitter's text keeps (`ScalarBack`, see C44). With `doc` the value is a whole document. -/
def Kept (fo : FloatOps F) (ec : Config) (widen : G → F) (doc : Bool) : RustValue F G → Prop
  | .str v => ScalarBack fo ec doc (.str v)
  | .f64 v => ScalarBack fo ec doc (.float v)
  | .f32 v => ScalarBack fo ec doc (.float (widen v))
  | .vec vs => KeptVec fo ec widen vs
  | _ => True
/-- the same for the elements of a vector -/
def KeptVec (fo : FloatOps F) (ec : Config) (widen : G → F) : List (RustValue F G) → Prop
  | [] => True
  | v :: vs => Kept fo ec widen false v ∧ KeptVec fo ec widen vs
end

theorem fits {w : Nat} (h : w ≤ 64) (v : BitVec w) : Core.Fits64 v.toInt := by
  have h1 := BitVec.le_two_mul_toInt (x := v)
  have h2 := BitVec.two_mul_toInt_lt (x := v)
  have h3 : (2 : Int) ^ w ≤ 2 ^ 64 := by
    have := Nat.pow_le_pow_right (n := 2) (by omega) h
    exact_mod_cast this
  unfold Core.Fits64
  omega

mutual
theorem kept_printable (fo : FloatOps F) (ec : Config) (widen : G → F) (doc : Bool) :
    (v : RustValue F G) → Kept fo ec widen doc v → Printable fo ec doc (v.node widen)
  | .i8 v, _ => .scalar (by rw [asI64_wide (by omega)]; exact fits (by omega) v)
  | .i16 v, _ => .scalar (by rw [asI64_wide (by omega)]; exact fits (by omega) v)
  | .i32 v, _ => .scalar (by rw [asI64_wide (by omega)]; exact fits (by omega) v)
  | .i64 v, _ => .scalar (fits (by omega) v)
  | .bool _, _ => .scalar trivial
  | .str _, h => .scalar h
  | .f64 _, h => .scalar h
  | .f32 _, h => .scalar h
  | .vec vs, h => .seq (keptVec_printable fo ec widen vs h)
theorem keptVec_printable (fo : FloatOps F) (ec : Config) (widen : G → F) :
    (vs : List (RustValue F G)) → KeptVec fo ec widen vs → ∀ x ∈ nodeVec widen vs, Printable fo ec false x
  | [], _ => by simp [nodeVec]
  | v :: vs, h => by
    intro x hx
    simp only [nodeVec, List.mem_cons] at hx
    rcases hx with hx | hx
    · rw [hx]; exact kept_printable fo ec widen false v h.1
    · exact keptVec_printable fo ec widen vs h.2 x hx
end

/-- C72 as stated, of any value at all -/
def C72_full (fo : FloatOps F) (ec : Config) (widen : G → F) : Prop :=
  ∀ v : RustValue F G, ∃ N, ∀ cfg n, N ≤ cfg.fuel → N ≤ n →
    ∃ x, Loader.loadFrom fo cfg n (dump fo ec (v.node widen)) = .ok [x] ∧ ∀ d, Finds x d ↔ d = v.data widen

/-- **C72 (partial)** When the node is written and the text is loaded, it is one document, in which the accessors find what the value stands
for. Missing: strings and floats that the emitter's text does not keep (C44). -/
theorem C72_written_partial (fo : FloatOps F) (ec : Config) (widen : G → F) (hi : ec.bestIndent = 2) (v : RustValue F G) (h : Kept fo ec widen true v) :
    ∃ N, ∀ cfg n, N ≤ cfg.fuel → N ≤ n →
      ∃ x, Loader.loadFrom fo cfg n (dump fo ec (v.node widen)) = .ok [x] ∧ ∀ d, Finds x d ↔ d = v.data widen := by
  obtain ⟨N, hN⟩ := C44_roundtrip_partial fo ec (v.node widen) hi (kept_printable fo ec widen true v h)
  exact ⟨N, fun cfg n h1 h2 => ⟨_, (hN cfg n h1 h2).1, C72_from widen v⟩⟩

/-- the hypotheses are met: a nested vector with the smallest `i8` -/
example : Kept noFloats ⟨2, true, false⟩ id true (.vec [.i8 0x80#8, .i32 0xffffffff#32, .vec [.str bs!"a", .bool true]] : RustValue Unit Unit) ∧
    dump noFloats ⟨2, true, false⟩ ((.vec [.i8 0x80#8, .vec [.str bs!"a", .bool true]] : RustValue Unit Unit).node id) =
      bs!"---\n- -128\n- - a\n  - true" := by
  constructor
  · simp [Kept, KeptVec, ScalarBack, shouldEmitStringAsBlock]
  · decide +kernel

/-- **C72 as stated is false**: the string `0o17` comes back as the integer 15. -/
theorem C72_written_false (ec : Config) (hi : ec.bestIndent = 2) : ¬ C72_full (G := Unit) noFloats ec id := by
  intro h
  obtain ⟨N, hN⟩ := h (.str bs!"0o17")
  obtain ⟨M, hM⟩ := (C44_roundtrip_false (F := Unit) ec hi).1
  obtain ⟨x, h1, h2⟩ := hN ⟨N + M, true⟩ (N + M) (by simp) (by omega)
  have h3 := hM ⟨N + M, true⟩ (N + M) (by simp) (by omega)
  simp only [RustValue.node, Convert.fromStr] at h1
  rw [h3] at h1
  injection h1 with h1
  injection h1 with h1 _
  subst h1
  have := (h2 (.int 15)).1 (.int rfl)
  simp [RustValue.data] at this

end Verif.Props
