import Verif.Model.Types
import Verif.Spec.Utf8
import Verif.Model.De
import Verif.Model.Parser
/-!
# Specification: trees of Rust strings

A Rust `str` is valid UTF-8. The model has byte strings; here are the trees whose byte strings can be those of a `Yaml` in Rust.
-/
namespace Verif.Spec
open Verif

/-- all strings of the tree, and the handles and suffixes of its tags, are valid UTF-8 -/
inductive TextTree {F : Type} : Yaml F → Prop
  | bad : TextTree .bad
  | null : TextTree (.scalar .null)
  | bool {b} : TextTree (.scalar (.bool b))
  | int {i} : TextTree (.scalar (.int i))
  | float {x} : TextTree (.scalar (.float x))
  | str {s} : Utf8Text s → TextTree (.scalar (.str s))
  | seq {l} : (∀ x ∈ l, TextTree x) → TextTree (.seq l)
  | map {l} : (∀ e ∈ l, TextTree e.1) → (∀ e ∈ l, TextTree e.2) → TextTree (.map l)
  | tagged {t n} : Utf8Text t.handle → Utf8Text t.suffix → TextTree n → TextTree (.tagged t n)
  | alias {i} : TextTree (.alias i)

/-- a value that the serialiser does not give up on, and the string in it is valid UTF-8, if there is one -/
inductive TextVal {F : Type} : De.Val F → Prop
  | bool {b} : TextVal (.bool b)
  | int {i} : TextVal (.int i)
  | float {x} : TextVal (.float x)
  | str {s} : Utf8Text s → TextVal (.str s)
  | unit : TextVal .unit
  | none : TextVal .none
  | some {v} : TextVal v → TextVal (.some v)

/-- a tag of texts, or none -/
def TextTag : Option Tag → Prop
  | some t => Utf8Text t.handle ∧ Utf8Text t.suffix
  | none => True

/-- the text and the tag of an event are valid UTF-8 -/
def TextEvent : Event → Prop
  | .scalar v => Utf8Text v.value ∧ TextTag v.tag
  | .sequenceStart _ t | .mappingStart _ t => TextTag t
  | _ => True

end Verif.Spec
