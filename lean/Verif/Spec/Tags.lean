import Verif.Model.CharUtils
import Verif.Model.Loader
import Verif.Model.Scanner
import Verif.Model.Parser
/-!
# Tags, printed and read again: the vocabulary of C33
-/
namespace Verif.Spec
open Verif Verif.Scanner

/-- the bytes that stand for themselves in the suffix of a shorthand tag: letters, digits and the punctuation of URIs, but no
`!`, no `%`, and none of `, [ ] { }` -/
def TagByte (b : Byte) : Prop :=
  (48 ≤ b ∧ b ≤ 57) ∨ (65 ≤ b ∧ b ≤ 90) ∨ (97 ≤ b ∧ b ≤ 122) ∨ b ∈ bs!"-#;/?:@&=+$_.~*'()"

instance : DecidablePred TagByte := fun b => by unfold TagByte; infer_instance

/-- What stands at the scanner is taken for a tag, which is what the scanner does where a token starts with `!`; reading it and resolving it
with the declared handles gives `t`. -/
def ReadsBackAs (cfg : Cfg) (tags : List (List Byte × List Byte)) (s : SSt) (t : Tag) : Prop :=
  s.src.rest.head? = some b%'!' ∧ ∃ span handle suffix s', scanTag cfg s = (.ok ⟨span, .tag handle suffix⟩, s') ∧ Parser.resolveTag tags span handle suffix = .ok t

end Verif.Spec
