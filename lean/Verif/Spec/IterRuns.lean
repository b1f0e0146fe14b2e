import Verif.Model.ParserIter
/-!
# Specification: iterating
-/
namespace Verif.Spec
open Verif Verif.Parser Verif.ParserIter

/-- calling `next` again and again gives the items `outs` -/
inductive Iterates (it0 : ItSt) : List YamEvent → ItSt → Prop
  | nil : Iterates it0 [] it0
  | snoc {outs it o it'} : Iterates it0 outs it → ParserIter.next it = (.ok (some o), it') → Iterates it0 (outs ++ [o]) it'

/-- the item for an event inside a document; aliases included -/
def item : Event → Option YamEvent
  | .scalar v => some (.scalar v)
  | .alias id => some (.alias id)
  | .sequenceStart a t => some (.seqStart a t)
  | .sequenceEnd => some .seqEnd
  | .mappingStart a t => some (.mapStart a t)
  | .mappingEnd => some .mapEnd
  | .documentStart _ => some .docStart
  | .documentEnd => some .docEnd
  | .streamStart => none
  | .streamEnd => none
  | .comment _ => none

/-- the event is an alias -/
def isAlias : Event → Bool
  | .alias _ => true
  | _ => false

/-- the event is not an alias -/
def notAlias (e : Event) : Bool := !isAlias e

end Verif.Spec
