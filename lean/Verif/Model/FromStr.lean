import Verif.Model.De
import Verif.Model.LoadText
/-!
# Deserialising a text
-/
namespace Verif.De
open Verif
variable {F : Type}

/-- `from_str`: yam-serde/src/lib.rs 64–72, with `YamIterDeserializer::new` (de.rs 22–30) and `ParserIter::new` (parser_iter.rs 67–73). `cfg`
and `n` bound the scanner, `fuel` the loops of the deserialiser. -/
def fromStr (fo : FloatOps F) (ofInt : Int → F) (cfg : Scanner.Cfg) (n fuel : Nat) (t : Ty) (input : List Byte) : Except DErr (Val F) :=
  fromIter fo ofInt fuel t (ParserIter.start (Loader.parserOn cfg n input))

end Verif.De
