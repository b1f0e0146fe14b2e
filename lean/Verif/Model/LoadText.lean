import Verif.Model.Loader
import Verif.Spec.ScannerRuns
/-!
# Loading a text: scanner, parser and loader together

`yam-core/src/prelude/loader.rs` 229–234 (`load_from`) and 271–280 (`load_single`), with `Parser::new(StrSource::new(input))`,
parsing/parser.rs 410–425.
-/
namespace Verif.Loader
open Verif Verif.Spec Verif.Scanner
variable {F : Type}

/-- What the parser finds behind the last token: `scan_next_token`, parsing/parser.rs 568–577. A scanner that was not given
enough loop iterations or calls counts as one that hangs; both numbers are artefacts of the model. -/
def tailOf : ScanStop → Parser.Tail
  | .failed e => .error e
  | .ended => .ended
  | .panicked => .panic
  | .hung => .hang
  | .more => .hang

/-- `Parser::new` on the text: parsing/parser.rs 410–425. The parser asks the scanner for a token when it needs one; here the tokens
are scanned beforehand, which is the same since the scanner does not depend on the parser. -/
def parserOn (cfg : Cfg) (n : Nat) (input : List Byte) : Parser.PSt :=
  let r := scanInput cfg input n
  Parser.new r.1 (tailOf r.2) (afterNext cfg n (Scanner.new input)).mark false

/-- `YamlLoader::load_from`: loader.rs 229–234 -/
def loadFrom (fo : FloatOps F) (cfg : Cfg) (n : Nat) (input : List Byte) : Res (List (Yaml F)) :=
  loadFromParser fo (parserOn cfg n input)

/-- `YamlLoader::load_single`: loader.rs 271–280 -/
def loadSingle (fo : FloatOps F) (cfg : Cfg) (n : Nat) (input : List Byte) : Res (Yaml F) :=
  loadSingleFromParser fo (parserOn cfg n input)

end Verif.Loader
