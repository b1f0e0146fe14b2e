import Verif.Model.Source
/-!
# More operations of the string source: `yam-core/src/parsing/source.rs`
-/
namespace Verif.Source
open Verif Verif.CharUtils

/-- `skip_and_accumulate_to_eol`: source.rs 129–136; the bytes appended to the accumulator -/
def Src.skipAndAccumulateToEol (s : Src) : List Byte × Src :=
  let xs := s.rest.takeWhile (!isBreak ·)
  (xs, s.skip xs.length)

/-- `push_non_breakz_chr`: source.rs 286–294; the bytes appended. `none` is the panic of slicing `input[pos..]` with `pos > len`. -/
def Src.pushNonBreakzChr (s : Src) : Option (List Byte × Src) :=
  if s.pos > s.len then none
  else
    let n := (s.rest.findIdx? isBreak).getD 0
    some (s.rest.take n, s.skip n)

end Verif.Source
