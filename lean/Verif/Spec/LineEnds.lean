import Verif.Model.Bytes
/-!
# Line ends
-/
namespace Verif.Spec
open Verif

/-- the text with every line feed written as a carriage return and a line feed -/
def crlf : List Byte → List Byte
  | [] => []
  | c :: r => if c = b%'\n' then b%'\r' :: b%'\n' :: crlf r else c :: crlf r

example : crlf bs!"a:\n - b\n" = bs!"a:\r\n - b\r\n" := by decide

end Verif.Spec
