import Mathlib.Data.List.SplitOn
import Mathlib.Data.List.Basic

/-! Specification: what a JavaScript module that exports one array of bytes means. -/

namespace Spartan.Spec.Embed

/-- The value of a decimal literal of a module: digits, with no leading zero. -/
def number (cs : List Char) : Option ℕ :=
  if cs = [] ∨ cs.any (fun c => !c.isDigit) ∨ (1 < cs.length ∧ cs.head? = some '0') then none
  else some (cs.foldl (fun n c => 10 * n + (c.toNat - 48)) 0)

/-- The bytes of `new Uint8Array([...])` with the given text between the brackets: each number modulo 256. -/
def elements (cs : List Char) : Option (List UInt8) :=
  if cs = [] then some [] else (cs.splitOn ',').mapM fun e => (number e).map UInt8.ofNat

/-- The array that a module exports as `wasmBytes`, if the text is such a module. -/
def exported (text : List Char) : Option (List UInt8) :=
  let body := text.dropWhile Char.isWhitespace
  let head := "export const wasmBytes = new Uint8Array([".toList
  if head.isPrefixOf body then
    let rest := body.drop head.length
    if (rest.dropWhile (· ≠ ']')).filter (fun c => !c.isWhitespace) = "]);".toList then
      elements (rest.takeWhile (· ≠ ']'))
    else none
  else none

end Spartan.Spec.Embed
