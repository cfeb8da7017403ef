import Mathlib.Logic.Basic

/-!
Texts as sequences of Unicode scalar values (`Char`), and the two encodings of them.
-/

namespace Spartan.Utf

/-- UTF-8; the bytes of one character are those of Lean's standard library. -/
def utf8 (cs : List Char) : List UInt8 := cs.flatMap String.utf8EncodeChar

/-- UTF-16 code units of a character. -/
def units (c : Char) : List UInt16 :=
  if c.toNat < 2 ^ 16 then [.ofNat c.toNat]
  else [.ofNat (0xD800 + (c.toNat - 2 ^ 16) / 2 ^ 10), .ofNat (0xDC00 + (c.toNat - 2 ^ 16) % 2 ^ 10)]

/-- UTF-16. -/
def utf16 (cs : List Char) : List UInt16 := cs.flatMap units

def High (u : UInt16) : Prop := 0xD800 ≤ u.toNat ∧ u.toNat < 0xDC00
def Low (u : UInt16) : Prop := 0xDC00 ≤ u.toNat ∧ u.toNat < 0xE000

/-- `Text s cs`: the text of the code units `s` is `cs`, where a surrogate that is not part of a pair counts as the
replacement character. -/
inductive Text : List UInt16 → List Char → Prop
  | nil : Text [] []
  | one {u s c cs} : u.toNat = c.toNat → Text s cs → Text (u :: s) (c :: cs)
  | pair {u v s c cs} : High u → Low v → c.toNat = 2 ^ 16 + 2 ^ 10 * (u.toNat - 0xD800) + (v.toNat - 0xDC00) → Text s cs →
      Text (u :: v :: s) (c :: cs)
  | low {u s cs} : Low u → Text s cs → Text (u :: s) ('\uFFFD' :: cs)
  | high {u s cs} : High u → (∀ v, s.head? = some v → ¬ Low v) → Text s cs → Text (u :: s) ('\uFFFD' :: cs)

end Spartan.Utf
