import Verif.Model.GenWitness
import Verif.Spec.WitnessCalc

/-! Specification: which integers the author of the JSON file means. -/

namespace Spartan.Wc

mutual
/-- Every number is written as a decimal or hexadecimal string, or as a JSON number; for these the bound `small` holds. -/
inductive Means (small : ℤ → Prop) : Json → Nested → Prop
  | num {n : ℤ} : small n → Means small (.num n) (.leaf n)
  | dec (n : ℕ) : Means small (.str (Nat.toDigits 10 n)) (.leaf n)
  | neg (n : ℕ) : Means small (.str ('-' :: Nat.toDigits 10 n)) (.leaf (-(n : ℤ)))
  | hex (n : ℕ) : Means small (.str ('0' :: 'x' :: Nat.toDigits 16 n)) (.leaf n)
  | arr {l xs} : MeansAll small l xs → Means small (.arr l) (.node xs)
inductive MeansAll (small : ℤ → Prop) : List Json → List Nested → Prop
  | nil : MeansAll small [] []
  | cons {a as x xs} : Means small a x → MeansAll small as xs → MeansAll small (a :: as) (x :: xs)
end

/-- The members of the file, each name once, mean the input. -/
def MeansInput (small : ℤ → Prop) (members : List (List ℕ × Json)) (input : List (List ℕ × Nested)) : Prop :=
  (members.map Prod.fst).Nodup ∧ List.Forall₂ (fun m i => m.1 = i.1 ∧ Means small m.2 i.2) members input

/-- No number can be meant: `null`, or a string with a character other than letters, digits, signs and white space (a decimal
point, say), in an array or not. -/
inductive NoNumber : Json → Prop
  | null : NoNumber .null
  | str {s : List Char} {c : Char} : c ∈ s → c.isAlphanum = false → c.isWhitespace = false → c ≠ '+' → c ≠ '-' → NoNumber (.str s)
  | arr {l : List Json} {a : Json} : a ∈ l → NoNumber a → NoNumber (.arr l)

end Spartan.Wc
