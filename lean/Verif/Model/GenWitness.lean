import Verif.Model.WitnessCalc

/-!
`packages/spartan_wasm/test_circuit/test_circuit_js/generate_witness.js`: the program that reads the inputs of a circuit from a
JSON file and writes the witness file; with it, the conversion of the inputs to integers (`BigInt`) that
`Model/WitnessCalc` leaves out.
-/

namespace Spartan.Wc

/-- What the JSON file has for a signal.  Simplification: numbers are integers written without a fraction or an exponent;
objects are left out (like `null` they make `BigInt` throw).  `generate_witness.js` l. 7. -/
inductive Json where
  | num (n : ℤ)
  | str (s : List Char)
  | bool (b : Bool)
  | null
  | arr (l : List Json)

/-- `n` rounded to a multiple of `u`, to the nearest and to the even one in the middle.
`JSON.parse` in `generate_witness.js` l. 7. -/
def roundTo (u n : ℕ) : ℕ :=
  (if 2 * (n % u) < u ∨ (2 * (n % u) = u ∧ n / u % 2 = 0) then n / u else n / u + 1) * u

/-- A natural number as a JavaScript number: rounded to 53 significant bits, infinite (`none`) from `2^1024` on.
`JSON.parse` in `generate_witness.js` l. 7. -/
def double (n : ℕ) : Option ℕ :=
  let x := roundTo (2 ^ (n.log2 - 52)) n
  if x < 2 ^ 1024 then some x else none

/-- `BigInt` of an integer that `JSON.parse` has read as a JavaScript number; `none`: it throws.
`witness_calculator.js` l. 320. -/
def bigIntOfNum (n : ℤ) : Option ℤ := (double n.natAbs).map fun x : ℕ => if n < 0 then -(x : ℤ) else x

/-- The value of a digit.  `witness_calculator.js` l. 320 (`BigInt` of a string). -/
def digitVal (c : Char) : ℕ :=
  if '0' ≤ c ∧ c ≤ '9' then c.toNat - 48
  else if 'a' ≤ c ∧ c ≤ 'f' then c.toNat - 87
  else if 'A' ≤ c ∧ c ≤ 'F' then c.toNat - 55
  else 255

/-- A nonempty string of digits.  `witness_calculator.js` l. 320 (`BigInt` of a string). -/
def digits (radix : ℕ) (s : List Char) : Option ℕ :=
  if s = [] ∨ s.any (fun c => radix ≤ digitVal c) then none
  else some (s.foldl (fun n c => radix * n + digitVal c) 0)

/-- `BigInt` of a string.  Simplification: of the characters that JavaScript takes as white space only the blank, the tabulator
and the line ends are.  `witness_calculator.js` l. 320. -/
def bigIntOfStr (s : List Char) : Option ℤ :=
  match ((s.dropWhile Char.isWhitespace).reverse.dropWhile Char.isWhitespace).reverse with
  | [] => some 0
  | '0' :: 'x' :: ds => (digits 16 ds).map Int.ofNat
  | '0' :: 'X' :: ds => (digits 16 ds).map Int.ofNat
  | '0' :: 'o' :: ds => (digits 8 ds).map Int.ofNat
  | '0' :: 'O' :: ds => (digits 8 ds).map Int.ofNat
  | '0' :: 'b' :: ds => (digits 2 ds).map Int.ofNat
  | '0' :: 'B' :: ds => (digits 2 ds).map Int.ofNat
  | '-' :: ds => (digits 10 ds).map fun n : ℕ => -(n : ℤ)
  | '+' :: ds => (digits 10 ds).map Int.ofNat
  | ds => (digits 10 ds).map Int.ofNat

mutual
/-- `BigInt` of all the values of a signal.  Simplification: in the program the conversion (l. 320) is done one value at a time
between the calls to the circuit; a failure of either ends the program without a file.
`witness_calculator.js` l. 152, 320. -/
def convert : Json → Option Nested
  | .num n => (bigIntOfNum n).map .leaf
  | .str s => (bigIntOfStr s).map .leaf
  | .bool b => some (.leaf (if b then 1 else 0))
  | .null => none
  | .arr l => (convertAll l).map .node
/-- `witness_calculator.js` l. 151–152. -/
def convertAll : List Json → Option (List Nested)
  | [] => some []
  | a :: as => match convert a, convertAll as with
    | some x, some xs => some (x :: xs)
    | _, _ => none
end

/-- Setting a property: a name that is there keeps its place and gets the new value.  `generate_witness.js` l. 7. -/
def setProp (k : List ℕ) (v : Json) : List (List ℕ × Json) → List (List ℕ × Json)
  | [] => [(k, v)]
  | (k', v') :: ps => if k' = k then (k, v) :: ps else (k', v') :: setProp k v ps

/-- The object that `JSON.parse` makes of the members of the file, in the order of `Object.keys`.  Simplification: no name
looks like an array index (`Object.keys` gives those first; names of signals do not).
`generate_witness.js` l. 7, `witness_calculator.js` l. 134. -/
def parseObject (members : List (List ℕ × Json)) : List (List ℕ × Json) :=
  members.foldl (fun o kv => setProp kv.1 kv.2 o) []

/-- `witness_calculator.js` l. 136–141. -/
def convertObject : List (List ℕ × Json) → Option (List (List ℕ × Nested))
  | [] => some []
  | (k, v) :: ps => match convert v, convertObject ps with
    | some x, some xs => some ((k, x) :: xs)
    | _, _ => none

/-- How the program ends: the usage message (`generate_witness.js` l. 5), an exception (l. 7, 15),
or the file it writes (l. 16). -/
inductive Ended where
  | usage
  | failed
  | wrote (file : List UInt8)

variable {σ : Type}

/-- `generate_witness.js` l. 4–20, on the number of words of the command line and the members of the JSON file.  Not modelled:
files that cannot be read or written and a module that does not compile. -/
def generateWitness (C : Circuit σ) (argc : ℕ) (members : List (List ℕ × Json)) (s : σ) : Ended :=
  if argc ≠ 5 then .usage
  else match convertObject (parseObject members) with
    | none => .failed
    | some input => match calculateWTNSBin C (prime C s) false input (C.rawPrime s) with
      | .error _ => .failed
      | .ok file => .wrote file

end Spartan.Wc
