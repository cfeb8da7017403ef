import Verif.Model.Limbs
import Mathlib.Data.Nat.Notation
import Mathlib.Algebra.Group.Int.Defs

/-!
`packages/spartan_wasm/test_circuit/test_circuit_js/witness_calculator.js`: the JavaScript (generated by circom) that runs a
compiled circuit on named inputs and writes the witness file that the library reads.

The compiled circuit is a parameter.  Not modelled: error messages, logging, compiling the module, inputs given as
strings or numbers (they go through `BigInt`, the model starts from integers).
-/

namespace Spartan.Wc

/-- The functions the compiled circuit exports, on its state `σ`.  `sizeOf` is `getInputSignalSize`, `set` is
`setInputSignal` (`none`: it throws), `read` and `write` are `readSharedRWMemory` and `writeSharedRWMemory`, `rawPrime` and
`witness` are `getRawPrime` and `getWitness`, which leave their result in the shared memory.
Used at `witness_calculator.js` l. 112–122, 133–167, 178–181. -/
structure Circuit (σ : Type) where
  n32 : ℕ
  witnessSize : ℕ
  inputSize : ℕ
  init : Bool → σ → σ
  sizeOf : ℕ → ℕ → ℤ
  write : ℕ → ℕ → σ → σ
  read : ℕ → σ → ℤ
  set : ℕ → ℕ → ℕ → σ → Option σ
  rawPrime : σ → σ
  witness : ℕ → σ → σ

variable {σ : Type}

/-- Storing a number in a `Uint32Array`.  `witness_calculator.js` l. 118, 200. -/
def u32 (x : ℤ) : ℕ := (x % 2 ^ 32).toNat

/-- The loop of `toArray32`, l. 280–283. -/
def toArray32Go (rem : ℕ) (res : List ℕ) : List ℕ :=
  if _h : rem = 0 then res else toArray32Go (rem / 2 ^ 32) (rem % 2 ^ 32 :: res)
termination_by rem
decreasing_by exact Nat.div_lt_self (by omega) (by decide)

/-- `toArray32`, l. 277–292. -/
def toArray32 (rem size : ℕ) : List ℕ :=
  List.replicate (size - (toArray32Go rem []).length) 0 ++ toArray32Go rem []

/-- `fromArray32`, l. 294–301. -/
def fromArray32 (arr : List ℕ) : ℕ := arr.foldl (fun res x => res * 2 ^ 32 + x) 0

/-- Nested arrays of integers.  The argument of `flatArray`, `witness_calculator.js` l. 303. -/
inductive Nested where
  | leaf (n : ℤ)
  | node (l : List Nested)

mutual
/-- `fillArray`, l. 308–316. -/
def fill : Nested → List ℤ → List ℤ
  | .leaf n, res => res ++ [n]
  | .node l, res => fillAll l res
/-- `witness_calculator.js` l. 310–312. -/
def fillAll : List Nested → List ℤ → List ℤ
  | [], res => res
  | a :: as, res => fillAll as (fill a res)
end

/-- `flatArray`, l. 303–317. -/
def flatArray (a : Nested) : List ℤ := fill a []

/-- `normalize`, l. 319–323; `%` on `BigInt` truncates. -/
def normalize (n : ℤ) (prime : ℕ) : ℕ :=
  let res := Int.tmod n prime
  (if res < 0 then res + prime else res).toNat

/-- `toString(16)` of a nonnegative integer, as digits, most significant first.
`witness_calculator.js` l. 232, 258, 333. -/
def toHexGo (n : ℕ) (res : List ℕ) : List ℕ :=
  if _h : n = 0 then res else toHexGo (n / 16) (n % 16 :: res)
termination_by n
decreasing_by exact Nat.div_lt_self (by omega) (by decide)

/-- `witness_calculator.js` l. 232, 258, 333. -/
def toHex (n : ℕ) : List ℕ := if n = 0 then [0] else toHexGo n []

/-- `parseInt(s, 16)`, stored in a `Uint32Array` or passed to the module: `NaN`, for no digits, becomes 0.
`witness_calculator.js` l. 138–139, 233–234, 259–260. -/
def parseHex (s : List ℕ) : ℕ := s.foldl (fun r d => 16 * r + d) 0

/-- `s.slice(0, 8)` and `s.slice(8, 16)`, parsed.
`witness_calculator.js` l. 138–139, 233–234, 259–260. -/
def hexWords (s : List ℕ) : ℕ × ℕ := (parseHex (s.take 8), parseHex ((s.drop 8).take 8))

/-- `fnvHash`, l. 325–337, of the code units of a string, as digits. -/
def fnvHash (str : List ℕ) : List ℕ :=
  let hash := str.foldl (fun hash c => (hash ^^^ c) * 0x100000001B3 % 2 ^ 64) 0xCBF29CE484222325
  let shash := toHex hash
  List.replicate (16 - shash.length) 0 ++ shash

/-- The errors thrown at `witness_calculator.js` l. 143, 146, 149, 161, 167. -/
inductive Err where
  | notFound
  | notEnough
  | tooMany
  | rejected
  | notAll
  deriving DecidableEq

/-- The limbs in the shared memory, first limb first.  `witness_calculator.js` l. 199–201, 265–267. -/
def limbs (C : Circuit σ) (s : σ) : List ℕ := (List.range C.n32).map fun j => u32 (C.read j s)

/-- `arr[n32-1-j] = readSharedRWMemory(j)` for all `j`, then `fromArray32(arr)`: l. 116–120, 179–183. -/
def readValue (C : Circuit σ) (s : σ) : ℕ :=
  fromArray32 ((List.range C.n32).map fun i => u32 (C.read (C.n32 - 1 - i) s))

/-- `this.prime`, l. 115–120. -/
def prime (C : Circuit σ) (s : σ) : ℕ := readValue C (C.rawPrime s)

/-- l. 152–155. -/
def writeValue (C : Circuit σ) (p : ℕ) (v : ℤ) (s : σ) : σ :=
  (List.range C.n32).foldl (fun s j => C.write j ((toArray32 (normalize v p) C.n32).getD (C.n32 - 1 - j) 0) s) s

/-- The loop over the values of one signal, l. 151–163. -/
def setValues (C : Circuit σ) (p hM hL : ℕ) : ℕ → List ℤ → σ → Except Err σ
  | _, [], s => .ok s
  | i, v :: vs, s => match C.set hM hL i (writeValue C p v s) with
    | none => .error .rejected
    | some s' => setValues C p hM hL (i + 1) vs s'

/-- The loop over the keys, l. 136–165, with the counter. -/
def setKeys (C : Circuit σ) (p : ℕ) : List (List ℕ × Nested) → ℕ → σ → Except Err (ℕ × σ)
  | [], n, s => .ok (n, s)
  | (k, a) :: ks, n, s =>
    let h := hexWords (fnvHash k)
    let fArr := flatArray a
    let signalSize := C.sizeOf h.1 h.2
    if signalSize < 0 then .error .notFound
    else if (fArr.length : ℤ) < signalSize then .error .notEnough
    else if signalSize < fArr.length then .error .tooMany
    else match setValues C p h.1 h.2 0 fArr s with
      | .error e => .error e
      | .ok s' => setKeys C p ks (n + fArr.length) s'

/-- `_doCalculateWitness`, l. 131–169. -/
def doCalculate (C : Circuit σ) (p : ℕ) (sanity : Bool) (input : List (List ℕ × Nested)) (s : σ) : Except Err σ :=
  match setKeys C p input 0 (C.init sanity s) with
  | .error e => .error e
  | .ok (n, s') => if n < C.inputSize then .error .notAll else .ok s'

/-- Run `getWitness(i)` for `i = 0, …` and look at the memory after each.
`witness_calculator.js` l. 177–184, 196–202, 263–269. -/
def collect {α : Type} (C : Circuit σ) (f : σ → α) : List ℕ → σ → List α
  | [], _ => []
  | i :: is, s => f (C.witness i s) :: collect C f is (C.witness i s)

/-- `calculateWitness`, l. 171–187. -/
def calculateWitness (C : Circuit σ) (p : ℕ) (sanity : Bool) (input : List (List ℕ × Nested)) (s : σ) : Except Err (List ℕ) :=
  match doCalculate C p sanity input s with
  | .error e => .error e
  | .ok s' => .ok (collect C (readValue C) (List.range C.witnessSize) s')

/-- The bytes under a `Uint32Array` (little endian).  `witness_calculator.js` l. 193, 211. -/
def bytesOf (ws : List ℕ) : List UInt8 := ws.flatMap (leBytes 4)

/-- `calculateBinWitness`, l. 190–205. -/
def calculateBinWitness (C : Circuit σ) (p : ℕ) (sanity : Bool) (input : List (List ℕ × Nested)) (s : σ) :
    Except Err (List UInt8) :=
  match doCalculate C p sanity input s with
  | .error e => .error e
  | .ok s' => .ok (bytesOf (collect C (limbs C) (List.range C.witnessSize) s').flatten)

/-- `calculateWTNSBin`, l. 208–272: words at consecutive positions; the first is given by its bytes. -/
def calculateWTNSBin (C : Circuit σ) (p : ℕ) (sanity : Bool) (input : List (List ℕ × Nested)) (s : σ) :
    Except Err (List UInt8) :=
  match doCalculate C p sanity input s with
  | .error e => .error e
  | .ok s' =>
    let n8 := C.n32 * 4
    let l1 := hexWords (toHex (8 + n8))
    let s'' := C.rawPrime s'
    let l2 := hexWords (toHex (n8 * C.witnessSize))
    .ok ([119, 116, 110, 115] ++ bytesOf ([2, 2, 1, l1.1, l1.2, n8] ++ limbs C s'' ++
      [C.witnessSize, 2, l2.1, l2.2] ++ (collect C (limbs C) (List.range C.witnessSize) s'').flatten))

end Spartan.Wc
