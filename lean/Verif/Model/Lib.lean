import Verif.Model.Reader
import Verif.Lemmas.CurveOrder

/-!
The TypeScript library: `packages/lib/src/helpers/utils.ts`, `helpers/publicInputs.ts` and
`core/verifier.ts`.  `none` is a thrown exception.  A `bigint` is modelled as a natural number:
negative values, which `fromSig` and `deserialize` never produce, are outside the model.
-/

namespace Spartan.Lib

/-! ### helpers/utils.ts -/

/-- `n.toString(16).length`.  `utils.ts` l. 54. -/
def hexLen (n : Nat) : Nat := max 1 (Nat.digits 16 n).length

/-- The last `size` big-endian bytes of `n`.  `utils.ts` l. 55–56. -/
def beBytes (size n : Nat) : List UInt8 := (leBytes size n).reverse

/-- `bigIntToBytes`, utils.ts l. 53–57: `Buffer.from(s, "hex")` drops the last digit of a string of
odd length, which happens for values that do not fit. -/
def bigIntToBytes (n size : Nat) : List UInt8 :=
  let digits := max (size * 2) (hexLen n)
  if digits % 2 = 0 then beBytes (digits / 2) n else beBytes (digits / 2) (n / 16)

/-- `bytesToBigInt`, utils.ts l. 45–46: `BigInt("0x")` throws. -/
def bytesToBigInt (bs : List UInt8) : Option Nat :=
  if bs = [] then none else some (leNat bs.reverse)

/-- `bytesLeToBigInt`, utils.ts l. 48–51 (the reversal in place of the argument is not modelled). -/
def bytesLeToBigInt (bs : List UInt8) : Option Nat := bytesToBigInt bs.reverse

/-- `bigIntToLeBytes`, utils.ts l. 59–62. -/
def bigIntToLeBytes (n size : Nat) : List UInt8 := (bigIntToBytes n size).reverse

/-- `TypedArray.prototype.set`: a `RangeError` if the source does not fit.
Used at `publicInputs.ts` l. 43–47, 90–93. -/
def setAt (arr src : List UInt8) (off : Nat) : Option (List UInt8) :=
  if off + src.length ≤ arr.length then some (arr.take off ++ src ++ arr.drop (off + src.length))
  else none

/-- `TypedArray.prototype.slice` with nonnegative bounds.
Used at `publicInputs.ts` l. 53–57, 99–104. -/
def slice (bs : List UInt8) (a b : Nat) : List UInt8 := (bs.drop a).take (b - a)

/-! ### helpers/publicInputs.ts -/

/-- `CircuitPubInput`, publicInputs.ts l. 19–38. -/
structure CircuitPubInput where
  merkleRoot : Nat
  Tx : Nat
  Ty : Nat
  Ux : Nat
  Uy : Nat
  deriving DecidableEq

/-- `CircuitPubInput.serialize`, publicInputs.ts l. 40–50. -/
def CircuitPubInput.serialize (c : CircuitPubInput) : Option (List UInt8) := do
  let s := List.replicate (32 * 5) (0 : UInt8)
  let s ← setAt s (bigIntToBytes c.merkleRoot 32) 0
  let s ← setAt s (bigIntToBytes c.Tx 32) 32
  let s ← setAt s (bigIntToBytes c.Ty 32) 64
  let s ← setAt s (bigIntToBytes c.Ux 32) 96
  setAt s (bigIntToBytes c.Uy 32) 128

/-- `CircuitPubInput.deserialize`, publicInputs.ts l. 52–60. -/
def CircuitPubInput.deserialize (bs : List UInt8) : Option CircuitPubInput := do
  let merkleRoot ← bytesToBigInt (slice bs 0 32)
  let Tx ← bytesToBigInt (slice bs 32 64)
  let Ty ← bytesToBigInt (slice bs 64 96)
  let Ux ← bytesToBigInt (slice bs 96 128)
  let Uy ← bytesToBigInt (slice bs 128 160)
  pure ⟨merkleRoot, Tx, Ty, Ux, Uy⟩

/-- `PublicInput`, publicInputs.ts l. 66–82. -/
structure PublicInput where
  r : Nat
  rV : Nat
  msgHash : List UInt8
  circuitPubInput : CircuitPubInput
  deriving DecidableEq

/-- `PublicInput.serialize`, publicInputs.ts l. 84–96. -/
def PublicInput.serialize (p : PublicInput) : Option (List UInt8) := do
  let c ← p.circuitPubInput.serialize
  let s := List.replicate (32 + 1 + p.msgHash.length + c.length) (0 : UInt8)
  let s ← setAt s (bigIntToBytes p.r 32) 0
  let s ← setAt s (bigIntToBytes p.rV 1) 32
  let s ← setAt s c 33
  setAt s p.msgHash (33 + c.length)

/-- `PublicInput.deserialize`, publicInputs.ts l. 98–107. -/
def PublicInput.deserialize (bs : List UInt8) : Option PublicInput := do
  let r ← bytesToBigInt (slice bs 0 32)
  let rV ← bytesToBigInt (slice bs 32 33)
  let c ← CircuitPubInput.deserialize (slice bs 33 193)
  let msgHash := bs.drop 193
  pure ⟨r, rV, msgHash, c⟩

/-- `y2.redSqrt()` of bn.js for a modulus that is 3 modulo 4. -/
def redSqrt {F : Type} [Field F] (modulus : Nat) (y2 : F) : F := y2 ^ ((modulus + 1) / 4)

/-- `ec.curve.pointFromX(new BN(r), odd)` of the elliptic package: `redSqrt` raises to the power
`(p + 1) / 4`, the result is checked, and negated if its parity is not the wanted one.
Called at `publicInputs.ts` l. 121. -/
def pointFromX (x : Nat) (odd : Bool) : Option Secp :=
  let y := redSqrt secpP ((x : ZMod secpP) ^ 3 + 7)
  let y' := if (y.val % 2 = 1) = (odd = true) then y else -y
  if h : y' ^ 2 = (x : ZMod secpP) ^ 3 + 7 then
    some (.some (x : ZMod secpP) y' (Koblitz.secp_nonsingular.mpr h))
  else none

/-- `ec.curve.g`.  Used at `publicInputs.ts` l. 131. -/
def basePoint : Secp := .some _ _ Koblitz.secpG_on

/-- `P.getX()` and `P.getY()`: a `TypeError` for the point at infinity.
Called at `publicInputs.ts` l. 137–140. -/
def coords : Secp → Option (Nat × Nat)
  | .zero => none
  | .some x y _ => some (x.val, y.val)

/-- `computeEffEcdsaPubInput`, publicInputs.ts l. 114–142.  `new BN(r).invm(n)` of bn.js is zero for
multiples of `n`, like the inverse in `ZMod n`.  `isYOdd` is `(v - 27) % 2`, nonzero exactly for even
`v`.  The result is `(Tx, Ty, Ux, Uy)`. -/
noncomputable def computeEffEcdsaPubInput (r v : Nat) (msgHash : List UInt8) :
    Option (Nat × Nat × Nat × Nat) := do
  let isYOdd := decide (v % 2 = 0)
  let R ← pointFromX r isYOdd
  let rInv := ((r : ZMod secpN)⁻¹).val
  let w := (-((rInv * leNat msgHash.reverse : ℕ) : ZMod secpN)).val
  let U := w • basePoint
  let T := rInv • R
  let t ← coords T
  let u ← coords U
  pure (t.1, t.2, u.1, u.2)

/-- `verifyEffEcdsaPubInput`, publicInputs.ts l. 147–166. -/
noncomputable def verifyEffEcdsaPubInput (p : PublicInput) : Option Bool := do
  let (tx, ty, ux, uy) ← computeEffEcdsaPubInput p.r p.rV p.msgHash
  pure (decide (tx = p.circuitPubInput.Tx) && decide (ty = p.circuitPubInput.Ty) &&
    decide (ux = p.circuitPubInput.Ux) && decide (uy = p.circuitPubInput.Uy))

/-! ### core/verifier.ts -/

/-- `MembershipVerifier.verify`, verifier.ts l. 46–70, on the loaded circuit.  `wasmVerify` is
`wasm.verify circuitBin proof`; its panics and the exceptions of `serialize` are caught. -/
noncomputable def verify (wasmVerify : List UInt8 → Out Bool) (publicInputSer : List UInt8) :
    Option Bool := do
  let publicInput ← PublicInput.deserialize publicInputSer
  let isPubInputValid ← verifyEffEcdsaPubInput publicInput
  let isProofValid :=
    match publicInput.circuitPubInput.serialize with
    | none => false
    | some bs =>
      match wasmVerify bs with
      | .ok b => b
      | .error _ => false
  pure (isProofValid && isPubInputValid)

end Spartan.Lib
