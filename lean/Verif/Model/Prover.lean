import Verif.Model.Tree

/-!
The TypeScript prover: `packages/lib/src/core/prover.ts`, with `fromSig` of `helpers/utils.ts` and
`fromRpcSig` of `@ethereumjs/util` 8.0.3, which it calls.  The sources of that package are not in the
repository; the model follows its published code.  `none` is a thrown exception.
-/

namespace Spartan.Lib

/-- `fromRpcSig` of `@ethereumjs/util` on the bytes that the hexadecimal string stands for: 65 bytes or
more are `r`, `s` and `v`; 64 bytes are the compact form, with the parity in the top bit of `s`.
Called at `utils.ts` l. 65. -/
def fromRpcSig (sig : List UInt8) : Option (List UInt8 × List UInt8 × Nat) :=
  let fix := fun v : Nat => if v < 27 then v + 27 else v
  if 65 ≤ sig.length then
    some (slice sig 0 32, slice sig 32 64, fix (leNat (sig.drop 64).reverse))
  else if sig.length = 64 then
    let s := slice sig 32 64
    some (slice sig 0 32, (s.headD 0 &&& 0x7f) :: s.drop 1,
      fix ((s.headD 0).toNat >>> 7))
  else none

/-- `fromSig`, utils.ts l. 64–69. -/
def fromSig (sig : List UInt8) : Option (Nat × Nat × Nat) := do
  let (r, s, v) ← fromRpcSig sig
  pure (← bytesToBigInt r, ← bytesToBigInt s, v)

/-- `witnessGenInput`, prover.ts l. 68–72. -/
structure WitnessInput where
  s : Nat
  root : Nat
  siblings : List (Option Nat)
  pathIndices : List Nat
  Tx : Nat
  Ty : Nat
  Ux : Nat
  Uy : Nat

/-- The first part of `MembershipProver.prove`, prover.ts l. 56–72. -/
noncomputable def proverInputs (sig msgHash : List UInt8) (merkleProof : MerkleProof) :
    Option (WitnessInput × PublicInput) := do
  let (r, s, v) ← fromSig sig
  let (Tx, Ty, Ux, Uy) ← computeEffEcdsaPubInput r v msgHash
  let circuitPubInput : CircuitPubInput := ⟨merkleProof.root, Tx, Ty, Ux, Uy⟩
  let publicInput : PublicInput := ⟨r, v, msgHash, circuitPubInput⟩
  pure (⟨s, merkleProof.root, merkleProof.siblings, merkleProof.pathIndices, Tx, Ty, Ux, Uy⟩, publicInput)

/-- `MembershipProver.prove`, prover.ts l. 55–99, on the loaded circuit.  `witnessGen` is
`snarkJsWitnessGen` with the witness generator of the circuit, `wasmProve` is `wasm.prove circuitBin`. -/
noncomputable def prove (witnessGen : WitnessInput → Option (List UInt8))
    (wasmProve : List UInt8 → List UInt8 → Out (List UInt8)) (sig msgHash : List UInt8)
    (merkleProof : MerkleProof) : Option (List UInt8 × PublicInput) := do
  let (witnessGenInput, publicInput) ← proverInputs sig msgHash merkleProof
  let witness ← witnessGen witnessGenInput
  let circuitPublicInput ← publicInput.circuitPubInput.serialize
  match wasmProve witness circuitPublicInput with
  | .ok proof => pure (proof, publicInput)
  | .error _ => none

end Spartan.Lib
