import Verif.Model.Base
import Verif.Model.Limbs
import Verif.Model.PoseidonConsts
import Mathlib.Data.Nat.Digits.Defs

/-!
The Rust Poseidon hash (`packages/poseidon/src`) and the `poseidon` function of the wasm interface.
-/

namespace Spartan

/-- The operations of a type implementing `ff::PrimeField` that the hash uses.
Used at `poseidon/src/lib.rs` l. 37, 47, 75, 86, 100. -/
structure FieldImpl (α : Type) where
  zero : α
  fromU64 : UInt64 → α
  add : α → α → α
  mul : α → α → α
  /-- `pow_vartime` with a four-limb exponent, least significant limb first. -/
  pow : α → UInt64 → UInt64 → UInt64 → UInt64 → α

/-- `FieldElement` of `packages/secq256k1/src/field/field_secp.rs`.  `pow_vartime` is the provided
method of `ff::Field`, which squares and multiplies like the inherent `pow`. -/
def FieldImpl.secp : FieldImpl Limbs where
  zero := MParams.zero
  fromU64 := paramsP.fromU64
  add := paramsP.add
  mul := paramsP.mul
  pow := paramsP.pow

variable {α : Type}

/-- `from_str_vartime`, a provided method of `ff::PrimeField` (ff 0.12), on the decimal digits of
`n` (most significant first, no leading zero).  Called at `k256_consts.rs` l. 15, 21, 27, 223. -/
def FieldImpl.fromDecimal (I : FieldImpl α) (n : Nat) : α :=
  if n = 0 then I.zero else
  (Nat.digits 10 n).reverse.foldl
    (fun res d => I.add (I.mul res (I.fromU64 10)) (I.fromU64 (UInt64.ofNat d))) I.zero

/-- `PoseidonConstants`, poseidon/src/lib.rs l. 6–11. -/
structure PoseidonConstants (α : Type) where
  roundKeys : List α
  mds : List (List α)
  numFullRounds : Nat
  numPartialRounds : Nat

/-- `Poseidon`, poseidon/src/lib.rs l. 29–33. -/
structure Poseidon (α : Type) where
  s0 : α
  s1 : α
  s2 : α
  constants : PoseidonConstants α
  pos : Nat

/-- `v[i]`: panics when out of bounds.  `poseidon/src/lib.rs` l. 75, 86, 88. -/
def elemAt (v : List α) (i : Nat) : Out α :=
  match v[i]? with
  | some x => .ok x
  | none => .error .panic

/-- `Option::unwrap` (or `CtOption::unwrap`): panics on `none`.  `wasm.rs` l. 90–91. -/
def unwrap : Option α → Out α
  | some x => .ok x
  | none => .error .panic

namespace Poseidon

/-- `Poseidon::new`, poseidon/src/lib.rs l. 36–43. -/
def new (I : FieldImpl α) (c : PoseidonConstants α) : Poseidon α := ⟨I.zero, I.zero, I.zero, c, 0⟩

/-- `add_constants`, poseidon/src/lib.rs l. 72–77 (the loop over the three words is unrolled). -/
def addConstants (I : FieldImpl α) (o : Poseidon α) : Out (Poseidon α) := do
  let k0 ← elemAt o.constants.roundKeys (0 + o.pos)
  let k1 ← elemAt o.constants.roundKeys (1 + o.pos)
  let k2 ← elemAt o.constants.roundKeys (2 + o.pos)
  pure { o with s0 := I.add o.s0 k0, s1 := I.add o.s1 k1, s2 := I.add o.s2 k2 }

/-- The body of the loop of `matrix_mul` for one row, poseidon/src/lib.rs l. 84–88. -/
def rowMul (I : FieldImpl α) (o : Poseidon α) (val : List α) : Out α := do
  let v0 ← elemAt val 0
  let v1 ← elemAt val 1
  let v2 ← elemAt val 2
  pure (I.add (I.add (I.add I.zero (I.mul v0 o.s0)) (I.mul v1 o.s1)) (I.mul v2 o.s2))

/-- `matrix_mul`, poseidon/src/lib.rs l. 80–92: `result` has three entries, initially zero;
a fourth row of the matrix would panic. -/
def matrixMul (I : FieldImpl α) (o : Poseidon α) : Out (Poseidon α) := do
  let rows ← o.constants.mds.mapM (rowMul I o)
  check (rows.length ≤ 3)
  pure { o with s0 := rows.getD 0 I.zero, s1 := rows.getD 1 I.zero, s2 := rows.getD 2 I.zero }

/-- `pow_vartime(&[5, 0, 0, 0])`.  `poseidon/src/lib.rs` l. 100, 113. -/
def sbox (I : FieldImpl α) (x : α) : α := I.pow x 5 0 0 0

/-- `full_round`, poseidon/src/lib.rs l. 94–107. -/
def fullRound (I : FieldImpl α) (o : Poseidon α) : Out (Poseidon α) := do
  let o ← o.addConstants I
  let o := { o with s0 := sbox I o.s0, s1 := sbox I o.s1, s2 := sbox I o.s2 }
  let o ← o.matrixMul I
  pure { o with pos := o.pos + 3 }

/-- `partial_round`, poseidon/src/lib.rs l. 109–119. -/
def partialRound (I : FieldImpl α) (o : Poseidon α) : Out (Poseidon α) := do
  let o ← o.addConstants I
  let o := { o with s0 := sbox I o.s0 }
  let o ← o.matrixMul I
  pure { o with pos := o.pos + 3 }

/-- `for _ in 0..n { … }`.  `poseidon/src/lib.rs` l. 55, 60, 65. -/
def times (f : Poseidon α → Out (Poseidon α)) : Nat → Poseidon α → Out (Poseidon α)
  | 0, o => .ok o
  | n + 1, o => do times f n (← f o)

/-- `Poseidon::hash`, poseidon/src/lib.rs l. 45–70: the result and the object afterwards. -/
def hash (I : FieldImpl α) (o : Poseidon α) (in0 in1 : α) : Out (α × Poseidon α) := do
  let domainTag := I.fromU64 3
  let o := { o with s0 := domainTag, s1 := in0, s2 := in1 }
  let fullRoundsHalf := o.constants.numFullRounds / 2
  let o ← times (fullRound I) fullRoundsHalf o
  let o ← times (partialRound I) o.constants.numPartialRounds o
  let o ← times (fullRound I) fullRoundsHalf o
  pure (o.s1, o)

end Poseidon

/-- The constants `poseidon_k256::hash` builds, poseidon/src/poseidon_k256.rs l. 7–16. -/
def k256Constants (I : FieldImpl α) : PoseidonConstants α where
  roundKeys := k256RoundConstants.map I.fromDecimal
  mds := k256Mds.map (·.map I.fromDecimal)
  numFullRounds := k256NumFullRounds
  numPartialRounds := k256NumPartialRounds

/-- `poseidon_k256::hash`, poseidon/src/poseidon_k256.rs l. 6–22, over any implementation of the
field. -/
def k256Hash (I : FieldImpl α) (in0 in1 : α) : Out α := do
  let r ← (Poseidon.new I (k256Constants I)).hash I in0 in1
  pure r.1

/-- `poseidon`, spartan_wasm/src/wasm.rs l. 86–97. -/
def wasmPoseidon (inputBytes : List UInt8) : Out (List UInt8) := do
  check (inputBytes.length = 64)
  let a ← unwrap (paramsP.fromBytes (inputBytes.take 32))
  let b ← unwrap (paramsP.fromBytes ((inputBytes.drop 32).take 32))
  let r ← k256Hash FieldImpl.secp a b
  pure (paramsP.toBytes r)

end Spartan
