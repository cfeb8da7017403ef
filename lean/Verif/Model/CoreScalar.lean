import Verif.Model.Reader
import Verif.Model.Base

/-!
The public scalar type of the curve crate, `secq256k1::Scalar`
(`packages/secq256k1/src/scalar.rs`).

It wraps `ScalarCore<Secq256K1>` of the elliptic-curve crate, which is external: a value is an
integer below `Secq256K1::ORDER`, and its `add`, `sub`, `neg`, `is_odd`, `is_high`, byte conversions
and `new` are taken to be the operations on that integer that the crate documents.  Multiplication is
code of this repository and goes through the limbs of `field_secp.rs`.
-/

namespace Spartan.CoreScalar

/-- `ScalarCore::new` (external): the integer when it is below the order.  Also
`TryFrom<U256> for Scalar`, l. 240–246. -/
def new (w : Nat) : Option Nat := if w < secqOrder then some w else none

/-- `Option::unwrap` / `CtOption::unwrap`.  Used at `scalar.rs` l. 100 and 236. -/
def unwrap {α : Type} : Option α → Out α
  | some a => .ok a
  | none => .error .panic

/-- `Add`, l. 112–126: `ScalarCore::add` (external, modular). -/
def add (a b : Nat) : Nat := (a + b) % secqOrder

/-- `Sub`, l. 140–154: `ScalarCore::sub` (external, modular). -/
def sub (a b : Nat) : Nat := (a + (secqOrder - b)) % secqOrder

/-- `Neg`, l. 199–205: `ScalarCore::neg` (external, modular). -/
def neg (a : Nat) : Nat := (secqOrder - a) % secqOrder

/-- `double`, l. 57–60. -/
def double (a : Nat) : Nat := add a a

/-- `to_bytes`, l. 294–296: `ScalarCore::to_le_bytes`; `to_le_bits`, l. 308–310, has the bits of these
bytes in order. -/
def toBytes (a : Nat) : List UInt8 := leBytes 32 a

/-- `Mul`, l. 168–177: both operands through `field_secp::FieldElement`, the product back through its
big-endian bytes; three `unwrap`s. -/
def mul (a b : Nat) : Out Nat := do
  let x ← unwrap (paramsP.fromBytes (toBytes a))
  let y ← unwrap (paramsP.fromBytes (toBytes b))
  unwrap (coreFromRepr (paramsP.toBeBytes (paramsP.mul x y)))

/-- `square`, l. 52–55: `unimplemented!()`. -/
def square (_a : Nat) : Out Nat := .error .panic

/-- `invert`, l. 62–64: `unimplemented!()`. -/
def invert (_a : Nat) : Out (Option Nat) := .error .panic

/-- `sqrt`, l. 66–68: `unimplemented!()`. -/
def sqrt (_a : Nat) : Out (Option Nat) := .error .panic

/-- `Sum`, l. 207–217: `unimplemented!()`. -/
def sum (_l : List Nat) : Out Nat := .error .panic

/-- `Product`, l. 219–229: `unimplemented!()`. -/
def product (_l : List Nat) : Out Nat := .error .panic

/-- `Field::pow_vartime`, the provided method of ff 0.12 that this type inherits: for every bit of the
exponent, most significant first, square and, when the bit is set, multiply.
Inherited by `impl Field for Scalar`, `scalar.rs` l. 28–69. -/
def powVartime (a : Nat) (bits : List Bool) : Out Nat :=
  bits.foldlM (fun r b => do
    let r ← square r
    if b then mul r a else pure r) 1

/-- `from_uint_reduced`, l. 231–238.  `U256::sbb` is the 256-bit difference with the borrow; the
borrow limb is all ones exactly when the subtraction underflows, and `conditional_select(&w, &r, c)`
is `r` when `c` is set. -/
def fromUintReduced (w : Nat) : Out Nat :=
  let r := (w + (2 ^ 256 - secqOrder)) % 2 ^ 256
  let underflow := decide (w < secqOrder)
  let reduced := if !underflow then r else w
  unwrap (new reduced)

/-- `From<u64>`, `From<u32>`, l. 254–258 and 299–303: `ScalarCore::from` (external). -/
def fromU64 (n : UInt64) : Nat := n.toNat

/-- `random`, l. 37–46, on the 32-byte blocks the generator produces: the first one that `from_repr`
accepts.  `none`: the loop has not ended after these blocks. -/
def random : List (List UInt8) → Option Nat
  | [] => none
  | bs :: rest =>
    match coreFromRepr bs with
    | some x => some x
    | none => random rest

/-- `is_odd`, l. 86–88 (external). -/
def isOdd (a : Nat) : Bool := a % 2 == 1

/-- `is_high`, l. 278–282: `ScalarCore::is_high` (external): above half of the order. -/
def isHigh (a : Nat) : Bool := decide (secqOrder / 2 < a)

/-- `char_le_bits`, l. 312–314, as the bytes whose bits it yields in order: `MODULUS.to_be_bytes()`. -/
def charLeBytes : List UInt8 := beBytes32 secqOrder

end Spartan.CoreScalar
