import Verif.Model.Base

/-!
The 64-bit limb arithmetic of `Scalar` (`packages/Spartan-secq/src/scalar/scalar.rs`) and of the
two `FieldElement` types (`packages/secq256k1/src/field/field_secp.rs`, `field_secq.rs`).

The three files contain the same limb code with different constants, so the model is written once
over a record of constants (`MParams`) and instantiated with the constants of each file.  Line
numbers below are those of `scalar.rs` unless said otherwise.

`u64` is Lean's `UInt64`; `u128` intermediates are natural numbers, with the wrap-around of
`u128::wrapping_sub` written out.
-/

namespace Spartan

/-- `Scalar([u64; 5])` / `FieldElement([u64; 5])`: five limbs, least significant first
(`scalar.rs` l. 200, `field_secp.rs` l. 203, `field_secq.rs` l. 202). -/
structure Limbs where
  l0 : UInt64
  l1 : UInt64
  l2 : UInt64
  l3 : UInt64
  l4 : UInt64
deriving DecidableEq, Repr

/-- The constants of one field: `MODULUS`, `INV`, `R`, `R2`, `R3`.  `scalar.rs` l. 301–312, 357–386. -/
structure MParams where
  modulus : Limbs
  inv : UInt64
  r : Limbs
  r2 : Limbs
  r3 : Limbs

/-- `scalar.rs` l. 301–312 (`MODULUS`), 357–386 (`INV`, `R`, `R2`, `R3`);
`field_secp.rs` l. 481–568 has the same values. -/
def paramsP : MParams where
  modulus := ⟨0xfffffffefffffc2f, 0xffffffffffffffff, 0xffffffffffffffff, 0xffffffffffffffff, 0⟩
  inv := 0xd838091dd2253531
  r := ⟨0x00000001000003d1, 0, 0, 0, 0⟩
  r2 := ⟨0x000007a2000e90a1, 0x0000000000000001, 0, 0, 0⟩
  r3 := ⟨0x002bb1e33795f671, 0x0000000100000b73, 0, 0, 0⟩

/-- `field_secq.rs` l. 532–538 (`MODULUS`), 589–619 (`INV`, `R`, `R2`, `R3`). -/
def paramsQ : MParams where
  modulus := ⟨0xbfd25e8cd0364141, 0xbaaedce6af48a03b, 0xfffffffffffffffe, 0xffffffffffffffff, 0⟩
  inv := 0x4b0dff665588b13f
  r := ⟨0x402da1732fc9bebf, 0x4551231950b75fc4, 1, 0, 0⟩
  r2 := ⟨0x896cf21467d7d140, 0x741496c20e7cf878, 0xe697f5e45bcd07c6, 0x9d671cd581c69bc5, 0⟩
  r3 := ⟨0x7bc0cfe0e9ff41ed, 0x0017648444d4322c, 0xb1b31347f1d0b2da, 0x555d800c18ef116d, 0⟩

/-- `adc`, l. 22–25.  The `u128` sum cannot overflow, so it is a natural number. -/
def adc (a b carry : UInt64) : UInt64 × UInt64 :=
  let ret := a.toNat + b.toNat + carry.toNat
  (UInt64.ofNat ret, UInt64.ofNat (ret / 2 ^ 64))

/-- `sbb`, l. 29–32: `wrapping_sub` on `u128`. -/
def sbb (a b borrow : UInt64) : UInt64 × UInt64 :=
  let ret := (a.toNat + 2 ^ 128 - (b.toNat + (borrow >>> 63).toNat)) % 2 ^ 128
  (UInt64.ofNat ret, UInt64.ofNat (ret / 2 ^ 64))

/-- `mac`, l. 36–39.  The `u128` value cannot overflow. -/
def mac (a b c carry : UInt64) : UInt64 × UInt64 :=
  let ret := a.toNat + b.toNat * c.toNat + carry.toNat
  (UInt64.ofNat ret, UInt64.ofNat (ret / 2 ^ 64))

namespace MParams

/-- `Scalar::sub`, l. 769–785. -/
def sub (M : MParams) (a b : Limbs) : Limbs :=
  let (d0, borrow) := sbb a.l0 b.l0 0
  let (d1, borrow) := sbb a.l1 b.l1 borrow
  let (d2, borrow) := sbb a.l2 b.l2 borrow
  let (d3, borrow) := sbb a.l3 b.l3 borrow
  let (d4, borrow) := sbb a.l4 b.l4 borrow
  let (d0, carry) := adc d0 (M.modulus.l0 &&& borrow) 0
  let (d1, carry) := adc d1 (M.modulus.l1 &&& borrow) carry
  let (d2, carry) := adc d2 (M.modulus.l2 &&& borrow) carry
  let (d3, carry) := adc d3 (M.modulus.l3 &&& borrow) carry
  let (d4, _) := adc d4 (M.modulus.l4 &&& borrow) carry
  ⟨d0, d1, d2, d3, d4⟩

/-- `Scalar::add`, l. 789–799. -/
def add (M : MParams) (a b : Limbs) : Limbs :=
  let (d0, carry) := adc a.l0 b.l0 0
  let (d1, carry) := adc a.l1 b.l1 carry
  let (d2, carry) := adc a.l2 b.l2 carry
  let (d3, carry) := adc a.l3 b.l3 carry
  let (d4, _) := adc a.l4 b.l4 carry
  M.sub ⟨d0, d1, d2, d3, d4⟩ M.modulus

/-- `Scalar::double`, l. 448–451. -/
def double (M : MParams) (a : Limbs) : Limbs := M.add a a

/-- `Scalar::neg`, l. 803–819. -/
def neg (M : MParams) (a : Limbs) : Limbs :=
  let (d0, borrow) := sbb M.modulus.l0 a.l0 0
  let (d1, borrow) := sbb M.modulus.l1 a.l1 borrow
  let (d2, borrow) := sbb M.modulus.l2 a.l2 borrow
  let (d3, borrow) := sbb M.modulus.l3 a.l3 borrow
  let (d4, _) := sbb M.modulus.l4 a.l4 borrow
  let mask := (if (a.l0 ||| a.l1 ||| a.l2 ||| a.l3 ||| a.l4) = 0 then (1 : UInt64) else 0) - 1
  ⟨d0 &&& mask, d1 &&& mask, d2 &&& mask, d3 &&& mask, d4 &&& mask⟩

/-- One row of the Montgomery reduction (l. 695–701 and its three repetitions): returns the four
updated low limbs, the top limb and `carry2`.  The code repeats these lines four times; the model
names them once.  In the first row the code passes the literal `0` for `carry2`. -/
def montRow (M : MParams) (r0 r1 r2 r3 r4 r5 carry2 : UInt64) :
    UInt64 × UInt64 × UInt64 × UInt64 × UInt64 × UInt64 :=
  let k := r0 * M.inv
  let (_, carry) := mac r0 k M.modulus.l0 0
  let (r1, carry) := mac r1 k M.modulus.l1 carry
  let (r2, carry) := mac r2 k M.modulus.l2 carry
  let (r3, carry) := mac r3 k M.modulus.l3 carry
  let (r4, carry) := mac r4 k M.modulus.l4 carry
  let (r5, carry2) := adc r5 carry2 carry
  (r1, r2, r3, r4, r5, carry2)

/-- `Scalar::montgomery_reduce`, l. 678–727. -/
def montgomeryReduce (M : MParams) (r0 r1 r2 r3 r4 r5 r6 r7 r8 : UInt64) : Limbs :=
  let (r1, r2, r3, r4, r5, carry2) := M.montRow r0 r1 r2 r3 r4 r5 0
  let (r2, r3, r4, r5, r6, carry2) := M.montRow r1 r2 r3 r4 r5 r6 carry2
  let (r3, r4, r5, r6, r7, carry2) := M.montRow r2 r3 r4 r5 r6 r7 carry2
  let (r4, r5, r6, r7, r8, _) := M.montRow r3 r4 r5 r6 r7 r8 carry2
  M.sub ⟨r4, r5, r6, r7, r8⟩ M.modulus

/-- One row of the schoolbook product (l. 734–738 and its four repetitions): adds `a * b` to the
five limbs `r0 … r4` and returns them with the carry out.  In the first row the code passes the
literal `0` for the limbs. -/
def mulRow (r0 r1 r2 r3 r4 a : UInt64) (b : Limbs) :
    UInt64 × UInt64 × UInt64 × UInt64 × UInt64 × UInt64 :=
  let (r0, carry) := mac r0 a b.l0 0
  let (r1, carry) := mac r1 a b.l1 carry
  let (r2, carry) := mac r2 a b.l2 carry
  let (r3, carry) := mac r3 a b.l3 carry
  let (r4, carry) := mac r4 a b.l4 carry
  (r0, r1, r2, r3, r4, carry)

/-- `Scalar::mul`, l. 731–766. -/
def mul (M : MParams) (a b : Limbs) : Limbs :=
  let (r0, r1, r2, r3, r4, r5) := mulRow 0 0 0 0 0 a.l0 b
  let (r1, r2, r3, r4, r5, r6) := mulRow r1 r2 r3 r4 r5 a.l1 b
  let (r2, r3, r4, r5, r6, r7) := mulRow r2 r3 r4 r5 r6 a.l2 b
  let (r3, r4, r5, r6, r7, r8) := mulRow r3 r4 r5 r6 r7 a.l3 b
  let (r4, r5, r6, r7, r8, _) := mulRow r4 r5 r6 r7 r8 a.l4 b
  M.montgomeryReduce r0 r1 r2 r3 r4 r5 r6 r7 r8

/-- `Scalar::square`, l. 542–570. -/
def square (M : MParams) (a : Limbs) : Limbs :=
  let (r1, carry) := mac 0 a.l0 a.l1 0
  let (r2, carry) := mac 0 a.l0 a.l2 carry
  let (r3, r4) := mac 0 a.l0 a.l3 carry
  let (r3, carry) := mac r3 a.l1 a.l2 0
  let (r4, r5) := mac r4 a.l1 a.l3 carry
  let (r5, r6) := mac r5 a.l2 a.l3 0
  let r7 := r6 >>> 63
  let r6 := (r6 <<< 1) ||| (r5 >>> 63)
  let r5 := (r5 <<< 1) ||| (r4 >>> 63)
  let r4 := (r4 <<< 1) ||| (r3 >>> 63)
  let r3 := (r3 <<< 1) ||| (r2 >>> 63)
  let r2 := (r2 <<< 1) ||| (r1 >>> 63)
  let r1 := r1 <<< 1
  let (r0, carry) := mac 0 a.l0 a.l0 0
  let (r1, carry) := adc 0 r1 carry
  let (r2, carry) := mac r2 a.l1 a.l1 carry
  let (r3, carry) := adc 0 r3 carry
  let (r4, carry) := mac r4 a.l2 a.l2 carry
  let (r5, carry) := adc 0 r5 carry
  let (r6, carry) := mac r6 a.l3 a.l3 carry
  let (r7, _) := adc 0 r7 carry
  M.montgomeryReduce r0 r1 r2 r3 r4 r5 r6 r7 0

/-- `Scalar::zero`, l. 428–430. -/
def zero : Limbs := ⟨0, 0, 0, 0, 0⟩

/-- `Scalar::one`, l. 434–436. -/
def one (M : MParams) : Limbs := M.r

/-- `ct_eq` / `eq`, l. 272–286: compares the four low limbs only. -/
def ctEq (a b : Limbs) : Bool :=
  a.l0 == b.l0 && a.l1 == b.l1 && a.l2 == b.l2 && a.l3 == b.l3

end MParams

/-! ### Bytes -/

/-- The little-endian integer of a byte string.
Specification of `u64::from_le_bytes`, used at `field_secp.rs` l. 1021–1024. -/
def leNat : List UInt8 → Nat
  | [] => 0
  | b :: bs => b.toNat + 256 * leNat bs

/-- `u64::from_le_bytes` on eight bytes.  Used at `field_secp.rs` l. 650–657, 1021–1024. -/
def u64FromLE (bs : List UInt8) : UInt64 := UInt64.ofNat (leNat bs)

/-- The little-endian bytes of an integer, `n` of them.
Specification of `u64::to_le_bytes`, used at `field_secp.rs` l. 992–995. -/
def leBytes : Nat → Nat → List UInt8
  | 0, _ => []
  | n + 1, x => UInt8.ofNat x :: leBytes n (x / 256)

/-- `u64::to_le_bytes`.  Used at `field_secp.rs` l. 992–995. -/
def u64ToLE (x : UInt64) : List UInt8 := leBytes 8 x.toNat

/-- `&bytes[i..i+8]`.  Used at `field_secp.rs` l. 650–657, 1021–1024. -/
def slice8 (bs : List UInt8) (i : Nat) : List UInt8 := (bs.drop i).take 8

namespace MParams

/-- `Scalar::from_bytes`, l. 455–479 (`field_secp.rs` l. 1018–1042, `field_secq.rs` l. 285–309).
`[u8; 32]` is a list; `CtOption` is `Option`. -/
def fromBytes (M : MParams) (bytes : List UInt8) : Option Limbs :=
  let t0 := u64FromLE (slice8 bytes 0)
  let t1 := u64FromLE (slice8 bytes 8)
  let t2 := u64FromLE (slice8 bytes 16)
  let t3 := u64FromLE (slice8 bytes 24)
  let (_, borrow) := sbb t0 M.modulus.l0 0
  let (_, borrow) := sbb t1 M.modulus.l1 borrow
  let (_, borrow) := sbb t2 M.modulus.l2 borrow
  let (_, borrow) := sbb t3 M.modulus.l3 borrow
  let isSome := borrow.toUInt8 &&& 1
  let tmp := M.mul ⟨t0, t1, t2, t3, 0⟩ M.r2
  if isSome = 1 then some tmp else none

/-- `Scalar::to_bytes`, l. 483–497 (`field_secp.rs` l. 984–998, `field_secq.rs` l. 313–327). -/
def toBytes (M : MParams) (a : Limbs) : List UInt8 :=
  let tmp := M.montgomeryReduce a.l0 a.l1 a.l2 a.l3 a.l4 0 0 0 0
  u64ToLE tmp.l0 ++ u64ToLE tmp.l1 ++ u64ToLE tmp.l2 ++ u64ToLE tmp.l3

/-- `FieldElement::to_be_bytes`, `field_secp.rs` l. 1002–1016, `field_secq.rs` l. 331–345:
the four limbs, most significant first, each written big-endian. -/
def toBeBytes (M : MParams) (a : Limbs) : List UInt8 :=
  let tmp := M.montgomeryReduce a.l0 a.l1 a.l2 a.l3 a.l4 0 0 0 0
  (u64ToLE tmp.l3).reverse ++ (u64ToLE tmp.l2).reverse ++ (u64ToLE tmp.l1).reverse
    ++ (u64ToLE tmp.l0).reverse

/-- `FieldElement::from_sec1`, `field_secp.rs` l. 1056–1061, `field_secq.rs` l. 1052–1057. -/
def fromSec1 (M : MParams) (bytes : List UInt8) : Option Limbs := M.fromBytes bytes.reverse

/-- `FieldElement::is_odd`, `field_secp.rs` l. 429–435, `field_secq.rs` l. 480–486. -/
def isOdd (M : MParams) (a : Limbs) : Bool :=
  let val := M.montgomeryReduce a.l0 a.l1 a.l2 a.l3 a.l4 0 0 0 0
  (val.l0.toUInt8 &&& 1) == 1

/-- `Scalar::from_u512`, l. 514–532. -/
def fromU512 (M : MParams) (a b c d e f g h : UInt64) : Limbs :=
  let d0 : Limbs := ⟨a, b, c, d, 0⟩
  let d1 : Limbs := ⟨e, f, g, h, 0⟩
  M.add (M.mul d0 M.r2) (M.mul d1 M.r3)

/-- `Scalar::from_bytes_wide`, l. 501–512. -/
def fromBytesWide (M : MParams) (bytes : List UInt8) : Limbs :=
  M.fromU512 (u64FromLE (slice8 bytes 0)) (u64FromLE (slice8 bytes 8))
    (u64FromLE (slice8 bytes 16)) (u64FromLE (slice8 bytes 24))
    (u64FromLE (slice8 bytes 32)) (u64FromLE (slice8 bytes 40))
    (u64FromLE (slice8 bytes 48)) (u64FromLE (slice8 bytes 56))

/-- `Scalar::from_raw`, l. 536–538. -/
def fromRaw (M : MParams) (a b c d : UInt64) : Limbs := M.mul ⟨a, b, c, d, 0⟩ M.r2

/-- `From<u64>`, l. 266–270. -/
def fromU64 (M : MParams) (v : UInt64) : Limbs := M.mul ⟨v, 0, 0, 0, 0⟩ M.r2

/-- `Scalar::random`, l. 438–444: the eight words drawn from the generator are the argument. -/
def random (M : MParams) (a b c d e f g h : UInt64) : Limbs := M.fromU512 a b c d e f g h

/-! ### Exponentiation and inversion -/

/-- The inner loop of `pow` (l. 577–582) over bits `n-1, …, 0` of one exponent limb. -/
def powBits (M : MParams) (base : Limbs) (e : UInt64) : Nat → Limbs → Limbs
  | 0, res => res
  | n + 1, res =>
    let res := M.square res
    let tmp := M.mul res base
    powBits M base e n (if (e >>> UInt64.ofNat n) &&& 1 = 1 then tmp else res)

/-- `Scalar::pow`, l. 574–586; `pow_vartime` (l. 593–605) multiplies only when the bit is set and
computes the same value, so one definition models both. -/
def pow (M : MParams) (base : Limbs) (e0 e1 e2 e3 : UInt64) : Limbs :=
  let res := M.one
  let res := M.powBits base e3 64 res
  let res := M.powBits base e2 64 res
  let res := M.powBits base e1 64 res
  M.powBits base e0 64 res

/-- `FieldElement::pow_by_self`, `field_secp.rs` l. 734–744, `field_secq.rs` l. 770–780.
`from_ne_bytes` on a little-endian target. -/
def powBySelf (M : MParams) (base exp : Limbs) : Limbs :=
  let bytes := M.toBytes exp
  M.pow base (u64FromLE (slice8 bytes 0)) (u64FromLE (slice8 bytes 8))
    (u64FromLE (slice8 bytes 16)) (u64FromLE (slice8 bytes 24))

/-- `pow2k`, `field_secp.rs` l. 611–617, `field_secq.rs` l. 662–668. -/
def pow2k (M : MParams) (a : Limbs) : Nat → Limbs
  | 0 => a
  | k + 1 => M.pow2k (M.square a) k

/-- `Vec::resize(64, 0)`.  `field_secp.rs` l. 775. -/
def resize64 (bs : List UInt8) : List UInt8 := bs.take 64 ++ List.replicate (64 - bs.length) 0

/-- `BigUint::to_bytes_le` of num-bigint-dig: the minimal little-endian bytes (one zero byte
for 0).  Only its value matters below; `n` bounds the length.  Called at `field_secp.rs` l. 774. -/
def bigToLE (x : Nat) : List UInt8 := leBytes (x.log2 / 8 + 1) x

/-- `Scalar::invert`, l. 607–626 (`field_secp.rs` l. 766–785).  `modInverse a m` is
num-bigint-dig's `mod_inverse`, a parameter; `modulus` is the literal of l. 610–612. -/
def invert (M : MParams) (modInverse : Nat → Nat → Option Nat) (modulus : Nat) (a : Limbs) :
    Option Limbs :=
  match modInverse (leNat (M.toBytes a)) modulus with
  | some x => some (M.fromBytesWide (resize64 (bigToLE x)))
  | none => none

/-- The first loop of `batch_invert` (l. 648–656): the scratch vector and the product. -/
def biForward (M : MParams) : List Limbs → Limbs → List Limbs × Limbs
  | [], acc => ([], acc)
  | x :: xs, acc =>
    let (s, a) := biForward M xs (M.mul acc x)
    (acc :: s, a)

/-- The second loop (l. 669–673), which walks both vectors from the back. -/
def biBackward (M : MParams) : List (Limbs × Limbs) → Limbs → List Limbs × Limbs
  | [], acc => ([], acc)
  | (input, scratch) :: rest, acc =>
    let (ys, acc) := biBackward M rest acc
    let tmp := M.mul acc input
    (M.mul acc scratch :: ys, tmp)

/-- `Scalar::batch_invert`, l. 628–676: the updated inputs and the returned product of inverses.
`invert().unwrap()` on zero is a panic (in debug builds the assertion on l. 659 panics first). -/
def batchInvertL (M : MParams) (modInverse : Nat → Nat → Option Nat) (modulus : Nat)
    (inputs : List Limbs) : Out (List Limbs × Limbs) :=
  let (scratch, acc) := M.biForward inputs M.one
  match M.invert modInverse modulus acc with
  | none => .error .panic
  | some acc => .ok ((M.biBackward (inputs.zip scratch) acc).1, acc)

end MParams

/-! ### Serialisation of one element -/

namespace MParams

/-- `Serialize for Scalar`, l. 206–217: the elements of the serialised sequence. -/
def serScalar (M : MParams) (a : Limbs) : List UInt8 := M.toBytes a

/-- `visit_seq`, l. 228–244: reads 32 elements, panicking (`unwrap`) when they run out; whatever
follows is left in the sequence.  The limb is accumulated as `val += byte * 256^j`, which cannot
overflow. -/
def visitSeq (M : MParams) (seq : List UInt8) : Out Limbs :=
  if seq.length < 32 then .error .panic
  else .ok (M.fromRaw (u64FromLE (slice8 seq 0)) (u64FromLE (slice8 seq 8))
    (u64FromLE (slice8 seq 16)) (u64FromLE (slice8 seq 24)))

/-- `Serialize for FieldElement`, `field_secp.rs` l. 284–294, `field_secq.rs` l. 348–358: the five
raw limbs, without leaving Montgomery form. -/
def serField (a : Limbs) : List UInt8 :=
  u64ToLE a.l0 ++ u64ToLE a.l1 ++ u64ToLE a.l2 ++ u64ToLE a.l3 ++ u64ToLE a.l4

end MParams
end Spartan
