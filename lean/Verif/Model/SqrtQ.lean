import Verif.Model.CoreScalar
import Verif.Model.Group

/-!
The square root of the coordinate field of the commitment curve: `FieldElement::sqrt` of
`packages/secq256k1/src/field/field_secq.rs`, l. 445–450.

It hands the element to `k256::Scalar::sqrt`.  That function is in the dependency k256 0.11.6
(`Cargo.lock`), whose source is not in `/repo`; `tonStep`, `tonRound`, `tonLoop` and `k256Sqrt` transcribe
the published algorithm (constant-time Tonelli–Shanks).  A `conditional_select(&a, &b, c)` is
`if c then b else a`.
-/

namespace Spartan

/-- The body of the inner loop, `for j in 2..max_v`, of k256's `Scalar::sqrt`, over any commutative
monoid with decidable equality; the state is `(k, tmp, j_less_than_v, z)`.
External (k256 0.11.6), called at `field_secq.rs` l. 445–450. -/
def tonStep {M : Type} [CommMonoid M] [DecidableEq M] (v : Nat) (s : Nat × M × Bool × M) (j : Nat) :
    Nat × M × Bool × M :=
  let (k, tmp, lt, z) := s
  let one : Bool := decide (tmp = 1)
  let squared := (if one then z else tmp) * (if one then z else tmp)
  let tmp' := if one then tmp else squared
  let newZ := if one then squared else z
  let lt' := lt && !(j == v)
  let k' := if one then k else j
  let z' := if lt' then newZ else z
  (k', tmp', lt', z')

/-- The body of the outer loop, `for max_v in (1..=S).rev()`; the state is `(v, x, b, z)`.
External (k256 0.11.6), called at `field_secq.rs` l. 445–450. -/
def tonRound {M : Type} [CommMonoid M] [DecidableEq M] (s : Nat × M × M × M) (maxV : Nat) :
    Nat × M × M × M :=
  let (v, x, b, z) := s
  let (k, _, _, z) := (List.range' 2 (maxV - 2)).foldl (tonStep v) (1, b * b, true, z)
  let x := if b = 1 then x else x * z
  let z := z * z
  (k, x, b * z, z)

/-- The outer loop for `S = 6`, started at `v = S`.
External (k256 0.11.6), called at `field_secq.rs` l. 445–450. -/
def tonLoop {M : Type} [CommMonoid M] [DecidableEq M] (x b z : M) : M :=
  ([6, 5, 4, 3, 2, 1].foldl tonRound (6, x, b, z)).2.1

/-- The exponent of `w`, four 64-bit words, least significant first.
External (k256 0.11.6), called at `field_secq.rs` l. 445–450. -/
def k256SqrtExp : Nat :=
  0x777fa4bd19a06c82 + 2 ^ 64 * 0xfd755db9cd5e9140 + 2 ^ 128 * 0xffffffffffffffff +
    2 ^ 192 * 0x01ffffffffffffff

/-- k256's `Scalar::root_of_unity()`.  External (k256 0.11.6), called at `field_secq.rs` l. 445–450. -/
def k256Root : Nat := 0x0c1dc060e7a91986df9879a3fbc483a898bdeab680756045992f4b5402b052f2

/-- The candidate root, k256 0.11.6 `Scalar::sqrt` (external, transcribed) before its last line.
External (k256 0.11.6), called at `field_secq.rs` l. 445–450. -/
def k256Cand (a : ZMod secpN) : ZMod secpN :=
  let w := a ^ k256SqrtExp
  let x := a * w
  let b := x * w
  tonLoop x b (k256Root : ZMod secpN)

/-- k256 0.11.6 `Scalar::sqrt` (external, transcribed): the candidate, if its square is the argument.
External (k256 0.11.6), called at `field_secq.rs` l. 445–450. -/
def k256Sqrt (a : ZMod secpN) : Option (ZMod secpN) :=
  if k256Cand a * k256Cand a = a then some (k256Cand a) else none

/-- `FieldElement::sqrt`, `field_secq.rs` l. 445–450.  `to_repr` (l. 476–478) is the big-endian bytes;
k256's `Scalar::from_repr` accepts 32 big-endian bytes of an integer below the order, and `to_bytes`
writes them back.  The two `unwrap`s are panics.  `CtOption::map` calls its function even on `None`, then
with the default value, so the second `unwrap` is reached in every case. -/
def sqrtQ (a : Limbs) : Out (Option Limbs) := do
  let n := leNat (paramsQ.toBeBytes a).reverse
  if n < secpN then
    let root := k256Sqrt (n : ZMod secpN)
    let r ← CoreScalar.unwrap (paramsQ.fromSec1 (beBytes32 (root.getD 0).val))
    pure (root.map fun _ => r)
  else .error .panic

end Spartan
