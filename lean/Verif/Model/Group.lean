import Verif.Model.Limbs
import Verif.Lemmas.CurveOrder

/-!
`GroupElement`, its encodings and its curve constants
(`packages/secq256k1/src/lib.rs`, `affine.rs`, `packages/Spartan-secq/src/group.rs`,
`scalar/mod.rs`).
-/

namespace Spartan

/-- `Secq256K1::EQUATION_B`, `lib.rs` l. 41–42. -/
def secqB : Limbs := ⟨13924965285611452217, 16516940299852029533, 8, 0, 0⟩

/-- `Secq256K1::GENERATOR.0`, `lib.rs` l. 44–52. -/
def secqGenX : Limbs :=
  ⟨10469571329630693389, 10742150477581383480, 16610251588214968909, 7161385764161811800, 0⟩

/-- `Secq256K1::GENERATOR.1`, `lib.rs` l. 53–60. -/
def secqGenY : Limbs :=
  ⟨12565599782544440070, 11151484775266214907, 5786122696412099978, 14641184162808952937, 0⟩

/-- `ORDER` and `Secq256K1::ORDER`, `lib.rs` l. 20–21 and 29–30 (big-endian hex). -/
def secqOrder : Nat := 0xfffffffffffffffffffffffffffffffffffffffffffffffffffffffefffffc2f

/-- `Scalar::decompress_scalar`, `scalar/mod.rs` l. 37–39: the little-endian bytes as an integer,
reduced modulo the curve's `ORDER` (`from_uint_reduced` of the elliptic-curve crate). -/
def decompressScalar (s : Limbs) : Nat := leNat (paramsP.toBytes s) % secqOrder

/-- `usize::to_scalar`, `scalar/mod.rs` l. 13–18: a sum of ones. -/
def usizeToScalar (n : Nat) : Limbs :=
  (List.replicate n paramsP.one).foldl paramsP.add MParams.zero

/-- `bool::to_scalar`, `scalar/mod.rs` l. 20–29. -/
def boolToScalar (b : Bool) : Limbs := if b then paramsP.one else MParams.zero

/-- The byte strings an `EncodedPoint` can hold: SEC1 tag and the length that belongs to it
(sec1 0.3: identity 1 byte, compact/compressed 33, uncompressed 65).  `EncodedPoint::from_bytes`
rejects everything else before any code of this repository runs.
The type is named in `lib.rs` l. 16. -/
def sec1Shape (bs : List UInt8) : Bool :=
  match bs with
  | [] => false
  | t :: rest =>
    (t == 0 && rest.length == 0) || ((t == 2 || t == 3 || t == 5) && rest.length == 32)
      || (t == 4 && rest.length == 64)

/-- `CompressedGroupExt::unpack`, `group.rs` l. 17–26.  `decode` is `AffinePoint::decompress`.  The
error value holds `[u8; 32]`, made with `try_into().unwrap()` from all bytes of the encoding, which
panics unless there are exactly 32. -/
def unpackBytes {G : Type} (decode : List UInt8 → Option G) (bs : List UInt8) : Out G :=
  match decode bs with
  | some g => .ok g
  | none => if bs.length = 32 then .error (.err .decompressionError) else .error .panic

/-- `DecompressEncodedPoint::decompress`, `group.rs` l. 34–36. -/
def decompressBytes {G : Type} (decode : List UInt8 → Option G) (bs : List UInt8) : Out (Option G) :=
  match unpackBytes decode bs with
  | .ok g => .ok (some g)
  | .error _ => .error .panic

/-! ### SEC1 on the curve points

`AffinePoint::compress`/`decompress` (`affine.rs` l. 207–213) call `to_encoded_point(true)` and
`from_encoded_point` of the `primeorder` crate, which is not in the repository.  The following
transcribes SEC1 as that crate implements it, with the field operations of `field_secq.rs`
abstracted to residues. -/

/-- 32 big-endian bytes.  Part of `to_encoded_point`, called at `affine.rs` l. 207–209. -/
def beBytes32 (n : Nat) : List UInt8 := (leBytes 32 n).reverse

/-- `to_encoded_point(true)`: tag `2 + parity of y`, then `x`; the identity is one zero byte.
Called at `affine.rs` l. 207–209. -/
def secqCompress : Secq → List UInt8
  | .zero => [0]
  | .some x y _ => (if y.val % 2 = 1 then 3 else 2) :: beBytes32 x.val

/-- `from_encoded_point` on a compressed or identity encoding.  `sqrt` is `FieldElement::sqrt`
(`field_secq.rs` l. 445–450), which calls k256's. -/
def secqDecompress (sqrt : ZMod secpN → Option (ZMod secpN)) (bs : List UInt8) : Option Secq :=
  match bs with
  | [] => none
  | t :: rest =>
    if t = 0 ∧ rest = [] then some .zero
    else if (t = 2 ∨ t = 3) ∧ rest.length = 32 then
      if leNat rest.reverse < secpN then
        let x : ZMod secpN := (leNat rest.reverse : ZMod secpN)
        match sqrt (x ^ 3 + 7) with
        | none => none
        | some b =>
          let y := if (b.val % 2 = 1) = (t = 3) then b else -b
          if h : y ^ 2 = x ^ 3 + 7 then some (.some x y (Koblitz.secq_nonsingular.mpr h)) else none
      else none
    else none

/-! ### `PrimeField` constants -/

/-- `S`, `multiplicative_generator()` and `root_of_unity()` of a `PrimeField` impl.
The impls are `field_secp.rs` l. 414–449, `field_secq.rs` l. 465–500, `scalar.rs` l. 71–102. -/
structure FieldConsts where
  S : Nat
  gen : Limbs
  root : Limbs

/-- `impl PrimeField for FieldElement`, `field_secp.rs` l. 414–449. -/
def secpConsts : FieldConsts :=
  ⟨1, paramsP.fromU64 3, paramsP.fromRaw 18446744069414583342 18446744073709551615
    18446744073709551615 18446744073709551615⟩

/-- `impl PrimeField for FieldElement`, `field_secq.rs` l. 465–500. -/
def secqConsts : FieldConsts :=
  ⟨1, paramsQ.fromU64 7, paramsQ.fromRaw 0x992f4b5402b052f2 0x98bdeab680756045
    0xdf9879a3fbc483a8 0xc1dc060e7a91986⟩

/-- `impl PrimeField for Scalar` of secq256k1, `secq256k1/src/scalar.rs` l. 71–102: `S`,
`multiplicative_generator()` and the big-endian value of `root_of_unity()`.  This scalar type wraps
`ScalarCore`, whose values are the integers below `ORDER`. -/
def coreConsts : Nat × Nat × Nat :=
  (4, 7, 0xffc97f062a770992ba807ace842a3dfc1546cad004378daf0592d7fbb41e6602)

end Spartan
