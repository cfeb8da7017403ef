import Verif.Spec.Keccak
import Mathlib.Logic.Function.Iterate

/-!
Keccak-f[1600] on bytes, and SHAKE256 (FIPS 202, sections 4, 6.2 and B.1): the message followed by four ones is
padded, absorbed, and squeezed for as long as needed.
-/

namespace Spartan.Spec.Keccak

/-- Bit `i` of 200 bytes: the least significant bit of a byte comes first. -/
def bitOf (st : Fin 200 → UInt8) (i : ℕ) : Bool := (st (Fin.ofNat 200 (i / 8))).toNat.testBit (i % 8)

/-- Keccak-f[1600] on 200 bytes. -/
def permBytes (st : Fin 200 → UInt8) : Fin 200 → UInt8 := fun j =>
  UInt8.ofNat (byteAt (toBits (keccakF (ofBits (bitOf st)))) j)

/-- The state after absorbing a padded bit string. -/
def absorbed (m : List Bool) : State := (blocks (pad m)).foldl absorb fun _ _ _ => false

/-- Bit `i` of the output of the sponge: each application of the permutation gives `rate` bits. -/
def squeezed (m : List Bool) (i : ℕ) : Bool := (toBits (keccakF^[i / rate] (absorbed m))).getD (i % rate) false

/-- Byte `i` of the output of SHAKE256. -/
def shake256 (bytes : List ℕ) (i : ℕ) : ℕ :=
  ((List.range 8).map fun j =>
    if squeezed (bytesToBits bytes ++ [true, true, true, true]) (8 * i + j) then 2 ^ j else 0).sum

end Spartan.Spec.Keccak
