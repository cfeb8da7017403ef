/-
The two primes of the secp256k1 / secq256k1 cycle.
-/

namespace Spartan

/-- The secp256k1 base-field prime, which is the scalar field of Spartan-secq
(`packages/Spartan-secq/src/scalar/scalar.rs` l. 356, `MODULUS`) and the
group order of secq256k1
(`packages/secq256k1/src/lib.rs`, `ORDER`). -/
def secpP : Nat := 2 ^ 256 - 2 ^ 32 - 977

/-- The secp256k1 group order, which is the base field of secq256k1
(`packages/secq256k1/src/field/field_secq.rs`, `MODULUS`). -/
def secpN : Nat := 0xfffffffffffffffffffffffffffffffebaaedce6af48a03bbfd25e8cd0364141

end Spartan
