import Mathlib.AlgebraicGeometry.EllipticCurve.Affine.Point
import Verif.Lemmas.Primes

/-!
The two curves.  Points and their addition are Mathlib's (`WeierstrassCurve.Affine.Point`).
-/

namespace Spartan

/-- `y² = x³ + 7`. -/
def koblitz (F : Type) [Field F] : WeierstrassCurve.Affine F :=
  { a₁ := 0, a₂ := 0, a₃ := 0, a₄ := 0, a₆ := 7 }

/-- secp256k1: `y² = x³ + 7` over the integers modulo `p`. -/
abbrev Secp := (koblitz (ZMod secpP)).Point

/-- secq256k1: `y² = x³ + 7` over the integers modulo `q`. -/
abbrev Secq := (koblitz (ZMod secpN)).Point

end Spartan
