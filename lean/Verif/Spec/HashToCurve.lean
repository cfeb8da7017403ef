import Mathlib.Data.ZMod.Basic
import Mathlib.Algebra.Field.ZMod

/-!
The simplified SWU map of RFC 9380, section 6.6.2, for the curve `y² = x³ + A x + B` over the integers modulo a prime,
as a relation between the field element and the coordinates.
-/

namespace Spartan.Spec

variable {m : ℕ} [Fact m.Prime]

/-- The first candidate: `x1 = (-B / A) (1 + 1 / (Z² u⁴ + Z u²))`, or `B / (Z A)` where this is undefined. -/
def sswuX1 (A B Z u : ZMod m) : ZMod m :=
  if Z ^ 2 * u ^ 4 + Z * u ^ 2 = 0 then B / (Z * A) else (-B / A) * (1 + 1 / (Z ^ 2 * u ^ 4 + Z * u ^ 2))

/-- `(x, y)` is the image of `u`: `x` is `x1` if the curve has a point there and `Z u² x1` otherwise, and `y` is the root
whose canonical value has the parity of that of `u`. -/
structure IsSswu (A B Z u x y : ZMod m) : Prop where
  x_eq : (IsSquare (sswuX1 A B Z u ^ 3 + A * sswuX1 A B Z u + B) ∧ x = sswuX1 A B Z u) ∨
    (¬ IsSquare (sswuX1 A B Z u ^ 3 + A * sswuX1 A B Z u + B) ∧ x = Z * u ^ 2 * sswuX1 A B Z u)
  on : y ^ 2 = x ^ 3 + A * x + B
  sign : y.val % 2 = u.val % 2

/-- The rational map of an isogeny given by its coefficients, highest degree first: `k 0 … k 3` is the numerator of the
abscissa, `k 4, k 5` its monic denominator, `k 6 … k 9` the numerator of the factor of the ordinate and `k 10 … k 12` its
monic denominator (RFC 9380, appendix E).  Both denominators must be nonzero. -/
structure IsIsoImage (k : ℕ → ZMod m) (x y X Y : ZMod m) : Prop where
  den : x ^ 2 + k 4 * x + k 5 ≠ 0
  den' : x ^ 3 + k 10 * x ^ 2 + k 11 * x + k 12 ≠ 0
  abs : X = (k 0 * x ^ 3 + k 1 * x ^ 2 + k 2 * x + k 3) / (x ^ 2 + k 4 * x + k 5)
  ord : Y = y * ((k 6 * x ^ 3 + k 7 * x ^ 2 + k 8 * x + k 9) / (x ^ 3 + k 10 * x ^ 2 + k 11 * x + k 12))

end Spartan.Spec
