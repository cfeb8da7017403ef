import Verif.Spec.Curve
import Verif.Props.Group

/-! Specification of the ECDSA relations. -/

namespace Spartan.Spec

/-- The integers `(x, y)` are the affine coordinates of `P`. -/
def HasCoords (P : Secp) (x y : Nat) : Prop :=
  ∃ (a b : ZMod secpP) (h : (koblitz (ZMod secpP)).Nonsingular a b),
    P = .some a b h ∧ x = a.val ∧ y = b.val

/-- `R` is the point with x-coordinate `r` and the given parity of `y`. -/
def IsLift (R : Secp) (r : Nat) (odd : Bool) : Prop :=
  ∃ (b : ZMod secpP) (h : (koblitz (ZMod secpP)).Nonsingular (r : ZMod secpP) b),
    R = .some (r : ZMod secpP) b h ∧ (b.val % 2 = 1 ↔ odd = true)

/-- ECDSA verification of `(r, s)` on the message hash `m` with public key `Q` and base point `G`:
the x-coordinate of `(m/s) G + (r/s) Q` is `r` modulo the group order. -/
def EcdsaVerify (G Q : Secp) (m r s : ZMod secpN) : Prop :=
  s ≠ 0 ∧ r ≠ 0 ∧ ∃ (a b : ZMod secpP) (h : (koblitz (ZMod secpP)).Nonsingular a b),
    (m * s⁻¹) • G + (r * s⁻¹) • Q = .some a b h ∧ ((a.val : ℕ) : ZMod secpN) = r

end Spartan.Spec
