import Verif.Spec.Curve
import Mathlib.Algebra.BigOperators.Group.Finset.Basic

/-! Specification of the coordinates used by the circuits. -/

namespace Spartan.Spec

/-- The coordinates of a point as two field elements, `(0, 0)` standing for the point at
infinity. -/
def xy : Secp → ZMod secpP × ZMod secpP
  | .zero => (0, 0)
  | .some x y _ => (x, y)

/-- The signals `b` are the `n` bits of the number `k`. -/
def AreBits {F : Type} [Field F] (n k : ℕ) (b : ℕ → F) : Prop :=
  ∀ i < n, b i = if k.testBit i then 1 else 0

/-- The pairs of points with different abscissas whose ordinates sum to one. -/
def FalseZero (P Q : Secp) : Prop := (xy P).1 ≠ (xy Q).1 ∧ (xy P).2 + (xy Q).2 = 1

instance (P Q : Secp) : Decidable (FalseZero P Q) := inferInstanceAs (Decidable (_ ∧ _))

/-- `±1` -/
def sgn (b : Bool) : ℤ := if b then 1 else -1

/-- The multiple accumulated by the scalar multiplication after the top `i` bits of `k`. -/
def acc (k i : ℕ) : ℤ := ((2 ^ (i + 1) + 2 * (k / 2 ^ (256 - i)) + 1 : ℕ) : ℤ)

/-- None of the seven complete additions performed in computing `(2^256 + k) P` meets a `FalseZero`
pair. -/
def Regular (P : Secp) (k : ℕ) : Prop :=
  (∀ j, 1 ≤ j → j ≤ 3 →
    ¬ FalseZero (sgn (k.testBit j) • P) (acc k (255 - j) • P) ∧
    ¬ FalseZero (acc k (255 - j) • P) ((sgn (k.testBit j) + acc k (255 - j)) • P)) ∧
  ¬ FalseZero (acc k 255 • P) (if k.testBit 0 then 0 else -P)

end Spartan.Spec
