import Verif.Model.Points
import Verif.Spec.Limbs
import Verif.Spec.Curve

/-!
Which point of the curve a value of `AffinePoint` stands for.
-/

namespace Spartan.Spec

/-- The value `a` is the point `P`: the coordinates are in Montgomery form below the modulus (`Limbs.Rep`), and the point
at infinity is the flag together with coordinates zero. -/
def IsPoint (a : Pt.Aff) : Secq → Prop
  | .zero => a.infinity = true ∧ a.x.Rep secpN 0 ∧ a.y.Rep secpN 0
  | .some x y _ => a.infinity = false ∧ a.x.Rep secpN x ∧ a.y.Rep secpN y

/-- The number that bytes stand for, most significant first. -/
def beValue (bs : List UInt8) : Nat := bs.foldl (fun n b => 256 * n + b.toNat) 0

/-- The two SEC1 encodings of a point, compressed and uncompressed: a tag and 32 or 64 bytes.  The point at infinity has
one, a zero byte. -/
def IsCompressed (bs : List UInt8) : Secq → Prop
  | .zero => bs = [0]
  | .some x y _ => ∃ X, X.length = 32 ∧ beValue X = x.val ∧ bs = (if y.val % 2 = 1 then 3 else 2) :: X

/-- See `IsCompressed`. -/
def IsUncompressed (bs : List UInt8) : Secq → Prop
  | .zero => bs = [0]
  | .some x y _ => ∃ X Y, X.length = 32 ∧ Y.length = 32 ∧ beValue X = x.val ∧ beValue Y = y.val ∧ bs = 4 :: (X ++ Y)

end Spartan.Spec
