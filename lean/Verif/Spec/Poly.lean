import Mathlib.Algebra.BigOperators.Group.Finset.Basic
import Mathlib.Algebra.Field.Defs
import Mathlib.Data.List.GetD
import Mathlib.Data.Nat.Bitwise

/-! Specification vocabulary for multilinear polynomials, independent of the model. -/

namespace Spartan.Spec
variable {F : Type} [Field F]

/-- Bit `j` of `i`, counted from the most significant of `ell` bits. -/
def bitBE (ell i j : Nat) : Bool := i.testBit (ell - 1 - j)

/-- The Lagrange basis polynomial of the Boolean point `i` (big-endian bits)
evaluated at `r`: `∏ⱼ rⱼ` or `1 - rⱼ`. -/
def chi (r : List F) (i : Nat) : F :=
  ∏ j ∈ Finset.range r.length, if bitBE r.length i j then r.getD j 0 else 1 - r.getD j 0

/-- Multilinear extension of the table `Z`, evaluated at `r`. -/
def mle (Z r : List F) : F := ∑ i ∈ Finset.range (2 ^ r.length), Z.getD i 0 * chi r i

/-- The Boolean point with big-endian index `i`. -/
def boolPoint (ell i : Nat) : List F := (List.range ell).map fun j => if bitBE ell i j then 1 else 0

/-- Value at `x` of the polynomial with coefficients `cs` (constant term first). -/
def polyEval (cs : List F) (x : F) : F := ∑ i ∈ Finset.range cs.length, cs.getD i 0 * x ^ i

/-- Entry `(i, j)` of the matrix given by a list of `(row, col, val)`: repeated
positions add up. -/
def matEntry (M : List (Nat × Nat × F)) (i j : Nat) : F :=
  (M.map fun e => if e.1 = i ∧ e.2.1 = j then e.2.2 else 0).sum

/-- Entry `i` of the vector given by a list of `(index, val)`. -/
def vecEntry (Z : List (Nat × F)) (i : Nat) : F :=
  (Z.map fun e => if e.1 = i then e.2 else 0).sum

end Spartan.Spec
