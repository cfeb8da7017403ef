import Verif.Spec.Poly
import Mathlib.Algebra.Polynomial.Roots

/-! Specification vocabulary for the sum-check protocol. -/

namespace Spartan.Spec
variable {F : Type} [Field F]

/-- Sum of `f` over the Boolean cube of the last `k` variables, the first ones being `pre`. -/
def cubeSum (k : Nat) (f : List F → F) (pre : List F) : F :=
  ∑ i ∈ Finset.range (2 ^ k), f (pre ++ boolPoint k i)

/-- `f`, a function of `n` field elements, is a polynomial of degree at most `d` in each
variable when the others are fixed. -/
def IndivDegree (n d : Nat) (f : List F → F) : Prop :=
  ∀ pre post : List F, pre.length + 1 + post.length = n →
    ∃ q : Polynomial F, q.natDegree ≤ d ∧ ∀ x, f (pre ++ x :: post) = q.eval x

/-- A function of one variable is a polynomial of degree at most `d`. -/
def IsPolyDeg (d : Nat) (g : F → F) : Prop := ∃ c : Fin (d + 1) → F, ∀ x, g x = ∑ i, c i * x ^ (i : ℕ)

end Spartan.Spec
