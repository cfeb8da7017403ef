import Verif.Spec.Poly

/-! Specification of R1CS satisfaction. -/

namespace Spartan.Spec
variable {F : Type} [Field F]

/-- Row `i` of the matrix applied to `z`. -/
def rowDot (M : List (Nat × Nat × F)) (z : List F) (i : Nat) : F :=
  ∑ j ∈ Finset.range z.length, matEntry M i j * z.getD j 0

/-- `(A z) ∘ (B z) = C z` on `m` rows. -/
def Sat (A B C : List (Nat × Nat × F)) (m : Nat) (z : List F) : Prop :=
  ∀ i < m, rowDot A z i * rowDot B z i = rowDot C z i

/-- A list cut or extended with zeros to length `n`. -/
def fit (n : Nat) (l : List F) : List F := (l ++ List.replicate (n - l.length) 0).take n

/-- The solution vector `(vars, 1, inputs)`. -/
def zvec (vars inputs : List F) : List F := vars ++ 1 :: inputs

/-- The padded one: `(vars, 1, inputs, 0, …, 0)` of length `2 * vars.length`. -/
def zpad (vars inputs : List F) : List F := fit (2 * vars.length) (zvec vars inputs)

end Spartan.Spec
