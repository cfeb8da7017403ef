import Verif.Spec.Relations
import Verif.Model.Gens
import Mathlib.Algebra.Module.BigOperators

/-! Knowledge soundness of the NIZK: formal combinations of the generators and the extracted
assignment.  The generators of `NIZKGens::new` for `2^j` variables are the first points of one stream
`s 0, s 1, …`: all commitments use a prefix of it. -/

namespace Spartan.Spec
variable {F G P : Type} [Field F] [AddCommGroup G] [Module F G]

/-- Number of columns of the matrix into which `2^j` variables are arranged. -/
def width (j : Nat) : Nat := 2 ^ (j - j / 2)

/-- Number of generators in use: `width j` for the columns, one for values, one for blinds, and at
least the five of the sum-check messages. -/
def numGens (j : Nat) : Nat := max (width j + 2) 5

/-- A formal combination of the generators: their coefficients. -/
abbrev Comb (F : Type) (j : Nat) := Fin (numGens j) → F

/-- The group element a combination stands for. -/
noncomputable def evalComb (j : Nat) (s : Nat → G) : Comb F j →ₗ[F] G where
  toFun m := ∑ i, m i • s i
  map_add' a b := by simp [add_smul, Finset.sum_add_distrib]
  map_smul' c a := by simp [mul_smul, Finset.smul_sum]

/-- The formal generator number `i`. -/
def unit (F : Type) [Field F] (j i : Nat) : Comb F j := fun t => if (t : ℕ) = i then 1 else 0

/-- The first `n` formal generators, with the next one for the blind (`MultiCommitGens::new`). -/
def formalBasis (F : Type) [Field F] (j n : Nat) : Gens (Comb F j) :=
  ⟨n, (List.range n).map (unit F j), unit F j n⟩

/-- The layout of `NIZKGens::new`. -/
def formalGens (F : Type) [Field F] (j : Nat) : R1CSGens (Comb F j) :=
  ⟨⟨1, [unit F j (width j)], unit F j (width j + 1)⟩, formalBasis F j 3, formalBasis F j 4,
    ⟨width j, ⟨width j, (List.range (width j)).map (unit F j), unit F j (width j + 1)⟩,
      ⟨1, [unit F j (width j)], unit F j (width j + 1)⟩⟩⟩

/-- The coefficient of a column generator. -/
def coeff {j : Nat} (m : Comb F j) (i : Nat) : F := if h : i < numGens j then m ⟨i, h⟩ else 0

/-- The assignment known to the author of the row commitments `C`: the coefficients of the column
generators in the first `2^(j/2)` of them. -/
def extracted (j : Nat) (rep : P → Comb F j) (C : List P) : List F :=
  (C.take (2 ^ (j / 2))).flatMap fun c => (List.range (width j)).map (coeff (rep c))

/-- The `i`-th generator of the stream. -/
def stream (S : GenSrc G) (label : List UInt8) (i : Nat) : G := S.toPoint (S.block label i)

end Spartan.Spec
