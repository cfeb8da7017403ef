import Mathlib.Algebra.BigOperators.Fin
import Mathlib.Algebra.Field.Defs

/-!
The Poseidon permutation with three words and the hash built on it, as a mathematical function
(Grassi et al., with the constants as parameters).
-/

namespace Spartan.Spec

variable {F : Type} [Field F]

/-- The round constants and the matrix of an instance with `rf` full rounds (half before and half
after the partial ones) and `rp` partial rounds. -/
structure PoseidonParams (F : Type) where
  rf : ℕ
  rp : ℕ
  /-- constant added to word `j` in round `r` -/
  rc : ℕ → Fin 3 → F
  mds : Fin 3 → Fin 3 → F

/-- Round `r` is full if it is among the first or the last `rf / 2`. -/
def PoseidonParams.isFull (c : PoseidonParams F) (r : ℕ) : Bool :=
  r < c.rf / 2 || c.rf / 2 + c.rp ≤ r

/-- Round `r`: add the constants, fifth power on all words (full round) or on word `0` only
(partial round), multiply by the matrix. -/
def PoseidonParams.round (c : PoseidonParams F) (r : ℕ) (s : Fin 3 → F) : Fin 3 → F := fun i =>
  ∑ j, c.mds i j * (let x := s j + c.rc r j; if c.isFull r || j = 0 then x ^ 5 else x)

/-- The state after `n` rounds. -/
def PoseidonParams.rounds (c : PoseidonParams F) : ℕ → (Fin 3 → F) → Fin 3 → F
  | 0, s => s
  | n + 1, s => c.round n (c.rounds n s)

/-- The permutation. -/
def PoseidonParams.perm (c : PoseidonParams F) (s : Fin 3 → F) : Fin 3 → F :=
  c.rounds (2 * (c.rf / 2) + c.rp) s

/-- The two-to-one hash: domain tag `3 = 2 ^ 2 - 1`, output word `1`. -/
def PoseidonParams.hash (c : PoseidonParams F) (a b : F) : F := c.perm ![3, a, b] 1

end Spartan.Spec
