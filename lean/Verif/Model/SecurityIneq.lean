import Mathlib.Analysis.SpecialFunctions.Log.Base

/-!
`packages/poseidon/sage/security_inequalities.sage`: the inequalities that the number of rounds must meet.
-/

namespace Spartan.SecurityIneq

/-- Line (1), l. 15. -/
def ineq1 (M t p : ℕ) : Prop := 2 ^ M ≤ p ^ t

/-- Line (2), l. 16. -/
noncomputable def ineq2 (M t p C : ℕ) : Prop := (M : ℝ) ≤ (⌊Real.logb 2 p⌋ - C) * (t + 1)

/-- Line (3), l. 17.  Simplification here and below: `n()` rounds to 53 bits, the model does not round. -/
noncomputable def ineq3 (M t a R : ℕ) : Prop := (R : ℝ) > M * Real.logb a 2 + Real.logb a t

/-- The inequality that line (3) prints as its label, l. 17. -/
noncomputable def label3 (M t a R : ℕ) : Prop := (R : ℝ) > M * (Real.logb a 2 + Real.logb a t)

/-- Line (4a), l. 18. -/
noncomputable def ineq4a (M a R : ℕ) : Prop := (R : ℝ) > M * Real.logb a 2 / 3

/-- Line (4b), l. 19. -/
noncomputable def ineq4b (M t a R : ℕ) : Prop := (R : ℝ) > t - 1 + M * Real.logb a 2 / (t + 1)

/-- The lines that the script prints, l. 15–19. -/
noncomputable def script (M t p Rf Rp a C : ℕ) : List Prop :=
  let R := Rf + Rp
  [ineq1 M t p, ineq2 M t p C, ineq3 M t a R, ineq4a M a R, ineq4b M t a R]

end Spartan.SecurityIneq
