import Mathlib.Algebra.Polynomial.Basic
import Mathlib.Algebra.Polynomial.Eval.Defs
import Mathlib.Algebra.Field.ZMod

/-!
The scripts that compute the constants of hash-to-curve: `find_z_sswu` of `packages/secq256k1/sage/hashtocurve_params.sage`
and `sqrt_ratio_params` of `packages/secq256k1/sage/sqrt_ratio_params.sage`.  Not modelled: `find_iso`, which calls Sage's
search for isogenies (its result, the coefficients of the isogenous curve, are arguments here), and printing.
-/

namespace Spartan.Sage

open Polynomial

variable {m : ℕ} [Fact m.Prime]

/-- The four tests on a candidate in `find_z_sswu`, `hashtocurve_params.sage` l. 41–52; Sage's `is_square` and
`is_irreducible` are Mathlib's `IsSquare` and `Irreducible`. -/
def ZOk (A B Z : ZMod m) : Prop :=
  ¬ IsSquare Z ∧ Z ≠ -1 ∧ Irreducible (X ^ 3 + C A * X + C B - C Z : (ZMod m)[X]) ∧
    IsSquare ((B / (Z * A)) ^ 3 + A * (B / (Z * A)) + B)

open Classical in
/-- The loop of `find_z_sswu`, `hashtocurve_params.sage` l. 38–53, from the counter `ctr` on: the counter and its negative
are tried.  The fuel bounds the number of turns. -/
noncomputable def findZ (A B : ZMod m) : ℕ → ℕ → Option (ZMod m)
  | 0, _ => none
  | fuel + 1, ctr =>
    if ZOk A B (ctr : ZMod m) then some (ctr : ZMod m)
    else if ZOk A B (-(ctr : ZMod m)) then some (-(ctr : ZMod m))
    else findZ A B fuel (ctr + 1)

/-- The result of `sqrt_ratio_params`.  `sqrt_ratio_params.sage` l. 2. -/
structure SqrtParams (m : ℕ) where
  c1 : ℕ
  c2 : ℕ
  c3 : ℕ
  c4 : ℕ
  c5 : ℕ
  c6 : ZMod m
  c7 : ZMod m

/-- The loop that sets `c1`, `sqrt_ratio_params.sage` l. 3–5: the last exponent below 256 whose power of two divides. -/
def lastPow (n : ℕ) : ℕ := (List.range 256).foldl (fun c i => if n % 2 ^ i = 0 then i else c) 0

/-- `sqrt_ratio_params`, `sqrt_ratio_params.sage` l. 2–14; powers modulo the prime are powers of residues. -/
def sqrtRatioParams (m : ℕ) (z : ZMod m) : SqrtParams m :=
  { c1 := lastPow (m - 1)
    c2 := (m - 1) / 2 ^ lastPow (m - 1)
    c3 := ((m - 1) / 2 ^ lastPow (m - 1) - 1) / 2
    c4 := 2 ^ lastPow (m - 1) - 1
    c5 := 2 ^ (lastPow (m - 1) - 1)
    c6 := z ^ ((m - 1) / 2 ^ lastPow (m - 1))
    c7 := z ^ (((m - 1) / 2 ^ lastPow (m - 1) + 1) / 2) }

end Spartan.Sage
