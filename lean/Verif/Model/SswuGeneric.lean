import Mathlib.Algebra.Field.Defs
import Mathlib.Algebra.Group.Even

/-!
`packages/secq256k1/sage/sswu_generic.sage`: the reference implementations of the simplified SWU map.  The methods inherited
from `GenericMap` (`inv0`, `is_square`, `sqrt`, `sgn0`; not in the repository) are: the inverse with `0⁻¹ = 0`, `IsSquare`, and
arguments.  `Z` is the result of `find_z_sswu`.
-/

namespace Spartan.Sswu

variable {F : Type} [Field F]

open Classical in
/-- `GenericSSWU.__init__`, l. 28–35: the arguments at which the map is undefined; `c2 = -1 / Z`. -/
noncomputable def undefs (sqrt : F → F) (Z : F) : List F :=
  let c2 := -1 / Z
  let ex := sqrt c2
  [0] ++ if IsSquare c2 then [ex, -ex] else []

open Classical in
/-- `not_straight_line`, l. 37–60. -/
noncomputable def notStraightLine (sqrt : F → F) (sgn0 : F → Bool) (A B Z u : F) : F × F :=
  let tv1 := (Z ^ 2 * u ^ 4 + Z * u ^ 2)⁻¹
  let x1 := if tv1 = 0 then B / (Z * A) else (-B / A) * (1 + tv1)
  let gx1 := x1 ^ 3 + A * x1 + B
  let x2 := Z * u ^ 2 * x1
  let gx2 := x2 ^ 3 + A * x2 + B
  let xy := if IsSquare gx1 then (x1, sqrt gx1) else (x2, sqrt gx2)
  (xy.1, if sgn0 u ≠ sgn0 xy.2 then -xy.2 else xy.2)

open Classical in
/-- `straight_line`, l. 62–95; `CMOV(a, b, c)` is `b` when `c` holds, else `a`. -/
noncomputable def straightLine (sqrt : F → F) (sgn0 : F → Bool) (A B Z u : F) : F × F :=
  let c1 := -B / A
  let c2 := -1 / Z
  let tv1 := Z * u ^ 2
  let tv2 := tv1 ^ 2
  let x1 := (tv1 + tv2)⁻¹
  let e1 := x1 = 0
  let x1 := x1 + 1
  let x1 := if e1 then c2 else x1
  let x1 := x1 * c1
  let gx1 := x1 ^ 2
  let gx1 := gx1 + A
  let gx1 := gx1 * x1
  let gx1 := gx1 + B
  let x2 := tv1 * x1
  let tv2 := tv1 * tv2
  let gx2 := gx1 * tv2
  let e2 := IsSquare gx1
  let x := if e2 then x1 else x2
  let y2 := if e2 then gx1 else gx2
  let y := sqrt y2
  let e3 := sgn0 u = sgn0 y
  let y := if e3 then y else -y
  (x, y)

end Spartan.Sswu
