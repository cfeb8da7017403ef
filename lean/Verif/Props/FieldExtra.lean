import Verif.Model.FieldExtra
import Verif.Props.Scalar

/-! C05: `cube` and `is_zero_vartime` of the two field types. -/

namespace Spartan

open MParams

/-- The cube is the third power of the residue, and the test for zero is true of the residue zero alone. -/
theorem field_cube_is_zero {M : MParams} {m : Nat} (h : FieldCode M m) {a : Limbs} {x : ZMod m} (ha : a.Rep m x) :
    (M.cube a).Rep m (x ^ 3) ∧ (fieldIsZero a = true ↔ x = 0) := by
  refine ⟨?_, ctEq_iff h.valid ha (rep_zero h.valid)⟩
  rw [show x ^ 3 = x * x * x by ring]
  exact rep_mul h.valid (rep_square h.valid ha) ha

/-- Both fields have elements like that: the cube of 3 is 27, and 3 is not zero. -/
example : (paramsP.cube (paramsP.fromU64 3)).Rep secpP 27 ∧ fieldIsZero (paramsP.fromU64 3) = false := by
  have h := field_cube_is_zero .secp (rep_fromU64 valid_P 3)
  refine ⟨h.1, Bool.eq_false_iff.2 fun e => ?_⟩
  have e := h.2.1 e
  rw [ZMod.natCast_eq_zero_iff] at e
  exact absurd e (by decide +kernel)

end Spartan
