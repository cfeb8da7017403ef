import Verif.Model.Limbs

/-! The remaining methods of `impl Field for FieldElement`, the same in `packages/secq256k1/src/field/field_secp.rs` and
`field_secq.rs`. -/

namespace Spartan.MParams

/-- `cube`, `field_secp.rs` l. 405–407, `field_secq.rs` l. 456–458. -/
def cube (M : MParams) (a : Limbs) : Limbs := M.mul (M.square a) a

/-- `is_zero`, `field_secp.rs` l. 369–371, `field_secq.rs` l. 433–435, and `is_zero_vartime`, l. 401–403 and 452–454. -/
def fieldIsZero (a : Limbs) : Bool := ctEq a zero

end Spartan.MParams
