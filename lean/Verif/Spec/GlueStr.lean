import Verif.Model.GlueStr
import Verif.Spec.Glue
import Verif.Spec.Utf

/-!
What the JavaScript glue expects of the module's `realloc`.
-/

namespace Spartan.Glue

/-- Growing a block keeps its bytes and all other blocks. -/
def ReallocOk (R : Realloc) (base : ℕ) : Prop :=
  ∀ {w w' : Wasm} {p n m q : ℕ} {bs : List (ℕ × ℕ)}, WInv base w → w.blocks = (p, n) :: bs → n ≤ m →
    R p n m w = some (q, w') →
    WInv base w' ∧ w'.blocks = (q, m) :: bs ∧ w'.sp = w.sp ∧ Kept bs w w' ∧ content w' (q, n) = content w (p, n)

/-- Characters of ASCII. -/
def Ascii (cs : List Char) : Prop := ∀ c ∈ cs, c.toNat < 128

end Spartan.Glue
