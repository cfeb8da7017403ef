import Mathlib.Data.ZMod.Basic
import Verif.Model.Limbs
import Verif.Spec.Primes

/-!
What a limb vector stands for.
-/

namespace Spartan

/-- The integer of five limbs. -/
def Limbs.val (a : Limbs) : Nat :=
  a.l0.toNat + 2 ^ 64 * a.l1.toNat + 2 ^ 128 * a.l2.toNat + 2 ^ 192 * a.l3.toNat
    + 2 ^ 256 * a.l4.toNat

/-- Reduced modulo `m`. -/
def Limbs.Canon (m : Nat) (a : Limbs) : Prop := a.val < m

/-- `a` is the (reduced, Montgomery-form) representation of the residue `x` modulo `m`:
the limbs hold `x * 2^256 mod m`. -/
def Limbs.Rep (m : Nat) (a : Limbs) (x : ZMod m) : Prop :=
  a.val < m ∧ (a.val : ZMod m) = x * 2 ^ 256

/-- What is assumed of num-bigint-dig's `mod_inverse(a, m)`: it returns the inverse of `a` modulo
`m` in `[0, m)` when `a` and `m` are coprime, and nothing otherwise. -/
def MParams.ModInverseSpec (f : Nat → Nat → Option Nat) : Prop :=
  ∀ a n, 1 < n → (Nat.Coprime a n → ∃ x, f a n = some x ∧ x < n ∧ a * x % n = 1) ∧
    (¬ Nat.Coprime a n → f a n = none)

end Spartan
