import Verif.Model.Group
import Verif.Lemmas.H2CConsts

/-!
Property C67: the constants of the `PrimeField` implementations.
-/

set_option exponentiation.threshold 2000

namespace Spartan

open MParams

/-- The contract of `ff::PrimeField`: `2^S` is the largest power of two dividing `m - 1`, the
multiplicative generator generates the multiplicative group, and the root of unity is a primitive
`2^S`-th root. -/
def PrimeFieldContract (m S : Nat) (g root : ZMod m) : Prop :=
  2 ^ S ∣ m - 1 ∧ ¬ 2 ^ (S + 1) ∣ m - 1 ∧ orderOf g = m - 1 ∧ orderOf root = 2 ^ S

theorem dvd_prod_primes {r : Nat} (hr : r.Prime) : ∀ {l : List Nat}, (∀ x ∈ l, x.Prime) →
    r ∣ l.prod → r ∈ l
  | [], _, h => absurd (Nat.dvd_one.mp h) hr.one_lt.ne'
  | x :: l, hl, h => by
    rw [List.prod_cons] at h
    rcases hr.dvd_mul.mp h with h | h
    · rw [(Nat.prime_dvd_prime_iff_eq hr (hl x (by simp))).mp h]; simp
    · exact List.mem_cons_of_mem _ (dvd_prod_primes hr (fun y hy => hl y (by simp [hy])) h)

theorem orderOf_eq_pred {m g : Nat} [Fact (Nat.Prime m)] (l : List Nat) (hl : ∀ x ∈ l, x.Prime)
    (hm : 2 ≤ m) (hp : l.prod = m - 1) (hg : g % m ≠ 0) (hk : m < 2 ^ 256)
    (hne : ∀ x ∈ l, powMod m g ((m - 1) / x) 256 % m ≠ 1) :
    orderOf (g : ZMod m) = m - 1 := by
  apply orderOf_eq_of_pow_and_pow_div_prime (by omega)
  · apply ZMod.pow_card_sub_one_eq_one
    rw [Ne, ZMod.natCast_eq_zero_iff]
    intro h; exact hg (Nat.mod_eq_zero_of_dvd h)
  · intro r hr hd hc
    rw [← hp] at hd
    apply hne r (dvd_prod_primes hr hl hd)
    rw [powMod_eq (lt_of_le_of_lt (Nat.div_le_self _ _) (by omega))]
    have : ((g ^ ((m - 1) / r) : ℕ) : ZMod m) = ((1 : ℕ) : ZMod m) := by
      rw [Nat.cast_pow, hc, Nat.cast_one]
    rw [(ZMod.natCast_eq_natCast_iff' _ _ _).mp this, Nat.mod_eq_of_lt (by omega)]

theorem prime_n57 : Nat.Prime 107361793816595537 := by
  refine pocklington 3 57 [4681609, 85831] ?_ (by decide +kernel)
  intro x hx
  simp only [List.mem_cons, List.not_mem_nil, or_false] at hx
  rcases hx with rfl | rfl <;> norm_num

theorem secp_three_order : orderOf (3 : ZMod secpP) = secpP - 1 := by
  have := orderOf_eq_pred (m := secpP) (g := 3)
    [2, 3, 7, 13441, 205115282021455665897114700593932402728804164701536103180137503955397371]
    (by
      intro x hx
      simp only [List.mem_cons, List.not_mem_nil, or_false] at hx
      rcases hx with rfl | rfl | rfl | rfl | rfl
      · norm_num
      · norm_num
      · norm_num
      · norm_num
      · exact prime_p237)
    (by decide +kernel) (by decide +kernel) (by decide +kernel) (by decide +kernel)
    (by decide +kernel)
  exact_mod_cast this

theorem secq_seven_order : orderOf (7 : ZMod secpN) = secpN - 1 := by
  have := orderOf_eq_pred (m := secpN) (g := 7)
    [2, 2, 2, 2, 2, 2, 3, 149, 631, 107361793816595537, 174723607534414371449,
      341948486974166000522343609283189]
    (by
      intro x hx
      simp only [List.mem_cons, List.not_mem_nil, or_false] at hx
      rcases hx with rfl | rfl | rfl | rfl | rfl | rfl | rfl | rfl | rfl | rfl | rfl | rfl
      iterate 9 norm_num
      · exact prime_n57
      · exact prime_n68
      · exact prime_n109)
    (by decide +kernel) (by decide +kernel) (by decide +kernel) (by decide +kernel)
    (by decide +kernel)
  exact_mod_cast this

/-- The constants of the base field of secp256k1 (the proof system's scalars) meet the contract. -/
theorem secp_prime_field_consts : ∃ g root : ZMod secpP,
    secpConsts.gen.Rep secpP g ∧ secpConsts.root.Rep secpP root ∧
      PrimeFieldContract secpP secpConsts.S g root := by
  refine ⟨_, _, rep_fromU64 valid_P 3, rep_fromRaw valid_P _ _ _ _, ?_, ?_, ?_, ?_⟩
  · show 2 ^ 1 ∣ secpP - 1
    decide +kernel
  · show ¬ 2 ^ 2 ∣ secpP - 1
    decide +kernel
  · exact_mod_cast secp_three_order
  · show orderOf _ = 2 ^ 1
    have h1 := orderOf_eq_prime_iff (p := 2) (x := ((⟨18446744069414583342, 18446744073709551615,
      18446744073709551615, 18446744073709551615, 0⟩ : Limbs).val : ZMod secpP))
    rw [pow_one]
    refine h1.mpr ⟨?_, ?_⟩
    · have := cast_pow_of_powMod (m := secpP) (a := (⟨18446744069414583342, 18446744073709551615,
        18446744073709551615, 18446744073709551615, 0⟩ : Limbs).val) (e := 2) (k := 2) (n := 1)
        (by norm_num) (by decide +kernel)
      rwa [Nat.cast_one] at this
    · rw [← Nat.cast_one, Ne, ZMod.natCast_eq_natCast_iff']
      decide +kernel

/-- C67 is false for the base field of secq256k1 (the type behind every commitment's coordinates):
the generator and the root of unity are those of the field, but `S` is 1 where it should be 6, so
the root of unity is not a `2^S`-th root of unity. -/
theorem secq_prime_field_consts : ∃ g root : ZMod secpN,
    secqConsts.gen.Rep secpN g ∧ secqConsts.root.Rep secpN root ∧
      PrimeFieldContract secpN 6 g root ∧ secqConsts.S = 1 ∧
      ¬ PrimeFieldContract secpN secqConsts.S g root := by
  have hroot : orderOf (((⟨0x992f4b5402b052f2, 0x98bdeab680756045, 0xdf9879a3fbc483a8,
      0xc1dc060e7a91986, 0⟩ : Limbs).val : ℕ) : ZMod secpN) = 2 ^ 6 := by
    apply orderOf_eq_prime_pow
    · have := cast_pow_of_powMod (m := secpN) (a := (⟨0x992f4b5402b052f2, 0x98bdeab680756045,
        0xdf9879a3fbc483a8, 0xc1dc060e7a91986, 0⟩ : Limbs).val) (e := 2 ^ 5) (k := 6)
        (n := secpN - 1) (by norm_num) (by decide +kernel)
      rw [this]
      intro h
      have h' : ((secpN - 1 : ℕ) : ZMod secpN) = ((1 : ℕ) : ZMod secpN) := by rw [h, Nat.cast_one]
      rw [ZMod.natCast_eq_natCast_iff'] at h'
      exact absurd h' (by decide +kernel)
    · have := cast_pow_of_powMod (m := secpN) (a := (⟨0x992f4b5402b052f2, 0x98bdeab680756045,
        0xdf9879a3fbc483a8, 0xc1dc060e7a91986, 0⟩ : Limbs).val) (e := 2 ^ 6) (k := 7)
        (n := 1) (by norm_num) (by decide +kernel)
      rwa [Nat.cast_one] at this
  refine ⟨_, _, rep_fromU64 valid_Q 7, rep_fromRaw valid_Q _ _ _ _, ⟨?_, ?_, ?_, hroot⟩, rfl, ?_⟩
  · decide +kernel
  · decide +kernel
  · exact_mod_cast secq_seven_order
  · rintro ⟨-, -, -, h⟩
    rw [hroot] at h
    exact absurd h (by show ¬ (2 ^ 6 = 2 ^ 1); decide)

/-- C67 is false for the scalar field type of secq256k1: every clause except primality of the
modulus fails.  `16` does not divide `p - 1`, 7 does not generate, and the root of unity is not a
16th root of unity (it is the constant of another curve). -/
theorem core_prime_field_consts :
    ¬ 2 ^ coreConsts.1 ∣ secpP - 1 ∧ orderOf (coreConsts.2.1 : ZMod secpP) ≠ secpP - 1 ∧
      ((coreConsts.2.2 : ℕ) : ZMod secpP) ^ 2 ^ coreConsts.1 ≠ 1 ∧
      ¬ PrimeFieldContract secpP coreConsts.1 coreConsts.2.1 coreConsts.2.2 := by
  have h1 : ¬ 2 ^ coreConsts.1 ∣ secpP - 1 := by decide +kernel
  refine ⟨h1, ?_, ?_, fun h => h1 h.1⟩
  · intro h
    have hp : ((7 : ℕ) : ZMod secpP) ^ ((secpP - 1) / 7) = ((1 : ℕ) : ZMod secpP) :=
      cast_pow_of_powMod (k := 256) (by decide +kernel) (by decide +kernel)
    rw [Nat.cast_one] at hp
    have hd := orderOf_dvd_of_pow_eq_one hp
    rw [show ((7 : ℕ) : ZMod secpP) = ((coreConsts.2.1 : ℕ) : ZMod secpP) from rfl, h] at hd
    exact absurd (Nat.le_of_dvd (by decide +kernel) hd) (by decide +kernel)
  · have := cast_pow_of_powMod (m := secpP) (a := coreConsts.2.2) (e := 2 ^ coreConsts.1) (k := 5)
      (n := powMod secpP coreConsts.2.2 16 5) (by decide) (by decide +kernel)
    rw [this, ← Nat.cast_one, Ne, ZMod.natCast_eq_natCast_iff']
    decide +kernel

end Spartan
