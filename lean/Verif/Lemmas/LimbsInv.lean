import Mathlib.Data.Nat.Log
import Verif.Lemmas.LimbsRep

/-!
Exponentiation and inversion on limb vectors.
-/

set_option exponentiation.threshold 2000

namespace Spartan
namespace MParams

variable {M : MParams} {m : Nat}

theorem bit_iff (e : UInt64) {n : Nat} (hn : n < 64) :
    ((e >>> UInt64.ofNat n) &&& 1 = 1) ↔ e.toNat / 2 ^ n % 2 = 1 := by
  rw [← UInt64.toNat_inj, UInt64.toNat_and, UInt64.toNat_shiftRight, UInt64.toNat_ofNat']
  have h1 : n % 2 ^ 64 % 64 = n := by omega
  have h2 : (1 : UInt64).toNat = 1 := rfl
  rw [h1, h2, Nat.and_one_is_mod, Nat.shiftRight_eq_div_pow]

theorem rep_powBits (hM : M.Valid m) {base : Limbs} {x : ZMod m} (hb : base.Rep m x)
    (e : UInt64) : ∀ n, n ≤ 64 → ∀ (res : Limbs) (y : ZMod m), res.Rep m y →
    (M.powBits base e n res).Rep m (y ^ 2 ^ n * x ^ (e.toNat % 2 ^ n))
  | 0, _, res, y, hr => by simpa [powBits, Nat.mod_one] using hr
  | n + 1, hn, res, y, hr => by
    have hs := rep_square hM hr
    have ht := rep_mul hM hs hb
    have hb2 : e.toNat % 2 ^ (n + 1) = e.toNat % 2 ^ n + 2 ^ n * (e.toNat / 2 ^ n % 2) := by
      rw [pow_succ, Nat.mod_mul]
    rw [powBits]
    rcases Nat.mod_two_eq_zero_or_one (e.toNat / 2 ^ n) with h | h
    · rw [if_neg (by rw [bit_iff e (by omega)]; omega)]
      have := rep_powBits hM hb e n (by omega) _ _ hs
      convert this using 1
      rw [hb2, h, mul_zero, add_zero, ← pow_two, ← pow_mul, pow_succ, mul_comm 2]
    · rw [if_pos ((bit_iff e (by omega)).mpr h)]
      have := rep_powBits hM hb e n (by omega) _ _ ht
      convert this using 1
      rw [hb2, h, mul_one, mul_pow, pow_add, ← pow_two, ← pow_mul, pow_succ, mul_comm 2]
      ring

/-- `pow` raises to the 256-bit exponent given by four limbs. -/
theorem rep_pow (hM : M.Valid m) {base : Limbs} {x : ZMod m} (hb : base.Rep m x)
    (e0 e1 e2 e3 : UInt64) :
    (M.pow base e0 e1 e2 e3).Rep m (x ^ (⟨e0, e1, e2, e3, 0⟩ : Limbs).val) := by
  have h3 := rep_powBits hM hb e3 64 le_rfl _ _ (rep_one hM)
  have h2 := rep_powBits hM hb e2 64 le_rfl _ _ h3
  have h1 := rep_powBits hM hb e1 64 le_rfl _ _ h2
  have h0 := rep_powBits hM hb e0 64 le_rfl _ _ h1
  rw [Nat.mod_eq_of_lt e3.toNat_lt] at h0
  rw [Nat.mod_eq_of_lt e2.toNat_lt, Nat.mod_eq_of_lt e1.toNat_lt,
    Nat.mod_eq_of_lt e0.toNat_lt] at h0
  rw [MParams.pow]
  convert h0 using 1
  rw [one_pow, one_mul, ← pow_mul, ← pow_add, ← pow_mul, ← pow_add, ← pow_mul, ← pow_add]
  congr 1
  have z : (0 : UInt64).toNat = 0 := rfl
  simp only [Limbs.val, z]
  ring

theorem rep_powBySelf (hM : M.Valid m) {base exp : Limbs} {x e : ZMod m} (hb : base.Rep m x)
    (he : exp.Rep m e) : (M.powBySelf base exp).Rep m (x ^ e.val) := by
  haveI := hM.neZero
  have h := rep_pow hM hb (u64FromLE (slice8 (M.toBytes exp) 0)) (u64FromLE (slice8 (M.toBytes exp) 8))
    (u64FromLE (slice8 (M.toBytes exp) 16)) (u64FromLE (slice8 (M.toBytes exp) 24))
  have hl : (M.toBytes exp).length = 32 := by rw [toBytes_eq hM he, leBytes_length]
  rw [limbs_of_bytes (by omega), List.take_of_length_le (by omega), toBytes_eq hM he,
    leNat_leBytes, Nat.mod_eq_of_lt] at h
  · rw [powBySelf, toBytes_eq hM he]
    exact h
  · exact lt_trans (ZMod.val_lt e) (by have := hM.lt; norm_num at this ⊢; omega)

theorem rep_pow2k (hM : M.Valid m) : ∀ (k : Nat) {a : Limbs} {x : ZMod m}, a.Rep m x →
    (M.pow2k a k).Rep m (x ^ 2 ^ k)
  | 0, a, x, ha => by simpa [pow2k] using ha
  | k + 1, a, x, ha => by
    have := rep_pow2k hM k (rep_square hM ha)
    rw [pow2k]
    convert this using 1
    rw [← pow_two, ← pow_mul, pow_succ, mul_comm 2]

/-! ### Inversion through the big-integer library -/

theorem leNat_replicate_zero : ∀ n, leNat (List.replicate n 0) = 0
  | 0 => rfl
  | n + 1 => by rw [List.replicate_succ, leNat, leNat_replicate_zero n]; rfl

theorem leNat_resize64 {x : Nat} (hx : x < 2 ^ 512) :
    (resize64 (bigToLE x)).length = 64 ∧ leNat (resize64 (bigToLE x)) = x := by
  have hlen : (bigToLE x).length ≤ 64 := by
    rw [bigToLE, leBytes_length]
    have : x.log2 < 512 := by
      rcases Nat.eq_zero_or_pos x with rfl | h0
      · decide
      · exact (Nat.log2_lt (by omega)).mpr hx
    omega
  have hval : leNat (bigToLE x) = x := by
    rw [bigToLE, leNat_leBytes]
    apply Nat.mod_eq_of_lt
    have h1 : x < 2 ^ (x.log2 + 1) := by
      rcases Nat.eq_zero_or_pos x with rfl | h0
      · decide
      · exact (Nat.log2_lt (by omega)).mp (Nat.lt_succ_self _)
    refine lt_of_lt_of_le h1 ?_
    rw [show (256 : Nat) = 2 ^ 8 by norm_num, ← pow_mul]
    exact Nat.pow_le_pow_right (by norm_num) (by omega)
  constructor
  · rw [resize64, List.length_append, List.length_take, List.length_replicate]; omega
  · rw [resize64, leNat_append, leNat_replicate_zero, List.take_of_length_le hlen, hval]; simp

theorem invert_eq (hM : M.Valid m) [Fact m.Prime] {f : Nat → Nat → Option Nat}
    (hf : ModInverseSpec f) {a : Limbs} {x : ZMod m} (ha : a.Rep m x) :
    (x = 0 → M.invert f m a = none) ∧
    (x ≠ 0 → ∃ b, M.invert f m a = some b ∧ b.Rep m x⁻¹) := by
  have hp := hM.pos
  have hmp : m.Prime := Fact.out
  have hval : leNat (M.toBytes a) = x.val := by
    rw [toBytes_eq hM ha, leNat_leBytes, Nat.mod_eq_of_lt]
    exact lt_trans (ZMod.val_lt x) (by have := hM.lt; norm_num at this ⊢; omega)
  obtain ⟨h1, h2⟩ := hf x.val m (by omega)
  constructor
  · intro hx
    have : ¬ Nat.Coprime x.val m := by
      rw [hx, ZMod.val_zero, Nat.coprime_zero_left]; omega
    rw [MParams.invert, hval, h2 this]
  · intro hx
    have hc : Nat.Coprime x.val m := by
      refine Nat.Coprime.symm ((Nat.Prime.coprime_iff_not_dvd hmp).mpr fun hd => hx ?_)
      have h3 : ((x.val : ℕ) : ZMod m) = 0 := (ZMod.natCast_eq_zero_iff _ _).mpr hd
      rwa [ZMod.natCast_zmod_val] at h3
    obtain ⟨y, hy, hlt, hyx⟩ := h1 hc
    have hy512 : y < 2 ^ 512 := by
      have := hM.lt
      exact lt_trans (lt_trans hlt this) (by norm_num)
    obtain ⟨hl, hv⟩ := leNat_resize64 hy512
    refine ⟨M.fromBytesWide (resize64 (bigToLE y)), by rw [MParams.invert, hval, hy], ?_⟩
    have := rep_fromBytesWide hM hl
    rw [hv] at this
    convert this using 1
    have h4 : x * (y : ZMod m) = 1 := by
      have h5 : ((x.val * y % m : ℕ) : ZMod m) = ((1 : ℕ) : ZMod m) := by rw [hyx]
      rw [ZMod.natCast_mod] at h5
      simpa [ZMod.natCast_zmod_val] using h5
    exact inv_eq_of_mul_eq_one_right h4

/-! ### Batch inversion -/

theorem biForward_spec (hM : M.Valid m) : ∀ (l : List Limbs) (xs : List (ZMod m)) (acc : Limbs)
    (y : ZMod m), List.Forall₂ (Limbs.Rep m) l xs → acc.Rep m y →
    (M.biForward l acc).2.Rep m (y * xs.prod) ∧ (M.biForward l acc).1.length = l.length
  | [], [], acc, y, _, ha => by simpa [biForward] using ha
  | a :: l, x :: xs, acc, y, h, ha => by
    rcases h with _ | ⟨h1, h2⟩
    have ih := biForward_spec hM l xs (M.mul acc a) (y * x) h2 (rep_mul hM ha h1)
    rw [biForward]
    simp only
    refine ⟨?_, by simp [ih.2]⟩
    convert ih.1 using 1
    rw [List.prod_cons]; ring

theorem biBackward_spec (hM : M.Valid m) [Fact m.Prime] : ∀ (l : List Limbs) (xs : List (ZMod m))
    (acc inv : Limbs) (y : ZMod m), List.Forall₂ (Limbs.Rep m) l xs → acc.Rep m y → y ≠ 0 →
    (∀ x ∈ xs, x ≠ 0) → inv.Rep m (y * xs.prod)⁻¹ →
    List.Forall₂ (Limbs.Rep m) (M.biBackward (l.zip (M.biForward l acc).1) inv).1
      (xs.map (·⁻¹)) ∧
    (M.biBackward (l.zip (M.biForward l acc).1) inv).2.Rep m y⁻¹
  | [], [], acc, inv, y, _, ha, _, _, hi => by
    simpa [biForward, biBackward] using hi
  | a :: l, x :: xs, acc, inv, y, h, ha, hy, hx, hi => by
    rcases h with _ | ⟨h1, h2⟩
    have hx0 : x ≠ 0 := hx x (by simp)
    have ih := biBackward_spec hM l xs (M.mul acc a) inv (y * x) h2 (rep_mul hM ha h1)
      (mul_ne_zero hy hx0) (fun z hz => hx z (by simp [hz])) (by
        convert hi using 1
        rw [List.prod_cons, mul_assoc])
    rw [biForward]
    simp only [List.zip_cons_cons]
    rw [biBackward]
    simp only [List.map_cons]
    obtain ⟨i1, i2⟩ := ih
    refine ⟨List.Forall₂.cons ?_ i1, ?_⟩
    · convert rep_mul hM i2 ha using 1
      field_simp
    · convert rep_mul hM i2 h1 using 1
      field_simp

end MParams
end Spartan
