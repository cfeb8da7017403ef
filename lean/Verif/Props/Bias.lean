import Verif.Model.Challenge
import Verif.Props.Scalar
import Mathlib.Data.Int.CardIntervalMod
import Mathlib.Data.Set.Card
import Mathlib.Data.Finite.Prod
import Mathlib.SetTheory.Cardinal.Finite

/-!
Property C89: scalars made from 64 random bytes are almost uniformly distributed.
-/

set_option exponentiation.threshold 2000

namespace Spartan

open MParams

/-! ### byte strings are numbers -/

/-- Byte strings of length `n` and the numbers below `256^n`. -/
def bytesEquiv (n : Nat) : {bs : List UInt8 // bs.length = n} ≃ Fin (256 ^ n) where
  toFun bs := ⟨leNat bs.1, by have := leNat_lt bs.1; rwa [bs.2] at this⟩
  invFun k := ⟨leBytes n k.1, leBytes_length n k.1⟩
  left_inv bs := by
    apply Subtype.ext
    change leBytes n (leNat bs.1) = bs.1
    have h := leBytes_leNat bs.1
    rwa [bs.2] at h
  right_inv k := by
    apply Fin.ext
    change leNat (leBytes n k.1) = k.1
    rw [leNat_leBytes, Nat.mod_eq_of_lt k.2]

instance (n : Nat) : Finite {bs : List UInt8 // bs.length = n} := Finite.of_equiv _ (bytesEquiv n).symm

instance : Nonempty Bytes64 := ⟨⟨List.replicate 64 0, by simp⟩⟩

theorem card_bytes (n : Nat) : Nat.card {bs : List UInt8 // bs.length = n} = 256 ^ n := by
  rw [Nat.card_congr (bytesEquiv n), Nat.card_eq_fintype_card, Fintype.card_fin]

/-- The number of byte strings whose little-endian value is in a residue class. -/
theorem bytes_residue (n : Nat) {m : Nat} [NeZero m] (x : ZMod m) :
    Nat.card {bs : {bs : List UInt8 // bs.length = n} // ((leNat bs.1 : ℕ) : ZMod m) = x} =
      256 ^ n / m + if x.val < 256 ^ n % m then 1 else 0 := by
  have hm : 0 < m := Nat.pos_of_ne_zero (NeZero.ne m)
  have e : {bs : {bs : List UInt8 // bs.length = n} // ((leNat bs.1 : ℕ) : ZMod m) = x} ≃
      {k : Fin (256 ^ n) // k.1 ≡ x.val [MOD m]} := by
    refine (bytesEquiv n).subtypeEquiv fun bs => ?_
    change ((leNat bs.1 : ℕ) : ZMod m) = x ↔ leNat bs.1 ≡ x.val [MOD m]
    rw [← ZMod.natCast_eq_natCast_iff, ZMod.natCast_zmod_val]
  rw [Nat.card_congr e]
  have hcount := Nat.count_modEq_card (256 ^ n) hm x.val
  rw [Nat.mod_eq_of_lt (ZMod.val_lt x)] at hcount
  rw [← hcount, Nat.count_eq_card_filter_range, Nat.card_eq_fintype_card, Fintype.card_subtype]
  refine Finset.card_bij (fun k _ => k.1) ?_ ?_ ?_
  · intro k hk
    rw [Finset.mem_filter] at hk ⊢
    exact ⟨Finset.mem_range.2 k.2, hk.2⟩
  · intro a _ b _ h
    exact Fin.ext h
  · intro b hb
    rw [Finset.mem_filter] at hb
    exact ⟨⟨b, Finset.mem_range.1 hb.1⟩, Finset.mem_filter.2 ⟨Finset.mem_univ _, hb.2⟩, rfl⟩

/-! ### challenges and random scalars -/

/-- The challenge is the residue of the 512-bit little-endian integer in the buffer. -/
theorem challengeValue_eq (buf : Bytes64) :
    challengeValue buf = ((leNat buf.1 : ℕ) : ZMod secpP) ∧
    (challengeScalar buf).Rep secpP (challengeValue buf) := by
  haveI : NeZero secpP := valid_P.neZero
  have h : (challengeScalar buf).Rep secpP ((leNat buf.1 : ℕ) : ZMod secpP) := scalar_reductions.1 _ buf.2
  have e : challengeValue buf = ((leNat buf.1 : ℕ) : ZMod secpP) := by
    rw [challengeValue, (scalar_to_bytes h).2.1, ZMod.natCast_zmod_val]
  exact ⟨e, by rw [e]; exact h⟩

/-- C89.  Of the `2^512` contents of the buffer, every scalar is obtained from `⌊2^512 / p⌋`, or from one
more. -/
theorem challenge_count (x : ZMod secpP) :
    Nat.card {buf : Bytes64 // challengeValue buf = x} =
      2 ^ 512 / secpP + if x.val < 2 ^ 512 % secpP then 1 else 0 := by
  haveI : NeZero secpP := valid_P.neZero
  have h := bytes_residue 64 x
  rw [show (256 : ℕ) ^ 64 = 2 ^ 512 by norm_num] at h
  rw [← h]
  exact Nat.card_congr (Equiv.subtypeEquivRight fun buf => by rw [(challengeValue_eq buf).1])

theorem card_bytes64 : Nat.card Bytes64 = 2 ^ 512 := by
  rw [card_bytes]; norm_num

/-- The number of buffers whose challenge falls into a set. -/
theorem challenge_count_set (S : Finset (ZMod secpP)) :
    S.card * (2 ^ 512 / secpP) ≤ Nat.card {buf : Bytes64 // challengeValue buf ∈ S} ∧
    Nat.card {buf : Bytes64 // challengeValue buf ∈ S} ≤ S.card * (2 ^ 512 / secpP + 1) := by
  classical
  have : Fintype Bytes64 := Fintype.ofFinite _
  have hfib : ∀ x, (Finset.univ.filter fun buf : Bytes64 => challengeValue buf = x).card =
      2 ^ 512 / secpP + if x.val < 2 ^ 512 % secpP then 1 else 0 := by
    intro x
    rw [← challenge_count x, Nat.card_eq_fintype_card, Fintype.card_subtype]
  have hsum : Nat.card {buf : Bytes64 // challengeValue buf ∈ S} =
      ∑ x ∈ S, (Finset.univ.filter fun buf : Bytes64 => challengeValue buf = x).card := by
    rw [Nat.card_eq_fintype_card, Fintype.card_subtype]
    rw [Finset.card_eq_sum_card_fiberwise (f := challengeValue) (t := S)]
    · refine Finset.sum_congr rfl fun x hx => ?_
      congr 1
      ext buf
      simp only [Finset.mem_filter, Finset.mem_univ, true_and]
      exact ⟨fun h => h.2, fun h => ⟨h ▸ hx, h⟩⟩
    · intro buf hb
      simpa using hb
  rw [hsum]
  generalize 2 ^ 512 / secpP = c at *
  constructor
  · rw [← smul_eq_mul]
    exact Finset.card_nsmul_le_sum _ _ _ fun x _ => by rw [hfib x]; exact Nat.le_add_right _ _
  · rw [← smul_eq_mul]
    exact Finset.sum_le_card_nsmul _ _ _ fun x _ => by rw [hfib x]; split_ifs <;> omega

/-- C89, distance to uniform.  For uniformly random buffers the probability that the challenge falls into
a set `S` of scalars differs from `|S| / p` by less than `2^-256`. -/
theorem challenge_near_uniform (S : Finset (ZMod secpP)) :
    |(Nat.card {buf : Bytes64 // challengeValue buf ∈ S} : ℚ) / 2 ^ 512 - S.card / secpP| < 1 / 2 ^ 256 := by
  haveI : NeZero secpP := valid_P.neZero
  have : Fintype (ZMod secpP) := Fintype.ofFinite _
  obtain ⟨h1, h2⟩ := challenge_count_set S
  have hS : S.card ≤ secpP := by
    have := Finset.card_le_univ S
    rwa [← Nat.card_eq_fintype_card, Nat.card_zmod] at this
  have hp : secpP < 2 ^ 256 := by decide +kernel
  have hp0 : 0 < secpP := Nat.pos_of_ne_zero (NeZero.ne _)
  generalize Nat.card {buf : Bytes64 // challengeValue buf ∈ S} = N at *
  generalize S.card = s at *
  have hd := Nat.div_add_mod (2 ^ 512) secpP
  have hr := Nat.mod_lt (2 ^ 512) hp0
  generalize 2 ^ 512 / secpP = c at *
  generalize 2 ^ 512 % secpP = r at *
  generalize secpP = p at *
  have hd' : (p : ℚ) * c + r = 2 ^ 512 := by exact_mod_cast hd
  have h1' : (s : ℚ) * c ≤ N := by exact_mod_cast h1
  have h2' : (N : ℚ) ≤ s * (c + 1) := by exact_mod_cast h2
  have hS' : (s : ℚ) ≤ p := by exact_mod_cast hS
  have hp' : (p : ℚ) < 2 ^ 256 := by exact_mod_cast hp
  have hp0' : (0 : ℚ) < p := by exact_mod_cast hp0
  have hr' : (r : ℚ) < p := by exact_mod_cast hr
  have hr0 : (0 : ℚ) ≤ r := by positivity
  have hs0 : (0 : ℚ) ≤ s := by positivity
  have hZ : (0 : ℚ) < 2 ^ 512 := by positivity
  have hZ2 : (2 : ℚ) ^ 512 = 2 ^ 256 * 2 ^ 256 := by norm_num
  rw [div_sub_div _ _ hZ.ne' hp0'.ne', abs_div, abs_of_pos (mul_pos hZ hp0'), div_lt_div_iff₀
    (mul_pos hZ hp0') (by positivity)]
  have key : |(N : ℚ) * p - (2 : ℚ) ^ 512 * s| ≤ (s : ℚ) * p := by
    rw [abs_le, ← hd']
    constructor
    · nlinarith [mul_le_mul_of_nonneg_right h1' hp0'.le, mul_nonneg hs0 (sub_nonneg.2 hr'.le)]
    · nlinarith [mul_le_mul_of_nonneg_right h2' hp0'.le, mul_nonneg hs0 hr0]
  have k2 : (s : ℚ) * p < 2 ^ 256 * p := mul_lt_mul_of_pos_right (lt_of_le_of_lt hS' hp') hp0'
  calc |(N : ℚ) * p - (2 : ℚ) ^ 512 * s| * (2 : ℚ) ^ 256 ≤ (s : ℚ) * p * (2 : ℚ) ^ 256 := by gcongr
    _ < (2 : ℚ) ^ 256 * (p : ℚ) * (2 : ℚ) ^ 256 := mul_lt_mul_of_pos_right k2 (by positivity)
    _ = 1 * ((2 : ℚ) ^ 512 * (p : ℚ)) := by rw [hZ2]; ring

/-- Eight words as bytes in a buffer. -/
def wordsBytes (a b c d e f g h : UInt64) : Bytes64 :=
  ⟨u64ToLE a ++ u64ToLE b ++ u64ToLE c ++ u64ToLE d ++ u64ToLE e ++ u64ToLE f ++ u64ToLE g ++ u64ToLE h, by
    simp [u64ToLE, leBytes_length]⟩

/-- C89, `Scalar::random`: the scalar made from eight random words is the one `challenge_scalar` makes from
their bytes, so it has the same distribution. -/
theorem random_eq_challenge (a b c d e f g h : UInt64) :
    paramsP.random a b c d e f g h = challengeScalar (wordsBytes a b c d e f g h) := by
  have h1 := field_random .secp a b c d e f g h
  have h2 := (challengeValue_eq (wordsBytes a b c d e f g h)).2
  rw [(challengeValue_eq (wordsBytes a b c d e f g h)).1] at h2
  have hv : leNat (wordsBytes a b c d e f g h).1 =
      (⟨a, b, c, d, 0⟩ : Limbs).val + 2 ^ 256 * (⟨e, f, g, h, 0⟩ : Limbs).val := by
    have hw : ∀ (x : UInt64) (l : List UInt8), leNat (u64ToLE x ++ l) = x.toNat + 2 ^ 64 * leNat l := by
      intro x l
      rw [leNat_append, u64ToLE, leNat_leBytes, leBytes_length]
      rw [Nat.mod_eq_of_lt (by have := x.toNat_lt; norm_num at this ⊢; omega)]
      norm_num
    have hn : leNat ([] : List UInt8) = 0 := rfl
    have hw0 : leNat (u64ToLE h) = h.toNat := by
      have := hw h []
      rwa [List.append_nil, hn, Nat.mul_zero, Nat.add_zero] at this
    simp only [wordsBytes, List.append_assoc, hw, hw0, Limbs.val, UInt64.toNat_zero]
    ring
  rw [hv] at h2
  exact rep_inj valid_P h1 h2

/-- Non-vacuity: the scalar 5, for instance, is the challenge of a buffer. -/
example : ∃ buf : Bytes64, challengeValue buf = 5 := by
  have h := challenge_count 5
  have hpos : 0 < Nat.card {buf : Bytes64 // challengeValue buf = 5} := by
    rw [h]
    have : 0 < 2 ^ 512 / secpP := by decide +kernel
    omega
  obtain ⟨⟨⟨buf, hb⟩⟩, -⟩ := Nat.card_pos_iff.1 hpos
  exact ⟨buf, hb⟩

end Spartan
