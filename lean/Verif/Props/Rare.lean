import Verif.Lemmas.Rare
import Verif.Props.Prover

/-!
How rare the exceptional cases of the signature circuits are (C136).

The scalar multiplication and the signature circuits compute the right point for an honest prover only outside some
exceptional cases (C53, C54).  Here the exceptional scalars are counted.
-/

namespace Spartan.Rare

open Spartan.Spec Spartan.Circuit Spartan.Lib

/-- Counting field elements by their canonical numbers. -/
theorem ncard_fp {p : Fp → Prop} {S : Set ℕ} {c : ℕ} (hS : S.encard ≤ (c : ℕ∞))
    (h : ∀ s : Fp, s.val < secpN → ¬ p s → s.val ∈ S) : {s : Fp | s.val < secpN ∧ ¬ p s}.ncard ≤ c := by
  have h1 : {s : Fp | s.val < secpN ∧ ¬ p s}.encard ≤ (c : ℕ∞) := by
    rw [← (ZMod.val_injective secpP).encard_image]
    refine (Set.encard_le_encard ?_).trans hS
    rintro _ ⟨s, ⟨h1, h2⟩, rfl⟩
    exact h s h1 h2
  rw [← (Set.toFinite _).cast_ncard_eq] at h1
  exact_mod_cast h1

theorem two_pow_le : 2 ^ 127 * 2 ^ 128 ≤ secpN := by decide +kernel

theorem cast_k (n : ℕ) : ((2 ^ 256 + (n + tQ) % q : ℕ) : ZMod secpN) = (n : ZMod secpN) := by
  obtain ⟨c0, c1, _⟩ := k_consts
  rw [Nat.cast_add, c0, ZMod.natCast_mod, Nat.cast_add, c1, Nat.cast_sub (by decide +kernel), Nat.cast_mul,
    ZMod.natCast_self, Nat.cast_pow]
  push_cast
  ring

/-- C136: for every pair of points `T ≠ 0` and `U`, at most a fraction `2^-128` of the scalars meets an exceptional case
of the signature circuits. -/
theorem exceptional_scalars (T U : Secp) (hT : T ≠ 0) :
    {s : ℕ | s < secpN ∧ ¬ (¬ (2 ^ 128 ≤ s + tQlo ∧ s < 2 ^ 128) ∧ ¬ FalseZero (s • T) U ∧ s • T ≠ U ∧
      Regular T ((s + tQ) % q))}.ncard * 2 ^ 128 ≤ secpN := by
  have hfin : {s : ℕ | s < secpN ∧ ¬ (¬ (2 ^ 128 ≤ s + tQlo ∧ s < 2 ^ 128) ∧ ¬ FalseZero (s • T) U ∧ s • T ≠ U ∧
      Regular T ((s + tQ) % q))}.Finite := (Set.finite_lt_nat secpN).subset fun s hs => hs.1
  have h1 := (Set.encard_le_encard (s := {s : ℕ | s < secpN ∧ ¬ (¬ (2 ^ 128 ≤ s + tQlo ∧ s < 2 ^ 128) ∧
    ¬ FalseZero (s • T) U ∧ s • T ≠ U ∧ Regular T ((s + tQ) % q))}) (t := exceptional T U) (fun s hs =>
    ⟨hs.1, fun h => hs.2 ⟨h.1, h.2.1, h.2.2.1, h.2.2.2.1⟩⟩)).trans (exceptional_card hT U)
  rw [← hfin.cast_ncard_eq] at h1
  exact (Nat.mul_le_mul_right _ (by exact_mod_cast h1)).trans two_pow_le

/-- C136: for every point, the scalar multiplication circuit with the bits that its hints compute has the multiple of the
point by the scalar as its only output, except for at most a fraction `2^-128` of the scalars. -/
theorem mul_almost_all (P : Secp) (hP : P ≠ 0) :
    {s : Fp | s.val < secpN ∧ ¬ ((∃ kBits, KHonest s kBits) ∧ ∀ kBits, KHonest s kBits → ∀ out : Fp × Fp,
      Mul s (xy P).1 (xy P).2 kBits out.1 out.2 ↔ out = xy (s.val • P))}.ncard * 2 ^ 128 ≤ secpN := by
  refine (Nat.mul_le_mul_right _ (ncard_fp (exceptional_card hP 0) ?_)).trans two_pow_le
  intro s hs hn
  refine ⟨hs, fun h => hn ?_⟩
  obtain ⟨h1, -, -, h4, h5⟩ := h
  have em : (2 ^ 256 + (s.val + tQ) % q) • P = s.val • P := by
    rw [← secp_smul_nat, ← secp_smul_nat, cast_k]
  have hk : (s.val + tQ) % q < 2 ^ 256 := (Nat.mod_lt _ (by decide +kernel)).trans (by decide +kernel)
  refine ⟨⟨fun i => if ((s.val + tQ) % q).testBit i then 1 else 0, kHonest_iff.mpr ?_⟩, fun kBits hb out => ?_⟩
  · rw [if_neg h1]; exact fun i _ => rfl
  · have hb' := kHonest_iff.mp hb
    rw [if_neg h1] at hb'
    refine ⟨fun hm => ?_, ?_⟩
    · obtain ⟨k, hk', hh, hm'⟩ := mul_honest_partial P hP s h1
      have e : k = (s.val + tQ) % q := honest_k (ZMod.val_lt s) h1 hk' (by rw [ZMod.natCast_zmod_val]; exact hh)
      exact (hm' (e.symm ▸ h4)).2 h5 kBits out hb hm
    · rintro rfl
      rw [← em]
      exact mul_complete_bits P hP s kBits _ hk hb' h4

/-- C136: and for every point there are scalars for which it has not: at least `2^126`. -/
theorem mul_many_fail (P : Secp) (hP : P ≠ 0) :
    2 ^ 126 ≤ {s : Fp | s.val < secpN ∧ ¬ ((∃ kBits, KHonest s kBits) ∧ ∀ kBits, KHonest s kBits → ∀ out : Fp × Fp,
      Mul s (xy P).1 (xy P).2 kBits out.1 out.2 ↔ out = xy (s.val • P))}.ncard := by
  set S := {s : Fp | s.val < secpN ∧ ¬ ((∃ kBits, KHonest s kBits) ∧ ∀ kBits, KHonest s kBits → ∀ out : Fp × Fp,
      Mul s (xy P).1 (xy P).2 kBits out.1 out.2 ↔ out = xy (s.val • P))}
  have hN : 2 ^ 128 < secpN := by decide +kernel
  have hNP : secpN < secpP := by decide +kernel
  have htQ : 2 ^ 128 ≤ tQ := by decide +kernel
  have htN : tQ < secpN := by decide +kernel
  have hlo : tQlo ≤ 2 ^ 128 := by decide +kernel
  have hsub : (↑(Finset.Ico (2 ^ 128 - tQlo) (2 ^ 128)) : Set ℕ) ⊆ (ZMod.val '' S) ∪
      {s : ℕ | s < 2 ^ 128 ∧ ¬ Regular P (s + tQ - 2 ^ 128)} := by
    intro s hs
    rw [Finset.mem_coe, Finset.mem_Ico] at hs
    by_cases hr : Regular P (s + tQ - 2 ^ 128)
    · left
      have hv : (s : Fp).val = s := by rw [ZMod.val_natCast, Nat.mod_eq_of_lt (by omega)]
      refine ⟨(s : Fp), ⟨by rw [hv]; omega, ?_⟩, hv⟩
      rintro ⟨⟨kBits, hb⟩, hall⟩
      have hb' := kHonest_iff.mp hb
      rw [if_pos (by rw [hv]; omega), hv] at hb'
      have hk : s + tQ - 2 ^ 128 < 2 ^ 256 := lt_trans (b := secpN) (by omega) (by decide +kernel)
      have h1 := (hall kBits hb (xy ((2 ^ 256 + (s + tQ - 2 ^ 128)) • P))).mp (mul_complete_bits P hP s kBits _ hk hb' hr)
      have h2 : (2 ^ 256 + (s + tQ - 2 ^ 128)) • P = s • P := by
        rw [hv] at h1; exact xy_injective h1
      have h3 := smul_inj hP (a := ((2 ^ 256 + (s + tQ - 2 ^ 128) : ℕ) : ℤ)) (b := (s : ℤ))
        (by rw [natCast_zsmul, natCast_zsmul]; exact h2)
      have h4 : (secpN : ℤ) ∣ (2 ^ 256 + tQ - 2 ^ 128 : ℕ) := by
        convert h3 using 1
        omega
      exact absurd (Int.natCast_dvd_natCast.mp h4) (by decide +kernel)
    · right; exact ⟨hs.2, hr⟩
  have c1 : {s : ℕ | s < 2 ^ 128 ∧ ¬ Regular P (s + tQ - 2 ^ 128)}.encard ≤ 744 := by
    have hinj : Set.InjOn (fun s : ℕ => s + tQ - 2 ^ 128) {s : ℕ | s < 2 ^ 128 ∧ ¬ Regular P (s + tQ - 2 ^ 128)} := by
      intro s _ s' _ h
      have : s + tQ - 2 ^ 128 = s' + tQ - 2 ^ 128 := h
      omega
    rw [← hinj.encard_image]
    refine (Set.encard_le_encard ?_).trans (irregular_card hP)
    rintro _ ⟨s, ⟨h1, h2⟩, rfl⟩
    exact ⟨show s + tQ - 2 ^ 128 < secpN by omega, h2⟩
  have c2 := (Set.encard_le_encard hsub).trans (Set.encard_union_le _ _)
  rw [Set.encard_coe_eq_coe_finsetCard, Nat.card_Ico, Nat.sub_sub_self hlo, (ZMod.val_injective secpP).encard_image] at c2
  have c3 := c2.trans (add_le_add_right c1 _)
  rw [← (Set.toFinite S).cast_ncard_eq] at c3
  have c4 : tQlo ≤ S.ncard + 744 := by exact_mod_cast c3
  have c5 : 2 ^ 126 + 744 ≤ tQlo := by decide +kernel
  omega

theorem eff_ok {T U : Secp} (hT : T ≠ 0) {s : Fp} (hs : s.val < secpN) (h : s.val ∉ exceptional T U) :
    (∃ kBits, KHonest s kBits) ∧ ∀ kBits, KHonest s kBits → ∀ out : Fp × Fp,
      EfficientECDSA s (xy T).1 (xy T).2 (xy U).1 (xy U).2 kBits out.1 out.2 ↔ out = xy (s.val • T + U) := by
  obtain ⟨h1, h2, h3, h4, h5⟩ := by_contra fun hn => h ⟨hs, hn⟩
  obtain ⟨k, hk', hh, hm'⟩ := eff_ecdsa_honest_partial T U hT s h1 h2 (fun h => absurd h h3)
  have e : k = (s.val + tQ) % q := honest_k (ZMod.val_lt s) h1 hk' (by rw [ZMod.natCast_zmod_val]; exact hh)
  obtain ⟨⟨kb, kb1, kb2⟩, hu⟩ := hm' (e.symm ▸ h4)
  refine ⟨⟨kb, kb1⟩, fun kBits hb out => ⟨fun h => hu h5 kBits out hb h, ?_⟩⟩
  rintro rfl
  have e1 := (hh kb).mp kb1
  have e2 := (hh kBits).mp hb
  have em : (2 ^ 256 + (s.val + tQ) % q) • T = s.val • T := by
    rw [← secp_smul_nat, ← secp_smul_nat, cast_k]
  refine ⟨_, _, mul_complete_bits T hT s kBits k hk' e2 (e.symm ▸ h4), ?_⟩
  rw [e, em]
  exact (addComplete_curve h2 (fun h => absurd h h3)).mpr rfl

/-- C136: for every pair of points `T ≠ 0` and `U`, the signature circuit with the bits that its hints compute has
`s T + U` as its only output, except for at most a fraction `2^-128` of the scalars `s`. -/
theorem eff_ecdsa_almost_all (T U : Secp) (hT : T ≠ 0) :
    {s : Fp | s.val < secpN ∧ ¬ ((∃ kBits, KHonest s kBits) ∧ ∀ kBits, KHonest s kBits → ∀ out : Fp × Fp,
      EfficientECDSA s (xy T).1 (xy T).2 (xy U).1 (xy U).2 kBits out.1 out.2 ↔
        out = xy (s.val • T + U))}.ncard * 2 ^ 128 ≤ secpN := by
  refine (Nat.mul_le_mul_right _ (ncard_fp (exceptional_card hT U) ?_)).trans two_pow_le
  intro s hs hn
  exact by_contra fun h => hn (eff_ok hT hs h)

/-- C136: for every nonce point, message and recovery bit, all keys but a fraction of `2^-128` are such that no signature
with them meets an exceptional case of the circuits. -/
theorem exceptional_keys (R : Secp) (m : ZMod secpN) (r : ℕ) (odd : Bool) :
    {Q : Secp | ∃ s < secpN, SignedWith Q R m r s odd ∧ ¬ (¬ (2 ^ 128 ≤ s + tQlo ∧ s < 2 ^ 128) ∧
      ¬ FalseZero (s • effT r R) (effU r m) ∧ s • effT r R ≠ effU r m ∧
      Regular (effT r R) ((s + tQ) % q))}.ncard * 2 ^ 128 ≤ Nat.card Secp := by
  have : Finite Secp := Nat.finite_of_card_ne_zero (by rw [Koblitz.card_secp]; decide +kernel)
  set S := {Q : Secp | ∃ s < secpN, SignedWith Q R m r s odd ∧ ¬ (¬ (2 ^ 128 ≤ s + tQlo ∧ s < 2 ^ 128) ∧
      ¬ FalseZero (s • effT r R) (effU r m) ∧ s • effT r R ≠ effU r m ∧
      Regular (effT r R) ((s + tQ) % q))} with hS
  rcases S.eq_empty_or_nonempty with h0 | ⟨Q0, s0, -, hw, -⟩
  · rw [h0, Set.ncard_empty, zero_mul]; exact Nat.zero_le _
  have hr : (r : ZMod secpN) ≠ 0 := hw.2.1
  have hR0 : R ≠ 0 := by
    obtain ⟨b, hb, e, -⟩ := hw.2.2.2
    rw [e]
    exact WeierstrassCurve.Affine.Point.some_ne_zero _
  have hT : effT r R ≠ 0 := smul_ne_zero (inv_ne_zero hr) hR0
  rw [Koblitz.card_secp]
  refine le_trans (Nat.mul_le_mul_right _ ?_) (exceptional_scalars (effT r R) (effU r m) hT)
  classical
  choose! f hf using fun Q (hQ : Q ∈ S) => hQ
  refine Set.ncard_le_ncard_of_injOn f (fun Q hQ => ⟨(hf Q hQ).1, (hf Q hQ).2.2⟩) ?_
    ((Set.finite_lt_nat secpN).subset fun s hs => hs.1)
  intro Q hQ Q' hQ' e
  obtain ⟨hs, -, h1, -⟩ := (hf Q hQ).2.1
  obtain ⟨-, -, h2, -⟩ := (hf Q' hQ').2.1
  rw [← e] at h2
  have h3 := add_left_cancel (h1.trans h2.symm)
  exact smul_right_injective _ (mul_ne_zero hr (inv_ne_zero hs)) h3

/-! The theorems apply to the base point, and to every signature. -/

example : basePoint ≠ 0 := WeierstrassCurve.Affine.Point.some_ne_zero _

/-- There are scalars on which the circuit is right, and scalars on which it is not, already for the base point: neither of
the sets counted above is empty or everything. -/
example : (∃ s : Fp, s.val < secpN ∧ ∃ kBits, KHonest s kBits ∧ ∀ out : Fp × Fp,
      Mul s (xy basePoint).1 (xy basePoint).2 kBits out.1 out.2 ↔ out = xy (s.val • basePoint)) ∧
    ∃ s : Fp, s.val < secpN ∧ ¬ ((∃ kBits, KHonest s kBits) ∧ ∀ kBits, KHonest s kBits → ∀ out : Fp × Fp,
      Mul s (xy basePoint).1 (xy basePoint).2 kBits out.1 out.2 ↔ out = xy (s.val • basePoint)) := by
  have hG : basePoint ≠ 0 := WeierstrassCurve.Affine.Point.some_ne_zero _
  constructor
  · have h1 := mul_almost_all basePoint hG
    by_contra hn
    have hsub : ZMod.val '' {s : Fp | s.val < secpN ∧ ¬ ((∃ kBits, KHonest s kBits) ∧ ∀ kBits, KHonest s kBits →
        ∀ out : Fp × Fp, Mul s (xy basePoint).1 (xy basePoint).2 kBits out.1 out.2 ↔ out = xy (s.val • basePoint))} ⊇
        (↑(Finset.range secpN) : Set ℕ) := by
      intro k hk
      have hk : k < secpN := by simpa using hk
      have hv : (k : Fp).val = k := by
        rw [ZMod.val_natCast, Nat.mod_eq_of_lt (hk.trans (by decide +kernel))]
      refine ⟨k, ⟨by rw [hv]; exact hk, fun h => hn ?_⟩, hv⟩
      obtain ⟨kBits, hb⟩ := h.1
      exact ⟨k, by rw [hv]; exact hk, kBits, hb, h.2 kBits hb⟩
    have h2 := Set.ncard_le_ncard hsub ((Set.toFinite _).image _)
    rw [Set.ncard_coe_finset, Finset.card_range, Set.ncard_image_of_injective _ (ZMod.val_injective _)] at h2
    have h3 := (Nat.mul_le_mul_right (2 ^ 128) h2).trans h1
    exact absurd h3 (by decide +kernel)
  · have h1 := mul_many_fail basePoint hG
    obtain ⟨s, hs⟩ := Set.nonempty_of_ncard_ne_zero (Nat.ne_of_gt (lt_of_lt_of_le (by norm_num) h1))
    exact ⟨s, hs⟩

end Spartan.Rare
