import Verif.Props.Unread
import Verif.Props.Address

/-!
How rare the exceptional cases of the addition and address circuits are (C138).
-/

namespace Spartan.Rare

open Spartan.Spec Spartan.Circuit Spartan.Unread Spartan.Lib
open Spec.Keccak (ethAddress)

attribute [local irreducible] ethAddress Circuit.CoordsToAddress Circuit.EfficientECDSA

/-- C138: for every point `Q` the complete addition circuit has `P + Q` as its only output for all points `P` but at most
five. -/
theorem add_complete_almost_all (Q : Secp) :
    {P : Secp | ¬ ∀ out : Fp × Fp, AddComplete (xy P).1 (xy P).2 (xy Q).1 (xy Q).2 out.1 out.2 ↔
      out = xy (P + Q)}.ncard ≤ 5 := by
  have : Finite Secp := Nat.finite_of_card_ne_zero (by rw [Koblitz.card_secp]; decide +kernel)
  have h : {P : Secp | ¬ ∀ out : Fp × Fp, AddComplete (xy P).1 (xy P).2 (xy Q).1 (xy Q).2 out.1 out.2 ↔
      out = xy (P + Q)}.encard ≤ ((5 : ℕ) : ℕ∞) := by
    refine (Set.encard_le_encard (t := {P : Secp | (xy P).2 = 1 - (xy Q).2} ∪ {Q}) ?_).trans
      ((Set.encard_union_le _ _).trans ?_)
    · intro P hP
      by_contra hn
      rw [Set.mem_union, not_or] at hn
      exact hP fun _ => (addComplete_curve (fun h => hn.1 (eq_sub_of_add_eq h.2)) (fun h => absurd h hn.2))
    · rw [Set.encard_singleton]
      calc _ ≤ (4 : ℕ∞) + 1 := by gcongr; exact y_set _
        _ = _ := by norm_num
  rw [← (Set.toFinite _).cast_ncard_eq] at h
  exact_mod_cast h

/-- The field elements that have two decompositions into 256 bits. -/
def twoDec : Set Fp := {a | a.val < 2 ^ 256 - secpP}

theorem twoDec_card : twoDec.encard ≤ ((2 ^ 32 + 977 : ℕ) : ℕ∞) := by
  rw [← (ZMod.val_injective secpP).encard_image]
  refine (Set.encard_le_encard (t := ↑(Finset.range (2 ^ 32 + 977))) ?_).trans ?_
  · rintro _ ⟨a, ha, rfl⟩
    rw [Finset.mem_coe, Finset.mem_range]
    exact lt_of_lt_of_eq ha (by decide +kernel)
  · rw [Set.encard_coe_eq_coe_finsetCard, Finset.card_range]

theorem twoDec_points : {P : Secp | (xy P).1 ∈ twoDec ∨ (xy P).2 ∈ twoDec}.encard ≤ ((2 ^ 35 : ℕ) : ℕ∞) := by
  have : Finite Secp := Nat.finite_of_card_ne_zero (by rw [Koblitz.card_secp]; decide +kernel)
  have h1 := preimage_card (f := fun P : Secp => (xy P).1) x_set twoDec_card
  have h2 := preimage_card (f := fun P : Secp => (xy P).2) (c := 4) (fun a => by exact_mod_cast y_set a) twoDec_card
  refine (Set.encard_union_le _ _).trans ((add_le_add h1 h2).trans ?_)
  exact_mod_cast (by norm_num : 2 * (2 ^ 32 + 977) + 4 * (2 ^ 32 + 977) ≤ 2 ^ 35)

/-- C138: for all but a fraction of `2^-220` of the keys, the Ethereum address is the only output of the address circuit,
whatever the witness. -/
theorem address_almost_all :
    {P : Secp | ¬ ∀ a : Fp, CoordsToAddress (xy P).1 (xy P).2 a ↔
      a = ((ethAddress (xy P).1.val (xy P).2.val : ℕ) : Fp)}.ncard * 2 ^ 220 ≤ Nat.card Secp := by
  have : Finite Secp := Nat.finite_of_card_ne_zero (by rw [Koblitz.card_secp]; decide +kernel)
  have h : {P : Secp | ¬ ∀ a : Fp, CoordsToAddress (xy P).1 (xy P).2 a ↔
      a = ((ethAddress (xy P).1.val (xy P).2.val : ℕ) : Fp)}.encard ≤ ((2 ^ 35 : ℕ) : ℕ∞) := by
    refine (Set.encard_le_encard ?_).trans twoDec_points
    intro P hP
    by_contra hn
    rw [Set.mem_ofPred_eq, not_or] at hn
    exact hP fun a => coords_to_address_partial (not_lt.mp hn.1) (not_lt.mp hn.2)
  rw [← (Set.toFinite _).cast_ncard_eq] at h
  rw [Koblitz.card_secp]
  exact (Nat.mul_le_mul_right _ (by exact_mod_cast h)).trans two_pow_le'

/-- C138: for every pair of points `T ≠ 0` and `U`, the circuit that recovers an address, with the bits that its hints
compute, has the Ethereum address of `s T + U` as its only output, except for at most a fraction `2^-128` of the scalars. -/
theorem eff_ecdsa_to_addr_almost_all (T U : Secp) (hT : T ≠ 0) :
    {s : Fp | s.val < secpN ∧ ¬ ((∃ kBits, KHonest s kBits) ∧ ∀ kBits, KHonest s kBits → ∀ a : Fp,
      (∃ X Y, EfficientECDSAToAddrWith s (xy T).1 (xy T).2 (xy U).1 (xy U).2 kBits X Y a) ↔
        a = ((ethAddress (xy (s.val • T + U)).1.val (xy (s.val • T + U)).2.val : ℕ) : Fp))}.ncard * 2 ^ 128 ≤ secpN := by
  set S2 : Set ℕ := {s | s < secpN ∧ ((xy (s • T + U)).1 ∈ twoDec ∨ (xy (s • T + U)).2 ∈ twoDec)}
  have hinj : Set.InjOn (fun s : ℕ => s • T + U) S2 := by
    intro s h s' h' e
    have e1 : s • T = s' • T := add_right_cancel e
    have h1 : s < secpN := h.1
    have h2 : s' < secpN := h'.1
    have := smul_inj hT (a := s) (b := s') (by rw [natCast_zsmul, natCast_zsmul]; exact e1)
    have := Int.eq_zero_of_abs_lt_dvd this (by rw [abs_lt]; constructor <;> omega)
    omega
  have c2 : S2.encard ≤ ((2 ^ 35 : ℕ) : ℕ∞) := by
    rw [← hinj.encard_image]
    refine (Set.encard_le_encard ?_).trans twoDec_points
    rintro _ ⟨s, hs, rfl⟩
    exact hs.2
  have c : (exceptional T U ∪ S2).encard ≤ ((2 ^ 127 : ℕ) : ℕ∞) := by
    refine (Set.encard_union_le _ _).trans ((add_le_add (exceptional_card' hT U) c2).trans ?_)
    exact_mod_cast (by decide +kernel : tQlo + 750 + 2 ^ 35 ≤ 2 ^ 127)
  refine (Nat.mul_le_mul_right _ (ncard_fp c ?_)).trans two_pow_le
  intro s hs hn
  by_contra hu
  rw [Set.mem_union, not_or] at hu
  obtain ⟨h1, h2⟩ := eff_ok hT hs hu.1
  have h3 : ¬ ((xy (s.val • T + U)).1 ∈ twoDec ∨ (xy (s.val • T + U)).2 ∈ twoDec) := fun h => hu.2 ⟨hs, h⟩
  rw [not_or] at h3
  refine hn ⟨h1, fun kBits hb a => ⟨?_, ?_⟩⟩
  · rintro ⟨X, Y, e1, e2⟩
    have e3 := (h2 kBits hb (X, Y)).mp e1
    rw [(mk_eq e3).1, (mk_eq e3).2] at e2
    exact (coords_to_address_partial (not_lt.mp h3.1) (not_lt.mp h3.2)).mp e2
  · intro ha
    exact ⟨_, _, (h2 kBits hb (xy (s.val • T + U))).mpr rfl,
      (coords_to_address_partial (not_lt.mp h3.1) (not_lt.mp h3.2)).mpr ha⟩

/-- The theorems apply to the base point. -/
example : basePoint ≠ 0 := WeierstrassCurve.Affine.Point.some_ne_zero _

end Spartan.Rare
