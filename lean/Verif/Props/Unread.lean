import Verif.Props.Rare
import Verif.Props.Reader

/-!
How many values the readers of circom's files and of the public input cannot read (C137).

`read_field` compares the bytes of a value in the wrong order with the modulus (C61).
-/

namespace Spartan.Unread

open Spartan.Spec Spartan.Lib Spartan.Circuit Spartan.Rare MParams

theorem swapped_lt (x : ℕ) : swapped x < 2 ^ 256 := by
  have := leNat_lt (leBytes 32 x).reverse
  rw [List.length_reverse, leBytes_length] at this
  exact lt_of_lt_of_eq this (by norm_num)

theorem swapped_swapped {x : ℕ} (hx : x < 2 ^ 256) : swapped (swapped x) = x := by
  have h := leBytes_leNat (leBytes 32 x).reverse
  rw [List.length_reverse, leBytes_length] at h
  rw [swapped, swapped, h, List.reverse_reverse, leNat_leBytes, Nat.mod_eq_of_lt (lt_of_lt_of_eq hx (by norm_num))]

theorem order_eq : secqOrder = 2 ^ 256 - (2 ^ 32 + 977) := by decide +kernel

theorem secpP_eq : secpP = 2 ^ 256 - (2 ^ 32 + 977) := by decide +kernel

/-- The 32-byte values that cannot be read. -/
theorem unreadable_bytes : {x : ℕ | x < 2 ^ 256 ∧ ¬ Readable x}.ncard = 2 ^ 32 + 977 := by
  have e : {x : ℕ | x < 2 ^ 256 ∧ ¬ Readable x} = swapped '' ↑(Finset.Ico secqOrder (2 ^ 256)) := by
    ext x
    constructor
    · rintro ⟨h1, h2⟩
      exact ⟨swapped x, by rw [Finset.mem_coe, Finset.mem_Ico]; exact ⟨not_lt.mp h2, swapped_lt x⟩, swapped_swapped h1⟩
    · rintro ⟨y, hy, rfl⟩
      rw [Finset.mem_coe, Finset.mem_Ico] at hy
      exact ⟨swapped_lt y, fun h => by rw [Readable, swapped_swapped hy.2] at h; omega⟩
  have hinj : Set.InjOn swapped ↑(Finset.Ico secqOrder (2 ^ 256)) := by
    intro a ha b hb h
    rw [Finset.mem_coe, Finset.mem_Ico] at ha hb
    rw [← swapped_swapped ha.2, h, swapped_swapped hb.2]
  rw [e, hinj.ncard_image, Set.ncard_coe_finset, Nat.card_Ico, order_eq]
  norm_num

theorem unreadable_iff (x : ℕ) : readField (encField x) 0 = .error .panic ↔ ¬ Readable x := by
  rw [read_field_exact (at_self (encField x)) (leBytes_length 32 x), Readable, swapped, order_eq, ← secpP_eq]
  split_ifs with h
  · simpa [encField] using h
  · simpa [encField] using h

theorem unreadable_field_set : {x : ℕ | x < 2 ^ 256 ∧ ¬ Readable x} =
    insert (2 ^ 256 - 1) {x : ℕ | x < secpP ∧ ¬ Readable x} := by
  ext x
  simp only [Set.mem_insert_iff, Set.mem_ofPred_eq]
  constructor
  · rintro ⟨h1, h2⟩
    by_cases hx : x < secpP
    · exact .inr ⟨hx, h2⟩
    · left
      have h3 : x % 2 ^ 216 = 2 ^ 216 - 1 := by
        by_contra hn
        exact h2 (readable_of_mod (lt_of_lt_of_eq h1 (by norm_num)) hn)
      have h4 := secpP_eq
      omega
  · rintro (rfl | ⟨h1, h2⟩)
    · exact ⟨by norm_num, by decide +kernel⟩
    · exact ⟨lt_trans h1 (by decide +kernel), h2⟩

/-- C137: of the elements of the field exactly `2^32 + 976` cannot be read from a file: reading them panics. -/
theorem read_field_panics_exactly :
    {x : ℕ | x < secpP ∧ readField (encField x) 0 = .error .panic}.ncard = 2 ^ 32 + 976 := by
  simp only [unreadable_iff]
  have h := unreadable_bytes
  have hfin : {x : ℕ | x < secpP ∧ ¬ Readable x}.Finite := (Set.finite_lt_nat secpP).subset fun s hs => hs.1
  rw [unreadable_field_set, Set.ncard_insert_of_notMem (fun h => absurd h.1 (by decide +kernel)) hfin] at h
  omega

/-- The field elements that cannot be read. -/
def bad : Set Fp := {a | ¬ Readable a.val}

theorem bad_card : bad.encard ≤ ((2 ^ 32 + 976 : ℕ) : ℕ∞) := by
  have h := read_field_panics_exactly
  simp only [unreadable_iff] at h
  have hfin : {x : ℕ | x < secpP ∧ ¬ Readable x}.Finite := (Set.finite_lt_nat secpP).subset fun s hs => hs.1
  rw [← (ZMod.val_injective secpP).encard_image, ← h, hfin.cast_ncard_eq]
  refine Set.encard_le_encard ?_
  rintro _ ⟨a, ha, rfl⟩
  exact ⟨ZMod.val_lt a, ha⟩

theorem preimage_card {α : Type} [Finite α] {f : α → Fp} {B : Set Fp} {c n : ℕ}
    (hf : ∀ a, {x | f x = a}.encard ≤ (c : ℕ∞)) (hB : B.encard ≤ (n : ℕ∞)) : {x | f x ∈ B}.encard ≤ ((c * n : ℕ) : ℕ∞) := by
  classical
  have : Fintype α := Fintype.ofFinite α
  have e : {x | f x ∈ B} = ↑(Finset.univ.filter fun x => f x ∈ B) := by ext; simp
  have hc := Finset.card_le_mul_card_image (f := f) (s := Finset.univ.filter fun x => f x ∈ B) c (by
    intro a _
    have h1 := hf a
    have h2 : (↑((Finset.univ.filter fun x => f x ∈ B).filter fun x => f x = a) : Set α) ⊆ {x | f x = a} := by
      intro x hx
      simp only [Finset.coe_filter, Finset.mem_filter, Set.mem_ofPred_eq] at hx
      exact hx.2
    have h3 := (Set.encard_le_encard h2).trans h1
    rw [Set.encard_coe_eq_coe_finsetCard] at h3
    exact_mod_cast h3)
  have hi : (↑((Finset.univ.filter fun x => f x ∈ B).image f) : Set Fp) ⊆ B := by
    intro a ha
    simp only [Finset.coe_image, Finset.coe_filter, Set.mem_image, Set.mem_ofPred_eq] at ha
    obtain ⟨x, ⟨-, hx⟩, rfl⟩ := ha
    exact hx
  have h4 := (Set.encard_le_encard hi).trans hB
  rw [Set.encard_coe_eq_coe_finsetCard] at h4
  have h5 : ((Finset.univ.filter fun x => f x ∈ B).image f).card ≤ n := by exact_mod_cast h4
  rw [e, Set.encard_coe_eq_coe_finsetCard]
  exact_mod_cast hc.trans (Nat.mul_le_mul_left c h5)

theorem x_set (x : Fp) : {A : Secp | (xy A).1 = x}.encard ≤ ((2 : ℕ) : ℕ∞) := by
  rcases Set.eq_empty_or_nonempty {A : Secp | (xy A).1 = x} with h | ⟨A, hA⟩
  · rw [h, Set.encard_empty]; exact zero_le
  · have : {A : Secp | (xy A).1 = x} ⊆ {A, -A} := fun B hB => eq_or_neg_of_x (hB.trans hA.symm)
    refine (Set.encard_le_encard this).trans ((Set.encard_insert_le _ _).trans ?_)
    rw [Set.encard_singleton]; norm_num

theorem bad_points : {P : Secp | ¬ Readable (xy P).1.val ∨ ¬ Readable (xy P).2.val}.encard ≤ ((2 ^ 35 : ℕ) : ℕ∞) := by
  have : Finite Secp := Nat.finite_of_card_ne_zero (by rw [Koblitz.card_secp]; decide +kernel)
  have e : {P : Secp | ¬ Readable (xy P).1.val ∨ ¬ Readable (xy P).2.val} =
      {P : Secp | (xy P).1 ∈ bad} ∪ {P : Secp | (xy P).2 ∈ bad} := rfl
  have h1 := preimage_card (f := fun P : Secp => (xy P).1) x_set bad_card
  have h2 := preimage_card (f := fun P : Secp => (xy P).2) (c := 4) (fun a => by exact_mod_cast y_set a) bad_card
  rw [e]
  refine (Set.encard_union_le _ _).trans ((add_le_add h1 h2).trans ?_)
  exact_mod_cast (by norm_num : 2 * (2 ^ 32 + 976) + 4 * (2 ^ 32 + 976) ≤ 2 ^ 35)

theorem two_pow_le' : 2 ^ 35 * 2 ^ 220 ≤ secpN := by decide +kernel

/-- C137: at most a fraction `2^-220` of the points have a coordinate that cannot be read. -/
theorem unreadable_points :
    {P : Secp | ¬ Readable (xy P).1.val ∨ ¬ Readable (xy P).2.val}.ncard * 2 ^ 220 ≤ Nat.card Secp := by
  have : Finite Secp := Nat.finite_of_card_ne_zero (by rw [Koblitz.card_secp]; decide +kernel)
  have h := bad_points
  rw [← (Set.toFinite _).cast_ncard_eq] at h
  rw [Koblitz.card_secp]
  exact (Nat.mul_le_mul_right _ (by exact_mod_cast h)).trans two_pow_le'

/-- C137: for every `r`, at most a fraction `2^-220` of the message hashes give a public point `U` with a coordinate that
cannot be read. -/
theorem unreadable_messages {r : ℕ} (hr : (r : ZMod secpN) ≠ 0) :
    {m : ZMod secpN | ¬ Readable (xy (effU r m)).1.val ∨ ¬ Readable (xy (effU r m)).2.val}.ncard * 2 ^ 220 ≤ secpN := by
  have : Finite Secp := Nat.finite_of_card_ne_zero (by rw [Koblitz.card_secp]; decide +kernel)
  have hinj : Function.Injective (effU r) := by
    intro m m' h
    have h1 := smul_left_injective (ZMod secpN) (WeierstrassCurve.Affine.Point.some_ne_zero _ : basePoint ≠ 0) h
    exact mul_left_cancel₀ (inv_ne_zero hr) (neg_injective h1)
  refine (Nat.mul_le_mul_right _ ?_).trans (unreadable_points.trans_eq Koblitz.card_secp)
  exact Set.ncard_le_ncard_of_injOn (effU r) (fun m hm => hm) hinj.injOn (Set.toFinite _)

/-- C137: at most a fraction `2^-220` of the scalars `s` cannot be read. -/
theorem unreadable_scalars : {s : ℕ | s < secpN ∧ ¬ Readable s}.ncard * 2 ^ 220 ≤ secpN := by
  have h := read_field_panics_exactly
  simp only [unreadable_iff] at h
  have h1 : {s : ℕ | s < secpN ∧ ¬ Readable s}.ncard ≤ 2 ^ 32 + 976 := by
    rw [← h]
    exact Set.ncard_le_ncard (fun s hs => ⟨hs.1.trans (by decide +kernel), hs.2⟩)
      ((Set.finite_lt_nat secpP).subset fun s hs => hs.1)
  exact (Nat.mul_le_mul_right _ (h1.trans (by norm_num))).trans two_pow_le'

/-- There are such values. -/
example : ∃ x, x < secpP ∧ readField (encField x) 0 = .error .panic := ⟨_, read_field_rejects_valid⟩

example : ((1 : ℕ) : ZMod secpN) ≠ 0 := by
  have : Fact (Nat.Prime secpN) := ⟨secpN_prime⟩
  rw [Nat.cast_one]; exact one_ne_zero

end Spartan.Unread
