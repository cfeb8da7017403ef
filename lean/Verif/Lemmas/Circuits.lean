import Verif.Model.Circuits
import Verif.Spec.Points
import Verif.Lemmas.CurveOrder

/-! Lemmas about the circuits' constraints. -/

namespace Spartan.Circuit

open WeierstrassCurve.Affine Spec

section Generic

variable {F : Type} [Field F] [DecidableEq F]

theorem isZero_iff (a o : F) : IsZero a o ↔ o = if a = 0 then 1 else 0 := by
  constructor
  · rintro ⟨inv, h1, h2⟩
    split
    · next h => rw [h1, h]; ring
    · next h => exact (mul_eq_zero.mp h2).resolve_left h
  · intro h
    split at h
    · next h0 => exact ⟨0, by rw [h]; ring, by rw [h0]; ring⟩
    · next h0 => exact ⟨a⁻¹, by rw [h, neg_mul, mul_inv_cancel₀ h0]; ring, by rw [h]; ring⟩

theorem isEqual_iff (a b o : F) : IsEqual a b o ↔ o = if a = b then 1 else 0 := by
  rw [IsEqual, isZero_iff]
  by_cases h : a = b
  · rw [if_pos h, if_pos (by rw [h, sub_self])]
  · rw [if_neg h, if_neg (fun hc => h (sub_eq_zero.mp hc).symm)]

theorem addIncomplete_iff {xP yP xQ yQ oX oY : F} :
    AddIncomplete xP yP xQ yQ oX oY ↔
      ∃ l, (xP - xQ) * l = yP - yQ ∧ oX = l ^ 2 - xP - xQ ∧ oY = l * (xP - oX) - yP := by
  constructor
  · rintro ⟨l, dx, dy, rfl, rfl, h, h1, h2⟩
    exact ⟨l, h, by rw [h1]; ring, h2⟩
  · rintro ⟨l, h, h1, h2⟩
    exact ⟨l, _, _, rfl, rfl, h, by rw [h1]; ring, h2⟩

theorem complete_core {Z : Prop} {_ : Decidable Z} {xP xQ pz qz ez za : F} (A C D : F)
    (hpz : pz = if xP = 0 then 1 else 0) (hqz : qz = if xQ = 0 then 1 else 0)
    (hez : ez = if (1 - pz) * (1 - qz) = 0 then 1 else 0) (hza : za = if Z then 1 else 0) :
    (A * (1 - ez) + pz * C + qz * D) * (1 - (za + pz * qz - za * (pz * qz))) =
      if Z ∨ (xP = 0 ∧ xQ = 0) then 0 else if xP = 0 then C else if xQ = 0 then D else A := by
  by_cases h1 : Z <;> by_cases h2 : xP = 0 <;> by_cases h3 : xQ = 0 <;>
    simp [h1, h2, h3] at * <;> subst_vars <;> simp

/-- The constraints of the complete addition, with the conditions written out. -/
theorem addComplete_iff {xP yP xQ yQ oX oY : F} :
    AddComplete xP yP xQ yQ oX oY ↔
      ∃ lA lB l, (xQ - xP) * lA = (if xP = xQ then 0 else yQ - yP) ∧
        lB * (2 * yP) = 3 * xP ^ 2 ∧ l = (if xP = xQ then lB else 0) + lA ∧
        (oX, oY) =
          if (if xP = xQ then yP + yQ = 0 else yP + yQ = 1) ∨ (xP = 0 ∧ xQ = 0) then (0, 0)
          else if xP = 0 then (xQ, yQ)
          else if xQ = 0 then (xP, yP)
          else (l ^ 2 - xP - xQ, l * (xP - (l ^ 2 - xP - xQ)) - yP) := by
  have hz : ∀ e : F, (e = if xP = xQ then 1 else 0) →
      ((e = 1 - (yP + yQ)) ↔ (if xP = xQ then yP + yQ = 0 else yP + yQ = 1)) := by
    intro e he
    rw [he]
    split
    · constructor <;> intro h
      · linear_combination h
      · linear_combination h
    · constructor <;> intro h
      · linear_combination h
      · linear_combination h
  have pair : ∀ (Z : Prop) {_ : Decidable Z} (l : F),
      (if Z ∨ (xP = 0 ∧ xQ = 0) then ((0 : F), (0 : F))
          else if xP = 0 then (xQ, yQ)
          else if xQ = 0 then (xP, yP)
          else (l ^ 2 - xP - xQ, l * (xP - (l ^ 2 - xP - xQ)) - yP)) =
      ((if Z ∨ (xP = 0 ∧ xQ = 0) then 0 else if xP = 0 then xQ else if xQ = 0 then xP
          else l * l - xP - xQ),
       (if Z ∨ (xP = 0 ∧ xQ = 0) then 0 else if xP = 0 then yQ else if xQ = 0 then yP
          else l * (xP - (l * l - xP - xQ)) - yP)) := by
    intro Z _ l
    rw [← pow_two]
    by_cases h1 : Z ∨ (xP = 0 ∧ xQ = 0)
    · simp only [if_pos h1]
    · by_cases h2 : xP = 0
      · simp only [if_neg h1, if_pos h2]
      · by_cases h3 : xQ = 0
        · simp only [if_neg h1, if_neg h2, if_pos h3]
        · simp only [if_neg h1, if_neg h2, if_neg h3]
  constructor
  · rintro ⟨x2, e, pz, qz, ez, dx, dy, lA, lB, l, ax, ay, bx, bY, cx, cy, ddx, ddy, za, zb, z,
      rfl, he, hpz, hqz, hez, rfl, rfl, hA, hB, rfl, rfl, rfl, rfl, rfl, rfl, rfl, rfl, rfl, hza,
      hzb, hzz, hoX, hoY⟩
    rw [isEqual_iff] at he hza
    rw [isZero_iff] at hpz hqz hez
    rw [AND] at hzb
    rw [OR, hzb] at hzz
    refine ⟨lA, lB, lB * e + lA, ?_, by linear_combination hB, ?_, ?_⟩
    · rw [hA, he]; split <;> ring
    · rw [he]; split <;> ring
    · have hza' : za = if (if xP = xQ then yP + yQ = 0 else yP + yQ = 1) then 1 else 0 := by
        rw [hza]; exact if_congr (hz e he) rfl rfl
      rw [pair, hoX, hoY, hzz, complete_core _ _ _ hpz hqz hez hza',
        complete_core _ _ _ hpz hqz hez hza']
  · rintro ⟨lA, lB, l, hA, hB, hl, ho⟩
    obtain ⟨e, he⟩ : ∃ e : F, e = if xP = xQ then 1 else 0 := ⟨_, rfl⟩
    obtain ⟨pz, hpz⟩ : ∃ e : F, e = if xP = 0 then 1 else 0 := ⟨_, rfl⟩
    obtain ⟨qz, hqz⟩ : ∃ e : F, e = if xQ = 0 then 1 else 0 := ⟨_, rfl⟩
    obtain ⟨za, hza⟩ : ∃ z : F, z = if e = 1 - (yP + yQ) then 1 else 0 := ⟨_, rfl⟩
    obtain ⟨ez, hez⟩ : ∃ z : F, z = if (1 - pz) * (1 - qz) = 0 then 1 else 0 := ⟨_, rfl⟩
    have hza' : za = if (if xP = xQ then yP + yQ = 0 else yP + yQ = 1) then 1 else 0 := by
      rw [hza]; exact if_congr (hz e he) rfl rfl
    rw [pair, Prod.mk.injEq] at ho
    refine ⟨_, e, pz, qz, ez, _, _, lA, lB, l, _, _, _, _, _, _, _, _, za, _, _,
      rfl, (isEqual_iff _ _ _).mpr he, (isZero_iff _ _).mpr hpz, (isZero_iff _ _).mpr hqz,
      (isZero_iff _ _).mpr hez, rfl, rfl, ?_, by linear_combination hB, ?_, rfl, rfl, rfl, rfl,
      rfl, rfl, rfl, rfl, (isEqual_iff _ _ _).mpr hza, rfl, rfl, ?_, ?_⟩
    · rw [hA, he]; split <;> ring
    · rw [hl, he]; split <;> ring
    · rw [complete_core _ _ _ hpz hqz hez hza']; exact ho.1
    · rw [complete_core _ _ _ hpz hqz hez hza']; exact ho.2

end Generic

/-! ### The curve -/

abbrev Fp := ZMod secpP

theorem seven_nonsquare (y : Fp) : y ^ 2 ≠ 7 := by
  intro h
  have h0 : y ≠ 0 := by
    rintro rfl
    apply Koblitz.secp_consts.2.2
    linear_combination -h
  have h1 : y ^ (secpP - 1) = 1 := ZMod.pow_card_sub_one_eq_one h0
  rw [show secpP - 1 = 2 * ((secpP - 1) / 2) by decide +kernel, pow_mul, h] at h1
  have h2 : ((7 ^ ((secpP - 1) / 2) : ℕ) : ZMod secpP) = ((1 : ℕ) : ZMod secpP) := by
    rw [Nat.cast_pow, Nat.cast_one]; exact_mod_cast h1
  have h3 := (ZMod.natCast_eq_natCast_iff' _ _ _).mp h2
  rw [← powMod_eq (k := 256) (by decide +kernel)] at h3
  revert h3
  decide +kernel

theorem x_ne {x y : Fp} (h : (koblitz Fp).Nonsingular x y) : x ≠ 0 := by
  rintro rfl
  rw [Koblitz.secp_nonsingular] at h
  exact seven_nonsquare y (by rw [h]; ring)

theorem y_ne {x y : Fp} (h : (koblitz Fp).Nonsingular x y) : y ≠ 0 := by
  rintro rfl
  rw [Koblitz.secp_nonsingular] at h
  exact Koblitz.neg_seven_noncube x (by linear_combination -h)

theorem two_y_ne {x y : Fp} (h : (koblitz Fp).Nonsingular x y) : 2 * y ≠ 0 :=
  mul_ne_zero Koblitz.secp_consts.1 (y_ne h)

@[simp] theorem xy_zero : xy 0 = (0, 0) := rfl
@[simp] theorem xy_some {x y : Fp} (h : (koblitz Fp).Nonsingular x y) : xy (.some x y h) = (x, y) := rfl

theorem xy_injective : Function.Injective xy := by
  intro P Q h
  cases P with
  | zero =>
    cases Q with
    | zero => rfl
    | some x y hn => exact absurd (congrArg Prod.fst h).symm (x_ne hn)
  | some x y hn =>
    cases Q with
    | zero => exact absurd (congrArg Prod.fst h) (x_ne hn)
    | some x' y' hn' =>
      obtain ⟨rfl, rfl⟩ := Prod.mk.inj h
      rfl

theorem xy_x_zero {P : Secp} : (xy P).1 = 0 ↔ P = 0 := by
  constructor
  · intro h
    cases P with
    | zero => rfl
    | some x y hn => exact absurd h (x_ne hn)
  · rintro rfl; rfl

theorem xy_neg (P : Secp) : xy (-P) = ((xy P).1, -(xy P).2) := by
  cases P with
  | zero => show ((0 : Fp), (0 : Fp)) = (0, -0); rw [neg_zero]
  | some x y hn =>
    rw [Point.neg_some]
    show (x, (koblitz Fp).negY x y) = _
    rw [Koblitz.negY]; rfl

/-- Points with the same abscissa are equal or opposite. -/
theorem eq_or_neg_of_x {P Q : Secp} (h : (xy P).1 = (xy Q).1) : P = Q ∨ P = -Q := by
  cases P with
  | zero => left; rw [show (Point.zero : Secp) = 0 from rfl] at *
            rw [xy_zero] at h; exact (xy_x_zero.mp h.symm).symm
  | some x y hn =>
    cases Q with
    | zero => exact absurd h (x_ne hn)
    | some x' y' hn' =>
      have hx : x = x' := h
      subst hx
      have h1 := Koblitz.secp_nonsingular.mp hn
      have h2 := Koblitz.secp_nonsingular.mp hn'
      have : (y - y') * (y + y') = 0 := by linear_combination h1 - h2
      rcases mul_eq_zero.mp this with h | h
      · left; obtain rfl := sub_eq_zero.mp h; rfl
      · right
        apply xy_injective
        rw [xy_neg]
        exact Prod.ext rfl (show y = -y' by linear_combination h)

theorem xy_y_sum_zero {P Q : Secp} (hx : (xy P).1 = (xy Q).1) :
    (xy P).2 + (xy Q).2 = 0 ↔ P = -Q := by
  constructor
  · intro h
    apply xy_injective
    rw [xy_neg]
    exact Prod.ext hx (by simp only; linear_combination h)
  · rintro rfl
    rw [xy_neg]; ring

theorem addIncomplete_curve {P Q : Secp} (hP : P ≠ 0) (hQ : Q ≠ 0) (hx : (xy P).1 ≠ (xy Q).1)
    {oX oY : Fp} :
    AddIncomplete (xy P).1 (xy P).2 (xy Q).1 (xy Q).2 oX oY ↔ (oX, oY) = xy (P + Q) := by
  rw [addIncomplete_iff]
  obtain ⟨x1, y1, h1, rfl⟩ := Koblitz.exists_coords P hP
  obtain ⟨x2, y2, h2, rfl⟩ := Koblitz.exists_coords Q hQ
  simp only [xy_some] at *
  have hne : x1 - x2 ≠ 0 := sub_ne_zero.mpr hx
  constructor
  · rintro ⟨l, hl, h3, h4⟩
    obtain ⟨h', e⟩ := Koblitz.add_some h1 h2 hx (l := l) (by rw [mul_comm]; exact hl) h3 h4
    rw [e]; rfl
  · intro h
    obtain ⟨h', e⟩ := Koblitz.add_some h1 h2 hx (l := (y1 - y2) / (x1 - x2))
      (div_mul_cancel₀ _ hne) rfl rfl
    rw [e, xy_some, Prod.mk.injEq] at h
    exact ⟨_, mul_div_cancel₀ _ hne, h.1, by rw [h.2, h.1]⟩

theorem double_curve {P : Secp} (hP : P ≠ 0) {oX oY : Fp} :
    Double (xy P).1 (xy P).2 oX oY ↔ (oX, oY) = xy (P + P) := by
  obtain ⟨x, y, h, rfl⟩ := Koblitz.exists_coords P hP
  simp only [xy_some]
  have hne := two_y_ne h
  constructor
  · rintro ⟨l, x2, rfl, hl, h3, h4⟩
    obtain ⟨h', e⟩ := Koblitz.double_some h hne (l := l) (by linear_combination hl)
      (x' := oX) (y' := oY) (by rw [h3]; ring) h4
    rw [e]; rfl
  · intro ho
    obtain ⟨h', e⟩ := Koblitz.double_some h hne (l := 3 * x ^ 2 / (2 * y))
      (div_mul_cancel₀ _ hne) rfl rfl
    rw [e, xy_some, Prod.mk.injEq] at ho
    refine ⟨3 * x ^ 2 / (2 * y), _, rfl, ?_, by rw [ho.1]; ring, by rw [ho.2, ho.1]⟩
    rw [mul_assoc, div_mul_cancel₀ _ hne]; ring

theorem addComplete_curve {P Q : Secp} (hz : ¬ FalseZero P Q) (hd : P = Q → P = 0) {oX oY : Fp} :
    AddComplete (xy P).1 (xy P).2 (xy Q).1 (xy Q).2 oX oY ↔ (oX, oY) = xy (P + Q) := by
  rw [addComplete_iff]
  by_cases hP : P = 0
  · subst hP
    by_cases hQ : Q = 0
    · subst hQ
      simp
    · have hq : (xy Q).1 ≠ 0 := fun h => hQ (xy_x_zero.mp h)
      have hz' : ¬ ((xy Q).2 = 1) := fun h => hz ⟨fun h => hq h.symm, by rw [xy_zero, zero_add]; exact h⟩
      simp only [xy_zero, hq.symm, if_false, zero_add, hz', hq, and_false, or_false, if_true, Prod.mk.eta]
      constructor
      · rintro ⟨_, _, _, _, _, _, h⟩; exact h
      · intro h
        exact ⟨(xy Q).2 / (xy Q).1, 0, _, by rw [sub_zero, sub_zero, mul_div_cancel₀ _ hq],
          by ring, rfl, h⟩
  · have hp : (xy P).1 ≠ 0 := fun h => hP (xy_x_zero.mp h)
    have hB : (3 * (xy P).1 ^ 2 / (2 * (xy P).2)) * (2 * (xy P).2) = 3 * (xy P).1 ^ 2 := by
      obtain ⟨x, y, h, rfl⟩ := Koblitz.exists_coords P hP
      exact div_mul_cancel₀ _ (two_y_ne h)
    by_cases hQ : Q = 0
    · subst hQ
      have hz' : ¬ ((xy P).2 = 1) := fun h => hz ⟨hp, by rw [xy_zero, add_zero]; exact h⟩
      simp only [xy_zero, hp, if_false, add_zero, hz', false_and, or_false, if_true, Prod.mk.eta]
      constructor
      · rintro ⟨_, _, _, _, _, _, h⟩; exact h
      · intro h
        exact ⟨(xy P).2 / (xy P).1, _, _, by
          rw [zero_sub, zero_sub, neg_mul, mul_div_cancel₀ _ hp], hB, rfl, h⟩
    · have hq : (xy Q).1 ≠ 0 := fun h => hQ (xy_x_zero.mp h)
      by_cases hx : (xy P).1 = (xy Q).1
      · have hneg : P = -Q := (eq_or_neg_of_x hx).resolve_left (fun h => hP (hd h))
        have hs : (xy P).2 + (xy Q).2 = 0 := (xy_y_sum_zero hx).mpr hneg
        simp only [hx, if_true, hs, true_or, sub_self, zero_mul]
        rw [hneg, neg_add_cancel, xy_zero]
        constructor
        · rintro ⟨_, _, _, _, _, _, h⟩; exact h
        · intro h
          rw [← hneg, ← hx]
          exact ⟨0, _, _, trivial, hB, rfl, h⟩
      · have hz' : ¬ ((xy P).2 + (xy Q).2 = 1) := fun h => hz ⟨hx, h⟩
        simp only [hx, if_false, hz', hp, hq, false_and, or_self]
        obtain ⟨x1, y1, h1, rfl⟩ := Koblitz.exists_coords P hP
        obtain ⟨x2, y2, h2, rfl⟩ := Koblitz.exists_coords Q hQ
        simp only [xy_some] at *
        have hne : x2 - x1 ≠ 0 := sub_ne_zero.mpr (Ne.symm hx)
        constructor
        · rintro ⟨lA, lB, l, hA, _, hl, h⟩
          rw [zero_add] at hl
          subst hl
          obtain ⟨h', e⟩ := Koblitz.add_some h1 h2 hx (l := l) (by linear_combination -hA) rfl rfl
          rw [e, h]; rfl
        · intro h
          refine ⟨(y2 - y1) / (x2 - x1), _, (y2 - y1) / (x2 - x1), mul_div_cancel₀ _ hne, hB,
            by rw [zero_add], ?_⟩
          obtain ⟨h', e⟩ := Koblitz.add_some h1 h2 hx (l := (y2 - y1) / (x2 - x1))
            (by linear_combination -(div_mul_cancel₀ (y2 - y1) hne)) rfl rfl
          rw [e] at h
          exact h

theorem addComplete_falseZero {P Q : Secp} (hz : FalseZero P Q) {oX oY : Fp} :
    AddComplete (xy P).1 (xy P).2 (xy Q).1 (xy Q).2 oX oY ↔ (oX, oY) = (0, 0) := by
  rw [addComplete_iff]
  have hne : (xy Q).1 - (xy P).1 ≠ 0 := sub_ne_zero.mpr (Ne.symm hz.1)
  simp only [hz.1, if_false, hz.2, true_or, if_true]
  constructor
  · rintro ⟨_, _, _, _, _, _, h⟩; exact h
  · intro h
    by_cases hP : P = 0
    · subst hP
      refine ⟨_, 0, _, mul_div_cancel₀ _ hne, by simp, rfl, h⟩
    · obtain ⟨x, y, hn, rfl⟩ := Koblitz.exists_coords P hP
      exact ⟨_, _, _, mul_div_cancel₀ _ hne, div_mul_cancel₀ _ (two_y_ne hn), rfl, h⟩

theorem addComplete_double {P : Secp} (hP : P ≠ 0) {oX oY : Fp} :
    AddComplete (xy P).1 (xy P).2 (xy P).1 (xy P).2 oX oY ↔
      ∃ l, oX = l ^ 2 - 2 * (xy P).1 ∧ oY = l * ((xy P).1 - oX) - (xy P).2 := by
  rw [addComplete_iff]
  have hp : (xy P).1 ≠ 0 := fun h => hP (xy_x_zero.mp h)
  obtain ⟨x, y, hn, rfl⟩ := Koblitz.exists_coords P hP
  simp only [xy_some] at *
  have h2 := two_y_ne hn
  have h2' : y + y ≠ 0 := by rwa [← two_mul]
  simp only [if_true, h2', hp, if_false, and_self, or_self, sub_self, zero_mul, true_and,
    Prod.mk.injEq]
  constructor
  · rintro ⟨lA, lB, l, hB, hl, h3, h4⟩
    exact ⟨l, by rw [h3]; ring, by rw [h4, h3]⟩
  · rintro ⟨l, h3, h4⟩
    refine ⟨l - 3 * x ^ 2 / (2 * y), 3 * x ^ 2 / (2 * y), l, div_mul_cancel₀ _ h2, by ring,
      by rw [h3]; ring, ?_⟩
    rw [h4, h3]; ring

/-! ### Scalar multiplication -/

theorem zsmul_eq_zero_iff {P : Secp} (hP : P ≠ 0) (m : ℤ) : m • P = 0 ↔ (secpN : ℤ) ∣ m := by
  haveI : Fact (Nat.Prime secpN) := ⟨secpN_prime⟩
  have h : addOrderOf P = secpN := by
    apply addOrderOf_eq_prime _ hP
    rw [← Koblitz.card_secp]
    exact card_nsmul_eq_zero'
  rw [← h, addOrderOf_dvd_iff_zsmul_eq_zero]

theorem not_dvd {m : ℤ} (h0 : 0 < m) (h1 : m < secpN) : ¬ (secpN : ℤ) ∣ m := fun h =>
  absurd (Int.le_of_dvd h0 h) (by omega)

theorem x_zsmul_ne {P : Secp} (hP : P ≠ 0) {a b : ℤ} (h1 : ¬ (secpN : ℤ) ∣ a - b)
    (h2 : ¬ (secpN : ℤ) ∣ a + b) : (xy (a • P)).1 ≠ (xy (b • P)).1 := by
  intro h
  rcases eq_or_neg_of_x h with h | h
  · exact h1 ((zsmul_eq_zero_iff hP _).mp (by rw [sub_zsmul, h, add_neg_cancel]))
  · exact h2 ((zsmul_eq_zero_iff hP _).mp (by rw [add_zsmul, h, neg_add_cancel]))

theorem inc_zsmul {P : Secp} (hP : P ≠ 0) {a b : ℤ} (ha : ¬ (secpN : ℤ) ∣ a)
    (hb : ¬ (secpN : ℤ) ∣ b) (h1 : ¬ (secpN : ℤ) ∣ a - b) (h2 : ¬ (secpN : ℤ) ∣ a + b)
    {oX oY : Fp} :
    AddIncomplete (xy (a • P)).1 (xy (a • P)).2 (xy (b • P)).1 (xy (b • P)).2 oX oY ↔
      (oX, oY) = xy ((a + b) • P) := by
  rw [add_zsmul]
  exact addIncomplete_curve (fun h => ha ((zsmul_eq_zero_iff hP _).mp h))
    (fun h => hb ((zsmul_eq_zero_iff hP _).mp h)) (x_zsmul_ne hP h1 h2)

theorem com_zsmul {P : Secp} (hP : P ≠ 0) {a b : ℤ} (h1 : ¬ (secpN : ℤ) ∣ a - b)
    (hz : ¬ FalseZero (a • P) (b • P)) {oX oY : Fp} :
    AddComplete (xy (a • P)).1 (xy (a • P)).2 (xy (b • P)).1 (xy (b • P)).2 oX oY ↔
      (oX, oY) = xy ((a + b) • P) := by
  rw [add_zsmul]
  exact addComplete_curve hz
    (fun h => absurd ((zsmul_eq_zero_iff hP _).mp (by rw [sub_zsmul, h, add_neg_cancel])) h1)

theorem sgn_x (b : Bool) (P : Secp) : (xy (sgn b • P)).1 = (xy P).1 := by
  cases b
  · rw [sgn, if_neg (by simp), neg_one_zsmul, xy_neg]
  · rw [sgn, if_pos rfl, one_zsmul]

theorem sgn_y (b : Bool) (P : Secp) {k : Fp} (hk : k = if b then 1 else 0) :
    (xy (sgn b • P)).2 = (2 * k - 1) * (xy P).2 := by
  cases b
  · rw [sgn, if_neg (by simp), neg_one_zsmul, xy_neg, hk, if_neg (by simp)]; ring
  · rw [sgn, if_pos rfl, one_zsmul, hk, if_pos rfl]; ring

theorem acc_zero {k : ℕ} (hk : k < 2 ^ 256) : acc k 0 = 3 := by
  rw [acc, Nat.sub_zero, Nat.div_eq_of_lt hk]; rfl

theorem acc_succ (k : ℕ) {i : ℕ} (hi : i < 256) :
    acc k (i + 1) = 2 * acc k i + sgn (k.testBit (255 - i)) := by
  have h1 : 256 - i = (255 - i) + 1 := by omega
  have h2 : 256 - (i + 1) = 255 - i := by omega
  have h3 : k / 2 ^ (255 - i) = 2 * (k / 2 ^ (255 - i + 1)) + (k.testBit (255 - i)).toNat := by
    rw [pow_succ, ← Nat.div_div_eq_div_mul, Nat.testBit_eq_decide_div_mod_eq]
    have := Nat.div_add_mod (k / 2 ^ (255 - i)) 2
    rcases Nat.mod_two_eq_zero_or_one (k / 2 ^ (255 - i)) with h | h
    · simp only [h]; simp; omega
    · simp only [h]; simp; omega
  rw [acc, acc, h1, h2, h3]
  obtain ⟨d, hd⟩ : ∃ d, d = k / 2 ^ (255 - i + 1) := ⟨_, rfl⟩
  obtain ⟨e, he⟩ : ∃ e, e = 2 ^ (i + 1) := ⟨_, rfl⟩
  rw [← hd, show 2 ^ (i + 1 + 1) = 2 * 2 ^ (i + 1) by ring, ← he]
  cases k.testBit (255 - i) <;> simp [sgn] <;> ring

theorem acc_bounds {k : ℕ} (hk : k < 2 ^ 256) : ∀ {i : ℕ}, i ≤ 256 →
    (2 : ℤ) ^ (i + 1) < acc k i ∧ acc k i < 2 ^ (i + 2) := by
  intro i hi
  induction i with
  | zero => rw [acc_zero hk]; norm_num
  | succ i ih =>
    obtain ⟨h1, h2⟩ := ih (by omega)
    rw [acc_succ k (by omega), show (2 : ℤ) ^ (i + 1 + 1) = 2 * 2 ^ (i + 1) by ring,
      show (2 : ℤ) ^ (i + 1 + 2) = 2 * 2 ^ (i + 2) by ring]
    cases k.testBit (255 - i) <;> simp [sgn] <;> constructor <;> omega

theorem secpN_bounds : (2 : ℤ) ^ 255 + 2 < secpN ∧ (secpN : ℤ) < 2 ^ 256 - 3 ∧
    (2 : ℤ) ^ 257 + 2 < 3 * secpN ∧ (secpN : ℤ) % 2 = 1 := by
  decide +kernel

/-- One step of the incomplete part. -/
theorem inc_step {P : Secp} (hP : P ≠ 0) {m : ℤ} (b : Bool) (h1 : 2 < m) (h2 : m < 2 ^ 254)
    {pX pY aX aY : Fp} :
    (AddIncomplete (xy (sgn b • P)).1 (xy (sgn b • P)).2 (xy (m • P)).1 (xy (m • P)).2 pX pY ∧
      AddIncomplete (xy (m • P)).1 (xy (m • P)).2 pX pY aX aY) ↔
    (pX, pY) = xy ((sgn b + m) • P) ∧ (aX, aY) = xy ((2 * m + sgn b) • P) := by
  obtain ⟨hN, _, _, _⟩ := secpN_bounds
  have hs : sgn b = 1 ∨ sgn b = -1 := by cases b <;> simp [sgn]
  have h255 : (2 : ℤ) ^ 255 = 2 * 2 ^ 254 := by norm_num
  have ha : ¬ (secpN : ℤ) ∣ sgn b := by
    rcases hs with h | h <;> rw [h]
    · exact not_dvd (by norm_num) (by omega)
    · rw [Int.dvd_neg]; exact not_dvd (by norm_num) (by omega)
  have hb : ¬ (secpN : ℤ) ∣ m := not_dvd (by omega) (by omega)
  have hab : ¬ (secpN : ℤ) ∣ sgn b - m := by
    rw [← Int.dvd_neg]; exact not_dvd (by omega) (by omega)
  have hab' : ¬ (secpN : ℤ) ∣ sgn b + m := not_dvd (by omega) (by omega)
  rw [inc_zsmul hP ha hb hab hab']
  constructor
  · rintro ⟨h3, h4⟩
    refine ⟨h3, ?_⟩
    rw [show pX = (xy ((sgn b + m) • P)).1 from congrArg Prod.fst h3,
      show pY = (xy ((sgn b + m) • P)).2 from congrArg Prod.snd h3,
      inc_zsmul hP hb hab' (by rwa [show m - (sgn b + m) = -sgn b by ring, Int.dvd_neg])
        (not_dvd (by omega) (by omega))] at h4
    rw [h4]; congr 2; ring
  · rintro ⟨h3, h4⟩
    refine ⟨h3, ?_⟩
    rw [show pX = (xy ((sgn b + m) • P)).1 from congrArg Prod.fst h3,
      show pY = (xy ((sgn b + m) • P)).2 from congrArg Prod.snd h3,
      inc_zsmul hP hb hab' (by rwa [show m - (sgn b + m) = -sgn b by ring, Int.dvd_neg])
        (not_dvd (by omega) (by omega))]
    rw [h4]; congr 2; ring

/-- One step of the complete part. -/
theorem com_step {P : Secp} (hP : P ≠ 0) {m : ℤ} (b : Bool) (h1 : ¬ (secpN : ℤ) ∣ sgn b - m)
    (hz1 : ¬ FalseZero (sgn b • P) (m • P)) (hz2 : ¬ FalseZero (m • P) ((sgn b + m) • P))
    {pX pY aX aY : Fp} :
    (AddComplete (xy (sgn b • P)).1 (xy (sgn b • P)).2 (xy (m • P)).1 (xy (m • P)).2 pX pY ∧
      AddComplete (xy (m • P)).1 (xy (m • P)).2 pX pY aX aY) ↔
    (pX, pY) = xy ((sgn b + m) • P) ∧ (aX, aY) = xy ((2 * m + sgn b) • P) := by
  have hN := secpN_bounds.1
  have h255 : (2 : ℤ) ^ 255 = 2 * 2 ^ 254 := by norm_num
  have ha : ¬ (secpN : ℤ) ∣ sgn b := by
    have hs : sgn b = 1 ∨ sgn b = -1 := by cases b <;> simp [sgn]
    have : (0 : ℤ) < 2 ^ 254 := by norm_num
    rcases hs with h | h <;> rw [h]
    · exact not_dvd (by norm_num) (by omega)
    · rw [Int.dvd_neg]; exact not_dvd (by norm_num) (by omega)
  rw [com_zsmul hP h1 hz1]
  constructor
  · rintro ⟨h3, h4⟩
    refine ⟨h3, ?_⟩
    rw [show pX = (xy ((sgn b + m) • P)).1 from congrArg Prod.fst h3,
      show pY = (xy ((sgn b + m) • P)).2 from congrArg Prod.snd h3,
      com_zsmul hP (by rwa [show m - (sgn b + m) = -sgn b by ring, Int.dvd_neg]) hz2] at h4
    rw [h4]; congr 2; ring
  · rintro ⟨h3, h4⟩
    refine ⟨h3, ?_⟩
    rw [show pX = (xy ((sgn b + m) • P)).1 from congrArg Prod.fst h3,
      show pY = (xy ((sgn b + m) • P)).2 from congrArg Prod.snd h3,
      com_zsmul hP (by rwa [show m - (sgn b + m) = -sgn b by ring, Int.dvd_neg]) hz2]
    rw [h4]; congr 2; ring

theorem mk_eq {a b : Fp} {P : Secp} (h : (a, b) = xy P) : a = (xy P).1 ∧ b = (xy P).2 :=
  ⟨congrArg Prod.fst h, congrArg Prod.snd h⟩

/-- All steps but the last addition: their constraints say that `accComplete[2]` is
`(2^256 + 2⌊k/2⌋ + 1) P`. -/
theorem mulSteps_iff {P : Secp} (hP : P ≠ 0) {k : ℕ} (hk : k < 2 ^ 256) {b : ℕ → Fp}
    (hb : AreBits 256 k b) (hr : Regular P k) {oX oY : Fp} :
    MulSteps b (xy P).1 (xy P).2 oX oY ↔
      AddComplete (xy (acc k 255 • P)).1 (xy (acc k 255 • P)).2
        (xy (if k.testBit 0 then 0 else -P)).1 (xy (if k.testBit 0 then 0 else -P)).2 oX oY := by
  obtain ⟨hN1, hN2, hN3, hN4⟩ := secpN_bounds
  -- the last operand
  have hQ : (xy (if k.testBit 0 then 0 else -P)).1 = (1 - b 0) * (xy P).1 ∧
      (xy (if k.testBit 0 then 0 else -P)).2 = (1 - b 0) * -(xy P).2 := by
    rw [hb 0 (by norm_num)]
    by_cases h : k.testBit 0
    · rw [if_pos h, if_pos h]; simp
    · rw [if_neg h, if_neg h, xy_neg]; simp
  have hsx : ∀ c : Bool, (xy P).1 = (xy (sgn c • P)).1 := fun c => (sgn_x c P).symm
  have hsy : ∀ i < 256, (2 * b i - 1) * (xy P).2 = (xy (sgn (k.testBit i) • P)).2 := fun i hi =>
    (sgn_y _ P (hb i hi)).symm
  -- bounds
  have hacc : ∀ {i : ℕ}, i ≤ 252 → 2 < acc k i ∧ acc k i < 2 ^ 254 := by
    intro i hi
    obtain ⟨h1, h2⟩ := acc_bounds hk (i := i) (by omega)
    have h3 : (2 : ℤ) ^ (i + 2) ≤ 2 ^ 254 := pow_le_pow_right₀ (by norm_num) (by omega)
    have h4 : (2 : ℤ) ^ 1 ≤ 2 ^ (i + 1) := pow_le_pow_right₀ (by norm_num) (by omega)
    constructor <;> linarith
  have hcom : ∀ j, 1 ≤ j → j ≤ 3 → ¬ (secpN : ℤ) ∣ sgn (k.testBit j) - acc k (255 - j) := by
    intro j hj1 hj3 hd
    have hd' : (secpN : ℤ) ∣ acc k (255 - j) - sgn (k.testBit j) := by
      have := (Int.dvd_neg).mpr hd
      rwa [neg_sub] at this
    obtain ⟨h1, h2⟩ := acc_bounds hk (i := 255 - j) (by omega)
    have h3 : (2 : ℤ) ^ (255 - j + 2) ≤ 2 ^ 256 := pow_le_pow_right₀ (by norm_num) (by omega)
    have h4 : (2 : ℤ) ^ 2 ≤ 2 ^ (255 - j + 1) := pow_le_pow_right₀ (by norm_num) (by omega)
    have hs : sgn (k.testBit j) = 1 ∨ sgn (k.testBit j) = -1 := by
      cases k.testBit j <;> simp [sgn]
    have h5 : acc k (255 - j) = 2 * acc k (255 - (j + 1)) + sgn (k.testBit (j + 1)) := by
      have := acc_succ k (i := 255 - (j + 1)) (by omega)
      rwa [show 255 - (j + 1) + 1 = 255 - j by omega, show 255 - (255 - (j + 1)) = j + 1 by omega]
        at this
    have hs' : sgn (k.testBit (j + 1)) = 1 ∨ sgn (k.testBit (j + 1)) = -1 := by
      cases k.testBit (j + 1) <;> simp [sgn]
    have h256 : (2 : ℤ) ^ 256 = 2 * 2 ^ 255 := by norm_num
    obtain ⟨c, hc⟩ := hd'
    have hc0 : 0 < c := by
      by_contra h
      have : (secpN : ℤ) * c ≤ 0 := by nlinarith
      linarith [hs.elim (fun h => h.le) (fun h => by linarith : _ → sgn (k.testBit j) ≤ 1)]
    have hc2 : c < 2 := by
      by_contra h
      have : (secpN : ℤ) * 2 ≤ secpN * c := by nlinarith
      have : -1 ≤ sgn (k.testBit j) := by rcases hs with h | h <;> rw [h] <;> norm_num
      rw [← hc] at *
      omega
    have : c = 1 := by omega
    subst this
    omega
  obtain ⟨hr1, hr2⟩ := hr
  have com : ∀ j, 1 ≤ j → j ≤ 3 → ∀ {pX pY aX aY : Fp},
      (AddComplete (xy P).1 ((2 * b j - 1) * (xy P).2) (xy (acc k (255 - j) • P)).1
          (xy (acc k (255 - j) • P)).2 pX pY ∧
        AddComplete (xy (acc k (255 - j) • P)).1 (xy (acc k (255 - j) • P)).2 pX pY aX aY) ↔
      (pX, pY) = xy ((sgn (k.testBit j) + acc k (255 - j)) • P) ∧
        (aX, aY) = xy (acc k (256 - j) • P) := by
    intro j h1 h3 pX pY aX aY
    have hs := acc_succ k (i := 255 - j) (by omega)
    rw [show 255 - j + 1 = 256 - j by omega, show 255 - (255 - j) = j by omega] at hs
    rw [hs, hsy j (by omega), hsx (k.testBit j)]
    exact com_step hP _ (hcom j h1 h3) (hr1 j h1 h3).1 (hr1 j h1 h3).2
  have inc : ∀ i, 1 ≤ i → i < 253 → ∀ {pX pY aX aY : Fp},
      (AddIncomplete (xy P).1 ((2 * b (256 - i) - 1) * (xy P).2) (xy (acc k (i - 1) • P)).1
          (xy (acc k (i - 1) • P)).2 pX pY ∧
        AddIncomplete (xy (acc k (i - 1) • P)).1 (xy (acc k (i - 1) • P)).2 pX pY aX aY) ↔
      (pX, pY) = xy ((sgn (k.testBit (256 - i)) + acc k (i - 1)) • P) ∧
        (aX, aY) = xy (acc k i • P) := by
    intro i h1 h3 pX pY aX aY
    have hs := acc_succ k (i := i - 1) (by omega)
    rw [show i - 1 + 1 = i by omega, show 255 - (i - 1) = 256 - i by omega] at hs
    rw [hs, hsy _ (by omega), hsx (k.testBit (256 - i))]
    exact inc_step hP _ (hacc (by omega)).1 (hacc (by omega)).2
  -- the first step
  have first : ∀ {pX pY aX aY : Fp},
      (AddIncomplete (xy P).1 (-(xy P).2) (xy (P + P)).1 (xy (P + P)).2 pX pY ∧
        AddIncomplete (xy (P + P)).1 (xy (P + P)).2 pX pY aX aY) ↔
      (pX, pY) = xy P ∧ (aX, aY) = xy (acc k 0 • P) := by
    intro pX pY aX aY
    have h1 : ¬ (secpN : ℤ) ∣ 1 := not_dvd (by norm_num) (by omega)
    have h2 : ¬ (secpN : ℤ) ∣ 2 := not_dvd (by norm_num) (by omega)
    have h3 : ¬ (secpN : ℤ) ∣ 3 := not_dvd (by norm_num) (by omega)
    have e1 : (xy P).1 = (xy ((-1 : ℤ) • P)).1 := by rw [neg_one_zsmul, xy_neg]
    have e2 : -(xy P).2 = (xy ((-1 : ℤ) • P)).2 := by rw [neg_one_zsmul, xy_neg]
    have e3 : P + P = (2 : ℤ) • P := (two_zsmul P).symm
    have i1 := inc_zsmul hP (a := -1) (b := 2) (by rwa [Int.dvd_neg]) h2
      (by rwa [show (-1 : ℤ) - 2 = -3 by norm_num, Int.dvd_neg]) (by norm_num; exact h1)
      (oX := pX) (oY := pY)
    rw [show (-1 : ℤ) + 2 = 1 by norm_num, one_zsmul] at i1
    have i2 := inc_zsmul hP (a := 2) (b := 1) h2 h1 (by norm_num; exact h1) (by norm_num; exact h3)
      (oX := aX) (oY := aY)
    rw [show (2 : ℤ) + 1 = 3 by norm_num, one_zsmul] at i2
    rw [e1, e2, e3, i1, acc_zero hk]
    constructor
    · rintro ⟨h4, h5⟩
      rw [(mk_eq h4).1, (mk_eq h4).2, i2] at h5
      exact ⟨h4, h5⟩
    · rintro ⟨h4, h5⟩
      refine ⟨h4, ?_⟩
      rw [(mk_eq h4).1, (mk_eq h4).2, i2]
      exact h5
  constructor
  · rintro ⟨a0x, a0y, pIx, pIy, aIx, aIy, pCx, pCy, aCx, aCy, hd, hf1, hf2, hinc, hc1, hc2, hcc, ho⟩
    rw [double_curve hP] at hd
    rw [(mk_eq hd).1, (mk_eq hd).2] at hf1 hf2
    have h0 := (first.mp ⟨hf1, hf2⟩).2
    have hI : ∀ i, i < 253 → (aIx i, aIy i) = xy (acc k i • P) := by
      intro i
      induction i with
      | zero => intro _; exact h0
      | succ i ih =>
        intro hi
        have hi' := ih (by omega)
        have hst := hinc (i + 1) (by omega) hi
        rw [Nat.add_sub_cancel, (mk_eq hi').1, (mk_eq hi').2] at hst
        exact ((inc (i + 1) (by omega) hi).mp hst).2
    have hI2 := hI 252 (by norm_num)
    rw [(mk_eq hI2).1, (mk_eq hI2).2] at hc1 hc2
    have hC0 := ((com 3 (by norm_num) le_rfl).mp ⟨hc1, hc2⟩).2
    have hs1 := hcc 1 le_rfl (by norm_num)
    rw [Nat.sub_self, (mk_eq hC0).1, (mk_eq hC0).2] at hs1
    have hC1 := ((com 2 (by norm_num) (by norm_num)).mp hs1).2
    have hs2 := hcc 2 (by norm_num) (by norm_num)
    rw [show 2 - 1 = 1 from rfl, (mk_eq hC1).1, (mk_eq hC1).2] at hs2
    have hC2 := ((com 1 (by norm_num) (by norm_num)).mp hs2).2
    rw [(mk_eq hC2).1, (mk_eq hC2).2, ← hQ.1, ← hQ.2] at ho
    exact ho
  · intro ho
    refine ⟨(xy (P + P)).1, (xy (P + P)).2,
      fun i => if i = 0 then (xy P).1 else (xy ((sgn (k.testBit (256 - i)) + acc k (i - 1)) • P)).1,
      fun i => if i = 0 then (xy P).2 else (xy ((sgn (k.testBit (256 - i)) + acc k (i - 1)) • P)).2,
      fun i => (xy (acc k i • P)).1, fun i => (xy (acc k i • P)).2,
      fun i => (xy ((sgn (k.testBit (3 - i)) + acc k (252 + i)) • P)).1,
      fun i => (xy ((sgn (k.testBit (3 - i)) + acc k (252 + i)) • P)).2,
      fun i => (xy (acc k (253 + i) • P)).1, fun i => (xy (acc k (253 + i) • P)).2,
      (double_curve hP).mpr rfl, (first.mpr ⟨rfl, rfl⟩).1, (first.mpr ⟨rfl, rfl⟩).2, ?_,
      ((com 3 (by norm_num) le_rfl).mpr ⟨rfl, rfl⟩).1,
      ((com 3 (by norm_num) le_rfl).mpr ⟨rfl, rfl⟩).2, ?_, ?_⟩
    · intro i h1 h2
      have := (inc i h1 h2).mpr ⟨rfl, rfl⟩
      simp only [show i ≠ 0 by omega, if_false]
      exact this
    · intro i h1 h2
      have hi : i = 1 ∨ i = 2 := by omega
      rcases hi with rfl | rfl
      · exact (com 2 (by norm_num) (by norm_num)).mpr ⟨rfl, rfl⟩
      · exact (com 1 (by norm_num) (by norm_num)).mpr ⟨rfl, rfl⟩
    · rw [← hQ.1, ← hQ.2]; exact ho

end Spartan.Circuit
