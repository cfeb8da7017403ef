import Verif.Lemmas.CurveOrder

/-!
The complete addition formulas of Renes, Costello and Batina for `y² = x³ + 7` (`b3 = 21`), in closed form, compute
the group law in homogeneous coordinates on a curve without points of order two.
-/

namespace Spartan
namespace Koblitz

open WeierstrassCurve.Affine

variable {F : Type} [Field F]

/-- `(X : Y : Z)` are homogeneous coordinates of `P`; the point at infinity is `(0 : Y : 0)`. -/
def HRep (X Y Z : F) : (koblitz F).Point → Prop
  | .zero => X = 0 ∧ Y ≠ 0 ∧ Z = 0
  | .some x y _ => Z ≠ 0 ∧ X = x * Z ∧ Y = y * Z

def rcbX (X1 Y1 Z1 X2 Y2 Z2 : F) : F :=
  (X1 * Y2 + X2 * Y1) * (Y1 * Y2 - 21 * (Z1 * Z2)) - 21 * ((Y1 * Z2 + Y2 * Z1) * (X1 * Z2 + X2 * Z1))
def rcbY (X1 Y1 Z1 X2 Y2 Z2 : F) : F :=
  (Y1 * Y2 + 21 * (Z1 * Z2)) * (Y1 * Y2 - 21 * (Z1 * Z2)) + 63 * (X1 * X2 * (X1 * Z2 + X2 * Z1))
def rcbZ (X1 Y1 Z1 X2 Y2 Z2 : F) : F :=
  (Y1 * Z2 + Y2 * Z1) * (Y1 * Y2 + 21 * (Z1 * Z2)) + 3 * (X1 * X2 * (X1 * Y2 + X2 * Y1))

/-- No point of the curve has order two: no point has `y = 0`. -/
def NoTwo (F : Type) [Field F] : Prop := ∀ x y : F, (koblitz F).Nonsingular x y → y ≠ 0

theorem HRep.ne {X Y Z : F} {P : (koblitz F).Point} (hn : NoTwo F) (h : HRep X Y Z P) : Y ≠ 0 := by
  cases P with
  | zero => exact h.2.1
  | some x y hns =>
    obtain ⟨hz, -, rfl⟩ := h
    exact mul_ne_zero (hn x y hns) hz

variable [DecidableEq F]

theorem rcb_affine (h2 : (2 : F) ≠ 0) (hn : NoTwo F) {x1 y1 x2 y2 : F} (h1 : (koblitz F).Nonsingular x1 y1)
    (h2' : (koblitz F).Nonsingular x2 y2) :
    HRep (rcbX x1 y1 1 x2 y2 1) (rcbY x1 y1 1 x2 y2 1) (rcbZ x1 y1 1 x2 y2 1)
      (Point.some x1 y1 h1 + Point.some x2 y2 h2') := by
  have e1 := equation_iff.mp h1.1
  have e2 := equation_iff.mp h2'.1
  have n1 := hn _ _ h1
  have n2 := hn _ _ h2'
  by_cases hx : x1 = x2
  · subst hx
    have hyy : (y1 - y2) * (y1 + y2) = 0 := by linear_combination e1 - e2
    have h2y : 2 * y1 ≠ 0 := mul_ne_zero h2 n1
    obtain ⟨h', e⟩ := double_some h1 h2y (l := 3 * x1 ^ 2 / (2 * y1)) (div_mul_cancel₀ _ h2y) rfl rfl
    have n3 := hn _ _ h'
    rcases mul_eq_zero.mp hyy with h | h
    · obtain rfl := sub_eq_zero.mp h
      rw [e]
      have hz : rcbZ x1 y1 1 x1 y1 1 = 8 * y1 ^ 3 := by
        rw [rcbZ]; linear_combination (-6 * y1) * e1
      have h8 : (8 : F) * y1 ^ 3 ≠ 0 := by
        have : (8 : F) = 2 ^ 3 := by norm_num
        rw [this]
        exact mul_ne_zero (pow_ne_zero _ h2) (pow_ne_zero _ n1)
      refine ⟨by rwa [hz], ?_, ?_⟩
      · rw [hz, rcbX]
        field_simp
        linear_combination (72 * x1) * e1
      · rw [hz, rcbY]
        field_simp
        linear_combination (72 * y1 ^ 2 - 216 * x1 ^ 3 + 504) * e1
    · have hy2 : y2 = -y1 := by linear_combination h
      subst hy2
      have hz : Point.some x1 y1 h1 + Point.some x1 (-y1) h2' = 0 := by
        rw [Point.add_of_Y_eq rfl (by rw [negY, neg_neg])]
      rw [hz]
      refine ⟨by rw [rcbX]; ring, ?_, by rw [rcbZ]; ring⟩
      intro hc
      apply n3
      rw [rcbY] at hc
      field_simp
      linear_combination hc + (-9 * y1 ^ 2 + 27 * x1 ^ 3 - 63) * e1
  · have hd : x1 - x2 ≠ 0 := sub_ne_zero.mpr hx
    obtain ⟨h', e⟩ := add_some h1 h2' hx (l := (y1 - y2) / (x1 - x2)) (div_mul_cancel₀ _ hd) rfl rfl
    have hm : (koblitz F).Nonsingular x2 (-y2) := by
      have := (WeierstrassCurve.Affine.nonsingular_neg x2 y2).mpr h2'
      rwa [negY] at this
    obtain ⟨hs, es⟩ := add_some h1 hm hx (l := (y1 - -y2) / (x1 - x2)) (div_mul_cancel₀ _ hd) rfl rfl
    have n3 := hn _ _ hs
    rw [e]
    have hz : rcbZ x1 y1 1 x2 y2 1 ≠ 0 := by
      intro hc
      apply n3
      rw [rcbZ] at hc
      field_simp
      linear_combination -hc + (-y1 - 2 * y2) * e1 + (-2 * y1 - y2) * e2
    refine ⟨hz, ?_, ?_⟩
    · rw [rcbX, rcbZ]
      field_simp
      linear_combination (-3*x1^2*x2*y2 - 3*x1*y1*x2^2 + 3*x1*x2^2*y2 - y1^2*y2 + y1*y2^2 - 21*y1 + 2*x2^3*y2 + y2^3 + 14*y2) * e1 + (3*x1^3*y1 + x1^3*y2 + 3*x1^2*y1*x2 - 3*x1^2*x2*y2 - 3*x1*y1*x2^2 - y1*y2^2 + 21*y1 - 14*y2) * e2
    · rw [rcbY, rcbZ]
      field_simp
      linear_combination (3*x1^2*y1*x2*y2 + 9*x1^2*x2^4 - 15*x1^2*x2*y2^2 + 3*x1*y1^2*x2^2 - 6*x1*y1*x2^2*y2 - 6*x1*x2^5 + 15*x1*x2^2*y2^2 + 84*x1*x2^2 + y1^3*y2 - 2*y1^2*y2^2 + 21*y1^2 - 2*y1*x2^3*y2 - 35*y1*y2 - 2*x2^3*y2^2 - 42*x2^3 + 2*y2^4 - 14*y2^2 + 147) * e1 + (-9*x1^5*x2 + 6*x1^4*x2^2 + 2*x1^3*y1*y2 + 2*x1^3*y2^2 + 42*x1^3 + 6*x1^2*y1*x2*y2 - 3*x1^2*x2*y2^2 - 189*x1^2*x2 - 3*x1*y1*x2^2*y2 + 105*x1*x2^2 - y1*y2^3 + 35*y1*y2 - 7*y2^2 - 147) * e2

theorem HRep.scale {X Y Z c : F} (hc : c ≠ 0) {P : (koblitz F).Point} (h : HRep X Y Z P) :
    HRep (c * X) (c * Y) (c * Z) P := by
  cases P with
  | zero =>
    obtain ⟨h1, h2, h3⟩ := h
    exact ⟨by rw [h1, mul_zero], mul_ne_zero hc h2, by rw [h3, mul_zero]⟩
  | some x y hns =>
    obtain ⟨h1, h2, h3⟩ := h
    exact ⟨mul_ne_zero hc h1, by rw [h2]; ring, by rw [h3]; ring⟩

/-- The formulas are complete. -/
theorem HRep.add (h2 : (2 : F) ≠ 0) (hn : NoTwo F) {X1 Y1 Z1 X2 Y2 Z2 : F} {P Q : (koblitz F).Point}
    (hP : HRep X1 Y1 Z1 P) (hQ : HRep X2 Y2 Z2 Q) :
    HRep (rcbX X1 Y1 Z1 X2 Y2 Z2) (rcbY X1 Y1 Z1 X2 Y2 Z2) (rcbZ X1 Y1 Z1 X2 Y2 Z2) (P + Q) := by
  have nP := hP.ne hn
  have nQ := hQ.ne hn
  cases P with
  | zero =>
    obtain ⟨rfl, -, rfl⟩ := hP
    have := hQ.scale (mul_ne_zero (pow_ne_zero 2 nP) nQ)
    rw [show (Point.zero : (koblitz F).Point) = 0 from rfl, zero_add]
    convert this using 1
    · rw [rcbX]; ring
    · rw [rcbY]; ring
    · rw [rcbZ]; ring
  | some x1 y1 h1 =>
    cases Q with
    | zero =>
      obtain ⟨rfl, -, rfl⟩ := hQ
      have := hP.scale (mul_ne_zero (pow_ne_zero 2 nQ) nP)
      rw [show (Point.zero : (koblitz F).Point) = 0 from rfl, add_zero]
      convert this using 1
      · rw [rcbX]; ring
      · rw [rcbY]; ring
      · rw [rcbZ]; ring
    | some x2 y2 h2' =>
      obtain ⟨z1, rfl, rfl⟩ := hP
      obtain ⟨z2, rfl, rfl⟩ := hQ
      have := (rcb_affine h2 hn h1 h2').scale (pow_ne_zero 2 (mul_ne_zero z1 z2))
      convert this using 1
      · rw [rcbX, rcbX]; ring
      · rw [rcbY, rcbY]; ring
      · rw [rcbZ, rcbZ]; ring

theorem HRep.neg {X Y Z : F} {P : (koblitz F).Point} (h : HRep X Y Z P) : HRep X (-Y) Z (-P) := by
  cases P with
  | zero => exact ⟨h.1, neg_ne_zero.mpr h.2.1, h.2.2⟩
  | some x y hns =>
    rw [Point.neg_some]
    refine ⟨h.1, h.2.1, ?_⟩
    rw [negY, h.2.2, neg_mul]

/-- Coordinates of a point satisfy the homogeneous equation. -/
theorem HRep.eqn {X Y Z : F} {P : (koblitz F).Point} (h : HRep X Y Z P) : Y ^ 2 * Z = X ^ 3 + 7 * Z ^ 3 := by
  cases P with
  | zero => rw [h.1, h.2.2]; ring
  | some x y hns =>
    obtain ⟨-, rfl, rfl⟩ := h
    have := equation_iff.mp hns.1
    linear_combination Z ^ 3 * this

theorem secq_noTwo : NoTwo (ZMod secpN) := by
  intro x y h hy
  subst hy
  have e : (Point.some x 0 h : Secq) + Point.some x 0 h = 0 :=
    Point.add_of_Y_eq rfl (by rw [negY, neg_zero])
  have h1 : secpP • (Point.some x 0 h : Secq) = 0 := by
    rw [← card_secq]; exact card_nsmul_eq_zero'
  have h2 : (2 : ℕ) • (Point.some x 0 h : Secq) = 0 := by rw [two_nsmul]; exact e
  have h3 : secpP = 2 * (secpP / 2) + 1 := by decide +kernel
  rw [h3, add_nsmul, mul_nsmul, h2, nsmul_zero, zero_add, one_nsmul] at h1
  exact Point.some_ne_zero _ h1

end Koblitz
end Spartan
