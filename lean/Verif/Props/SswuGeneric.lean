import Verif.Model.SswuGeneric
import Verif.Props.SageParams
import Verif.Props.HashToCurveStd

/-!
C107: the two reference implementations of the simplified SWU map agree, and the code computes what they compute.
-/

namespace Spartan

open MParams Spec Sswu

section generic
variable {F : Type} [Field F]

/-- C107.  The straight-line program computes the map of the definition, for every field, every curve and every root
and sign function, if `Z` meets the fourth criterion. -/
theorem straightLine_eq (sqrt : F → F) (sgn0 : F → Bool) {A B Z : F} (hA : A ≠ 0) (hZ : Z ≠ 0)
    (h4 : IsSquare ((B / (Z * A)) ^ 3 + A * (B / (Z * A)) + B)) (u : F) :
    straightLine sqrt sgn0 A B Z u = notStraightLine sqrt sgn0 A B Z u := by
  classical
  have et : Z * u ^ 2 + (Z * u ^ 2) ^ 2 = Z ^ 2 * u ^ 4 + Z * u ^ 2 := by ring
  obtain ⟨x1, hx⟩ : ∃ x1, x1 = if (Z ^ 2 * u ^ 4 + Z * u ^ 2)⁻¹ = 0 then B / (Z * A)
      else (-B / A) * (1 + (Z ^ 2 * u ^ 4 + Z * u ^ 2)⁻¹) := ⟨_, rfl⟩
  have hx' : (if (Z ^ 2 * u ^ 4 + Z * u ^ 2)⁻¹ = 0 then -1 / Z else (Z ^ 2 * u ^ 4 + Z * u ^ 2)⁻¹ + 1) * (-B / A) = x1 := by
    rw [hx]
    split
    · field_simp
    · ring
  have hg : (x1 ^ 2 + A) * x1 + B = x1 ^ 3 + A * x1 + B := by ring
  simp only [straightLine, notStraightLine, et, hx', hg, ← hx]
  by_cases hs : IsSquare (x1 ^ 3 + A * x1 + B)
  · simp only [if_pos hs]
    by_cases e : sgn0 u = sgn0 (sqrt (x1 ^ 3 + A * x1 + B)) <;> simp [e]
  · have h0 : Z ^ 2 * u ^ 4 + Z * u ^ 2 ≠ 0 := by
      intro h0
      rw [h0, inv_zero, if_pos rfl] at hx
      exact hs (hx ▸ h4)
    have e2 : (x1 ^ 3 + A * x1 + B) * (Z * u ^ 2 * (Z * u ^ 2) ^ 2) =
        (Z * u ^ 2 * x1) ^ 3 + A * (Z * u ^ 2 * x1) + B := by
      rw [if_neg (inv_ne_zero h0)] at hx
      have h1 : x1 * A * (Z ^ 2 * u ^ 4 + Z * u ^ 2) = -B * (Z ^ 2 * u ^ 4 + Z * u ^ 2 + 1) := by
        rw [hx]
        generalize Z ^ 2 * u ^ 4 + Z * u ^ 2 = s at h0
        field_simp
      linear_combination (Z * u ^ 2 - 1) * h1
    simp only [if_neg hs, e2]
    by_cases e : sgn0 u = sgn0 (sqrt ((Z * u ^ 2 * x1) ^ 3 + A * (Z * u ^ 2 * x1) + B)) <;> simp [e]

/-- C107.  The exceptional arguments listed by the constructor are those at which the formula is undefined. -/
theorem undefs_spec {sqrt : F → F} (hs : ∀ a, IsSquare a → sqrt a ^ 2 = a) {Z : F} (hZ : Z ≠ 0) (u : F) :
    u ∈ undefs sqrt Z ↔ Z ^ 2 * u ^ 4 + Z * u ^ 2 = 0 := by
  classical
  have e : Z ^ 2 * u ^ 4 + Z * u ^ 2 = 0 ↔ u = 0 ∨ u ^ 2 = -1 / Z := by
    have : Z ^ 2 * u ^ 4 + Z * u ^ 2 = Z * u ^ 2 * (Z * u ^ 2 + 1) := by ring
    rw [this, mul_eq_zero, mul_eq_zero, or_iff_right hZ, pow_eq_zero_iff (by decide), eq_div_iff hZ]
    constructor
    · rintro (h | h)
      · exact Or.inl h
      · exact Or.inr (by linear_combination h)
    · rintro (h | h)
      · exact Or.inl h
      · exact Or.inr (by linear_combination h)
  rw [e]
  simp only [undefs, List.mem_append, List.mem_singleton]
  refine or_congr Iff.rfl ?_
  by_cases hq : IsSquare (-1 / Z)
  · rw [if_pos hq, List.mem_cons, List.mem_singleton]
    conv_rhs => rw [← hs _ hq, sq_eq_sq_iff_eq_or_eq_neg]
  · rw [if_neg hq]
    refine ⟨fun h => absurd h (by simp), fun h => absurd ⟨u, by rw [← h, pow_two]⟩ hq⟩

end generic

/-- The definition's map, applied to an argument with image `(x, y)`, yields it. -/
theorem notStraightLine_of_sswu {m : ℕ} [Fact m.Prime] (hodd : m % 2 = 1) {sqrt : ZMod m → ZMod m}
    (hs : ∀ a, IsSquare a → sqrt a ^ 2 = a) {A B Z u x y : ZMod m} (h : IsSswu A B Z u x y) :
    notStraightLine sqrt (fun a => a.val % 2 == 1) A B Z u = (x, y) := by
  classical
  have hX : ∀ d : Decidable ((Z ^ 2 * u ^ 4 + Z * u ^ 2)⁻¹ = 0), @ite _ ((Z ^ 2 * u ^ 4 + Z * u ^ 2)⁻¹ = 0) d (B / (Z * A))
      ((-B / A) * (1 + (Z ^ 2 * u ^ 4 + Z * u ^ 2)⁻¹)) = sswuX1 A B Z u := by
    intro d
    by_cases h0 : Z ^ 2 * u ^ 4 + Z * u ^ 2 = 0
    · rw [if_pos (by rw [h0, inv_zero]), sswuX1, if_pos h0]
    · rw [if_neg (inv_ne_zero h0), sswuX1, if_neg h0, one_div]
  have key : ∀ s : ZMod m, s ^ 2 = x ^ 3 + A * x + B →
      (if ((u.val % 2 == 1) ≠ (s.val % 2 == 1)) then -s else s) = y := by
    intro s h2
    rw [← h.on] at h2
    have hu := h.sign
    rcases sq_eq_sq_iff_eq_or_eq_neg.mp h2 with rfl | rfl
    · rw [hu, if_neg (by simp)]
    · by_cases h0 : y = 0
      · subst h0; simp
      · haveI : NeZero m := ⟨(Fact.out : m.Prime).ne_zero⟩
        have hp := val_neg_parity hodd h0
        rw [if_pos, neg_neg]
        rw [hp, ← hu]
        rcases Nat.mod_two_eq_zero_or_one y.val with e | e <;> simp [e]
  simp only [notStraightLine, hX]
  have hq : IsSquare (x ^ 3 + A * x + B) := ⟨y, by rw [← h.on, pow_two]⟩
  have hk := key _ (hs _ hq)
  have hxe := h.x_eq
  generalize sswuX1 A B Z u = x1 at hxe
  rcases hxe with ⟨hs1, rfl⟩ | ⟨hs1, rfl⟩
  · rw [if_pos hs1]; exact Prod.ext rfl hk
  · rw [if_neg hs1]; exact Prod.ext rfl hk

/-- The hypothesis on the root function is met. -/
theorem sqrt_exists {F : Type} [Field F] : ∃ sqrt : F → F, ∀ a, IsSquare a → sqrt a ^ 2 = a := by
  have h : ∀ a : F, ∃ b, IsSquare a → b ^ 2 = a := fun a => by
    by_cases h : IsSquare a
    · obtain ⟨b, hb⟩ := h
      exact ⟨b, fun _ => by rw [hb, pow_two]⟩
    · exact ⟨0, fun h' => absurd h' h⟩
  choose f hf using h
  exact ⟨f, hf⟩

/-- C107.  The code's map to the isogenous curve is the map of both reference implementations, with any function that
yields square roots and the sign of RFC 9380. -/
theorem map_to_curve_reference {sqrt : ZMod secpN → ZMod secpN} (hs : ∀ a, IsSquare a → sqrt a ^ 2 = a)
    {lu : Limbs} {u : ZMod secpN} (hu : lu.Rep secpN u) :
    ∃ lx ly A B Z, paramsQ.mapToCurve sqrtConstsQ paramsQ.invertQ lu isoA isoB isoZ = .ok (lx, ly) ∧
      isoA.Rep secpN A ∧ isoB.Rep secpN B ∧ isoZ.Rep secpN Z ∧
      lx.Rep secpN (notStraightLine sqrt (fun a => a.val % 2 == 1) A B Z u).1 ∧
      ly.Rep secpN (notStraightLine sqrt (fun a => a.val % 2 == 1) A B Z u).2 ∧
      straightLine sqrt (fun a => a.val % 2 == 1) A B Z u = notStraightLine sqrt (fun a => a.val % 2 == 1) A B Z u := by
  classical
  haveI := valid_Q.neZero
  obtain ⟨lx, ly, x, y, h, hx, hy, hw⟩ := mapToCurve_std hu
  refine ⟨lx, ly, _, _, _, h, rep_isoA, rep_isoB, rep_isoZ, ?_, ?_,
    straightLine_eq sqrt _ iso_A_ne neg14_ne zOkQ.2.2.2 u⟩
  all_goals rw [notStraightLine_of_sswu (by decide +kernel) hs hw]
  · exact hx
  · exact hy

end Spartan
