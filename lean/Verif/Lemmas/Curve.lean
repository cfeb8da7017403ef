import Verif.Spec.Curve
import Mathlib.GroupTheory.OrderOfElement
import Mathlib.GroupTheory.Perm.Cycle.Type
import Mathlib.Tactic.FieldSimp
import Mathlib.Tactic.LinearCombination

/-!
The group `y² = x³ + 7`: addition formulas, Jacobian doubling and addition, counting points.
-/

namespace Spartan
namespace Koblitz

open WeierstrassCurve.Affine

variable {F : Type} [Field F]

theorem equation_iff {x y : F} : (koblitz F).Equation x y ↔ y ^ 2 = x ^ 3 + 7 := by
  rw [WeierstrassCurve.Affine.equation_iff]
  simp [koblitz]

theorem nonsingular_iff (h2 : (2 : F) ≠ 0) (h3 : (3 : F) ≠ 0) (h7 : (7 : F) ≠ 0) {x y : F} :
    (koblitz F).Nonsingular x y ↔ y ^ 2 = x ^ 3 + 7 := by
  rw [WeierstrassCurve.Affine.nonsingular_iff, equation_iff]
  refine ⟨fun h => h.1, fun h => ⟨h, ?_⟩⟩
  simp only [koblitz]
  by_contra hc
  push Not at hc
  obtain ⟨hx, hy⟩ := hc
  have hy0 : y = 0 := by
    have : 2 * y = 0 := by linear_combination hy
    exact (mul_eq_zero.mp this).resolve_left h2
  have hx0 : x = 0 := by
    have : 3 * x ^ 2 = 0 := by linear_combination -hx
    exact pow_eq_zero_iff two_ne_zero |>.mp ((mul_eq_zero.mp this).resolve_left h3)
  rw [hx0, hy0] at h
  apply h7
  linear_combination -h

theorem negY (x y : F) : (koblitz F).negY x y = -y := by
  simp [WeierstrassCurve.Affine.negY, koblitz]

variable [DecidableEq F]

/-- Doubling a point with `y ≠ -y`. -/
theorem double_some {x y l : F} (h : (koblitz F).Nonsingular x y) (hy : 2 * y ≠ 0)
    (hl : l * (2 * y) = 3 * x ^ 2) {x' y' : F} (hx' : x' = l ^ 2 - 2 * x)
    (hy' : y' = l * (x - x') - y) :
    ∃ h' : (koblitz F).Nonsingular x' y', Point.some x y h + Point.some x y h = Point.some x' y' h' := by
  have hne : y ≠ (koblitz F).negY x y := by
    rw [negY]; intro hc; apply hy; linear_combination hc
  have hs : (koblitz F).slope x x y y = l := by
    rw [slope_of_Y_ne rfl hne, negY]
    simp only [koblitz]
    rw [div_eq_iff (by rwa [sub_neg_eq_add, ← two_mul])]
    linear_combination -hl
  have e := Point.add_self_of_Y_ne (h₁ := h) hne
  have ex : (koblitz F).addX x x l = x' := by
    rw [addX, hx']; simp only [koblitz]; ring
  have ey : (koblitz F).addY x x y l = y' := by
    rw [addY, negAddY, WeierstrassCurve.Affine.negY, ex, hy']; simp only [koblitz]; ring
  simp only [hs, ex, ey] at e
  exact ⟨_, e⟩

/-- Adding points with different abscissas. -/
theorem add_some {x1 y1 x2 y2 l : F} (h1 : (koblitz F).Nonsingular x1 y1)
    (h2 : (koblitz F).Nonsingular x2 y2) (hx : x1 ≠ x2) (hl : l * (x1 - x2) = y1 - y2)
    {x' y' : F} (hx' : x' = l ^ 2 - x1 - x2) (hy' : y' = l * (x1 - x') - y1) :
    ∃ h' : (koblitz F).Nonsingular x' y',
      Point.some x1 y1 h1 + Point.some x2 y2 h2 = Point.some x' y' h' := by
  have hs : (koblitz F).slope x1 x2 y1 y2 = l := by
    rw [slope_of_X_ne hx, div_eq_iff (sub_ne_zero.mpr hx)]
    exact hl.symm
  have e := Point.add_of_X_ne (h₁ := h1) (h₂ := h2) hx
  have ex : (koblitz F).addX x1 x2 l = x' := by
    rw [addX, hx']; simp only [koblitz]; ring
  have ey : (koblitz F).addY x1 x2 y1 l = y' := by
    rw [addY, negAddY, WeierstrassCurve.Affine.negY, ex, hy']; simp only [koblitz]; ring
  simp only [hs, ex, ey] at e
  exact ⟨_, e⟩

/-! ### Jacobian coordinates -/

/-- `(X : Y : Z)` with `Z ≠ 0` are Jacobian coordinates of `P`. -/
def JRep (X Y Z : F) (P : (koblitz F).Point) : Prop :=
  ∃ x y h, P = Point.some x y h ∧ X = x * Z ^ 2 ∧ Y = y * Z ^ 3 ∧ Z ≠ 0

def dblX (X Y : F) : F := (3 * X ^ 2) ^ 2 - 8 * X * Y ^ 2
def dblY (X Y : F) : F := (3 * X ^ 2) * (4 * X * Y ^ 2 - dblX X Y) - 8 * Y ^ 4
def dblZ (Y Z : F) : F := 2 * Y * Z

theorem JRep.double {X Y Z : F} {P : (koblitz F).Point} (h : JRep X Y Z P) (hz : dblZ Y Z ≠ 0) :
    JRep (dblX X Y) (dblY X Y) (dblZ Y Z) (P + P) := by
  obtain ⟨x, y, hns, rfl, rfl, rfl, hZ⟩ := h
  have h2y : 2 * y ≠ 0 := by
    intro hc; apply hz; rw [dblZ]; linear_combination Z ^ 4 * hc
  have h2 : (2 : F) ≠ 0 := left_ne_zero_of_mul h2y
  have hy0 : y ≠ 0 := right_ne_zero_of_mul h2y
  obtain ⟨h', e⟩ := double_some hns h2y (l := 3 * x ^ 2 / (2 * y)) (by field_simp) rfl rfl
  refine ⟨_, _, h', e, ?_, ?_, hz⟩
  · rw [dblX, dblZ]; field_simp; ring
  · rw [dblY, dblX, dblZ]; field_simp; ring

def addX' (X Y Z gx gy : F) : F :=
  (gy * Z ^ 3 - Y) ^ 2 - (gx * Z ^ 2 - X) ^ 3 - 2 * X * (gx * Z ^ 2 - X) ^ 2
def addY' (X Y Z gx gy : F) : F :=
  (gy * Z ^ 3 - Y) * (X * (gx * Z ^ 2 - X) ^ 2 - addX' X Y Z gx gy) - Y * (gx * Z ^ 2 - X) ^ 3
def addZ' (X Z gx : F) : F := Z * (gx * Z ^ 2 - X)

theorem JRep.add {X Y Z gx gy : F} {P : (koblitz F).Point} (h : JRep X Y Z P)
    (hg : (koblitz F).Nonsingular gx gy) (hz : addZ' X Z gx ≠ 0) :
    JRep (addX' X Y Z gx gy) (addY' X Y Z gx gy) (addZ' X Z gx) (P + Point.some gx gy hg) := by
  obtain ⟨x, y, hns, rfl, rfl, rfl, hZ⟩ := h
  have hx : x ≠ gx := by
    rintro rfl; apply hz; rw [addZ']; ring
  have hx' : gx - x ≠ 0 := sub_ne_zero.mpr hx.symm
  have hx'' : x - gx ≠ 0 := sub_ne_zero.mpr hx
  obtain ⟨h', e⟩ := add_some hns hg hx (l := (gy - y) / (gx - x)) (by field_simp; ring) rfl rfl
  refine ⟨_, _, h', e, ?_, ?_, hz⟩
  · rw [addX', addZ']; field_simp; ring
  · rw [addY', addX', addZ']; field_simp; ring

/-! ### Counting -/

/-- A point other than zero, by its coordinates. -/
theorem exists_coords (P : (koblitz F).Point) (hP : P ≠ 0) :
    ∃ x y h, P = Point.some x y h := by
  cases P with
  | zero => exact absurd rfl hP
  | some x y h => exact ⟨x, y, h, rfl⟩

instance [Finite F] : Finite (koblitz F).Point := by
  apply Finite.of_injective (β := Option (F × F))
    (fun P => match P with
      | Point.zero => none
      | Point.some x y _ => some (x, y))
  intro P Q h
  cases P <;> cases Q <;> simp_all

/-- At most two points for each abscissa, and zero. -/
theorem card_le [Fintype F] : Nat.card (koblitz F).Point ≤ 2 * Fintype.card F + 1 := by
  classical
  have inj : Function.Injective (fun P : (koblitz F).Point => match P with
      | Point.zero => (none : Option (F × Bool))
      | Point.some x y _ => some (x, decide (y = (Classical.epsilon fun z => z ^ 2 = x ^ 3 + 7)))) := by
    intro P Q h
    cases P with
    | zero => cases Q with
      | zero => rfl
      | some x y h' => simp at h
    | some x y hp => cases Q with
      | zero => simp at h
      | some x' y' hq =>
        simp only [Option.some.injEq, Prod.mk.injEq] at h
        obtain ⟨rfl, hb⟩ := h
        have e1 := equation_iff.mp hp.1
        have e2 := equation_iff.mp hq.1
        have e3 : (Classical.epsilon fun z => z ^ 2 = x ^ 3 + 7) ^ 2 = x ^ 3 + 7 :=
          Classical.epsilon_spec (p := fun z => z ^ 2 = x ^ 3 + 7) ⟨y, e1⟩
        have k {a b : F} (ha : a ^ 2 = x ^ 3 + 7) (hb : b ^ 2 = x ^ 3 + 7) : a = b ∨ a = -b := by
          have : (a - b) * (a + b) = 0 := by linear_combination ha - hb
          rcases mul_eq_zero.mp this with h | h
          · exact Or.inl (sub_eq_zero.mp h)
          · exact Or.inr (eq_neg_of_add_eq_zero_left h)
        have hyy : y = y' := by
          rw [decide_eq_decide] at hb
          by_cases hc : y = (Classical.epsilon fun z => z ^ 2 = x ^ 3 + 7)
          · rw [hc]; exact (hb.mp hc).symm
          · have hc' : y' ≠ (Classical.epsilon fun z => z ^ 2 = x ^ 3 + 7) := fun h => hc (hb.mpr h)
            rw [(k e1 e3).resolve_left hc, (k e2 e3).resolve_left hc']
        subst hyy
        rfl
  have := Nat.card_le_card_of_injective _ inj
  rw [Nat.card_eq_fintype_card (α := Option (F × Bool)), Fintype.card_option, Fintype.card_prod,
    Fintype.card_bool] at this
  omega

/-- A point of order two has `y = 0`. -/
theorem two_torsion {P : (koblitz F).Point} (h2 : (2 : F) ≠ 0) (hP : P ≠ 0) (h : P + P = 0) :
    ∃ x : F, x ^ 3 = -7 := by
  obtain ⟨x, y, hn, rfl⟩ := exists_coords P hP
  by_cases hy : 2 * y = 0
  · have hy0 := (mul_eq_zero.mp hy).resolve_left h2
    have := equation_iff.mp hn.1
    exact ⟨x, by rw [hy0] at this; linear_combination -this⟩
  · exfalso
    obtain ⟨h', e⟩ := double_some hn hy (l := 3 * x ^ 2 / (2 * y))
      (div_mul_cancel₀ _ hy) rfl rfl
    rw [e] at h
    exact Point.some_ne_zero _ h

end Koblitz
end Spartan
