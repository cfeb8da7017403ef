import Verif.Lemmas.H2C
import Verif.Spec.HashToCurve
import Mathlib.Algebra.Polynomial.Roots
import Mathlib.Tactic.ComputeDegree

/-!
The simplified SWU map computed by the code is the standard one; how often it takes a value; the isogeny is injective.
-/

set_option exponentiation.threshold 2000

namespace Spartan
namespace MParams

open Spec

/-! ### No point of order two -/

theorem neg_seven_noncubeQ (x : ZMod secpN) : x ^ 3 ≠ -7 := by
  intro h
  have h7' : (7 : ZMod secpN) ≠ 0 := by
    intro e
    exact seven_nonsq ⟨0, by rw [e, mul_zero]⟩
  have h0 : x ≠ 0 := by
    rintro rfl
    apply h7'
    linear_combination h
  have h1 : x ^ (secpN - 1) = 1 := ZMod.pow_card_sub_one_eq_one h0
  rw [show secpN - 1 = 3 * ((secpN - 1) / 3) by decide +kernel, pow_mul, h] at h1
  have h7 : (-7 : ZMod secpN) = ((secpN - 7 : ℕ) : ZMod secpN) := by
    rw [eq_comm, ← sub_eq_zero, sub_neg_eq_add]
    have h : ((secpN - 7 + 7 : ℕ) : ZMod secpN) = 0 := by
      rw [show secpN - 7 + 7 = secpN by decide +kernel]; exact ZMod.natCast_self _
    rw [Nat.cast_add] at h
    exact_mod_cast h
  rw [h7] at h1
  have h2 : (((secpN - 7) ^ ((secpN - 1) / 3) : ℕ) : ZMod secpN) = ((1 : ℕ) : ZMod secpN) := by
    rw [Nat.cast_pow, h1, Nat.cast_one]
  have h3 := (ZMod.natCast_eq_natCast_iff' _ _ _).mp h2
  rw [← powMod_eq (k := 256) (by decide +kernel)] at h3
  revert h3
  decide +kernel

/-- The isogenous curve has no point with ordinate zero. -/
theorem isoG_ne (x : ZMod secpN) : isoG x ≠ 0 := by
  intro h
  have hc := iso_on_curve (x := x) (y := 0) (by rw [h]; ring)
  rw [zero_mul, zero_pow (by decide)] at hc
  exact neg_seven_noncubeQ _ (eq_neg_of_add_eq_zero_left hc.symm)

/-! ### The map -/

theorem val_neg_parity {m : ℕ} [NeZero m] (hodd : m % 2 = 1) {y : ZMod m} (hy : y ≠ 0) :
    (-y).val % 2 = 1 - y.val % 2 := by
  haveI : NeZero y := ⟨hy⟩
  rw [ZMod.val_neg_of_ne_zero]
  have := ZMod.val_lt y
  omega

theorem mapToCurve_std_gen {M : MParams} {m : Nat} (hM : M.Valid m) [Fact m.Prime] (hodd : m % 2 = 1)
    {C : SqrtConsts}
    {T : Nat} {A B Z : ZMod m} (hC : C.Valid m T Z) {inv : Limbs → Option Limbs}
    (hinv : ∀ (a : Limbs) (x : ZMod m), a.Rep m x → x ≠ 0 → ∃ b, inv a = some b ∧ b.Rep m x⁻¹)
    {la lb lz lu : Limbs} (hA : la.Rep m A) (hB : lb.Rep m B) (hZ : lz.Rep m Z)
    (hA0 : A ≠ 0) (hZ0 : Z ≠ 0) (hg : ∀ x : ZMod m, x ^ 3 + A * x + B ≠ 0)
    {xe w : ZMod m} (e1 : xe * Z * A = B) (e2 : w ^ 2 = xe ^ 3 + A * xe + B)
    {u : ZMod m} (hu : lu.Rep m u) :
    ∃ lx ly x y, M.mapToCurve C inv lu la lb lz = .ok (lx, ly) ∧
      lx.Rep m x ∧ ly.Rep m y ∧ IsSswu A B Z u x y := by
  haveI := hM.neZero
  simp only [mapToCurve]
  have ht := rep_mul hM hZ (rep_mul hM hu hu)
  generalize M.mul lz (M.mul lu lu) = lt at ht ⊢
  have hs := rep_add hM (rep_mul hM ht ht) ht
  obtain ⟨t, et⟩ : ∃ t, t = Z * (u * u) := ⟨_, rfl⟩
  rw [← et] at ht hs
  generalize M.add (M.mul lt lt) lt = ls at hs ⊢
  obtain ⟨s, es⟩ : ∃ s, s = t * t + t := ⟨_, rfl⟩
  rw [← es] at hs
  have hn := rep_mul hM hB (rep_add hM hs (rep_one hM))
  generalize M.mul lb (M.add ls M.one) = ln at hn ⊢
  obtain ⟨n, en⟩ : ∃ n, n = B * (s + 1) := ⟨_, rfl⟩
  rw [← en] at hn
  have hif : (if ctEq ls zero then lz else M.neg ls).Rep m (if s = 0 then Z else -s) := by
    have hc := ctEq_iff hM hs (rep_zero hM)
    by_cases h0 : s = 0
    · rw [if_pos (hc.mpr h0), if_pos h0]; exact hZ
    · rw [if_neg (fun h => h0 (hc.mp h)), if_neg h0]; exact rep_neg hM hs
  have hd := rep_mul hM hA hif
  generalize M.mul la (if ctEq ls zero then lz else M.neg ls) = ld at hd ⊢
  obtain ⟨d, ed⟩ : ∃ d, d = A * (if s = 0 then Z else -s) := ⟨_, rfl⟩
  rw [← ed] at hd
  have hdd := rep_mul hM hd hd
  have hddd := rep_mul hM hdd hd
  have hnum := rep_add hM (rep_mul hM (rep_add hM (rep_mul hM hn hn) (rep_mul hM hA hdd)) hn)
    (rep_mul hM hB hddd)
  have hd0 : d ≠ 0 := by
    rw [ed]
    apply mul_ne_zero hA0
    split_ifs with h0
    · exact hZ0
    · exact neg_ne_zero.mpr h0
  have hx1 : sswuX1 A B Z u = n * d⁻¹ := by
    have hs' : Z ^ 2 * u ^ 4 + Z * u ^ 2 = s := by rw [es, et]; ring
    rw [sswuX1, hs', en, ed]
    split_ifs with h0
    · rw [h0, zero_add, mul_one, div_eq_mul_inv, mul_comm Z]
    · field_simp
      try ring
  have hgx : (n * d⁻¹) ^ 3 + A * (n * d⁻¹) + B =
      ((n * n + A * (d * d)) * n + B * (d * d * d)) / (d * d * d) := by
    field_simp
  obtain ⟨y1, hy1, htrue, hfalse⟩ := sqrtRatio_spec hM hC hnum hddd
    (mul_ne_zero (mul_ne_zero hd0 hd0) hd0)
  obtain ⟨li, hli, hlir⟩ := hinv ld d hd hd0
  simp only [hli]
  generalize M.sqrtRatio C _ _ = sr at hy1 htrue hfalse ⊢
  obtain ⟨isSq, ly1⟩ := sr
  simp only at hy1 htrue hfalse ⊢
  have hxf := rep_mul hM ht hn
  have hyf := rep_mul hM (rep_mul hM ht hu) hy1
  have main : ∃ x y, (M.mul (if isSq = true then ln else M.mul lt ln) li).Rep m x ∧
      (if isSq = true then ly1 else M.mul (M.mul lt lu) ly1).Rep m y ∧
      ((IsSquare (sswuX1 A B Z u ^ 3 + A * sswuX1 A B Z u + B) ∧ x = sswuX1 A B Z u) ∨
        (¬ IsSquare (sswuX1 A B Z u ^ 3 + A * sswuX1 A B Z u + B) ∧ x = Z * u ^ 2 * sswuX1 A B Z u)) ∧
      y ^ 2 = x ^ 3 + A * x + B := by
    rw [hx1, hgx]
    cases isSq with
    | true =>
      exact ⟨_, _, rep_mul hM hn hlir, hy1, .inl ⟨(htrue rfl).2.1, rfl⟩, sswu_alg_true hd0 (htrue rfl).2.2⟩
    | false =>
      obtain ⟨hns, hyy⟩ := hfalse rfl
      have hnum0 : (n * n + A * (d * d)) * n + B * (d * d * d) ≠ 0 := by
        intro h0
        apply hg (n * d⁻¹)
        rw [hgx, h0, zero_div]
      refine ⟨_, _, rep_mul hM hxf hlir, hyf, .inr ⟨hns hnum0, by rw [et]; ring⟩, ?_⟩
      by_cases h0 : s = 0
      · exfalso
        rw [if_pos h0] at ed
        have hq : (n * n + A * (d * d)) * n + B * (d * d * d) = w ^ 2 * (d * d * d) := by
          rw [e2, en, ed, h0, ← e1]; ring
        rw [hq] at hns hnum0
        have hd3 := mul_ne_zero (mul_ne_zero hd0 hd0) hd0
        refine hns hnum0 ?_
        rw [mul_div_cancel_right₀ _ hd3]
        exact IsSquare.sq _
      · rw [if_neg h0] at ed
        exact sswu_alg et es ed en hd0 hyy
  generalize M.mul (if isSq = true then ln else M.mul lt ln) li = lx at main ⊢
  generalize (if isSq = true then ly1 else M.mul (M.mul lt lu) ly1) = ly at main ⊢
  obtain ⟨x, y, hx, hy, hxx, hxy⟩ := main
  have hy0 : y ≠ 0 := by
    rintro rfl
    apply hg x
    rw [← hxy]; ring
  have o1 := isOdd_eq hM hu
  have o2 := isOdd_eq hM hy
  by_cases hodd' : (M.isOdd lu == M.isOdd ly) = true
  · rw [if_pos hodd']
    refine ⟨_, _, x, y, rfl, hx, hy, hxx, hxy, ?_⟩
    rw [o1, o2, beq_iff_eq, decide_eq_decide] at hodd'
    omega
  · rw [if_neg hodd']
    refine ⟨_, _, x, -y, rfl, hx, rep_neg hM hy, hxx, by rw [neg_sq]; exact hxy, ?_⟩
    rw [o1, o2, beq_iff_eq, decide_eq_decide] at hodd'
    rw [val_neg_parity hodd hy0]
    omega

/-- The map of the code, with its constants. -/
theorem mapToCurve_std {lu : Limbs} {u : ZMod secpN} (hu : lu.Rep secpN u) :
    ∃ lx ly x y, paramsQ.mapToCurve sqrtConstsQ paramsQ.invertQ lu isoA isoB isoZ = .ok (lx, ly) ∧
      lx.Rep secpN x ∧ ly.Rep secpN y ∧ IsSswu (iso_A : ZMod secpN) (iso_B : ZMod secpN) (-14) u x y := by
  have e1 := iso_xe_eq
  have e2 := iso_we_eq
  rw [Nat.cast_mul, Nat.cast_mul, ← neg14] at e1
  rw [Nat.cast_pow, Nat.cast_add, Nat.cast_add, Nat.cast_mul, Nat.cast_pow] at e2
  exact mapToCurve_std_gen valid_Q (by decide +kernel) sqrtConstsQ_valid (fun a x ha => (invertQ_eq ha).2)
    rep_isoA rep_isoB rep_isoZ iso_A_ne neg14_ne isoG_ne e1 e2 hu

/-! ### Preimages -/

theorem sswu_unique {m : ℕ} [Fact m.Prime] (hodd : m % 2 = 1) {A B Z u x y x' y' : ZMod m} (h : IsSswu A B Z u x y)
    (h' : IsSswu A B Z u x' y') : x = x' ∧ y = y' := by
  have hx : x = x' := by
    rcases h.x_eq with ⟨h1, e1⟩ | ⟨h1, e1⟩ <;> rcases h'.x_eq with ⟨h2, e2⟩ | ⟨h2, e2⟩
    · rw [e1, e2]
    · exact absurd h1 h2
    · exact absurd h2 h1
    · rw [e1, e2]
  refine ⟨hx, ?_⟩
  subst hx
  have h2 : y ^ 2 = y' ^ 2 := by rw [h.on, h'.on]
  rcases sq_eq_sq_iff_eq_or_eq_neg.mp h2 with e | e
  · exact e
  · by_cases h0 : y' = 0
    · rw [e, h0, neg_zero]
    · have := val_neg_parity hodd h0
      have a := h.sign
      have b := h'.sign
      rw [e] at a
      omega

open Polynomial in
/-- No point has more than five preimages under the map. -/
theorem sswu_fibre {m : ℕ} [Fact m.Prime] (hodd : m % 2 = 1) {A B Z : ZMod m} (hA0 : A ≠ 0) (hB0 : B ≠ 0) (hZ0 : Z ≠ 0)
    (h1 : ¬ IsSquare (-Z)) (x y : ZMod m) :
    ∃ S : Finset (ZMod m), S.card ≤ 5 ∧ ∀ u, IsSswu A B Z u x y → u ∈ S := by
  classical
  let f1 : (ZMod m)[X] := C (A * x + B) * X ^ 2 + C (A * x + B) * X + C B
  let f2 : (ZMod m)[X] := C B * X ^ 2 + C (B + x * A) * X + C (B + x * A)
  let R : Finset (ZMod m) := insert 0 (f1.roots.toFinset ∪ f2.roots.toFinset)
  have d1 : f1.natDegree ≤ 2 := by simp only [f1]; compute_degree
  have d2 : f2.natDegree ≤ 2 := by simp only [f2]; compute_degree
  have hR : R.card ≤ 5 := by
    refine (Finset.card_insert_le _ _).trans ?_
    have := Finset.card_union_le f1.roots.toFinset f2.roots.toFinset
    have a1 := (Multiset.toFinset_card_le f1.roots).trans ((card_roots' f1).trans d1)
    have a2 := (Multiset.toFinset_card_le f2.roots).trans ((card_roots' f2).trans d2)
    omega
  have n1 : f1 ≠ 0 := by
    intro h
    have := congrArg (coeff · 0) h
    simp [f1] at this
    exact hB0 this
  have n2 : f2 ≠ 0 := by
    intro h
    have := congrArg (coeff · 2) h
    simp [f2, coeff_X, coeff_C] at this
    exact hB0 this
  have hmem : ∀ u, IsSswu A B Z u x y → Z * u ^ 2 ∈ R := by
    intro u hu
    by_cases hs : Z ^ 2 * u ^ 4 + Z * u ^ 2 = 0
    · have : Z * u ^ 2 * (Z * u ^ 2 + 1) = 0 := by linear_combination hs
      rcases mul_eq_zero.mp this with h | h
      · rw [h]; exact Finset.mem_insert_self _ _
      · exfalso
        apply h1
        refine ⟨Z * u, ?_⟩
        linear_combination -Z * h
    · have hx1 : sswuX1 A B Z u = (-B / A) * (1 + 1 / (Z ^ 2 * u ^ 4 + Z * u ^ 2)) := by
        rw [sswuX1, if_neg hs]
      obtain ⟨s, es⟩ : ∃ s, s = Z ^ 2 * u ^ 4 + Z * u ^ 2 := ⟨_, rfl⟩
      rw [← es] at hx1 hs
      have hx1' : A * s * sswuX1 A B Z u = -B * (s + 1) := by
        rw [hx1]; field_simp
      refine Finset.mem_insert_of_mem (Finset.mem_union.mpr ?_)
      rcases hu.x_eq with ⟨-, hx⟩ | ⟨-, hx⟩
      · left
        rw [Multiset.mem_toFinset, mem_roots n1, IsRoot.def]
        simp only [f1, eval_add, eval_mul, eval_C, eval_pow, eval_X]
        rw [← hx] at hx1'
        have : Z ^ 2 * u ^ 4 + Z * u ^ 2 = s := es.symm
        linear_combination hx1' + (A * x + B) * this
      · right
        rw [Multiset.mem_toFinset, mem_roots n2, IsRoot.def]
        simp only [f2, eval_add, eval_mul, eval_C, eval_pow, eval_X]
        have ht : Z * u ^ 2 ≠ 0 := by
          intro h
          apply hs
          rw [es]; linear_combination (Z * u ^ 2 + 1) * h
        apply mul_left_cancel₀ ht
        rw [mul_zero]
        have hh : A * s * x = -B * (s + 1) * (Z * u ^ 2) := by
          rw [hx]; linear_combination (Z * u ^ 2) * hx1'
        rw [es] at hh
        linear_combination hh
  have hinj : ∀ u u', IsSswu A B Z u x y → IsSswu A B Z u' x y → Z * u ^ 2 = Z * u' ^ 2 → u = u' := by
    intro u u' hu hu' h
    have hq := mul_left_cancel₀ hZ0 h
    rcases sq_eq_sq_iff_eq_or_eq_neg.mp hq with e | e
    · exact e
    · by_cases h0 : u' = 0
      · rw [e, h0, neg_zero]
      · have := val_neg_parity hodd h0
        have a := hu.sign
        have b := hu'.sign
        rw [e] at a
        omega
  refine ⟨Finset.univ.filter fun u => IsSswu A B Z u x y, ?_, fun u hu => by simpa using hu⟩
  refine le_trans (Finset.card_le_card_of_injOn (fun u => Z * u ^ 2) ?_ ?_) hR
  · intro u hu
    exact hmem u (by simpa using hu)
  · intro u hu u' hu' h
    exact hinj u u' (by simpa using hu) (by simpa using hu') h

/-! ### The isogeny is injective -/

theorem iso_disc_0 : ((iso_x0 : ℕ) : ZMod secpN) = ((28 * iso_x3 : ℕ) : ZMod secpN) := cast_eq_of_mod (by decide +kernel)
theorem iso_disc_2 : ((iso_x1 * iso_x1 : ℕ) : ZMod secpN) = ((4 * iso_x3 * iso_x0 * iso_g2 : ℕ) : ZMod secpN) :=
  cast_eq_of_mod (by decide +kernel)
theorem iso_disc_1 : ((2 * iso_x1 * iso_x0 : ℕ) : ZMod secpN) = ((4 * iso_x3 * iso_x0 * iso_g1 : ℕ) : ZMod secpN) :=
  cast_eq_of_mod (by decide +kernel)
theorem iso_x3_ne : ((iso_x3 : ℕ) : ZMod secpN) ≠ 0 := cast_ne_zero' (by decide +kernel)
theorem four_ne : ((4 : ℕ) : ZMod secpN) ≠ 0 := cast_ne_zero' (by decide +kernel)

/-- The abscissa of the image determines the abscissa of the point. -/
theorem iso_x_inj {x y x' y' : ZMod secpN} (h : y ^ 2 = isoG x) (h' : y' ^ 2 = isoG x')
    (e : (iso_k0 * x ^ 3 + iso_k1 * x ^ 2 + iso_k2 * x + iso_k3) * (x ^ 2 + iso_k4 * x + iso_k5)⁻¹ =
      (iso_k0 * x' ^ 3 + iso_k1 * x' ^ 2 + iso_k2 * x' + iso_k3) * (x' ^ 2 + iso_k4 * x' + iso_k5)⁻¹) : x = x' := by
  have hz := iso_pole h
  have hw := iso_pole h'
  have hy0 : y ≠ 0 := by
    rintro rfl
    exact isoG_ne x (by rw [← h]; ring)
  obtain ⟨s1, s2, -, s4, -⟩ := iso_shift x
  obtain ⟨-, t2, -, t4, -⟩ := iso_shift x'
  rw [s2, s4, t2, t4] at e
  rw [s1] at h
  have q0 := iso_disc_0
  have q1 := iso_disc_1
  have q2 := iso_disc_2
  have n3 := iso_x3_ne
  have n4 := four_ne
  rw [Nat.cast_mul, Nat.cast_ofNat] at q0
  simp only [Nat.cast_mul, Nat.cast_ofNat] at q1 q2 n4
  by_contra hne
  have hne' : (x + iso_c : ZMod secpN) - (x' + iso_c) ≠ 0 := by
    intro h0; apply hne; linear_combination h0
  generalize (x + iso_c : ZMod secpN) = z at *
  generalize (x' + iso_c : ZMod secpN) = v at *
  generalize ((iso_x3 : ℕ) : ZMod secpN) = a3 at *
  generalize ((iso_x2 : ℕ) : ZMod secpN) = a2 at *
  generalize ((iso_x1 : ℕ) : ZMod secpN) = a1 at *
  generalize ((iso_x0 : ℕ) : ZMod secpN) = a0 at *
  generalize ((iso_g1 : ℕ) : ZMod secpN) = b1 at *
  generalize ((iso_g2 : ℕ) : ZMod secpN) = b2 at *
  have hmul : (a3 * z ^ 3 + a2 * z ^ 2 + a1 * z + a0) * v ^ 2 = (a3 * v ^ 3 + a2 * v ^ 2 + a1 * v + a0) * z ^ 2 := by
    field_simp at e
    linear_combination e
  have hQ : a3 * z ^ 2 * v ^ 2 - (a1 * z + a0) * v - a0 * z = 0 := by
    apply mul_left_cancel₀ hne'
    linear_combination hmul
  apply seven_nonsq
  have hd : (2 * a3 * z ^ 2 * v - (a1 * z + a0)) ^ 2 = 7 * (4 * a3 * y) ^ 2 := by
    linear_combination (4 * a3 * z ^ 2) * hQ + z ^ 2 * q2 + z * q1 + (a0 + 4 * a3 * y ^ 2) * q0 - 4 * a3 * a0 * h
  refine ⟨(2 * a3 * z ^ 2 * v - (a1 * z + a0)) / (4 * a3 * y), ?_⟩
  have hne2 : 4 * a3 * y ≠ 0 := mul_ne_zero (mul_ne_zero n4 n3) hy0
  rw [← pow_two, div_pow, hd, mul_div_cancel_right₀ _ (pow_ne_zero 2 hne2)]

/-- The coefficients of the isogeny as field elements. -/
def isoK (i : ℕ) : ZMod secpN := ((iso_k.getD i 0 : ℕ) : ZMod secpN)

/-- `iso_map` is the rational map with these coefficients, and its image is on secq256k1. -/
theorem isoMap_std {lx ly : Limbs} {x y : ZMod secpN} (hx : lx.Rep secpN x) (hy : ly.Rep secpN y)
    (hxy : y ^ 2 = isoG x) :
    ∃ lx' ly' x' y', paramsQ.isoMap paramsQ.invertQ lx ly isoConstants = .ok (lx', ly') ∧
      lx'.Rep secpN x' ∧ ly'.Rep secpN y' ∧ IsIsoImage isoK x y x' y' ∧ y' ^ 2 = x' ^ 3 + 7 := by
  have hz := iso_pole hxy
  obtain ⟨s1, s2, s3, s4, s5⟩ := iso_shift x
  have d1 : x ^ 2 + isoK 4 * x + isoK 5 ≠ 0 := by
    show x ^ 2 + iso_k4 * x + iso_k5 ≠ 0
    rw [s4]; exact pow_ne_zero 2 hz
  have d2 : x ^ 3 + isoK 10 * x ^ 2 + isoK 11 * x + isoK 12 ≠ 0 := by
    show x ^ 3 + iso_k10 * x ^ 2 + iso_k11 * x + iso_k12 ≠ 0
    rw [s5]; exact pow_ne_zero 3 hz
  obtain ⟨lx', ly', h, hx', hy'⟩ := isoMap_gen valid_Q (fun a x ha => (invertQ_eq ha).2)
    (k := isoK) isoConstants_rep hx hy d1 d2
  refine ⟨lx', ly', _, _, h, hx', hy', ⟨d1, d2, ?_, ?_⟩, iso_on_curve hxy⟩
  · rw [div_eq_mul_inv]
  · rw [div_eq_mul_inv]

/-- Two points of the isogenous curve with the same image are equal. -/
theorem iso_inj {x y x' y' X Y : ZMod secpN} (h : y ^ 2 = isoG x) (h' : y' ^ 2 = isoG x')
    (i : IsIsoImage isoK x y X Y) (i' : IsIsoImage isoK x' y' X Y) : x = x' ∧ y = y' := by
  have hx : x = x' := by
    have e := i.abs.symm.trans i'.abs
    rw [div_eq_mul_inv, div_eq_mul_inv] at e
    exact iso_x_inj h h' e
  subst hx
  refine ⟨rfl, ?_⟩
  have e := i.ord.symm.trans i'.ord
  refine mul_right_cancel₀ ?_ e
  intro h0
  have hc := iso_on_curve h
  have h0' : ((iso_k6 * x ^ 3 + iso_k7 * x ^ 2 + iso_k8 * x + iso_k9)
        * (x ^ 3 + iso_k10 * x ^ 2 + iso_k11 * x + iso_k12)⁻¹ : ZMod secpN) = 0 := by
    rw [← div_eq_mul_inv]; exact h0
  rw [h0', mul_zero, zero_pow (by decide)] at hc
  exact neg_seven_noncubeQ _ (eq_neg_of_add_eq_zero_left hc.symm)

theorem fourteen_nonsq : ¬ IsSquare (-(-14) : ZMod secpN) := by
  rw [neg_neg]
  have h14 : ((14 : ℕ) : ZMod secpN) ≠ 0 := cast_ne_zero' (by decide +kernel)
  have e14 : (14 : ZMod secpN) = ((14 : ℕ) : ZMod secpN) := (Nat.cast_ofNat (n := 14)).symm
  rw [e14, ZMod.euler_criterion secpN h14]
  have h : ((14 : ℕ) : ZMod secpN) ^ (secpN / 2) = ((secpN - 1 : ℕ) : ZMod secpN) :=
    cast_pow_of_powMod (k := 256) (by decide +kernel) (by decide +kernel)
  rw [h]
  intro h1
  have h2 : ((secpN - 1 : ℕ) : ZMod secpN) = ((1 : ℕ) : ZMod secpN) := by rw [h1, Nat.cast_one]
  have h3 := (ZMod.natCast_eq_natCast_iff' _ _ _).mp h2
  revert h3
  decide +kernel

theorem iso_B_ne : ((iso_B : ℕ) : ZMod secpN) ≠ 0 := cast_ne_zero' (by decide +kernel)

/-- No point of secq256k1 comes from more than five field elements. -/
theorem std_fibre (X Y : ZMod secpN) : ∃ S : Finset (ZMod secpN), S.card ≤ 5 ∧
    ∀ u x y, IsSswu (iso_A : ZMod secpN) (iso_B : ZMod secpN) (-14) u x y → IsIsoImage isoK x y X Y → u ∈ S := by
  by_cases hex : ∃ u x y, IsSswu (iso_A : ZMod secpN) (iso_B : ZMod secpN) (-14) u x y ∧ IsIsoImage isoK x y X Y
  · obtain ⟨u0, x0, y0, h0, i0⟩ := hex
    obtain ⟨S, hS, hS'⟩ := sswu_fibre (m := secpN) (by decide +kernel) iso_A_ne iso_B_ne neg14_ne fourteen_nonsq
      x0 y0
    refine ⟨S, hS, fun u x y h i => hS' u ?_⟩
    obtain ⟨rfl, rfl⟩ := iso_inj h.on h0.on i i0
    exact h
  · refine ⟨∅, by simp, fun u x y h i => absurd ⟨u, x, y, h, i⟩ hex⟩

end MParams
end Spartan
