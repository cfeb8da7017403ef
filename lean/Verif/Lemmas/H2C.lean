import Verif.Lemmas.H2CConsts
import Verif.Lemmas.LC

/-!
Hash-to-curve on limbs: the simplified SWU map and the isogeny.
-/

set_option exponentiation.threshold 2000

namespace Spartan
namespace MParams

/-- A root witness for the exceptional case of the map, `x = B / (Z A)`. -/
def iso_xe : Nat := 102200123046123364714653193882129111733536103399449501982524930569131283434458
def iso_we : Nat := 113963015829023416685631210563009476524040961062505007817471599185805156216085

theorem iso_xe_eq : ((iso_xe * (secpN - 14) * iso_A : ℕ) : ZMod secpN) = ((iso_B : ℕ) : ZMod secpN) :=
  cast_eq_of_mod (by decide +kernel)

theorem iso_we_eq : ((iso_we ^ 2 : ℕ) : ZMod secpN)
    = ((iso_xe ^ 3 + iso_A * iso_xe + iso_B : ℕ) : ZMod secpN) :=
  cast_eq_of_mod (by decide +kernel)

theorem cast_ne_zero' {n : Nat} (h : n % secpN ≠ 0) : ((n : ℕ) : ZMod secpN) ≠ 0 := by
  rw [Ne, ZMod.natCast_eq_zero_iff]
  intro hd
  exact h (Nat.mod_eq_zero_of_dvd hd)

theorem iso_we_ne : ((iso_we : ℕ) : ZMod secpN) ≠ 0 := cast_ne_zero' (by decide +kernel)
theorem iso_A_ne : ((iso_A : ℕ) : ZMod secpN) ≠ 0 := cast_ne_zero' (by decide +kernel)
theorem neg14_ne : (-14 : ZMod secpN) ≠ 0 := by rw [neg14]; exact cast_ne_zero' (by decide +kernel)

theorem rep_isoA : isoA.Rep secpN (iso_A : ZMod secpN) := rep_const (by decide +kernel)
theorem rep_isoB : isoB.Rep secpN (iso_B : ZMod secpN) := rep_const (by decide +kernel)
theorem rep_isoZ : isoZ.Rep secpN (-14 : ZMod secpN) := by
  rw [neg14]; exact rep_const (by decide +kernel)

/-- The algebra of the simplified SWU map over any field. -/
theorem sswu_alg {F : Type} [Field F] {A B Z u t s d n y1 : F} (ht : t = Z * (u * u))
    (hs : s = t * t + t) (hd : d = A * (-s)) (hn : n = B * (s + 1)) (hd0 : d ≠ 0)
    (hy : y1 ^ 2 * (d * d * d) = Z * ((n * n + A * (d * d)) * n + B * (d * d * d))) :
    (t * u * y1) ^ 2 = (t * n * d⁻¹) ^ 3 + A * (t * n * d⁻¹) + B := by
  have key : A * t * n * d ^ 2 * (1 - t ^ 2) + B * d ^ 3 * (1 - t ^ 3) = 0 := by
    rw [hd, hn, hs]; ring
  field_simp
  have hZ : Z * u ^ 2 = t := by rw [ht]; ring
  linear_combination (t ^ 2 * u ^ 2) * hy
    + (t ^ 2 * ((n * n + A * (d * d)) * n + B * (d * d * d))) * hZ - key

theorem sswu_alg_true {F : Type} [Field F] {A B d n y1 : F} (hd0 : d ≠ 0)
    (hy : y1 ^ 2 * (d * d * d) = (n * n + A * (d * d)) * n + B * (d * d * d)) :
    y1 ^ 2 = (n * d⁻¹) ^ 3 + A * (n * d⁻¹) + B := by
  field_simp
  linear_combination hy

/-- The simplified SWU map returns a point of the curve `y² = x³ + A x + B` for every field
element, when `Z` is a non-square and `x = B / (Z A)` is the abscissa of a point. -/
theorem mapToCurve_gen {M : MParams} {m : Nat} (hM : M.Valid m) [Fact m.Prime] {C : SqrtConsts}
    {T : Nat} {A B Z : ZMod m} (hC : C.Valid m T Z) {inv : Limbs → Option Limbs}
    (hinv : ∀ (a : Limbs) (x : ZMod m), a.Rep m x → x ≠ 0 → ∃ b, inv a = some b ∧ b.Rep m x⁻¹)
    {la lb lz lu : Limbs} (hA : la.Rep m A) (hB : lb.Rep m B) (hZ : lz.Rep m Z)
    (hA0 : A ≠ 0) (hZ0 : Z ≠ 0)
    {w xe : ZMod m} (hw : w ≠ 0) (e1 : xe * Z * A = B) (e2 : w ^ 2 = xe ^ 3 + A * xe + B)
    {u : ZMod m} (hu : lu.Rep m u) :
    ∃ lx ly x y, M.mapToCurve C inv lu la lb lz = .ok (lx, ly) ∧
      lx.Rep m x ∧ ly.Rep m y ∧ y ^ 2 = x ^ 3 + A * x + B := by
  simp only [mapToCurve]
  have ht := rep_mul hM hZ (rep_mul hM hu hu)
  generalize M.mul lz (M.mul lu lu) = lt at ht ⊢
  have hs := rep_add hM (rep_mul hM ht ht) ht
  obtain ⟨t, et⟩ : ∃ t, t = Z * (u * u) := ⟨_, rfl⟩
  rw [← et] at ht hs
  generalize M.add (M.mul lt lt) lt = ls at hs ⊢
  obtain ⟨s, es⟩ : ∃ s, s = t * t + t := ⟨_, rfl⟩
  rw [← es] at hs
  have hn := rep_mul hM hB (rep_add hM hs (rep_one hM))
  generalize M.mul lb (M.add ls M.one) = ln at hn ⊢
  obtain ⟨n, en⟩ : ∃ n, n = B * (s + 1) := ⟨_, rfl⟩
  rw [← en] at hn
  have hif : (if ctEq ls zero then lz else M.neg ls).Rep m (if s = 0 then Z else -s) := by
    have hc := ctEq_iff hM hs (rep_zero hM)
    by_cases h0 : s = 0
    · rw [if_pos (hc.mpr h0), if_pos h0]; exact hZ
    · rw [if_neg (fun h => h0 (hc.mp h)), if_neg h0]; exact rep_neg hM hs
  have hd := rep_mul hM hA hif
  generalize M.mul la (if ctEq ls zero then lz else M.neg ls) = ld at hd ⊢
  obtain ⟨d, ed⟩ : ∃ d, d = A * (if s = 0 then Z else -s) := ⟨_, rfl⟩
  rw [← ed] at hd
  have hdd := rep_mul hM hd hd
  have hddd := rep_mul hM hdd hd
  have hnum := rep_add hM (rep_mul hM (rep_add hM (rep_mul hM hn hn) (rep_mul hM hA hdd)) hn)
    (rep_mul hM hB hddd)
  have hd0 : d ≠ 0 := by
    rw [ed]
    apply mul_ne_zero hA0
    split_ifs with h0
    · exact hZ0
    · exact neg_ne_zero.mpr h0
  obtain ⟨y1, hy1, htrue, hfalse⟩ := sqrtRatio_spec hM hC hnum hddd
    (mul_ne_zero (mul_ne_zero hd0 hd0) hd0)
  obtain ⟨li, hli, hlir⟩ := hinv ld d hd hd0
  simp only [hli]
  generalize M.sqrtRatio C _ _ = sr at hy1 htrue hfalse ⊢
  obtain ⟨isSq, ly1⟩ := sr
  simp only at hy1 htrue hfalse ⊢
  have hxf := rep_mul hM ht hn
  have hyf := rep_mul hM (rep_mul hM ht hu) hy1
  have main : ∃ x y, (M.mul (if isSq = true then ln else M.mul lt ln) li).Rep m x ∧
      (if isSq = true then ly1 else M.mul (M.mul lt lu) ly1).Rep m y ∧
      y ^ 2 = x ^ 3 + A * x + B := by
    cases isSq with
    | true => exact ⟨_, _, rep_mul hM hn hlir, hy1, sswu_alg_true hd0 (htrue rfl).2.2⟩
    | false =>
      refine ⟨_, _, rep_mul hM hxf hlir, hyf, ?_⟩
      obtain ⟨hns, hyy⟩ := hfalse rfl
      by_cases h0 : s = 0
      · exfalso
        rw [if_pos h0] at ed
        have hq : (n * n + A * (d * d)) * n + B * (d * d * d) = w ^ 2 * (d * d * d) := by
          rw [e2, en, ed, h0, ← e1]; ring
        rw [hq] at hns
        have hd3 := mul_ne_zero (mul_ne_zero hd0 hd0) hd0
        refine hns (mul_ne_zero (pow_ne_zero 2 hw) hd3) ?_
        rw [mul_div_cancel_right₀ _ hd3]
        exact IsSquare.sq _
      · rw [if_neg h0] at ed
        exact sswu_alg et es ed en hd0 hyy
  generalize M.mul (if isSq = true then ln else M.mul lt ln) li = lx at main ⊢
  generalize (if isSq = true then ly1 else M.mul (M.mul lt lu) ly1) = ly at main ⊢
  obtain ⟨x, y, hx, hy, hxy⟩ := main
  by_cases hodd : (M.isOdd lu == M.isOdd ly) = true
  · rw [if_pos hodd]
    exact ⟨_, _, x, y, rfl, hx, hy, hxy⟩
  · rw [if_neg hodd]
    exact ⟨_, _, x, -y, rfl, hx, rep_neg hM hy, by rw [neg_sq]; exact hxy⟩

/-- `map_to_curve_simple_swu` returns a point of the isogenous curve for every field element. -/
theorem mapToCurve_spec {lu : Limbs} {u : ZMod secpN} (hu : lu.Rep secpN u) :
    ∃ lx ly x y, paramsQ.mapToCurve sqrtConstsQ paramsQ.invertQ lu isoA isoB isoZ = .ok (lx, ly) ∧
      lx.Rep secpN x ∧ ly.Rep secpN y ∧ y ^ 2 = isoG x := by
  have e1 := iso_xe_eq
  have e2 := iso_we_eq
  rw [Nat.cast_mul, Nat.cast_mul, ← neg14] at e1
  rw [Nat.cast_pow, Nat.cast_add, Nat.cast_add, Nat.cast_mul, Nat.cast_pow] at e2
  exact mapToCurve_gen valid_Q sqrtConstsQ_valid (fun a x ha => (invertQ_eq ha).2) rep_isoA rep_isoB
    rep_isoZ iso_A_ne neg14_ne iso_we_ne e1 e2 hu

/-- The evaluation of the isogeny formulas. -/
theorem isoMap_gen {M : MParams} {m : Nat} (hM : M.Valid m) {inv : Limbs → Option Limbs}
    (hinv : ∀ (a : Limbs) (x : ZMod m), a.Rep m x → x ≠ 0 → ∃ b, inv a = some b ∧ b.Rep m x⁻¹)
    {ks : List Limbs} {k : Nat → ZMod m} (hk : ∀ i < 13, (ks.getD i zero).Rep m (k i))
    {lx ly : Limbs} {x y : ZMod m} (hx : lx.Rep m x) (hy : ly.Rep m y)
    (h1 : x ^ 2 + k 4 * x + k 5 ≠ 0) (h2 : x ^ 3 + k 10 * x ^ 2 + k 11 * x + k 12 ≠ 0) :
    ∃ lx' ly', M.isoMap inv lx ly ks = .ok (lx', ly') ∧
      lx'.Rep m ((k 0 * x ^ 3 + k 1 * x ^ 2 + k 2 * x + k 3) * (x ^ 2 + k 4 * x + k 5)⁻¹) ∧
      ly'.Rep m (y * ((k 6 * x ^ 3 + k 7 * x ^ 2 + k 8 * x + k 9)
        * (x ^ 3 + k 10 * x ^ 2 + k 11 * x + k 12)⁻¹)) := by
  have hx2 : (M.pow lx 2 0 0 0).Rep m (x ^ 2) := by
    have := rep_pow hM hx 2 0 0 0
    rwa [show (⟨2, 0, 0, 0, 0⟩ : Limbs).val = 2 by decide +kernel] at this
  have hx3 : (M.mul (M.pow lx 2 0 0 0) lx).Rep m (x ^ 3) := by
    have := rep_mul hM hx2 hx
    rwa [← pow_succ] at this
  have hxn := rep_add hM (rep_add hM (rep_add hM (rep_mul hM (hk 0 (by decide)) hx3)
    (rep_mul hM (hk 1 (by decide)) hx2)) (rep_mul hM (hk 2 (by decide)) hx)) (hk 3 (by decide))
  have hxd := rep_add hM (rep_add hM hx2 (rep_mul hM (hk 4 (by decide)) hx)) (hk 5 (by decide))
  have hyn := rep_add hM (rep_add hM (rep_add hM (rep_mul hM (hk 6 (by decide)) hx3)
    (rep_mul hM (hk 7 (by decide)) hx2)) (rep_mul hM (hk 8 (by decide)) hx)) (hk 9 (by decide))
  have hyd := rep_add hM (rep_add hM (rep_add hM hx3 (rep_mul hM (hk 10 (by decide)) hx2))
    (rep_mul hM (hk 11 (by decide)) hx)) (hk 12 (by decide))
  obtain ⟨li, hli, hlir⟩ := hinv _ _ hxd h1
  obtain ⟨lj, hlj, hljr⟩ := hinv _ _ hyd h2
  unfold isoMap
  simp only [hli, hlj]
  exact ⟨_, _, rfl, rep_mul hM hxn hlir, rep_mul hM hy (rep_mul hM hyn hljr)⟩

/-- The isogeny constants in order. -/
def iso_k : List Nat := [iso_k0, iso_k1, iso_k2, iso_k3, iso_k4, iso_k5, iso_k6, iso_k7, iso_k8,
  iso_k9, iso_k10, iso_k11, iso_k12]

theorem isoConstants_rep : ∀ i < 13,
    (isoConstants.getD i zero).Rep secpN ((iso_k.getD i 0 : ℕ) : ZMod secpN) := by
  have h : ∀ i < 13, (isoConstants.getD i zero).val < secpN ∧
      (isoConstants.getD i zero).val % secpN = iso_k.getD i 0 * 2 ^ 256 % secpN := by
    decide +kernel
  exact fun i hi => rep_const (h i hi)

/-- `iso_map` maps a point of the isogenous curve to a point of `y² = x³ + 7`. -/
theorem isoMap_spec {lx ly : Limbs} {x y : ZMod secpN} (hx : lx.Rep secpN x) (hy : ly.Rep secpN y)
    (hxy : y ^ 2 = isoG x) :
    ∃ lx' ly' x' y', paramsQ.isoMap paramsQ.invertQ lx ly isoConstants = .ok (lx', ly') ∧
      lx'.Rep secpN x' ∧ ly'.Rep secpN y' ∧ y' ^ 2 = x' ^ 3 + 7 := by
  have hz := iso_pole hxy
  obtain ⟨s1, s2, s3, s4, s5⟩ := iso_shift x
  obtain ⟨lx', ly', h, hx', hy'⟩ := isoMap_gen valid_Q (fun a x ha => (invertQ_eq ha).2)
    (k := fun i => ((iso_k.getD i 0 : ℕ) : ZMod secpN)) isoConstants_rep hx hy
    (by
      show x ^ 2 + iso_k4 * x + iso_k5 ≠ 0
      rw [s4]; exact pow_ne_zero 2 hz)
    (by
      show x ^ 3 + iso_k10 * x ^ 2 + iso_k11 * x + iso_k12 ≠ 0
      rw [s5]; exact pow_ne_zero 3 hz)
  exact ⟨lx', ly', _, _, h, hx', hy', iso_on_curve hxy⟩

theorem hashToCurve_ok {M : MParams} {C : SqrtConsts} {inv : Limbs → Option Limbs}
    {u1 u2 a b z : Limbs} {k : List Limbs} {q1x q1y q2x q2y : Limbs} {p1 p2 : Limbs × Limbs}
    (e1 : M.mapToCurve C inv u1 a b z = .ok (q1x, q1y))
    (e2 : M.mapToCurve C inv u2 a b z = .ok (q2x, q2y))
    (e3 : M.isoMap inv q1x q1y k = .ok p1) (e4 : M.isoMap inv q2x q2y k = .ok p2) :
    M.hashToCurve C inv u1 u2 a b z k = .ok (p1, p2) := by
  simp only [hashToCurve, e1, e2, bind, Except.bind, e3, e4, pure, Except.pure]

end MParams

open MParams

theorem fromUniformBytes_ok {P : Type} {decode : List UInt8 → List UInt8 → Option P}
    {add : P → P → P} {bytes : List UInt8} {a b c d : Limbs} {p1 p2 : P}
    (e : paramsQ.hashToCurve sqrtConstsQ paramsQ.invertQ (paramsQ.fromBytesWide (bytes.take 64))
      (paramsQ.fromBytesWide (bytes.drop 64)) isoA isoB isoZ isoConstants = .ok ((a, b), (c, d)))
    (h1 : decode (paramsQ.toBeBytes a) (paramsQ.toBeBytes b) = some p1)
    (h2 : decode (paramsQ.toBeBytes c) (paramsQ.toBeBytes d) = some p2) :
    fromUniformBytes decode add bytes = .ok (add p1 p2) := by
  rw [fromUniformBytes, e, ok_bind]
  simp only [h1, h2]

theorem fromUniformBytes_congr {P : Type} {decode : List UInt8 → List UInt8 → Option P}
    {add : P → P → P} {b c : List UInt8}
    (e1 : paramsQ.fromBytesWide (b.take 64) = paramsQ.fromBytesWide (c.take 64))
    (e2 : paramsQ.fromBytesWide (b.drop 64) = paramsQ.fromBytesWide (c.drop 64)) :
    fromUniformBytes decode add b = fromUniformBytes decode add c := by
  rw [fromUniformBytes, fromUniformBytes, e1, e2]

end Spartan
