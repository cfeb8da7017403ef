import Mathlib.NumberTheory.LegendreSymbol.Basic
import Verif.Lemmas.LimbsInv
import Verif.Model.FieldOps

/-!
The inversion chain, the square-root chain and `sqrt_ratio`.
-/

set_option exponentiation.threshold 2000

namespace Spartan
namespace MParams

variable {M : MParams} {m : Nat}

theorem rep_chain_mul (hM : M.Valid m) {x : ZMod m} {a b : Limbs} {i j : Nat}
    (ha : a.Rep m (x ^ i)) (hb : b.Rep m (x ^ j)) : (M.mul a b).Rep m (x ^ (i + j)) := by
  rw [pow_add]; exact rep_mul hM ha hb

theorem rep_chain_sq (hM : M.Valid m) {x : ZMod m} {a : Limbs} {i : Nat} (k : Nat)
    (ha : a.Rep m (x ^ i)) : (M.pow2k a k).Rep m (x ^ (i * 2 ^ k)) := by
  rw [pow_mul]; exact rep_pow2k hM k ha

/-- The exponent of the inversion chain is `q - 2`. -/
theorem invertQ_eq {a : Limbs} {x : ZMod secpN} (ha : a.Rep secpN x) :
    (x = 0 → paramsQ.invertQ a = none) ∧
    (x ≠ 0 → ∃ b, paramsQ.invertQ a = some b ∧ b.Rep secpN x⁻¹) := by
  have hM := valid_Q
  have hz : ctEq a zero = true ↔ x = 0 := ctEq_iff hM ha (rep_zero hM)
  have x1 : a.Rep secpN (x ^ 1) := by rwa [pow_one]
  constructor
  · intro h
    rw [invertQ]
    rw [if_pos (hz.mpr h)]
  · intro h
    rw [invertQ]
    rw [if_neg (fun hc => h (hz.mp hc))]
    refine ⟨_, rfl, ?_⟩
    have x10 := rep_chain_sq hM 1 x1
    have x11 := rep_chain_mul hM x10 x1
    have x101 := rep_chain_mul hM x10 x11
    have x111 := rep_chain_mul hM x10 x101
    have x1001 := rep_chain_mul hM x10 x111
    have x1011 := rep_chain_mul hM x10 x1001
    have x1101 := rep_chain_mul hM x10 x1011
    have x6 := rep_chain_mul hM (rep_chain_sq hM 2 x1101) x1011
    have x8 := rep_chain_mul hM (rep_chain_sq hM 2 x6) x11
    have x14 := rep_chain_mul hM (rep_chain_sq hM 6 x8) x6
    have x28 := rep_chain_mul hM (rep_chain_sq hM 14 x14) x14
    have x56 := rep_chain_mul hM (rep_chain_sq hM 28 x28) x28
    have r := rep_chain_mul hM (rep_chain_sq hM 56 x56) x56
    have r := rep_chain_mul hM (rep_chain_sq hM 14 r) x14
    have r := rep_chain_mul hM (rep_chain_sq hM 3 r) x101
    have r := rep_chain_mul hM (rep_chain_sq hM 4 r) x111
    have r := rep_chain_mul hM (rep_chain_sq hM 4 r) x101
    have r := rep_chain_mul hM (rep_chain_sq hM 5 r) x1011
    have r := rep_chain_mul hM (rep_chain_sq hM 4 r) x1011
    have r := rep_chain_mul hM (rep_chain_sq hM 4 r) x111
    have r := rep_chain_mul hM (rep_chain_sq hM 5 r) x111
    have r := rep_chain_mul hM (rep_chain_sq hM 6 r) x1101
    have r := rep_chain_mul hM (rep_chain_sq hM 4 r) x101
    have r := rep_chain_mul hM (rep_chain_sq hM 3 r) x111
    have r := rep_chain_mul hM (rep_chain_sq hM 5 r) x1001
    have r := rep_chain_mul hM (rep_chain_sq hM 6 r) x101
    have r := rep_chain_mul hM (rep_chain_sq hM 10 r) x111
    have r := rep_chain_mul hM (rep_chain_sq hM 4 r) x111
    have r := rep_chain_mul hM (rep_chain_sq hM 9 r) x8
    have r := rep_chain_mul hM (rep_chain_sq hM 5 r) x1001
    have r := rep_chain_mul hM (rep_chain_sq hM 6 r) x1011
    have r := rep_chain_mul hM (rep_chain_sq hM 4 r) x1101
    have r := rep_chain_mul hM (rep_chain_sq hM 5 r) x11
    have r := rep_chain_mul hM (rep_chain_sq hM 6 r) x1101
    have r := rep_chain_mul hM (rep_chain_sq hM 10 r) x1101
    have r := rep_chain_mul hM (rep_chain_sq hM 4 r) x1001
    have r := rep_chain_mul hM (rep_chain_sq hM 6 r) x1
    have r := rep_chain_mul hM (rep_chain_sq hM 8 r) x6
    have hinv : x⁻¹ = x ^ (secpN - 2) := by
      have h1 : x ^ (secpN - 1) = 1 := ZMod.pow_card_sub_one_eq_one h
      have h2 : x * x ^ (secpN - 2) = 1 := by
        rw [← pow_succ', show secpN - 2 + 1 = secpN - 1 by decide +kernel, h1]
      exact inv_eq_of_mul_eq_one_right h2
    rw [hinv]
    have hexp : ∀ n k : Nat, n = k → x ^ n = x ^ k := fun _ _ h => by rw [h]
    refine Eq.mp (congrArg _ (hexp _ _ ?_)) r
    decide +kernel

/-- The exponent of the square-root chain is `(p + 1) / 4`. -/
theorem sqrtP_eq {a : Limbs} {x : ZMod secpP} (ha : a.Rep secpP x) :
    ∃ b, paramsP.sqrtP a = some b ∧ b.Rep secpP (x ^ ((secpP + 1) / 4)) := by
  have hM := valid_P
  have x1 : a.Rep secpP (x ^ 1) := by rwa [pow_one]
  refine ⟨_, rfl, ?_⟩
  have x2 := rep_chain_mul hM (rep_chain_sq hM 1 x1) x1
  have x3 := rep_chain_mul hM (rep_chain_sq hM 1 x2) x1
  have x6 := rep_chain_mul hM (rep_chain_sq hM 3 x3) x3
  have x9 := rep_chain_mul hM (rep_chain_sq hM 3 x6) x3
  have x11 := rep_chain_mul hM (rep_chain_sq hM 2 x9) x2
  have x22 := rep_chain_mul hM (rep_chain_sq hM 11 x11) x11
  have x44 := rep_chain_mul hM (rep_chain_sq hM 22 x22) x22
  have x88 := rep_chain_mul hM (rep_chain_sq hM 44 x44) x44
  have x176 := rep_chain_mul hM (rep_chain_sq hM 88 x88) x88
  have x220 := rep_chain_mul hM (rep_chain_sq hM 44 x176) x44
  have x223 := rep_chain_mul hM (rep_chain_sq hM 3 x220) x3
  have r := rep_chain_sq hM 2 (rep_chain_mul hM (rep_chain_sq hM 6
    (rep_chain_mul hM (rep_chain_sq hM 23 x223) x22)) x2)
  have hexp : ∀ n k : Nat, n = k → x ^ n = x ^ k := fun _ _ h => by rw [h]
  refine Eq.mp (congrArg _ (hexp _ _ ?_)) r
  decide +kernel

/-! ### `sqrt_ratio` -/

/-- A limb constant, given by its Montgomery value. -/
theorem rep_const {a : Limbs} {n : Nat} (h : a.val < m ∧ a.val % m = n * 2 ^ 256 % m) :
    a.Rep m (n : ZMod m) := by
  refine ⟨h.1, ?_⟩
  have : ((a.val % m : ℕ) : ZMod m) = ((n * 2 ^ 256 % m : ℕ) : ZMod m) := by rw [h.2]
  rw [ZMod.natCast_mod, ZMod.natCast_mod] at this
  rw [this]; push_cast; norm_num

/-- What the `sqrt_ratio` constants must be: `m - 1 = 2^c1 T` with `T` odd, and `Z` a non-square. -/
structure SqrtConsts.Valid (C : SqrtConsts) (m T : Nat) (Z : ZMod m) : Prop where
  c1_pos : 1 ≤ C.c1
  c1_le : C.c1 ≤ 62
  odd : T % 2 = 1
  card : m - 1 = 2 ^ C.c1 * T
  small : T < m
  c3 : C.c3.Rep m (((T - 1) / 2 : ℕ) : ZMod m)
  c4 : C.c4.Rep m ((2 ^ C.c1 - 1 : ℕ) : ZMod m)
  c5 : C.c5.Rep m ((2 ^ (C.c1 - 1) : ℕ) : ZMod m)
  c6 : C.c6.Rep m (Z ^ T)
  c7 : ∃ w, C.c7.Rep m w ∧ w ^ 2 = Z * Z ^ T
  nonsq : Z ^ ((m - 1) / 2) = -1

theorem val_cast_small (hM : M.Valid m) {n : Nat} (h : n < m) : ((n : ℕ) : ZMod m).val = n := by
  haveI := hM.neZero
  rw [ZMod.val_natCast, Nat.mod_eq_of_lt h]

theorem sq_eq_one_iff_of_ne [Fact m.Prime] {a : ZMod m} (h : a ^ 2 = 1) : a = 1 ∨ a = -1 := by
  have : (a - 1) * (a + 1) = 0 := by linear_combination h
  rcases mul_eq_zero.mp this with h | h
  · exact Or.inl (sub_eq_zero.mp h)
  · exact Or.inr (eq_neg_of_add_eq_zero_left h)

theorem sqrtLoop_nil (s : Limbs × Limbs × Limbs) : M.sqrtLoop 0 s = s.2.1 := by simp [sqrtLoop]

theorem sqrtLoop_succ (s : Limbs × Limbs × Limbs) (n : Nat) :
    M.sqrtLoop (n + 1) s = M.sqrtLoop n (M.sqrtStep (n + 2) s) := by
  simp [sqrtLoop, List.range_succ]

/-- A zero candidate stays zero. -/
theorem sqrtLoop_zero (hM : M.Valid m) :
    ∀ (n : Nat), n ≤ 62 → ∀ (l1 l3 l4 : Limbs) (c τ : ZMod m),
    l1.Rep m c → l3.Rep m 0 → l4.Rep m τ →
    ∃ r, (M.sqrtLoop n (l1, l3, l4)).Rep m r ∧ r = 0
  | 0, _, l1, l3, l4, c, τ, h1, h3, h4 => ⟨0, by rw [sqrtLoop_nil]; exact h3, rfl⟩
  | n + 1, hn, l1, l3, l4, c, τ, h1, h3, h4 => by
    have hcc := rep_mul hM h1 h1
    have h30 := rep_mul hM h3 h1
    rw [zero_mul] at h30
    rw [sqrtLoop_succ, sqrtStep]
    split
    · exact sqrtLoop_zero hM n (by omega) _ _ _ _ _ hcc h3 h4
    · exact sqrtLoop_zero hM n (by omega) _ _ _ _ _ hcc h30 (rep_mul hM h4 hcc)

/-- The loop finds a square root of `v⁻¹ u` when its invariant holds. -/
theorem sqrtLoop_spec (hM : M.Valid m) [Fact m.Prime] {u v : ZMod m} :
    ∀ (n : Nat), n ≤ 62 → ∀ (l1 l3 l4 : Limbs) (c y τ : ZMod m),
    l1.Rep m c → l3.Rep m y → l4.Rep m τ →
    τ ^ 2 ^ n = 1 → c ^ 2 ^ n = -1 → y ^ 2 * v = τ * u →
    ∃ r, (M.sqrtLoop n (l1, l3, l4)).Rep m r ∧ r ^ 2 * v = u
  | 0, _, l1, l3, l4, c, y, τ, h1, h3, h4, hτ, hc, hy => by
    refine ⟨y, by rw [sqrtLoop_nil]; exact h3, ?_⟩
    rw [pow_zero, pow_one] at hτ
    rw [hy, hτ, one_mul]
  | n + 1, hn, l1, l3, l4, c, y, τ, h1, h3, h4, hτ, hc, hy => by
    have hbig := hM.big
    have h2 : (M.fromU64 2).Rep m ((2 : ℕ) : ZMod m) := rep_fromU64 hM 2
    have hi : (M.fromU64 (UInt64.ofNat (n + 2))).Rep m ((n + 2 : ℕ) : ZMod m) := by
      have := rep_fromU64 hM (UInt64.ofNat (n + 2))
      rwa [UInt64.toNat_ofNat', Nat.mod_eq_of_lt (by omega)] at this
    have hd := rep_sub hM hi h2
    have hdn : ((n + 2 : ℕ) : ZMod m) - ((2 : ℕ) : ZMod m) = ((n : ℕ) : ZMod m) := by
      push_cast; ring
    rw [hdn] at hd
    have hsm : n < m := by omega
    have hp1 := rep_powBySelf hM h2 hd
    rw [val_cast_small hM hsm] at hp1
    have hpw : ((2 : ℕ) : ZMod m) ^ n = ((2 ^ n : ℕ) : ZMod m) := by push_cast; rfl
    rw [hpw] at hp1
    have h2n : 2 ^ n < m := lt_of_lt_of_le (Nat.pow_lt_pow_right (by norm_num)
      (show n < 255 by omega)) hbig.le
    have hp2 := rep_powBySelf hM h4 hp1
    rw [val_cast_small hM h2n] at hp2
    have he := ctEq_iff hM hp2 (rep_one hM)
    have hcc := rep_mul hM h1 h1
    have hc' : (c * c) ^ 2 ^ n = -1 := by
      rw [← pow_two, ← pow_mul, ← hc, pow_succ, mul_comm]
    rw [sqrtLoop_succ, sqrtStep]
    by_cases hb : τ ^ 2 ^ n = 1
    · rw [if_pos (he.mpr hb), if_pos (he.mpr hb)]
      exact sqrtLoop_spec hM n (by omega) _ _ _ _ _ _ hcc h3 h4 hb hc' hy
    · rw [if_neg (fun h => hb (he.mp h)), if_neg (fun h => hb (he.mp h))]
      refine sqrtLoop_spec hM n (by omega) _ _ _ _ _ _ hcc (rep_mul hM h3 h1)
        (rep_mul hM h4 hcc) ?_ hc' ?_
      · have : τ ^ 2 ^ n = -1 := by
          have h5 : (τ ^ 2 ^ n) ^ 2 = 1 := by rw [← pow_mul, ← pow_succ]; exact hτ
          rcases sq_eq_one_iff_of_ne h5 with h6 | h6
          · exact absurd h6 hb
          · exact h6
        rw [mul_pow, this, hc']; ring
      · linear_combination (c * c) * hy

/-- `sqrt_ratio` on residues. -/
theorem sqrtRatio_spec (hM : M.Valid m) [Fact m.Prime] {C : SqrtConsts} {T : Nat} {Z : ZMod m}
    (hC : C.Valid m T Z) {lu lv : Limbs} {u v : ZMod m} (hu : lu.Rep m u) (hv : lv.Rep m v)
    (hv0 : v ≠ 0) :
    ∃ y, (M.sqrtRatio C lu lv).2.Rep m y ∧
      ((M.sqrtRatio C lu lv).1 = true → u ≠ 0 ∧ IsSquare (u / v) ∧ y ^ 2 * v = u) ∧
      ((M.sqrtRatio C lu lv).1 = false → (u ≠ 0 → ¬ IsSquare (u / v)) ∧ y ^ 2 * v = Z * u) := by
  have hbig := hM.big
  have hT := hC.odd
  have hcard := hC.card
  have hc1 := hC.c1_pos
  obtain ⟨k, hk⟩ : ∃ k, C.c1 = k + 1 := ⟨C.c1 - 1, by omega⟩
  have hkle : k ≤ 61 := by have := hC.c1_le; omega
  have hsmall1 : 2 ^ C.c1 < m := lt_of_lt_of_le (Nat.pow_lt_pow_right (by norm_num)
    (show C.c1 < 255 by have := hC.c1_le; omega)) hbig.le
  have hsmall0 : 2 ^ (C.c1 - 1) < m := lt_of_le_of_lt
    (Nat.pow_le_pow_right (by norm_num) (by omega)) hsmall1
  have h2 : (M.fromU64 2).Rep m ((2 : ℕ) : ZMod m) := rep_fromU64 hM 2
  -- the straight-line part
  have t2 := rep_powBySelf hM hv hC.c4
  rw [val_cast_small hM (by omega)] at t2
  have t3 := rep_powBySelf hM t2 h2
  rw [val_cast_small hM (by omega), ← pow_mul] at t3
  have t3' := rep_mul hM t3 hv
  rw [← pow_succ] at t3'
  set e := (2 ^ C.c1 - 1) * 2 + 1 with he
  have t5 := rep_mul hM hu t3'
  have t5' := rep_powBySelf hM t5 hC.c3
  rw [val_cast_small hM (by have := hC.small; omega)] at t5'
  have tw := rep_mul hM t5' t2
  set w := (u * v ^ e) ^ ((T - 1) / 2) * v ^ (2 ^ C.c1 - 1) with hw
  have s2 := rep_mul hM tw hv
  have s3 := rep_mul hM tw hu
  have s4 := rep_mul hM s3 s2
  set τ := (u * v ^ e) ^ T with hτ
  have hτw : w * u * (w * v) = τ := by
    have h1 : (T - 1) / 2 * 2 + 1 = T := by omega
    calc w * u * (w * v) = ((u * v ^ e) ^ ((T - 1) / 2)) ^ 2
          * (u * ((v ^ (2 ^ C.c1 - 1)) ^ 2 * v)) := by rw [hw]; ring
      _ = (u * v ^ e) ^ ((T - 1) / 2 * 2) * (u * v ^ e) := by
          rw [← pow_mul, ← pow_mul, ← pow_succ]
      _ = τ := by rw [← pow_succ, h1]
  rw [hτw] at s4
  have hy : (w * u) ^ 2 * v = τ * u := by rw [← hτw]; ring
  have t6 := rep_powBySelf hM s4 hC.c5
  rw [val_cast_small hM hsmall0] at t6
  have hq := ctEq_iff hM t6 (rep_one hM)
  obtain ⟨c7, h7, h7sq⟩ := hC.c7
  have n3 := rep_mul hM s3 h7
  have n4 := rep_mul hM s4 hC.c6
  -- the exponent is (m-1)/2
  have hexp : T * 2 ^ (C.c1 - 1) = (m - 1) / 2 := by
    rw [hcard, hk, Nat.add_sub_cancel, pow_succ]
    rw [show 2 ^ k * 2 * T = T * 2 ^ k * 2 by ring, Nat.mul_div_cancel _ (by norm_num)]
  have hm2 : m / 2 = (m - 1) / 2 := by have := hM.odd; omega
  have hZc : (Z ^ T) ^ 2 ^ (C.c1 - 1) = -1 := by rw [← pow_mul, hexp]; exact hC.nonsq
  have hτexp : τ ^ 2 ^ (C.c1 - 1) = (u * v ^ e) ^ ((m - 1) / 2) := by
    rw [hτ, ← pow_mul, hexp]
  have hone : ∀ z : ZMod m, z ≠ 0 → (z ^ ((m - 1) / 2)) ^ 2 = 1 := by
    intro z hz
    rw [← pow_mul, Nat.div_mul_cancel, ZMod.pow_card_sub_one_eq_one hz]
    have := hM.odd; omega
  -- squareness of u v^e is squareness of u / v
  have hsq : u ≠ 0 → (IsSquare (u / v) ↔ τ ^ 2 ^ (C.c1 - 1) = 1) := by
    intro hu0
    rw [hτexp]
    have hr : (u * v ^ e) ^ ((m - 1) / 2) = (u / v) ^ ((m - 1) / 2) := by
      have h1 : u * v ^ e = u / v * (v ^ (2 ^ C.c1)) ^ 2 := by
        rw [← pow_mul, div_mul_eq_mul_div, mul_div_assoc]
        congr 1
        rw [eq_div_iff hv0, ← pow_succ]
        congr 1
        have : 1 ≤ 2 ^ C.c1 := Nat.one_le_two_pow
        omega
      rw [h1, mul_pow, ← pow_mul, mul_comm 2, pow_mul, hone _ (pow_ne_zero _ hv0), mul_one]
    rw [hr, ZMod.euler_criterion m (div_ne_zero hu0 hv0), hm2]
  rw [sqrtRatio]
  simp only
  by_cases hb : τ ^ 2 ^ (C.c1 - 1) = 1
  · have hqt := hq.mpr hb
    rw [if_pos hqt, if_pos hqt, hqt]
    obtain ⟨r, hr, hr2⟩ := sqrtLoop_spec hM (u := u) (v := v) (C.c1 - 1) (by omega) _ _ _ _ _ _
      hC.c6 s3 s4 hb hZc hy
    refine ⟨r, hr, fun _ => ?_, fun h => by simp at h⟩
    have hu0 : u ≠ 0 := by
      intro h0
      rw [hτexp, h0, zero_mul, zero_pow (by have := hM.big; omega)] at hb
      exact zero_ne_one hb
    exact ⟨hu0, (hsq hu0).mpr hb, hr2⟩
  · have hqf : ¬ (ctEq (M.powBySelf _ C.c5) M.one = true) := fun h => hb (hq.mp h)
    rw [if_neg hqf, if_neg hqf]
    rw [Bool.not_eq_true] at hqf
    rw [hqf]
    by_cases hu0 : u = 0
    · -- u = 0: everything stays zero
      subst hu0
      have hz : (0 : ZMod m) * c7 = 0 := zero_mul _
      obtain ⟨r, hr, hr2⟩ : ∃ r, (M.sqrtLoop (C.c1 - 1) (C.c6, M.mul (M.mul _ lu) C.c7,
          M.mul _ C.c6)).Rep m r ∧ r = 0 :=
        sqrtLoop_zero hM (C.c1 - 1) (by omega) _ _ _ _ _ hC.c6 (by
          have := n3; rw [mul_zero, zero_mul] at this; exact this) n4
      refine ⟨r, hr, fun h => by simp at h, fun _ => ⟨fun h => absurd rfl h, ?_⟩⟩
      rw [hr2]; ring
    · have hτ1 : τ ^ 2 ^ (C.c1 - 1) = -1 := by
        have h5 := hone (u * v ^ e) (mul_ne_zero hu0 (pow_ne_zero _ hv0))
        rw [← hτexp] at h5
        rcases sq_eq_one_iff_of_ne h5 with h6 | h6
        · exact absurd h6 hb
        · exact h6
      obtain ⟨r, hr, hr2⟩ := sqrtLoop_spec hM (u := Z * u) (v := v) (C.c1 - 1) (by omega)
        _ _ _ _ _ _ hC.c6 n3 n4 (by rw [mul_pow, hτ1, hZc]; ring) hZc (by
          linear_combination c7 ^ 2 * hy + τ * u * h7sq)
      exact ⟨r, hr, fun h => by simp at h, fun _ => ⟨fun _ h => hb ((hsq hu0).mp h), hr2⟩⟩

end MParams
end Spartan
