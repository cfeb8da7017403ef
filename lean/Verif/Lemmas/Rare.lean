import Verif.Lemmas.Circuits
import Verif.Model.Circuits
import Mathlib.Data.Set.Card
import Mathlib.Algebra.Polynomial.Roots
import Mathlib.Tactic.ComputeDegree
import Mathlib.Tactic.LinearCombination
import Mathlib.Data.Set.Card.Arithmetic

/-! Counting the scalars that meet an exceptional case of the signature circuits. -/

namespace Spartan.Rare

open Spartan.Spec Spartan.Circuit Polynomial

theorem encard_roots {F : Type} [Field F] {p : F[X]} (hp : p ≠ 0) {n : ℕ} (hn : p.natDegree ≤ n) :
    {x | p.IsRoot x}.encard ≤ n := by
  classical
  have : {x | p.IsRoot x} = ↑p.roots.toFinset := by
    ext x; simp [hp]
  rw [this, Set.encard_coe_eq_coe_finsetCard]
  exact_mod_cast (Multiset.toFinset_card_le _).trans ((card_roots' p).trans hn)

theorem curve_eq {x y : Fp} (h : (koblitz Fp).Nonsingular x y) : y ^ 2 = x ^ 3 + 7 :=
  Koblitz.equation_iff.mp h.1

/-- At most four points have a given ordinate. -/
theorem y_set (y : Fp) : {A : Secp | (xy A).2 = y}.encard ≤ 4 := by
  have hinj : Set.InjOn (fun A : Secp => (xy A).1) {A : Secp | (xy A).2 = y} := fun A hA B hB h =>
    xy_injective (Prod.ext h (hA.trans hB.symm))
  rw [← hinj.encard_image]
  have hdeg : (X ^ 3 + C (7 - y ^ 2) : Fp[X]).natDegree = 3 := by compute_degree!
  have hp : (X ^ 3 + C (7 - y ^ 2) : Fp[X]) ≠ 0 := fun h => by rw [h] at hdeg; simp at hdeg
  refine (Set.encard_le_encard (t := {x | (X ^ 3 + C (7 - y ^ 2) : Fp[X]).IsRoot x} ∪ {0}) ?_).trans
    ((Set.encard_union_le _ _).trans ?_)
  · rintro _ ⟨A, hA, rfl⟩
    by_cases h0 : A = 0
    · right; exact xy_x_zero.mpr h0
    · left
      obtain ⟨x1, y1, h1, rfl⟩ := Koblitz.exists_coords A h0
      have e := curve_eq h1
      have hy : y1 = y := hA
      show (X ^ 3 + C (7 - y ^ 2) : Fp[X]).IsRoot x1
      simp only [IsRoot.def, eval_add, eval_pow, eval_X, eval_C]
      rw [← hy, e]; ring
  · rw [Set.encard_singleton]
    have := encard_roots hp hdeg.le
    calc _ ≤ ((3 : ℕ) : ℕ∞) + 1 := by gcongr
      _ = 4 := by norm_num

/-- At most nine points `A` are such that the ordinates of `A` and `B + A` sum to one. -/
theorem d_set {B : Secp} (hB : B ≠ 0) : {A : Secp | FalseZero A (B + A)}.encard ≤ 9 := by
  obtain ⟨u, v, hn, rfl⟩ := Koblitz.exists_coords B hB
  have ev := curve_eq hn
  have h2 : (2 : Fp) ≠ 0 := Koblitz.secp_consts.1
  set S : Set Secp := {A | ∃ x y h, A = .some x y h ∧ x ≠ u ∧ FalseZero A (.some u v hn + A)} with hS
  have hsub : {A : Secp | FalseZero A (.some u v hn + A)} ⊆
      S ∪ {0, .some u v hn, -(.some u v hn)} := by
    intro A hA
    by_cases h0 : A = 0
    · right; left; exact h0
    · obtain ⟨x, y, h, rfl⟩ := Koblitz.exists_coords A h0
      by_cases hx : x = u
      · right; right
        exact eq_or_neg_of_x (P := .some x y h) (Q := .some u v hn) hx
      · left; exact ⟨x, y, h, rfl, hx, hA⟩
  -- the slope of the line
  have key : ∀ x y h, x ≠ u → FalseZero (.some x y h) (.some u v hn + .some x y h) →
      ∀ l, l = (y - v) / (x - u) → l ≠ 0 ∧ 2 * l * x = 1 + l ^ 3 - u * l ∧ y = v + l * (x - u) ∧
        l ^ 6 - 6 * u * l ^ 4 + 8 * v * l ^ 3 - 3 * u ^ 2 * l ^ 2 - 1 = 0 := by
    intro x y h hx hA l hl
    have hne : x - u ≠ 0 := sub_ne_zero.mpr hx
    have hl' : l * (x - u) = y - v := by rw [hl]; exact div_mul_cancel₀ _ hne
    have ey := curve_eq h
    obtain ⟨h', e⟩ := Koblitz.add_some h hn hx hl' rfl rfl
    rw [add_comm, e] at hA
    have hs : y + (l * (x - (l ^ 2 - x - u)) - y) = 1 := hA.2
    have e1 : 2 * l * x = 1 + l ^ 3 - u * l := by linear_combination hs
    have hl0 : l ≠ 0 := by
      rintro rfl
      simp at e1
    have e2 : y = v + l * (x - u) := by linear_combination -hl'
    have e3 : l * (2 * v + l * (x - u)) = x ^ 2 + x * u + u ^ 2 := by
      apply mul_left_cancel₀ hne
      rw [e2] at ey
      linear_combination ey - ev
    refine ⟨hl0, e1, e2, ?_⟩
    linear_combination (4 * l ^ 2) * e3 + (-2 * l ^ 3 + (2 * l * x + 1 + l ^ 3 - u * l) + 2 * u * l) * e1
  have hinj : Set.InjOn (fun A : Secp => ((xy A).2 - v) / ((xy A).1 - u)) S := by
    rintro _ ⟨x, y, h, rfl, hx, hA⟩ _ ⟨x', y', h', rfl, hx', hA'⟩ hl
    obtain ⟨k0, k1, k2, -⟩ := key x y h hx hA _ rfl
    obtain ⟨-, k1', k2', -⟩ := key x' y' h' hx' hA' _ hl
    have hx : x = x' := mul_left_cancel₀ (mul_ne_zero h2 k0) (k1.trans k1'.symm)
    subst hx
    have hy : y = y' := k2.trans k2'.symm
    subst hy
    rfl
  have hdeg : (X ^ 6 - C (6 * u) * X ^ 4 + C (8 * v) * X ^ 3 - C (3 * u ^ 2) * X ^ 2 - 1 : Fp[X]).natDegree = 6 := by
    compute_degree!
  have hp : (X ^ 6 - C (6 * u) * X ^ 4 + C (8 * v) * X ^ 3 - C (3 * u ^ 2) * X ^ 2 - 1 : Fp[X]) ≠ 0 := fun h => by
    rw [h] at hdeg; simp at hdeg
  have hS6 : S.encard ≤ ((6 : ℕ) : ℕ∞) := by
    rw [← hinj.encard_image]
    refine (Set.encard_le_encard ?_).trans (encard_roots hp hdeg.le)
    rintro _ ⟨_, ⟨x, y, h, rfl, hx, hA⟩, rfl⟩
    obtain ⟨-, -, -, k⟩ := key x y h hx hA _ rfl
    simp only [Set.mem_ofPred_eq, IsRoot.def, eval_add, eval_sub, eval_mul, eval_pow, eval_X, eval_C, eval_one]
    exact k
  have h3 : ({0, .some u v hn, -(.some u v hn)} : Set Secp).encard ≤ 3 := by
    refine (Set.encard_insert_le _ _).trans ?_
    refine (add_le_add_left (Set.encard_insert_le _ _) 1).trans ?_
    rw [Set.encard_singleton]; norm_num
  refine (Set.encard_le_encard hsub).trans ((Set.encard_union_le _ _).trans ?_)
  calc _ ≤ ((6 : ℕ) : ℕ∞) + 3 := add_le_add hS6 h3
    _ = 9 := by norm_num

/-! ### Scalars -/

theorem smul_inj {P : Secp} (hP : P ≠ 0) {a b : ℤ} (h : a • P = b • P) : (secpN : ℤ) ∣ a - b :=
  (zsmul_eq_zero_iff hP _).mp (by rw [sub_zsmul, h, add_neg_cancel])

/-- The points at which a step of the multiplication by `P` is exceptional. -/
def badStep (P : Secp) : Set Secp :=
  ({A | (xy A).2 = 1 - (xy (sgn true • P)).2} ∪ {A | (xy A).2 = 1 - (xy (sgn false • P)).2}) ∪
    ({A | FalseZero A (sgn true • P + A)} ∪ {A | FalseZero A (sgn false • P + A)})

theorem sgn_ne {P : Secp} (hP : P ≠ 0) (b : Bool) : sgn b • P ≠ 0 := by
  cases b <;> simpa [sgn] using hP

theorem badStep_card {P : Secp} (hP : P ≠ 0) : (badStep P).encard ≤ 26 := by
  refine (Set.encard_union_le _ _).trans ((add_le_add (Set.encard_union_le _ _) (Set.encard_union_le _ _)).trans ?_)
  calc _ ≤ ((4 : ℕ∞) + 4) + (9 + 9) :=
        add_le_add (add_le_add (y_set _) (y_set _)) (add_le_add (d_set (sgn_ne hP true)) (d_set (sgn_ne hP false)))
    _ = 26 := by norm_num

/-- If the multiples of `P` reached from the numbers `k` determine `k / m`, then few `k` reach a set of few points. -/
theorem fibre_card {f : ℕ → Secp} {K : Set ℕ} {S : Set Secp} {m c : ℕ} (hm : 0 < m) (hS : S.encard ≤ c)
    (hf : ∀ k ∈ K, ∀ k' ∈ K, f k = f k' → k / m = k' / m) : {k ∈ K | f k ∈ S}.encard ≤ c * m := by
  have hinj : Set.InjOn (fun k => (f k, k % m)) {k ∈ K | f k ∈ S} := by
    intro k hk k' hk' h
    rw [Prod.mk.injEq] at h
    have := hf k hk.1 k' hk'.1 h.1
    rw [← Nat.div_add_mod k m, ← Nat.div_add_mod k' m, this, h.2]
  rw [← hinj.encard_image]
  refine (Set.encard_le_encard (t := S ×ˢ (↑(Finset.range m) : Set ℕ)) ?_).trans ?_
  · rintro _ ⟨k, hk, rfl⟩
    exact ⟨hk.2, by simpa using Nat.mod_lt _ hm⟩
  · rw [Set.encard_prod, Set.encard_coe_eq_coe_finsetCard, Finset.card_range]
    gcongr

theorem step_card {P : Secp} (hP : P ≠ 0) {j : ℕ} (h1 : 1 ≤ j) (h3 : j ≤ 3) :
    {k ∈ {k : ℕ | k < secpN} | acc k (255 - j) • P ∈ badStep P}.encard ≤ (26 : ℕ) * (2 ^ (j + 1) : ℕ) := by
  refine fibre_card (by positivity) (by exact_mod_cast badStep_card hP) ?_
  intro k hk k' hk' h
  have hd := smul_inj hP h
  have hN := secpN_bounds
  have hk : k < secpN := hk
  have hk' : k' < secpN := hk'
  have hpow : (2 : ℕ) ^ 256 = 115792089237316195423570985008687907853269984665640564039457584007913129639936 := by norm_num
  have e : 256 - (255 - j) = j + 1 := by omega
  simp only [acc, e] at hd
  by_contra hne
  have hb : ∀ k : ℕ, k < secpN → 2 * (k / 2 ^ (j + 1)) < secpN := fun k hk => by
    have : k / 2 ^ (j + 1) * 2 ^ (j + 1) ≤ k := Nat.div_mul_le_self _ _
    have : 2 ≤ 2 ^ (j + 1) := by
      calc 2 = 2 ^ 1 := rfl
        _ ≤ _ := Nat.pow_le_pow_right (by norm_num) (by omega)
    nlinarith [Nat.zero_le (k / 2 ^ (j + 1))]
  have b1 := hb k hk
  have b2 := hb k' hk'
  push_cast at hd
  have : (secpN : ℤ) ∣ 2 * (((k / 2 ^ (j + 1) : ℕ) : ℤ) - ((k' / 2 ^ (j + 1) : ℕ) : ℤ)) := by
    convert hd using 1
    push_cast; ring
  have := Int.eq_zero_of_abs_lt_dvd this (by rw [abs_lt]; constructor <;> omega)
  omega

/-- The points at which the last addition of the multiplication by `P` is exceptional. -/
def badLast (P : Secp) : Set Secp := {A | (xy A).2 = 1} ∪ {A | (xy A).2 = 1 - (xy (-P)).2}

theorem last_card {P : Secp} (hP : P ≠ 0) :
    {k ∈ {k : ℕ | k < secpN} | acc k 255 • P ∈ badLast P}.encard ≤ (8 : ℕ) * (2 : ℕ) := by
  refine fibre_card (by norm_num) ((Set.encard_union_le _ _).trans ?_) ?_
  · calc _ ≤ (4 : ℕ∞) + 4 := add_le_add (y_set _) (y_set _)
      _ = _ := by norm_num
  intro k hk k' hk' h
  have hd := smul_inj hP h
  have hk : k < secpN := hk
  have hk' : k' < secpN := hk'
  simp only [acc, show 256 - 255 = 1 from rfl, pow_one] at hd
  have : (secpN : ℤ) ∣ 2 * (((k / 2 : ℕ) : ℤ) - ((k' / 2 : ℕ) : ℤ)) := by
    convert hd using 1
    push_cast; ring
  have := Int.eq_zero_of_abs_lt_dvd this (by rw [abs_lt]; constructor <;> omega)
  omega

/-- Few multipliers are not regular. -/
theorem irregular_card {P : Secp} (hP : P ≠ 0) : {k : ℕ | k < secpN ∧ ¬ Regular P k}.encard ≤ 744 := by
  have hsub : {k : ℕ | k < secpN ∧ ¬ Regular P k} ⊆
      ({k ∈ {k : ℕ | k < secpN} | acc k (255 - 1) • P ∈ badStep P} ∪
        {k ∈ {k : ℕ | k < secpN} | acc k (255 - 2) • P ∈ badStep P}) ∪
      ({k ∈ {k : ℕ | k < secpN} | acc k (255 - 3) • P ∈ badStep P} ∪
        {k ∈ {k : ℕ | k < secpN} | acc k 255 • P ∈ badLast P}) := by
    rintro k ⟨hk, hr⟩
    have hstep : ∀ j, 1 ≤ j → j ≤ 3 → acc k (255 - j) • P ∉ badStep P →
        ¬ FalseZero (sgn (k.testBit j) • P) (acc k (255 - j) • P) ∧
        ¬ FalseZero (acc k (255 - j) • P) ((sgn (k.testBit j) + acc k (255 - j)) • P) := by
      intro j _ _ hn
      constructor
      · rintro ⟨-, h⟩
        apply hn; left
        rcases hb : k.testBit j with _ | _
        · right; rw [hb] at h; exact eq_sub_of_add_eq' h
        · left; rw [hb] at h; exact eq_sub_of_add_eq' h
      · intro h
        apply hn; right
        rw [add_zsmul] at h
        rcases hb : k.testBit j with _ | _
        · right; rw [hb] at h; exact h
        · left; rw [hb] at h; exact h
    by_contra hn
    simp only [Set.mem_union, not_or, Set.mem_ofPred_eq, not_and] at hn
    obtain ⟨⟨n1, n2⟩, n3, n4⟩ := hn
    apply hr
    refine ⟨fun j j1 j3 => ?_, ?_⟩
    · apply hstep j j1 j3
      interval_cases j
      · exact n1 hk
      · exact n2 hk
      · exact n3 hk
    · rintro ⟨-, h⟩
      apply n4 hk
      split at h
      · left; simpa [xy] using h
      · right; exact eq_sub_of_add_eq h
  refine (Set.encard_le_encard hsub).trans ((Set.encard_union_le _ _).trans
    ((add_le_add (Set.encard_union_le _ _) (Set.encard_union_le _ _)).trans ?_))
  calc _ ≤ ((((26 : ℕ) : ℕ∞) * ((2 ^ (1 + 1) : ℕ) : ℕ∞)) + (((26 : ℕ) : ℕ∞) * ((2 ^ (2 + 1) : ℕ) : ℕ∞))) +
        ((((26 : ℕ) : ℕ∞) * ((2 ^ (3 + 1) : ℕ) : ℕ∞)) + (((8 : ℕ) : ℕ∞) * ((2 : ℕ) : ℕ∞))) :=
        add_le_add (add_le_add (step_card hP (by norm_num) (by norm_num)) (step_card hP (by norm_num) (by norm_num)))
          (add_le_add (step_card hP (by norm_num) (by norm_num)) (last_card hP))
    _ = 744 := by norm_num

/-- The scalars that meet an exceptional case of the signature circuits with the points `T` and `U`. -/
def exceptional (T U : Secp) : Set ℕ := {s | s < secpN ∧ ¬ (¬ (2 ^ 128 ≤ s + tQlo ∧ s < 2 ^ 128) ∧
  ¬ FalseZero (s • T) U ∧ s • T ≠ U ∧ Regular T ((s + tQ) % q) ∧ (s : ZMod secpN) ≠ -2)}

theorem exceptional_card' {T : Secp} (hT : T ≠ 0) (U : Secp) :
    (exceptional T U).encard ≤ ((tQlo + 750 : ℕ) : ℕ∞) := by
  have hq : q = secpN := by decide +kernel
  have hinjT : ∀ s s' : ℕ, s < secpN → s' < secpN → s • T = s' • T → s = s' := by
    intro s s' h h' e
    have := smul_inj hT (a := s) (b := s') (by simpa using e)
    have := Int.eq_zero_of_abs_lt_dvd this (by rw [abs_lt]; constructor <;> omega)
    omega
  set S1 : Set ℕ := {s | 2 ^ 128 ≤ s + tQlo ∧ s < 2 ^ 128}
  set S2 : Set ℕ := {s | s < secpN ∧ (xy (s • T)).2 = 1 - (xy U).2}
  set S3 : Set ℕ := {s | s < secpN ∧ s • T = U}
  set S4 : Set ℕ := {s | s < secpN ∧ ¬ Regular T ((s + tQ) % q)}
  set S5 : Set ℕ := {s | s < secpN ∧ (s : ZMod secpN) = -2}
  have hsub : exceptional T U ⊆ (S1 ∪ S2) ∪ (S3 ∪ (S4 ∪ S5)) := by
    rintro s ⟨hs, h⟩
    by_contra hn
    simp only [Set.mem_union, not_or] at hn
    obtain ⟨⟨n1, n2⟩, n3, n4, n5⟩ := hn
    exact h ⟨n1, fun hf => n2 ⟨hs, eq_sub_of_add_eq hf.2⟩, fun e => n3 ⟨hs, e⟩,
      by_contra fun hr => n4 ⟨hs, hr⟩, fun e => n5 ⟨hs, e⟩⟩
  have c1 : S1.encard ≤ (tQlo : ℕ∞) := by
    have : S1 = ↑(Finset.Ico (2 ^ 128 - tQlo) (2 ^ 128)) := by
      ext s; simp [S1]
    rw [this, Set.encard_coe_eq_coe_finsetCard, Nat.card_Ico]
    exact_mod_cast Nat.sub_sub_self (by decide +kernel : tQlo ≤ 2 ^ 128) |>.le
  have c2 : S2.encard ≤ 4 := by
    have hinj : Set.InjOn (fun s : ℕ => s • T) S2 := fun s h s' h' e => hinjT s s' h.1 h'.1 e
    rw [← hinj.encard_image]
    exact (Set.encard_le_encard (by rintro _ ⟨s, h, rfl⟩; exact h.2)).trans (y_set (1 - (xy U).2))
  have c3 : S3.encard ≤ 1 := Set.encard_le_one_iff.mpr fun s s' h h' => hinjT s s' h.1 h'.1 (h.2.trans h'.2.symm)
  have c4 : S4.encard ≤ 744 := by
    have hinj : Set.InjOn (fun s : ℕ => (s + tQ) % q) S4 := by
      intro s h s' h' e
      have h1 : s < secpN := h.1
      have h2 : s' < secpN := h'.1
      have e' : (s + tQ) ≡ (s' + tQ) [MOD q] := e
      have e2 := Nat.ModEq.add_right_cancel' _ e'
      rw [hq] at e2
      have e3 : s % secpN = s' % secpN := e2
      rwa [Nat.mod_eq_of_lt h1, Nat.mod_eq_of_lt h2] at e3
    rw [← hinj.encard_image]
    refine (Set.encard_le_encard ?_).trans (irregular_card hT)
    rintro _ ⟨s, h, rfl⟩
    exact ⟨hq ▸ Nat.mod_lt _ (by decide +kernel), h.2⟩
  have c5 : S5.encard ≤ 1 := Set.encard_le_one_iff.mpr fun s s' h h' => by
    have e : (s : ZMod secpN) = (s' : ZMod secpN) := h.2.trans h'.2.symm
    have := (ZMod.natCast_eq_natCast_iff' _ _ _).mp e
    rwa [Nat.mod_eq_of_lt h.1, Nat.mod_eq_of_lt h'.1] at this
  refine (Set.encard_le_encard hsub).trans ((Set.encard_union_le _ _).trans
    ((add_le_add (Set.encard_union_le _ _) ((Set.encard_union_le _ _).trans (add_le_add_right (Set.encard_union_le _ _) _))).trans ?_))
  calc _ ≤ ((tQlo : ℕ∞) + 4) + (1 + (744 + 1)) := by
        exact add_le_add (add_le_add c1 c2) (add_le_add c3 (add_le_add c4 c5))
    _ = ((tQlo + 750 : ℕ) : ℕ∞) := by push_cast; ring

theorem exceptional_card {T : Secp} (hT : T ≠ 0) (U : Secp) :
    (exceptional T U).encard ≤ ((2 ^ 127 : ℕ) : ℕ∞) :=
  (exceptional_card' hT U).trans (by exact_mod_cast (by decide +kernel : tQlo + 750 ≤ 2 ^ 127))

end Spartan.Rare
