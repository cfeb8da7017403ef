import Verif.Props.Poseidon
import Verif.Lemmas.Primes
import Mathlib.InformationTheory.Hamming
import Mathlib.Tactic.LinearCombination
import Mathlib.FieldTheory.Finite.Basic

/-!
C96: the Poseidon permutation loses nothing, and its linear layer mixes fully.
-/

namespace Spartan

open Spec

/-! ### The fifth power -/

theorem pow_injective_of_inverse {p e d k : ℕ} [Fact p.Prime] (h : e * d = k * (p - 1) + 1) :
    Function.Injective fun x : ZMod p => x ^ e := by
  have key : ∀ x : ZMod p, (x ^ e) ^ d = x := by
    intro x
    rw [← pow_mul, h]
    by_cases hx : x = 0
    · rw [hx, zero_pow (Nat.succ_ne_zero _)]
    · rw [pow_succ, mul_comm k, pow_mul, ZMod.pow_card_sub_one_eq_one hx, one_pow, one_mul]
  intro x y hxy
  rw [← key x, ← key y]
  exact congrArg (· ^ d) hxy

/-- `x ↦ x⁵` loses nothing in the base field of secp256k1. -/
theorem fifth_injective : Function.Injective fun x : ZMod secpP => x ^ 5 :=
  pow_injective_of_inverse
    (d := 46316835694926478169428394003475163141307993866256225615783033603163533868665) (k := 2)
    (by decide +kernel)

/-! ### The matrix -/

/-- Entry of the matrix as a number. -/
def k256MdsNat (i j : Fin 3) : ℕ := (k256Mds.getD i []).getD j 0

theorem mds_ne_zero (i j : Fin 3) : (k256Params (ZMod secpP)).mds i j ≠ 0 := by
  have h : ∀ i j : Fin 3, k256MdsNat i j % secpP ≠ 0 := by decide +kernel
  intro e
  have e' : ((k256MdsNat i j : ℕ) : ZMod secpP) = 0 := e
  rw [ZMod.natCast_eq_zero_iff] at e'
  exact h i j (Nat.mod_eq_zero_of_dvd e')

theorem mds_minor_ne_zero {i i' j j' : Fin 3} (hi : i ≠ i') (hj : j ≠ j') :
    (k256Params (ZMod secpP)).mds i j * (k256Params (ZMod secpP)).mds i' j' -
      (k256Params (ZMod secpP)).mds i j' * (k256Params (ZMod secpP)).mds i' j ≠ 0 := by
  have h : ∀ i i' j j' : Fin 3, i ≠ i' → j ≠ j' →
      (k256MdsNat i j * k256MdsNat i' j') % secpP ≠ (k256MdsNat i j' * k256MdsNat i' j) % secpP := by
    decide +kernel
  intro e
  have e' : ((k256MdsNat i j * k256MdsNat i' j' : ℕ) : ZMod secpP) =
      ((k256MdsNat i j' * k256MdsNat i' j : ℕ) : ZMod secpP) := by
    rw [Nat.cast_mul, Nat.cast_mul]; exact sub_eq_zero.mp e
  exact h i i' j j' hi hj ((ZMod.natCast_eq_natCast_iff' _ _ _).mp e')

theorem det3_ne {p : ℕ} (m : Fin 3 → Fin 3 → ℕ)
    (h : (m 0 0 * (m 1 1 * m 2 2) + (m 0 1 * (m 1 2 * m 2 0) + m 0 2 * (m 1 0 * m 2 1))) % p ≠
      (m 0 2 * (m 1 1 * m 2 0) + (m 0 1 * (m 1 0 * m 2 2) + m 0 0 * (m 1 2 * m 2 1))) % p)
    {v : Fin 3 → ZMod p} [Fact p.Prime] (hv : ∀ i, ∑ j, (m i j : ZMod p) * v j = 0) : v = 0 := by
  have hd : (m 0 0 : ZMod p) * (m 1 1 * m 2 2) + (m 0 1 * (m 1 2 * m 2 0) + m 0 2 * (m 1 0 * m 2 1)) -
      (m 0 2 * (m 1 1 * m 2 0) + (m 0 1 * (m 1 0 * m 2 2) + m 0 0 * (m 1 2 * m 2 1))) ≠ 0 := by
    intro e
    apply h
    rw [← ZMod.natCast_eq_natCast_iff']
    simp only [Nat.cast_add, Nat.cast_mul]
    exact sub_eq_zero.mp e
  have h0 := hv 0
  have h1 := hv 1
  have h2 := hv 2
  simp only [Fin.sum_univ_three] at h0 h1 h2
  funext i
  refine (mul_eq_zero.mp ?_).resolve_left hd
  fin_cases i
  · show _ * v 0 = 0
    linear_combination ((m 1 1 : ZMod p) * m 2 2 - m 1 2 * m 2 1) * h0 -
      ((m 0 1 : ZMod p) * m 2 2 - m 0 2 * m 2 1) * h1 + ((m 0 1 : ZMod p) * m 1 2 - m 0 2 * m 1 1) * h2
  · show _ * v 1 = 0
    linear_combination -((m 1 0 : ZMod p) * m 2 2 - m 1 2 * m 2 0) * h0 +
      ((m 0 0 : ZMod p) * m 2 2 - m 0 2 * m 2 0) * h1 - ((m 0 0 : ZMod p) * m 1 2 - m 0 2 * m 1 0) * h2
  · show _ * v 2 = 0
    linear_combination ((m 1 0 : ZMod p) * m 2 1 - m 1 1 * m 2 0) * h0 -
      ((m 0 0 : ZMod p) * m 2 1 - m 0 1 * m 2 0) * h1 + ((m 0 0 : ZMod p) * m 1 1 - m 0 1 * m 1 0) * h2

/-- Only the zero vector is mapped to zero. -/
theorem mds_kernel {v : Fin 3 → ZMod secpP}
    (hv : ∀ i, ∑ j, (k256Params (ZMod secpP)).mds i j * v j = 0) : v = 0 :=
  det3_ne k256MdsNat (by decide +kernel) hv

/-! ### Rounds -/

theorem round_injective (r : ℕ) : Function.Injective ((k256Params (ZMod secpP)).round r) := by
  intro s s' h
  set c := k256Params (ZMod secpP) with hc
  have h0 := mds_kernel (v := fun j =>
    (let x := s j + c.rc r j; if c.isFull r || j = 0 then x ^ 5 else x) -
    (let x := s' j + c.rc r j; if c.isFull r || j = 0 then x ^ 5 else x)) fun i => by
      have hi := congrFun h i
      simp only [PoseidonParams.round] at hi
      simp only [mul_sub, Finset.sum_sub_distrib]
      rw [sub_eq_zero]
      exact hi
  funext j
  have hj := sub_eq_zero.mp (congrFun h0 j)
  simp only at hj
  split_ifs at hj
  · exact add_right_cancel (fifth_injective hj)
  · exact add_right_cancel hj

theorem rounds_injective : ∀ n, Function.Injective ((k256Params (ZMod secpP)).rounds n)
  | 0 => fun _ _ h => h
  | n + 1 => fun _ _ h => rounds_injective n (round_injective n h)

/-- The permutation is one. -/
theorem perm_bijective : Function.Bijective (k256Params (ZMod secpP)).perm :=
  Finite.injective_iff_bijective.mp (rounds_injective _)

/-- C96.  Hashing two pairs with fresh objects leaves the same state (public field `state`, three field elements)
only if the pairs are the same: everything the hash absorbs is still there, the only loss is in returning one word. -/
theorem hash_state_injective {a b a' b' : Limbs} {x y x' y' : ZMod secpP} (ha : a.Rep secpP x) (hb : b.Rep secpP y)
    (ha' : a'.Rep secpP x') (hb' : b'.Rep secpP y') :
    ∃ (h : Limbs) (o : Poseidon Limbs) (h' : Limbs) (o' : Poseidon Limbs) (z z' : Fin 3 → ZMod secpP),
      (Poseidon.new .secp (k256Constants .secp)).hash .secp a b = .ok (h, o) ∧
      (Poseidon.new .secp (k256Constants .secp)).hash .secp a' b' = .ok (h', o') ∧
      (o.s0.Rep secpP (z 0) ∧ o.s1.Rep secpP (z 1) ∧ o.s2.Rep secpP (z 2)) ∧
      (o'.s0.Rep secpP (z' 0) ∧ o'.s1.Rep secpP (z' 1) ∧ o'.s2.Rep secpP (z' 2)) ∧
      (z = z' ↔ x = x' ∧ y = y') := by
  obtain ⟨h, o, e, -, -, -, hs⟩ := hash_rel_state secp_computes
    (o := Poseidon.new FieldImpl.secp (k256Constants FieldImpl.secp)) (k256Constants_rel secp_computes) rfl ha hb
  obtain ⟨h', o', e', -, -, -, hs'⟩ := hash_rel_state secp_computes
    (o := Poseidon.new FieldImpl.secp (k256Constants FieldImpl.secp)) (k256Constants_rel secp_computes) rfl ha' hb'
  refine ⟨h, o, h', o', _, _, e, e', hs, hs', ?_⟩
  rw [perm_bijective.1.eq_iff]
  constructor
  · intro hv
    exact ⟨by simpa using congrFun hv 1, by simpa using congrFun hv 2⟩
  · rintro ⟨rfl, rfl⟩; rfl

/-! ### Diffusion -/

/-- Maximum distance separable: the number of changed words before and after the matrix is at least four, for every
change. -/
theorem mds_branch {v : Fin 3 → ZMod secpP} (hv : v ≠ 0) :
    4 ≤ hammingNorm v + hammingNorm fun i => ∑ j, (k256Params (ZMod secpP)).mds i j * v j := by
  have hw : ∀ i, (∑ j, (k256Params (ZMod secpP)).mds i j * v j) =
      (k256Params (ZMod secpP)).mds i 0 * v 0 + (k256Params (ZMod secpP)).mds i 1 * v 1 +
        (k256Params (ZMod secpP)).mds i 2 * v 2 := fun i => Fin.sum_univ_three _
  have hC : ∀ w : Fin 3 → ZMod secpP, w = (fun i => ∑ j, (k256Params (ZMod secpP)).mds i j * v j) →
      4 ≤ hammingNorm v + hammingNorm w := by
    intro w hwv
    have z3 : v 0 = 0 → v 1 = 0 → v 2 = 0 → False := fun h0 h1 h2 =>
      hv (funext fun i => by fin_cases i <;> assumption)
    have A : ∀ i : Fin 3, w i = 0 → (v 0 = 0 → v 1 = 0 → False) ∧ (v 0 = 0 → v 2 = 0 → False) ∧
        (v 1 = 0 → v 2 = 0 → False) := by
      intro i hi
      rw [hwv] at hi
      simp only [hw] at hi
      refine ⟨fun h0 h1 => ?_, fun h0 h2 => ?_, fun h1 h2 => ?_⟩
      · rw [h0, h1, mul_zero, mul_zero, zero_add, zero_add] at hi
        exact z3 h0 h1 ((mul_eq_zero.mp hi).resolve_left (mds_ne_zero i 2))
      · rw [h0, h2, mul_zero, mul_zero, zero_add, add_zero] at hi
        exact z3 h0 ((mul_eq_zero.mp hi).resolve_left (mds_ne_zero i 1)) h2
      · rw [h1, h2, mul_zero, mul_zero, add_zero, add_zero] at hi
        exact z3 ((mul_eq_zero.mp hi).resolve_left (mds_ne_zero i 0)) h1 h2
    have B : ∀ i i' : Fin 3, i ≠ i' → w i = 0 → w i' = 0 → v 0 ≠ 0 ∧ v 1 ≠ 0 ∧ v 2 ≠ 0 := by
      intro i i' hne hi hi'
      have hA := A i hi
      rw [hwv] at hi hi'
      simp only [hw] at hi hi'
      refine ⟨fun h => ?_, fun h => ?_, fun h => ?_⟩
      · rw [h, mul_zero, zero_add] at hi hi'
        refine hA.1 h ((mul_eq_zero.mp ?_).resolve_left (mds_minor_ne_zero hne (j := 1) (j' := 2) (by decide)))
        linear_combination (k256Params (ZMod secpP)).mds i' 2 * hi - (k256Params (ZMod secpP)).mds i 2 * hi'
      · rw [h, mul_zero, add_zero] at hi hi'
        refine hA.1 ((mul_eq_zero.mp ?_).resolve_left (mds_minor_ne_zero hne (j := 0) (j' := 2) (by decide))) h
        linear_combination (k256Params (ZMod secpP)).mds i' 2 * hi - (k256Params (ZMod secpP)).mds i 2 * hi'
      · rw [h, mul_zero, add_zero] at hi hi'
        refine hA.2.1 ((mul_eq_zero.mp ?_).resolve_left (mds_minor_ne_zero hne (j := 0) (j' := 1) (by decide))) h
        linear_combination (k256Params (ZMod secpP)).mds i' 1 * hi - (k256Params (ZMod secpP)).mds i 1 * hi'
    have C : w 0 = 0 → w 1 = 0 → w 2 = 0 → False := by
      intro h0 h1 h2
      refine hv (mds_kernel fun i => ?_)
      rw [hwv] at h0 h1 h2
      fin_cases i
      · exact h0
      · exact h1
      · exact h2
    have A0 := A 0
    have A1 := A 1
    have A2 := A 2
    have B01 := B 0 1 (by decide)
    have B02 := B 0 2 (by decide)
    have B12 := B 1 2 (by decide)
    clear A B hw hwv hv
    simp only [hammingNorm, Finset.card_filter, Fin.sum_univ_three, ne_eq]
    generalize v 0 = v0, v 1 = v1, v 2 = v2, w 0 = w0, w 1 = w1, w 2 = w2 at *
    by_cases a0 : v0 = 0 <;> by_cases a1 : v1 = 0 <;> by_cases a2 : v2 = 0 <;> by_cases b0 : w0 = 0 <;>
      by_cases b1 : w1 = 0 <;> by_cases b2 : w2 = 0 <;>
      simp only [a0, a1, a2, b0, b1, b2, not_true_eq_false, not_false_eq_true, if_true, if_false, forall_true_left,
        false_implies, ne_eq, and_false, false_and, and_true, true_and, implies_true] at * <;> omega
  exact hC _ rfl

/-- Round `r` is partial for `4 ≤ r < 60`. -/
theorem not_isFull {r : ℕ} (h4 : 4 ≤ r) (h60 : r < 60) : (k256Params (ZMod secpP)).isFull r = false := by
  have h8 : (k256Params (ZMod secpP)).rf / 2 = 4 := rfl
  have h56 : (k256Params (ZMod secpP)).rp = 56 := rfl
  simp only [PoseidonParams.isFull, h8, h56, Bool.or_eq_false_iff, decide_eq_false_iff_not]
  omega

/-- A partial round on two states that agree in word `0` maps their difference by the matrix. -/
theorem partial_round_diff {r : ℕ} (h4 : 4 ≤ r) (h60 : r < 60) {s s' : Fin 3 → ZMod secpP} (h0 : s 0 = s' 0)
    (i : Fin 3) : (k256Params (ZMod secpP)).round r s i - (k256Params (ZMod secpP)).round r s' i =
      (k256Params (ZMod secpP)).mds i 1 * (s 1 - s' 1) + (k256Params (ZMod secpP)).mds i 2 * (s 2 - s' 2) := by
  simp only [PoseidonParams.round, not_isFull h4 h60, Fin.sum_univ_three, Bool.false_or, decide_true, if_true,
    show ¬ (1 : Fin 3) = 0 by decide, show ¬ (2 : Fin 3) = 0 by decide, decide_false, Bool.false_eq_true, if_false, h0]
  ring

/-- Differences do not stay away from the fifth powers: two different states differ, at the start of at least one of
any three consecutive partial rounds, in the word that is raised to the fifth power. -/
theorem partial_rounds_active {s s' : Fin 3 → ZMod secpP} (hs : s ≠ s') {r : ℕ} (h4 : 4 ≤ r) (h60 : r + 2 < 60) :
    ∃ i < 3, (k256Params (ZMod secpP)).rounds (r + i) s 0 ≠ (k256Params (ZMod secpP)).rounds (r + i) s' 0 := by
  by_contra hcon
  push Not at hcon
  have e0 := hcon 0 (by decide)
  have e1 := hcon 1 (by decide)
  have e2 := hcon 2 (by decide)
  apply hs
  apply rounds_injective r
  set t := (k256Params (ZMod secpP)).rounds r s with ht
  set t' := (k256Params (ZMod secpP)).rounds r s' with ht'
  replace e0 : t 0 = t' 0 := e0
  replace e1 : (k256Params (ZMod secpP)).round r t 0 = (k256Params (ZMod secpP)).round r t' 0 := e1
  replace e2 : (k256Params (ZMod secpP)).round (r + 1) ((k256Params (ZMod secpP)).round r t) 0 =
    (k256Params (ZMod secpP)).round (r + 1) ((k256Params (ZMod secpP)).round r t') 0 := e2
  have d := partial_round_diff (r := r) h4 (by omega) e0
  have d' := partial_round_diff (r := r + 1) (by omega) (by omega) e1 0
  rw [d 1, d 2, sub_eq_zero.mpr e2] at d'
  have d0 := d 0
  rw [sub_eq_zero.mpr e1] at d0
  have hD : (k256Params (ZMod secpP)).mds 0 1 * ((k256Params (ZMod secpP)).mds 0 1 * (k256Params (ZMod secpP)).mds 1 2 +
      (k256Params (ZMod secpP)).mds 0 2 * (k256Params (ZMod secpP)).mds 2 2) -
      (k256Params (ZMod secpP)).mds 0 2 * ((k256Params (ZMod secpP)).mds 0 1 * (k256Params (ZMod secpP)).mds 1 1 +
      (k256Params (ZMod secpP)).mds 0 2 * (k256Params (ZMod secpP)).mds 2 1) ≠ 0 := by
    have h : (k256MdsNat 0 1 * (k256MdsNat 0 1 * k256MdsNat 1 2 + k256MdsNat 0 2 * k256MdsNat 2 2)) % secpP ≠
      (k256MdsNat 0 2 * (k256MdsNat 0 1 * k256MdsNat 1 1 + k256MdsNat 0 2 * k256MdsNat 2 1)) % secpP := by
      decide +kernel
    intro e
    apply h
    rw [← ZMod.natCast_eq_natCast_iff']
    simp only [Nat.cast_add, Nat.cast_mul]
    exact sub_eq_zero.mp e
  generalize (k256Params (ZMod secpP)).mds = m at *
  have x1 : t 1 - t' 1 = 0 := by
    refine (mul_eq_zero.mp ?_).resolve_left hD
    linear_combination m 0 2 * d' - (m 0 1 * m 1 2 + m 0 2 * m 2 2) * d0
  have x2 : t 2 - t' 2 = 0 := by
    refine (mul_eq_zero.mp ?_).resolve_left hD
    linear_combination (m 0 1 * m 1 1 + m 0 2 * m 2 1) * d0 - m 0 1 * d'
  funext i
  fin_cases i
  · exact e0
  · exact sub_eq_zero.mp x1
  · exact sub_eq_zero.mp x2

/-- The states with inputs `(1, 2)` and `(1, 5)` differ. -/
example : (![3, 1, 2] : Fin 3 → ZMod secpP) ≠ ![3, 1, 5] := fun h => by
  have h2 : (2 : ZMod secpP) = 5 := congrFun h 2
  have : ((2 : ℕ) : ZMod secpP) = ((5 : ℕ) : ZMod secpP) := by exact_mod_cast h2
  exact absurd ((ZMod.natCast_eq_natCast_iff' _ _ _).mp this) (by decide +kernel)

end Spartan
