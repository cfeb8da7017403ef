import Mathlib.Analysis.SpecialFunctions.Log.Base
import Mathlib.Tactic.FieldSimp
import Mathlib.Tactic.Linarith
import Verif.Model.PoseidonConsts
import Verif.Model.SecurityIneq
import Verif.Spec.Primes

/-!
C135: the security inequalities of the Poseidon parameters.
-/

namespace Spartan.SecurityIneq

open Real

theorem log2_p : ⌊logb 2 (secpP : ℝ)⌋ = 255 := by
  rw [Int.floor_eq_iff]
  constructor
  · rw [Real.le_logb_iff_rpow_le (by norm_num) (by norm_num [secpP])]
    rw [show (((255 : ℤ) : ℝ)) = ((255 : ℕ) : ℝ) by norm_num, Real.rpow_natCast]
    norm_num [secpP]
  · rw [Real.logb_lt_iff_lt_rpow (by norm_num) (by norm_num [secpP])]
    rw [show (((255 : ℤ) : ℝ) + 1) = ((256 : ℕ) : ℝ) by norm_num, Real.rpow_natCast]
    norm_num [secpP]

/-- A bound on a number of bits as a bound between powers. -/
theorem bits_lt {k m x : ℕ} (hx : 0 < x) : (m : ℝ) * logb 5 2 + logb 5 x < k ↔ 2 ^ m * x < 5 ^ k := by
  have h2 : (m : ℝ) * logb 5 2 = logb 5 ((2 : ℝ) ^ m) := (Real.logb_pow 5 2 m).symm
  have hx' : (0 : ℝ) < x := by exact_mod_cast hx
  rw [h2, ← Real.logb_mul (by positivity) (by positivity), Real.logb_lt_iff_lt_rpow (by norm_num) (by positivity),
    Real.rpow_natCast]
  exact_mod_cast Iff.rfl

theorem log52_pos : 0 < logb 5 2 := Real.logb_pos (by norm_num) (by norm_num)

/-- For the rounds, width and prime of the library, all inequalities of the script hold up to 147 bits of security, and no
further. -/
theorem script_iff (M : ℕ) : (∀ q ∈ script M 3 secpP k256NumFullRounds k256NumPartialRounds 5 2, q) ↔ M ≤ 147 := by
  have hR : k256NumFullRounds + k256NumPartialRounds = 64 := rfl
  have e3 : ineq3 M 3 5 64 ↔ 2 ^ M * 3 < 5 ^ 64 := by
    rw [ineq3, ← bits_lt (by norm_num)]
    norm_num
  have h3 : ineq3 M 3 5 64 ↔ M ≤ 147 := by
    rw [e3]
    constructor
    · intro h
      by_contra hM
      have : 2 ^ 148 ≤ 2 ^ M := Nat.pow_le_pow_right (by norm_num) (by omega)
      have k : (5 : ℕ) ^ 64 < 2 ^ 148 * 3 := by norm_num
      omega
    · intro h
      have : 2 ^ M ≤ 2 ^ 147 := Nat.pow_le_pow_right (by norm_num) h
      have k : (2 : ℕ) ^ 147 * 3 < 5 ^ 64 := by norm_num
      omega
  rw [script]
  simp only [hR, List.mem_cons, List.not_mem_nil, or_false, forall_eq_or_imp, forall_eq]
  constructor
  · rintro ⟨-, -, h, -⟩
    exact h3.1 h
  · intro hM
    have hMr : (M : ℝ) ≤ 147 := by exact_mod_cast hM
    have hl := h3.2 hM
    have hlog3 : 0 < logb 5 3 := Real.logb_pos (by norm_num) (by norm_num)
    have hM0 : 0 ≤ (M : ℝ) * logb 5 2 := mul_nonneg (Nat.cast_nonneg _) log52_pos.le
    have hb : (M : ℝ) * logb 5 2 < 64 := by
      have h := hl
      rw [ineq3] at h
      norm_num at h
      linarith
    refine ⟨?_, ?_, hl, ?_, ?_⟩
    · rw [ineq1]
      refine le_trans (Nat.pow_le_pow_right (by norm_num) hM) ?_
      norm_num [secpP]
    · rw [ineq2, log2_p]
      norm_num
      linarith
    · rw [ineq4a]
      norm_num
      linarith
    · rw [ineq4b]
      norm_num
      linarith

theorem pow_lt_iff {x : ℕ} (c : ℕ) (h1 : 2 ^ c < x) (h2 : x ≤ 2 ^ (c + 1)) (M : ℕ) : 2 ^ M < x ↔ M ≤ c := by
  constructor
  · intro h
    have := (Nat.pow_lt_pow_iff_right (by norm_num : 1 < 2)).1 (lt_of_lt_of_le h h2)
    omega
  · intro h
    exact lt_of_le_of_lt (Nat.pow_le_pow_right (by norm_num) h) h1

/-- C135: up to which level of security each line of the script holds for the parameters of the library. -/
theorem script_lines (M : ℕ) :
    List.Forall₂ (fun q c => q ↔ M ≤ c) (script M 3 secpP k256NumFullRounds k256NumPartialRounds 5 2)
      [767, 1012, 147, 445, 575] := by
  have hR : k256NumFullRounds + k256NumPartialRounds = 64 := rfl
  have hb : ∀ k : ℕ, (M : ℝ) * logb 5 2 < k ↔ 2 ^ M < 5 ^ k := fun k => by
    have := bits_lt (k := k) (m := M) (x := 1) (by norm_num)
    simpa using this
  have h3 : ineq3 M 3 5 64 ↔ M ≤ 147 := by
    have e3 : ineq3 M 3 5 64 ↔ 2 ^ M * 3 < 5 ^ 64 := by
      rw [ineq3, ← bits_lt (by norm_num)]
      norm_num
    rw [e3, ← pow_lt_iff (x := 5 ^ 64 / 3 + 1) 147 (by norm_num) (by norm_num) M]
    have : (5 : ℕ) ^ 64 % 3 = 1 := by norm_num
    omega
  have h1 : ineq1 M 3 secpP ↔ M ≤ 767 := by
    rw [ineq1, ← Nat.lt_succ_iff]
    exact pow_lt_iff 767 (by decide +kernel) (by decide +kernel) M
  have h2 : ineq2 M 3 secpP 2 ↔ M ≤ 1012 := by
    rw [ineq2, log2_p]
    norm_num
  have h4 : ineq4a M 5 64 ↔ M ≤ 445 := by
    have e : ineq4a M 5 64 ↔ (M : ℝ) * logb 5 2 < (192 : ℕ) := by
      rw [ineq4a]
      norm_num
      constructor <;> intro h <;> linarith
    rw [e, hb]
    exact pow_lt_iff 445 (by decide +kernel) (by decide +kernel) M
  have h5 : ineq4b M 3 5 64 ↔ M ≤ 575 := by
    have e : ineq4b M 3 5 64 ↔ (M : ℝ) * logb 5 2 < (248 : ℕ) := by
      rw [ineq4b]
      norm_num
      constructor <;> intro h <;> linarith
    rw [e, hb]
    exact pow_lt_iff 575 (by decide +kernel) (by decide +kernel) M
  rw [script]
  simp only [hR]
  exact .cons h1 (.cons h2 (.cons h3 (.cons h4 (.cons h5 .nil))))

/-- C135: at the 128 bits of the script all inequalities hold. -/
theorem poseidon_inequalities : ∀ q ∈ script 128 3 secpP k256NumFullRounds k256NumPartialRounds 5 2, q :=
  (script_iff 128).2 (by norm_num)

/-- What the script prints beside the third line is not what it computes, and does not hold. -/
theorem label3_false : ¬ label3 128 3 5 (k256NumFullRounds + k256NumPartialRounds) := by
  have hR : k256NumFullRounds + k256NumPartialRounds = 64 := rfl
  rw [label3, hR, not_lt]
  have h5 : (0.4 : ℝ) ≤ logb 5 2 := by
    rw [Real.le_logb_iff_rpow_le (by norm_num) (by norm_num)]
    have h : ((5 : ℝ) ^ (0.4 : ℝ)) ^ (5 : ℕ) ≤ (2 : ℝ) ^ (5 : ℕ) := by
      rw [← Real.rpow_natCast, ← Real.rpow_mul (by norm_num)]
      norm_num
    exact le_of_pow_le_pow_left₀ (by norm_num) (by norm_num) h
  have h6 : (0.6 : ℝ) ≤ logb 5 3 := by
    rw [Real.le_logb_iff_rpow_le (by norm_num) (by norm_num)]
    have h : ((5 : ℝ) ^ (0.6 : ℝ)) ^ (5 : ℕ) ≤ (3 : ℝ) ^ (5 : ℕ) := by
      rw [← Real.rpow_natCast, ← Real.rpow_mul (by norm_num)]
      norm_num
    exact le_of_pow_le_pow_left₀ (by norm_num) (by norm_num) h
  norm_num
  linarith

end Spartan.SecurityIneq
