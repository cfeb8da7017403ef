import Verif.Lemmas.Poly
import Mathlib.Data.Nat.Log
import Mathlib.Tactic.NormNum
import Mathlib.Tactic.IntervalCases
import Mathlib.Algebra.Field.Rat

/-! C13 (integer helpers), C14 - C16 (multilinear tables), C17 (univariate
polynomials), C18 (sparse evaluation). -/

set_option linter.unusedSectionVars false
namespace Spartan
open Spec
variable {F G P : Type} [Field F] [AddCommGroup G] [Module F G]
  [DecidableEq F] [DecidableEq P] [DecidableEq G]

/-! ### C13 -/

/-- C13: on every 64-bit `n ≥ 1`, `log_2` is the least `k` with `n ≤ 2^k`. -/
theorem log2_is_ceil_log (n : Nat) (h1 : 1 ≤ n) (h2 : n < 2 ^ 64) :
    ∃ k, log2Code n = .ok k ∧ n ≤ 2 ^ k ∧ ∀ j, n ≤ 2 ^ j → k ≤ j := by
  have hn : n ≠ 0 := by omega
  have hlog : Nat.log2 n < 64 := (Nat.log2_lt hn).2 h2
  have hlo : 2 ^ Nat.log2 n ≤ n := Nat.log2_self_le hn
  have hhi : n < 2 ^ (Nat.log2 n + 1) := Nat.lt_log2_self
  unfold log2Code
  rw [check_true hn, ok_bind]
  have l1 : Nat.log2 1 = 0 := by decide
  by_cases hp : 2 ^ Nat.log2 n = n
  · have hb : isPow2 n = true := by simp [isPow2, hn, hp]
    refine ⟨Nat.log2 n, ?_, hp.ge, fun j hj => ?_⟩
    · simp only [hb, if_true, leadingZeros, hn, if_false, one_ne_zero, l1, pure_ok]
      congr 1; omega
    · rw [← hp] at hj; exact (Nat.pow_le_pow_iff_right (by norm_num)).1 hj
  · have hb : isPow2 n = false := by simp [isPow2, hn, hp]
    refine ⟨Nat.log2 n + 1, ?_, hhi.le, fun j hj => ?_⟩
    · simp only [hb, leadingZeros, hn, if_false, if_true, pure_ok, Bool.false_eq_true]
      congr 1; omega
    · have : 2 ^ Nat.log2 n < 2 ^ j := by omega
      exact (Nat.pow_lt_pow_iff_right (by norm_num)).1 this

/-- C13: `log_2` panics at zero. -/
theorem log2_zero_panics : log2Code 0 = .error .panic := rfl

/-- The abstraction `log2` used by the rest of the model is the bit-level code. -/
theorem log2_refines (n : Nat) (h2 : n < 2 ^ 64) : log2Code n = log2 n := by
  by_cases h1 : 1 ≤ n
  · obtain ⟨k, hk, hle, hmin⟩ := log2_is_ceil_log n h1 h2
    rw [hk]
    unfold log2 log2ceil
    rw [check_true (by omega), ok_bind, pure_ok]
    congr 1
    apply le_antisymm
    · exact hmin _ (Nat.le_pow_clog (by norm_num) n)
    · exact Nat.clog_le_of_le_pow hle
  · have : n = 0 := by omega
    subst this; rfl

/-- C13: reading the bits of `get_bits(n,k)` big-endian gives `n mod 2^k`. -/
theorem getBits_value (n k : Nat) :
    (getBits n k).length = k ∧
    (getBits n k).foldl (fun acc b => 2 * acc + b.toNat) 0 = n % 2 ^ k := by
  refine ⟨getBits_length n k, ?_⟩
  have key : ∀ m ≤ k, ((getBits n k).take m).foldl (fun acc b => 2 * acc + b.toNat) 0 =
      n / 2 ^ (k - m) % 2 ^ m := by
    intro m
    induction m with
    | zero => intro _; simp [Nat.mod_one]
    | succ m ih =>
      intro hm
      have hlt : m < (getBits n k).length := by rw [getBits_length]; omega
      rw [List.take_succ_eq_append_getElem hlt, List.foldl_append, ih (by omega)]
      have hb : (getBits n k)[m] = n.testBit (k - 1 - m) := by
        have := getBits_getD n k m (by omega)
        simpa [List.getD_eq_getElem?_getD, hlt, bitBE] using this
      simp only [List.foldl_cons, List.foldl_nil, hb]
      rw [Nat.toNat_testBit, show k - (m + 1) = k - 1 - m by omega,
        show k - m = (k - 1 - m) + 1 by omega, pow_succ, ← Nat.div_div_eq_div_mul,
        pow_succ, mul_comm (2 ^ m) 2, Nat.mod_mul]
      ring
  have := key k le_rfl
  rw [List.take_of_length_le (by rw [getBits_length])] at this
  simpa using this

/-- C13: `pow2(k)` is `2^k` for every `k < 64`. -/
theorem pow2_correct (k : Nat) (h : k < 64) : pow2Code k = .ok (2 ^ k) := by
  have : k % 2 ^ 32 = k := Nat.mod_eq_of_lt (by omega)
  simp only [pow2Code, this, h, if_true]

/-- C13: between 64 and `2^32` it panics. -/
theorem pow2_overflow (k : Nat) (h : 64 ≤ k) (h2 : k < 2 ^ 32) : pow2Code k = .error .panic := by
  have : k % 2 ^ 32 = k := Nat.mod_eq_of_lt h2
  simp only [pow2Code, this, not_lt.2 h, if_false]

/-- C13: the cast to `u32` makes larger arguments wrap silently. -/
theorem pow2_wraps (j k : Nat) (h : k < 64) : pow2Code (j * 2 ^ 32 + k) = .ok (2 ^ k) := by
  have : (j * 2 ^ 32 + k) % 2 ^ 32 = k := by
    omega
  simp only [pow2Code, this, h, if_true]

example : log2Code 5 = .ok 3 ∧ log2Code 8 = .ok 3 ∧ getBits 6 4 = [false, true, true, false] := by
  decide

/-! ### C14 -/

/-- C14: the table has `2^ℓ` entries and entry `i` is the product over the
big-endian bits of `i`. -/
theorem eqEvals_correct (r : List F) :
    (eqEvals r).length = 2 ^ r.length ∧ ∀ i < 2 ^ r.length, (eqEvals r).getD i 0 = chi r i :=
  ⟨eqEvals_length r, fun i hi => by rw [eqEvals_eq, eqT_getD r i hi]⟩

theorem dot_eqT : ∀ (r x : List F), r.length = x.length →
    dot (eqT r) (eqT x) = (List.zipWith (fun a b => a * b + (1 - a) * (1 - b)) r x).prod
  | [], [], _ => by simp [eqT, dot, lc]
  | a :: r, b :: x, h => by
    have hl : r.length = x.length := by simpa using h
    simp only [eqT, List.zipWith_cons_cons, List.prod_cons, ← dot_eqT r x hl]
    rw [dot_append (by simp [hl]), dot_map_left, dot_map_right, dot_map_left, dot_map_right]
    ring
  | [], _ :: _, h => by simp at h
  | _ :: _, [], h => by simp at h

/-- C14: `evaluate` is the inner product of the two tables. -/
theorem eqEvaluate_correct (r x : List F) (h : r.length = x.length) :
    eqEvaluate r x = .ok (∑ i ∈ Finset.range (2 ^ r.length), chi r i * chi x i) := by
  unfold eqEvaluate
  rw [check_true h, ok_bind, ← dot_eqT r x h, pure_ok, dot_sum_range (by simp [h])]
  congr 1
  simp only [eqT_length]
  apply Finset.sum_congr rfl
  intro i hi
  rw [eqT_getD r i (Finset.mem_range.1 hi), eqT_getD x i (by rw [← h]; exact Finset.mem_range.1 hi)]

/-- C14: `evaluate` panics on different lengths. -/
theorem eqEvaluate_length (r x : List F) (h : r.length ≠ x.length) :
    eqEvaluate r x = .error .panic := by
  unfold eqEvaluate; rw [check_false h]; rfl

theorem boolPoint_length (ell i : Nat) : (boolPoint ell i : List F).length = ell := by
  simp [boolPoint]

theorem chi_boolPoint {ell k i : Nat} (hk : k < 2 ^ ell) (hi : i < 2 ^ ell) :
    chi (boolPoint ell k : List F) i = if i = k then 1 else 0 := by
  unfold chi
  rw [boolPoint_length]
  have hg : ∀ j ∈ Finset.range ell, (if bitBE ell i j then (boolPoint ell k : List F).getD j 0
      else 1 - (boolPoint ell k : List F).getD j 0) =
      if bitBE ell i j = bitBE ell k j then 1 else 0 := by
    intro j hj
    have hj := Finset.mem_range.1 hj
    have : (boolPoint ell k : List F).getD j 0 = if bitBE ell k j then 1 else 0 := by
      simp [boolPoint, List.getD_eq_getElem?_getD, hj]
    rw [this]
    cases bitBE ell i j <;> cases bitBE ell k j <;> simp
  rw [Finset.prod_congr rfl hg]
  split
  · next h => subst h; simp
  · next h =>
    have : ∃ j, j < ell ∧ bitBE ell i j ≠ bitBE ell k j := by
      by_contra hc
      push Not at hc
      apply h
      apply Nat.eq_of_testBit_eq
      intro b
      by_cases hb : b < ell
      · have := hc (ell - 1 - b) (by omega)
        simpa [bitBE, show ell - 1 - (ell - 1 - b) = b by omega] using this
      · rw [Nat.testBit_lt_two_pow (lt_of_lt_of_le hi (Nat.pow_le_pow_right (by norm_num) (by omega))),
          Nat.testBit_lt_two_pow (lt_of_lt_of_le hk (Nat.pow_le_pow_right (by norm_num) (by omega)))]
    obtain ⟨j, hj, hne⟩ := this
    exact Finset.prod_eq_zero (Finset.mem_range.2 hj) (by simp [hne])

/-- C14: on Boolean points `evaluate` is the equality indicator. -/
theorem eqEvaluate_boolean {ell i k : Nat} (hi : i < 2 ^ ell) (hk : k < 2 ^ ell) :
    eqEvaluate (boolPoint ell i) (boolPoint ell k : List F) = .ok (if i = k then 1 else 0) := by
  rw [eqEvaluate_correct _ _ (by simp [boolPoint_length]), boolPoint_length]
  congr 1
  rw [Finset.sum_eq_single i]
  · rw [chi_boolPoint hi hi, chi_boolPoint hk hi]; simp
  · intro b hb hne
    rw [chi_boolPoint hi (Finset.mem_range.1 hb)]; simp [hne]
  · intro h; exact absurd (Finset.mem_range.2 hi) h

example : eqEvals [(2 : ℚ), 5] = [4, -5, -8, 10] := by
  rw [eqEvals_eq]; norm_num [eqT]

/-! ### C16 -/

theorem Dense.new_eq {Z : List F} {k : Nat} (h : Z.length = 2 ^ k) :
    Dense.new Z = .ok ⟨k, Z.length, Z⟩ := by
  have hk : log2 Z.length = .ok k := by
    unfold log2 log2ceil
    rw [check_true (by rw [h]; positivity), ok_bind, h, pure_ok, Nat.clog_pow _ _ (by norm_num)]
  unfold Dense.new
  rw [hk, ok_bind]; rfl

/-- C16: `evaluate` of a table of length `2^ℓ` is its multilinear extension. -/
theorem dense_evaluate_correct {Z r : List F} (h : Z.length = 2 ^ r.length) :
    (do let d ← Dense.new Z; d.evaluate r) = .ok (mle Z r) := by
  rw [Dense.new_eq h, ok_bind]
  unfold Dense.evaluate
  rw [check_true rfl, ok_bind]
  simp only
  rw [check_true (by simp [h]), ok_bind, innerProduct_eq (by simp [h]), mle_eq_dot h, eqEvals_eq]

/-- C16: `evaluate` panics unless the number of coordinates is right and the
table length is a power of two. -/
theorem dense_evaluate_panics {Z r : List F} (h : Z.length ≠ 2 ^ r.length) :
    (do let d ← Dense.new Z; d.evaluate r) = .error .panic := by
  unfold Dense.new log2
  by_cases h0 : Z.length ≠ 0
  · rw [check_true h0, ok_bind, pure_bind, pure_bind]; unfold Dense.evaluate
    by_cases h1 : r.length = log2ceil Z.length
    · rw [check_true h1, ok_bind]; simp only; rw [check_false (by rw [eqEvals_length]; exact Ne.symm h)]; rfl
    · rw [check_false h1]; rfl
  · rw [check_false h0]; rfl

/-- C16: on the Boolean point `i` the extension is the table entry `i`. -/
theorem mle_boolean {Z : List F} {ell i : Nat} (hi : i < 2 ^ ell) :
    mle Z (boolPoint ell i) = Z.getD i 0 := by
  unfold mle
  rw [boolPoint_length, Finset.sum_eq_single i]
  · rw [chi_boolPoint hi hi]; simp
  · intro b hb hne
    rw [chi_boolPoint hi (Finset.mem_range.1 hb)]; simp [hne]
  · intro h; exact absurd (Finset.mem_range.2 hi) h

theorem chi_set_affine : ∀ (r : List F) (j i : Nat) (x : F), j < r.length → i < 2 ^ r.length →
    chi (r.set j x) i = (1 - x) * chi (r.set j 0) i + x * chi (r.set j 1) i
  | [], j, i, x, h, _ => by simp at h
  | r :: rs, j, i, x, h, hi => by
    have hcase : i < 2 ^ rs.length ∨ ∃ i', i' < 2 ^ rs.length ∧ i = 2 ^ rs.length + i' := by
      by_cases h' : i < 2 ^ rs.length
      · exact .inl h'
      · exact .inr ⟨i - 2 ^ rs.length, by simp [pow_succ] at hi; omega, by omega⟩
    cases j with
    | zero =>
      simp only [List.set_cons_zero]
      rcases hcase with h' | ⟨i', h', rfl⟩
      · rw [chi_cons_lo h', chi_cons_lo h', chi_cons_lo h']; ring
      · rw [chi_cons_hi h', chi_cons_hi h', chi_cons_hi h']; ring
    | succ j =>
      simp only [List.set_cons_succ]
      have hj : j < rs.length := by simpa using h
      have hl : ∀ y : F, (rs.set j y).length = rs.length := by simp
      rcases hcase with h' | ⟨i', h', rfl⟩
      · rw [chi_cons_lo (by simpa using h'), chi_cons_lo (by simpa using h'),
          chi_cons_lo (by simpa using h'), chi_set_affine rs j i x hj h']; ring
      · have e : ∀ y : F, chi (r :: rs.set j y) (2 ^ rs.length + i') = r * chi (rs.set j y) i' := by
          intro y
          have := chi_cons_hi (r := r) (rs := rs.set j y) (i := i') (by simpa using h')
          rwa [hl] at this
        rw [e, e, e, chi_set_affine rs j i' x hj h']; ring

/-- C16: the extension is affine in each coordinate. -/
theorem mle_affine (Z r : List F) (j : Nat) (hj : j < r.length) (x : F) :
    mle Z (r.set j x) = (1 - x) * mle Z (r.set j 0) + x * mle Z (r.set j 1) := by
  unfold mle
  simp only [List.length_set, Finset.mul_sum, ← Finset.sum_add_distrib]
  apply Finset.sum_congr rfl
  intro i hi
  rw [chi_set_affine r j i x hj (Finset.mem_range.1 hi)]; ring

/-- `DensePolynomial::clone` (dense_mlpoly.rs:138-140): keeps the live entries. -/
def Dense.clone (d : Dense F) : Out (Dense F) := do
  check (d.len ≤ d.Z.length)
  Dense.new (d.Z.take d.len)

/-- C16: fixing the first variable commutes with evaluation. -/
theorem boundTop_evaluate {Z rs : List F} (r : F) (h : Z.length = 2 ^ (rs.length + 1)) :
    (do let d ← Dense.new Z
        let d ← d.boundTop r
        let d ← d.clone
        d.evaluate rs) = .ok (mle Z (r :: rs)) := by
  have h2 : Z.length / 2 = 2 ^ rs.length := by rw [h, pow_succ]; omega
  have hZ : Z.length = 2 * 2 ^ rs.length := by rw [h, pow_succ]; ring
  have e : List.zipWith (fun a b => a + r * (b - a)) (List.take (Z.length / 2) Z)
      (List.take (Z.length / 2) (List.drop (Z.length / 2) Z)) = foldTop r Z := by
    unfold foldTop
    rw [List.take_of_length_le (l := List.drop (Z.length / 2) Z) (by simp; omega)]
  have hl : (foldTop r Z).length = 2 ^ rs.length := foldTop_length h
  rw [Dense.new_eq h, ok_bind]
  simp only [Dense.boundTop]
  rw [check_true (by omega), ok_bind, check_true (by omega), ok_bind, e]
  rw [pure_bind]
  unfold Dense.clone
  rw [check_true (by simp [hl]; omega), ok_bind]
  simp only
  rw [h2, ← hl, List.take_left, dense_evaluate_correct hl, mle_eq_dot hl, mle_eq_dot (by simpa using h),
    dot_foldTop h]

/-- C16: evaluating a bound polynomial without `clone` panics, because `Z` keeps its length. -/
theorem boundTop_evaluate_panics {Z rs : List F} (r : F) (h : Z.length = 2 ^ (rs.length + 1)) :
    (do let d ← Dense.new Z
        let d ← d.boundTop r
        d.evaluate rs) = .error .panic := by
  have hZ : Z.length = 2 * 2 ^ rs.length := by rw [h, pow_succ]; ring
  have hp : 0 < 2 ^ rs.length := Nat.two_pow_pos _
  rw [Dense.new_eq h, ok_bind]
  simp only [Dense.boundTop]
  rw [check_true (by omega), ok_bind, check_true (by omega), ok_bind]
  rw [pure_bind]
  unfold Dense.evaluate
  rw [check_true (by simp), ok_bind]
  simp only
  rw [check_false]
  · rfl
  · simp; omega

theorem boundBotLoop_length (r : F) : ∀ m i Z, (boundBotLoop r m i Z).length = Z.length
  | 0, _, _ => rfl
  | m + 1, i, Z => by simp [boundBotLoop, boundBotLoop_length r m]

theorem boundBotLoop_get (r : F) : ∀ m i (Z : List F), 2 * (i + m) ≤ Z.length → ∀ j,
    (boundBotLoop r m i Z).getD j 0 = if i ≤ j ∧ j < i + m then
      Z.getD (2 * j) 0 + r * (Z.getD (2 * j + 1) 0 - Z.getD (2 * j) 0) else Z.getD j 0
  | 0, i, Z, _, j => by simp [boundBotLoop]
  | m + 1, i, Z, h, j => by
    simp only [boundBotLoop]
    rw [boundBotLoop_get r m (i + 1) _ (by simp; omega) j]
    simp only [List.getD_eq_getElem?_getD, List.getElem?_set]
    by_cases h1 : i + 1 ≤ j ∧ j < i + 1 + m
    · rw [if_pos h1, if_neg (by omega : ¬ i = 2 * j), if_neg (by omega : ¬ i = 2 * j + 1),
        if_pos (by omega : i ≤ j ∧ j < i + (m + 1))]
    · rw [if_neg h1]
      by_cases h2 : i = j
      · subst h2
        rw [if_pos rfl, if_pos (by omega), if_pos (by omega)]; rfl
      · rw [if_neg h2, if_neg (by omega)]

theorem chi_snoc (rs : List F) (r : F) (i : Nat) :
    chi (rs ++ [r]) i = chi rs (i / 2) * if i % 2 = 1 then r else 1 - r := by
  unfold chi
  simp only [List.length_append, List.length_singleton, Finset.prod_range_succ]
  congr 1
  · apply Finset.prod_congr rfl
    intro j hj
    have hj := Finset.mem_range.1 hj
    rw [List.getD_append _ _ _ _ hj]
    unfold bitBE
    rw [show rs.length + 1 - 1 - j = (rs.length - 1 - j) + 1 by omega, Nat.testBit_succ]
  · rw [List.getD_append_right _ _ _ _ le_rfl]
    unfold bitBE
    simp [Nat.testBit_zero]

theorem sum_range_two_mul (f : Nat → F) (n : Nat) :
    ∑ i ∈ Finset.range (2 * n), f i = ∑ i ∈ Finset.range n, (f (2 * i) + f (2 * i + 1)) := by
  induction n with
  | zero => simp
  | succ n ih =>
    rw [show 2 * (n + 1) = 2 * n + 1 + 1 by ring, Finset.sum_range_succ, Finset.sum_range_succ,
      Finset.sum_range_succ, ih]; ring

/-- C16: fixing the last variable commutes with evaluation. -/
theorem boundBot_evaluate {Z rs : List F} (r : F) (h : Z.length = 2 ^ (rs.length + 1)) :
    (do let d ← Dense.new Z
        let d ← d.boundBot r
        let d ← d.clone
        d.evaluate rs) = .ok (mle Z (rs ++ [r])) := by
  have h2 : Z.length / 2 = 2 ^ rs.length := by rw [h, pow_succ]; omega
  have hZ : Z.length = 2 * 2 ^ rs.length := by rw [h, pow_succ]; ring
  rw [Dense.new_eq h, ok_bind]
  simp only [Dense.boundBot]
  rw [check_true (by omega), ok_bind, check_true (by omega), ok_bind]
  rw [pure_bind]
  unfold Dense.clone
  rw [check_true (by simp only [boundBotLoop_length]; omega), ok_bind]
  simp only
  rw [h2, dense_evaluate_correct (by rw [List.length_take, boundBotLoop_length]; omega)]
  congr 1
  unfold mle
  rw [List.length_append, List.length_singleton, pow_succ, mul_comm _ 2, sum_range_two_mul]
  apply Finset.sum_congr rfl
  intro i hi
  have hi := Finset.mem_range.1 hi
  rw [chi_snoc, chi_snoc, show (2 * i) / 2 = i by omega, show (2 * i + 1) / 2 = i by omega,
    if_neg (by omega), if_pos (by omega)]
  have : (List.take (2 ^ rs.length) (boundBotLoop r (2 ^ rs.length) 0 Z)).getD i 0 =
      (boundBotLoop r (2 ^ rs.length) 0 Z).getD i 0 := by
    simp [List.getD_eq_getElem?_getD, List.getElem?_take, hi]
  rw [this, boundBotLoop_get r _ 0 Z (by omega) i, if_pos (by omega)]
  ring

example : (do let d ← Dense.new [(1 : ℚ), 2, 3, 4]; d.evaluate [2, 5]) = .ok (mle [1, 2, 3, 4] [2, 5]) :=
  dense_evaluate_correct rfl

/-! ### C15 -/

theorem eqT_append_getD : ∀ (a b : List F) (i j : Nat), j < 2 ^ a.length → i < 2 ^ b.length →
    (eqT (a ++ b)).getD (j * 2 ^ b.length + i) 0 = (eqT a).getD j 0 * (eqT b).getD i 0
  | [], b, i, j, hj, hi => by simp at hj; subst hj; simp [eqT]
  | r :: a, b, i, j, hj, hi => by
    simp only [List.cons_append]
    rw [eqT_getD_cons, eqT_getD_cons]
    have hl : (a ++ b).length = a.length + b.length := by simp
    have hp : 2 ^ (a ++ b).length = 2 ^ a.length * 2 ^ b.length := by rw [hl, pow_add]
    by_cases h : j < 2 ^ a.length
    · have : j * 2 ^ b.length + i < 2 ^ (a ++ b).length := by rw [hp]; nlinarith
      rw [if_pos h, if_pos this, eqT_append_getD a b i j h hi]; ring
    · have h' : j - 2 ^ a.length < 2 ^ a.length := by simp [pow_succ] at hj; omega
      have : ¬ j * 2 ^ b.length + i < 2 ^ (a ++ b).length := by rw [hp]; nlinarith
      rw [if_neg h, if_neg this, hp, show j * 2 ^ b.length + i - 2 ^ a.length * 2 ^ b.length =
        (j - 2 ^ a.length) * 2 ^ b.length + i by rw [Nat.sub_mul]; have := Nat.mul_le_mul_right (2 ^ b.length) (not_lt.1 h); omega,
        eqT_append_getD a b i _ h' hi]; ring

/-- C15: the full table is the outer product of the two factored tables, whose
sizes are the ones the commitment uses. -/
theorem factoredEvals_correct (r : List F) :
    (factoredEvals r).1.length = 2 ^ (r.length / 2) ∧
    (factoredEvals r).2.length = 2 ^ (r.length - r.length / 2) ∧
    ∀ j < 2 ^ (r.length / 2), ∀ i < 2 ^ (r.length - r.length / 2),
      (factoredEvals r).1.getD j 0 * (factoredEvals r).2.getD i 0 =
        chi r (j * 2 ^ (r.length - r.length / 2) + i) := by
  have h1 : (r.take (r.length / 2)).length = r.length / 2 := by simp; omega
  have h2 : (r.drop (r.length / 2)).length = r.length - r.length / 2 := by simp
  refine ⟨by simp [factoredEvals, factoredLens]; omega, by simp [factoredEvals, factoredLens], ?_⟩
  intro j hj i hi
  simp only [factoredEvals, factoredLens, eqEvals_eq]
  have := eqT_append_getD (r.take (r.length / 2)) (r.drop (r.length / 2)) i j
    (by rwa [h1]) (by rwa [h2])
  rw [List.take_append_drop, h2] at this
  rw [← this, eqT_getD]
  have : 2 ^ r.length = 2 ^ (r.length / 2) * 2 ^ (r.length - r.length / 2) := by
    rw [← pow_add]; congr 1; omega
  rw [this]; nlinarith

theorem list_sum_range (f : Nat → F) (n : Nat) :
    ((List.range n).map f).sum = ∑ i ∈ Finset.range n, f i := by
  induction n with
  | zero => simp
  | succ n ih => simp [List.range_succ, Finset.sum_range_succ, ih]

theorem sum_range_mul (f : Nat → F) (a b : Nat) :
    ∑ i ∈ Finset.range (a * b), f i =
      ∑ j ∈ Finset.range a, ∑ i ∈ Finset.range b, f (j * b + i) := by
  induction a with
  | zero => simp
  | succ a ih => rw [add_mul, one_mul, Finset.sum_range_add, ih, Finset.sum_range_succ]

/-- Vector-matrix product used by the commitment scheme. -/
theorem bound_eval {Z r : List F} (h : Z.length = 2 ^ r.length) :
    ∃ LZ, Dense.bound ⟨r.length, Z.length, Z⟩ (factoredEvals r).1 = .ok LZ ∧
      LZ.length = 2 ^ (r.length - r.length / 2) ∧
      (∀ i < 2 ^ (r.length - r.length / 2), LZ.getD i 0 =
        ∑ j ∈ Finset.range (2 ^ (r.length / 2)),
          (factoredEvals r).1.getD j 0 * Z.getD (j * 2 ^ (r.length - r.length / 2) + i) 0) ∧
      dot LZ (factoredEvals r).2 = mle Z r := by
  obtain ⟨hL, hR, hLR⟩ := factoredEvals_correct r
  have hsplit : 2 ^ r.length = 2 ^ (r.length / 2) * 2 ^ (r.length - r.length / 2) := by
    rw [← pow_add]; congr 1; omega
  have hget : ∀ i < 2 ^ (r.length - r.length / 2),
      ((List.range (2 ^ (r.length - r.length / 2))).map fun i =>
        ((List.range (2 ^ (r.length / 2))).map fun j => (factoredEvals r).1.getD j 0 *
          Z.getD (j * 2 ^ (r.length - r.length / 2) + i) 0).sum).getD i 0 =
        ∑ j ∈ Finset.range (2 ^ (r.length / 2)),
          (factoredEvals r).1.getD j 0 * Z.getD (j * 2 ^ (r.length - r.length / 2) + i) 0 := by
    intro i hi
    simp only [List.getD_eq_getElem?_getD, List.getElem?_map, List.getElem?_range hi,
      Option.map_some, Option.getD_some]
    rw [list_sum_range]
  refine ⟨_, ?_, ?_, hget, ?_⟩
  · unfold Dense.bound factoredLens
    simp only
    rw [check_true (by rw [hL]), ok_bind, check_true (by rw [h, hsplit]), ok_bind, pure_ok]
  · simp
  · rw [dot_sum_range (by simp [hR])]
    simp only [List.length_map, List.length_range]
    rw [Finset.sum_congr rfl (fun i hi => by rw [hget i (Finset.mem_range.1 hi)])]
    simp only [Finset.sum_mul]
    rw [Finset.sum_comm, mle, hsplit, sum_range_mul]
    apply Finset.sum_congr rfl
    intro j hj
    apply Finset.sum_congr rfl
    intro i hi
    rw [← hLR j (Finset.mem_range.1 hj) i (Finset.mem_range.1 hi)]; ring

/-! ### C17 -/

theorem polyEval_cons (c : F) (cs : List F) (r : F) :
    polyEval (c :: cs) r = c + r * polyEval cs r := by
  simp only [polyEval, List.length_cons, Finset.sum_range_succ', List.getD_cons_succ,
    List.getD_cons_zero, pow_succ, pow_zero, mul_one, Finset.mul_sum]
  rw [add_comm]; congr 1
  apply Finset.sum_congr rfl; intros; ring

@[simp] theorem polyEval_nil (r : F) : polyEval [] r = 0 := by simp [polyEval]

theorem evalLoop_eq (r : F) : ∀ (cs : List F) (e p : F),
    UniPoly.evalLoop r cs e p = e + p * polyEval cs r
  | [], e, p => by simp [UniPoly.evalLoop]
  | c :: cs, e, p => by rw [UniPoly.evalLoop, evalLoop_eq r cs, polyEval_cons]; ring

/-- C17: `evaluate` is the value of the polynomial, for every nonempty coefficient vector. -/
theorem uniEvaluate_correct (p : UniPoly F) (h : p.coeffs ≠ []) (r : F) :
    p.evaluate r = .ok (polyEval p.coeffs r) := by
  obtain ⟨cs⟩ := p
  cases cs with
  | nil => exact absurd rfl h
  | cons c cs => simp only [UniPoly.evaluate, evalLoop_eq, polyEval_cons]

/-- C17: `eval_at_zero` and `eval_at_one` are the values at 0 and 1. -/
theorem uniEval_zero_one (p : UniPoly F) (h : p.coeffs ≠ []) :
    p.evalAtZero = .ok (polyEval p.coeffs 0) ∧ p.evalAtOne = polyEval p.coeffs 1 := by
  obtain ⟨cs⟩ := p
  constructor
  · cases cs with
    | nil => exact absurd rfl h
    | cons c cs => simp [UniPoly.evalAtZero, polyEval_cons]
  · simp only [UniPoly.evalAtOne]
    clear h
    induction cs with
    | nil => simp
    | cons c cs ih => simp [polyEval_cons, ih]

theorem invertU_ok {x : F} (h : x ≠ 0) : invertU x = .ok x⁻¹ := by simp [invertU, h]

/-- C17: three values: the unique quadratic through them. -/
theorem fromEvals_quadratic (h2 : (2 : F) ≠ 0) (e0 e1 e2 : F) :
    ∃ c0 c1 c2, UniPoly.fromEvals [e0, e1, e2] = .ok ⟨[c0, c1, c2]⟩ ∧
      polyEval [c0, c1, c2] 0 = e0 ∧ polyEval [c0, c1, c2] 1 = e1 ∧ polyEval [c0, c1, c2] 2 = e2 ∧
      ∀ d0 d1 d2, polyEval [d0, d1, d2] 0 = e0 → polyEval [d0, d1, d2] 1 = e1 →
        polyEval [d0, d1, d2] 2 = e2 → [d0, d1, d2] = [c0, c1, c2] := by
  refine ⟨_, _, _, by simp only [UniPoly.fromEvals, invertU_ok h2, ok_bind]; rfl, ?_, ?_, ?_, ?_⟩
  · simp [polyEval_cons]
  · simp [polyEval_cons]
  · simp only [polyEval_cons, polyEval_nil]; field_simp; ring
  · intro d0 d1 d2
    simp only [polyEval_cons, polyEval_nil]
    rintro rfl rfl rfl
    have e : (2 : F)⁻¹ * (d0 + 2 * (d1 + 2 * (d2 + 2 * 0)) - (d0 + 1 * (d1 + 1 * (d2 + 1 * 0))) -
      (d0 + 1 * (d1 + 1 * (d2 + 1 * 0))) + (d0 + 0 * (d1 + 0 * (d2 + 0 * 0)))) = d2 := by
      field_simp; ring
    rw [e]; simp

/-- C17: four values: the unique cubic through them. -/
theorem fromEvals_cubic (h2 : (2 : F) ≠ 0) (h3 : (3 : F) ≠ 0) (e0 e1 e2 e3 : F) :
    ∃ c0 c1 c2 c3, UniPoly.fromEvals [e0, e1, e2, e3] = .ok ⟨[c0, c1, c2, c3]⟩ ∧
      polyEval [c0, c1, c2, c3] 0 = e0 ∧ polyEval [c0, c1, c2, c3] 1 = e1 ∧
      polyEval [c0, c1, c2, c3] 2 = e2 ∧ polyEval [c0, c1, c2, c3] 3 = e3 ∧
      ∀ d0 d1 d2 d3, polyEval [d0, d1, d2, d3] 0 = e0 → polyEval [d0, d1, d2, d3] 1 = e1 →
        polyEval [d0, d1, d2, d3] 2 = e2 → polyEval [d0, d1, d2, d3] 3 = e3 →
        [d0, d1, d2, d3] = [c0, c1, c2, c3] := by
  have h6 : (6 : F) ≠ 0 := by
    have : (6 : F) = 2 * 3 := by norm_num
    rw [this]; exact mul_ne_zero h2 h3
  refine ⟨_, _, _, _, by simp only [UniPoly.fromEvals, invertU_ok h2, invertU_ok h6, ok_bind]; rfl,
    ?_, ?_, ?_, ?_, ?_⟩
  · simp [polyEval_cons]
  · simp only [polyEval_cons, polyEval_nil]; ring
  · simp only [polyEval_cons, polyEval_nil]; field_simp; ring
  · simp only [polyEval_cons, polyEval_nil]; field_simp; ring
  · intro d0 d1 d2 d3
    simp only [polyEval_cons, polyEval_nil]
    rintro rfl rfl rfl rfl
    simp only [List.cons.injEq, and_true]
    refine ⟨?_, ?_, ?_, ?_⟩ <;> field_simp <;> ring

/-- C17: other lengths panic. -/
theorem fromEvals_panics (es : List F) (h3 : es.length ≠ 3) (h4 : es.length ≠ 4) :
    UniPoly.fromEvals es = .error .panic := by
  rcases es with _ | ⟨a, _ | ⟨b, _ | ⟨c, _ | ⟨d, _ | ⟨e, es⟩⟩⟩⟩⟩ <;>
    simp_all [UniPoly.fromEvals]

theorem foldl_sub_eq (cs : List F) (x : F) : cs.foldl (fun acc c => acc - c) x = x - cs.sum := by
  induction cs generalizing x with
  | nil => simp
  | cons c cs ih => simp [ih]; ring

/-- C17: `decompress(h)` always yields a polynomial with `e(0) + e(1) = h`. -/
theorem decompress_hint (p : CompressedUniPoly F) (hint : F) (q : UniPoly F)
    (h : p.decompress hint = .ok q) :
    polyEval q.coeffs 0 + polyEval q.coeffs 1 = hint ∧ q.coeffs.length = p.coeffs.length + 1 := by
  obtain ⟨cs⟩ := p
  cases cs with
  | nil => simp [CompressedUniPoly.decompress] at h
  | cons c cs =>
    simp only [CompressedUniPoly.decompress, foldl_sub_eq, Except.ok.injEq] at h
    subst h
    have := (uniEval_zero_one (⟨cs⟩ : UniPoly F) )
    have h1 : polyEval cs 1 = cs.sum := by
      clear this
      induction cs with
      | nil => simp
      | cons c cs ih => simp [polyEval_cons, ih]
    simp only [polyEval_cons, h1, List.length_cons, and_true]
    ring

/-- C17: `decompress` panics exactly on the empty vector. -/
theorem decompress_panics_iff (p : CompressedUniPoly F) (hint : F) :
    p.decompress hint = .error .panic ↔ p.coeffs = [] := by
  obtain ⟨cs⟩ := p; cases cs <;> simp [CompressedUniPoly.decompress]

/-- C17: compress followed by decompress with the right hint is the identity. -/
theorem compress_decompress (p : UniPoly F) (h : 2 ≤ p.coeffs.length) :
    (do let c ← p.compress
        c.decompress (polyEval p.coeffs 0 + polyEval p.coeffs 1)) = .ok p := by
  obtain ⟨cs⟩ := p
  rcases cs with _ | ⟨c0, _ | ⟨c1, cs⟩⟩
  · simp at h
  · simp at h
  · have h1 : polyEval cs 1 = cs.sum := by
      clear h
      induction cs with
      | nil => simp
      | cons c cs ih => simp [polyEval_cons, ih]
    simp only [UniPoly.compress, ok_bind, CompressedUniPoly.decompress, foldl_sub_eq, polyEval_cons, h1]
    congr 3
    ring_nf

example : UniPoly.fromEvals [(1 : ℚ), 6, 15] = .ok ⟨[1, 3, 2]⟩ := by
  norm_num [UniPoly.fromEvals, invertU, ok_bind, pure_ok]

/-! ### C18 -/

/-- C18: a sparse list evaluates to the multilinear extension of its dense vector. -/
theorem sparseEvaluate_correct (Z : List (Nat × F)) (r : List F)
    (h : ∀ e ∈ Z, e.1 < 2 ^ r.length) :
    sparseEvaluate r.length Z r =
      .ok (mle ((List.range (2 ^ r.length)).map (vecEntry Z)) r) := by
  rw [sparseEvaluate_eq]
  congr 1
  rw [← sum_ite_sum (fun e : Nat × F => e.1) (fun e => e.2) (chi r) (2 ^ r.length) Z h, mle]
  apply Finset.sum_congr rfl
  intro i hi
  simp [List.getD_eq_getElem?_getD, Finset.mem_range.1 hi, vecEntry, mul_comm]

/-- C18: number of variables mismatch panics. -/
theorem sparseEvaluate_panics (n : Nat) (Z : List (Nat × F)) (r : List F) (h : n ≠ r.length) :
    sparseEvaluate n Z r = .error .panic := by
  unfold sparseEvaluate; rw [check_false h]; rfl

/-- The triples of a sparse matrix. -/
def SparseMat.triples (m : SparseMat F) : List (Nat × Nat × F) :=
  m.M.map fun e => (e.row, e.col, e.val)

/-- All positions are inside a `rows × cols` matrix. -/
def SparseMat.InRange (m : SparseMat F) (rows cols : Nat) : Prop :=
  ∀ e ∈ m.M, e.row < rows ∧ e.col < cols

theorem matEntry_row_sum (m : SparseMat F) (i n : Nat) (w : Nat → F)
    (h : ∀ e ∈ m.M, e.col < n) :
    ∑ j ∈ Finset.range n, matEntry m.triples i j * w j =
      (m.M.map fun e => if e.row = i then e.val * w e.col else 0).sum := by
  have := sum_ite_sum (F := F) (fun e : Entry F => e.col) (fun e => if e.row = i then e.val else 0)
    w n m.M h
  calc _ = ∑ j ∈ Finset.range n, w j * (m.M.map fun e => if e.col = j then
        (if e.row = i then e.val else 0) else 0).sum := by
        apply Finset.sum_congr rfl
        intro j _
        rw [mul_comm]; congr 1
        simp only [matEntry, SparseMat.triples, List.map_map]
        congr 1
        apply List.map_congr_left
        intro e _
        simp only [Function.comp]
        by_cases h1 : e.row = i <;> by_cases h2 : e.col = j <;> simp [h1, h2]
    _ = _ := this
    _ = _ := by
        congr 1; apply List.map_congr_left; intro e _; split <;> ring

/-- C18: `multiply_vec` is the matrix-vector product. -/
theorem multiplyVec_correct (m : SparseMat F) (rows cols : Nat) (z : List F)
    (hz : z.length = cols) (h : m.InRange rows cols) :
    ∃ res, m.multiplyVec rows cols z = .ok res ∧ res.length = rows ∧
      ∀ i < rows, res.getD i 0 = ∑ j ∈ Finset.range cols, matEntry m.triples i j * z.getD j 0 := by
  unfold SparseMat.multiplyVec
  rw [check_true hz, ok_bind]
  obtain ⟨res, h1, h2, h3⟩ := foldlM_addAt (F := F) (fun e : Entry F => e.row)
    (fun e => e.val * z.getD e.col 0)
    (fun acc e => do let zc ← idx z e.col; addAt acc e.row (e.val * zc)) m.M
    (List.replicate rows 0) (fun e he => by simpa using (h e he).1)
    (fun a e he _ => by simp only [idx_ok (d := (0 : F)) (by rw [hz]; exact (h e he).2), ok_bind])
  refine ⟨res, h1, by simpa using h2, fun i hi => ?_⟩
  rw [h3 i, matEntry_row_sum m i cols (fun j => z.getD j 0) (fun e he => (h e he).2)]
  simp [List.getD_eq_getElem?_getD, List.getElem?_replicate, hi]

/-- C18: `compute_eval_table_sparse` is the product with the transposed matrix. -/
theorem evalTable_correct (m : SparseMat F) (rows cols : Nat) (x : List F)
    (hx : x.length = rows) (h : m.InRange rows cols) :
    ∃ res, m.evalTable x rows cols = .ok res ∧ res.length = cols ∧
      ∀ j < cols, res.getD j 0 = ∑ i ∈ Finset.range rows, x.getD i 0 * matEntry m.triples i j := by
  unfold SparseMat.evalTable
  rw [check_true hx, ok_bind]
  obtain ⟨res, h1, h2, h3⟩ := foldlM_addAt (F := F) (fun e : Entry F => e.col)
    (fun e => x.getD e.row 0 * e.val)
    (fun acc e => do let a ← idx x e.row; addAt acc e.col (a * e.val)) m.M
    (List.replicate cols 0) (fun e he => by simpa using (h e he).2)
    (fun a e he _ => by simp only [idx_ok (d := (0 : F)) (by rw [hx]; exact (h e he).1), ok_bind])
  refine ⟨res, h1, by simpa using h2, fun j hj => ?_⟩
  rw [h3 j]
  have := sum_ite_sum (F := F) (fun e : Entry F => e.row) (fun e => if e.col = j then e.val else 0)
    (fun i => x.getD i 0) rows m.M (fun e he => (h e he).1)
  have e2 : ∀ i ∈ Finset.range rows, x.getD i 0 * matEntry m.triples i j =
      x.getD i 0 * (m.M.map fun e => if e.row = i then (if e.col = j then e.val else 0) else 0).sum := by
    intro i _
    congr 1
    simp only [matEntry, SparseMat.triples, List.map_map]
    congr 1
    apply List.map_congr_left
    intro e _
    simp only [Function.comp]
    by_cases h1 : e.row = i <;> by_cases h2 : e.col = j <;> simp [h1, h2]
  rw [Finset.sum_congr rfl e2, this]
  simp only [List.getD_eq_getElem?_getD, List.getElem?_replicate, hj, if_true, Option.getD_some, zero_add]
  congr 1; apply List.map_congr_left; intro e _; split <;> simp

/-- C18: `multi_evaluate` is the multilinear extension of the matrix. -/
theorem sparseMat_evaluate_correct (m : SparseMat F) (rx ry : List F)
    (hx : rx.length = m.nx) (hy : ry.length = m.ny) (h : m.InRange (2 ^ m.nx) (2 ^ m.ny)) :
    m.evaluate rx ry = .ok (∑ i ∈ Finset.range (2 ^ m.nx), ∑ j ∈ Finset.range (2 ^ m.ny),
      matEntry m.triples i j * (chi rx i * chi ry j)) := by
  unfold SparseMat.evaluate SparseMat.evalTables
  rw [check_true (by simp [hx]), ok_bind, check_true (by simp [hy]), ok_bind,
    mapM_ok _ (fun e => chi rx e.row * chi ry e.col * e.val)]
  · rw [ok_bind, pure_ok]
    congr 1
    have e : ∀ i ∈ Finset.range (2 ^ m.nx), ∑ j ∈ Finset.range (2 ^ m.ny),
        matEntry m.triples i j * (chi rx i * chi ry j) =
        chi rx i * (m.M.map fun e => if e.row = i then e.val * chi ry e.col else 0).sum := by
      intro i _
      rw [← matEntry_row_sum m i (2 ^ m.ny) (chi ry) (fun e he => (h e he).2), Finset.mul_sum]
      apply Finset.sum_congr rfl; intros; ring
    rw [Finset.sum_congr rfl e, sum_ite_sum (fun e : Entry F => e.row) (fun e => e.val * chi ry e.col)
      (chi rx) _ m.M (fun e he => (h e he).1)]
    congr 1; apply List.map_congr_left; intros; ring
  · intro e he
    rw [idx_ok (d := (0 : F)) (by simp [hx, (h e he).1]), idx_ok (d := (0 : F)) (by simp [hy, (h e he).2])]
    simp only [ok_bind, pure_ok]
    rw [(eqEvals_correct rx).2 _ (by rw [hx]; exact (h e he).1),
      (eqEvals_correct ry).2 _ (by rw [hy]; exact (h e he).2)]

example : SparseMat.multiplyVec (⟨1, 1, [⟨0, 1, 3⟩, ⟨1, 0, 2⟩, ⟨0, 1, 1⟩]⟩ : SparseMat ℚ) 2 2 [5, 7]
    = .ok [28, 10] := by
  norm_num [SparseMat.multiplyVec, check, idx, addAt, ok_bind, pure_ok, List.foldlM, List.replicate]

end Spartan
