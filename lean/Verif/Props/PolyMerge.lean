import Verif.Props.Poly
import Verif.Lemmas.R1CSEval

/-!
Property C68: splitting, extending and merging polynomials, and the identity polynomial, as
functions of the evaluation point.
-/

namespace Spartan
open Spec

variable {F : Type} [Field F] [DecidableEq F]

theorem chi_append (s r : List F) (j i : Nat) (hj : j < 2 ^ s.length) (hi : i < 2 ^ r.length) :
    chi (s ++ r) (j * 2 ^ r.length + i) = chi s j * chi r i := by
  have h := eqT_append_getD s r i j hj hi
  rwa [eqT_getD s j hj, eqT_getD r i hi, eqT_getD] at h
  rw [List.length_append, pow_add]; nlinarith

/-- The extension of a table evaluated at a concatenated point: the blocks of the table, weighted by
the Lagrange basis at the first part of the point. -/
theorem mle_blocks (Z s r : List F) : mle Z (s ++ r) =
    ∑ j ∈ Finset.range (2 ^ s.length), chi s j * mle (Z.drop (j * 2 ^ r.length)) r := by
  unfold mle
  rw [List.length_append, pow_add, sum_range_mul]
  apply Finset.sum_congr rfl
  intro j hj
  rw [Finset.mul_sum]
  apply Finset.sum_congr rfl
  intro i hi
  rw [chi_append s r j i (Finset.mem_range.1 hj) (Finset.mem_range.1 hi)]
  rw [List.getD_eq_getElem?_getD, List.getD_eq_getElem?_getD, List.getElem?_drop]
  ring

theorem mle_take {Z r : List F} {n : Nat} (h : 2 ^ r.length ≤ n) : mle (Z.take n) r = mle Z r := by
  unfold mle
  apply Finset.sum_congr rfl
  intro i hi
  have := Finset.mem_range.1 hi
  rw [List.getD_eq_getElem?_getD, List.getD_eq_getElem?_getD, List.getElem?_take_of_lt (by omega)]

theorem mle_append_left {A B r : List F} (h : 2 ^ r.length ≤ A.length) :
    mle (A ++ B) r = mle A r := by
  unfold mle
  apply Finset.sum_congr rfl
  intro i hi
  have := Finset.mem_range.1 hi
  rw [List.getD_append _ _ _ _ (by omega)]

theorem mle_zeros {Z r : List F} (h : ∀ x ∈ Z, x = 0) : mle Z r = 0 := by
  unfold mle
  apply Finset.sum_eq_zero
  intro i _
  have : Z.getD i 0 = 0 := by
    rw [List.getD_eq_getElem?_getD]
    cases hz : Z[i]? with
    | none => rfl
    | some x => exact h x (List.mem_of_getElem? hz)
  rw [this, zero_mul]

theorem drop_flatten {w : Nat} : ∀ (tabs : List (List F)), (∀ t ∈ tabs, t.length = w) → ∀ j,
    tabs.flatten.drop (j * w) = (tabs.drop j).flatten
  | [], _, j => by simp
  | t :: ts, h, 0 => by simp
  | t :: ts, h, j + 1 => by
    have ht : t.length = w := h t (by simp)
    rw [List.flatten_cons, add_mul, one_mul, add_comm, ← List.drop_drop,
      show (t ++ ts.flatten).drop w = ts.flatten by rw [← ht, List.drop_left]]
    exact drop_flatten ts (fun x hx => h x (by simp [hx])) j

theorem clog_mul_pow {n : Nat} (hn : 1 ≤ n) (k : Nat) :
    Nat.clog 2 (n * 2 ^ k) = Nat.clog 2 n + k := by
  apply le_antisymm
  · apply Nat.clog_le_of_le_pow
    rw [pow_add]
    exact Nat.mul_le_mul_right _ (Nat.le_pow_clog (by norm_num) n)
  · have h := Nat.le_pow_clog (b := 2) (by norm_num) (n * 2 ^ k)
    generalize Nat.clog 2 (n * 2 ^ k) = c at h
    have hkc : k ≤ c := by
      by_contra hlt
      have : 2 ^ c < 2 ^ k := Nat.pow_lt_pow_right (by norm_num) (by omega)
      have : 1 * 2 ^ k ≤ n * 2 ^ k := Nat.mul_le_mul_right _ hn
      omega
    obtain ⟨d, rfl⟩ := Nat.exists_eq_add_of_le hkc
    rw [pow_add, mul_comm (2 ^ k)] at h
    have := Nat.clog_le_of_le_pow (Nat.le_of_mul_le_mul_right h (Nat.two_pow_pos k))
    omega

/-- C68: `merge` of `k` polynomials in `|r|` variables, `k ≤ 2^|s|` with the next power of two equal
to `2^|s|`: its value at `(s, r)` is the combination of their values at `r` with the Lagrange basis
at `s`; missing polynomials count as zero. -/
theorem merge_evaluate {tabs : List (List F)} {s r : List F} (h0 : tabs ≠ [])
    (htab : ∀ t ∈ tabs, t.length = 2 ^ r.length) (hs : nextPow2 tabs.length = 2 ^ s.length) :
    (do let ds ← tabs.mapM Dense.new
        let m ← Dense.merge ds
        m.evaluate (s ++ r)) =
      .ok (∑ j ∈ Finset.range tabs.length, chi s j * mle (tabs.getD j []) r) := by
  have hm : tabs.mapM Dense.new =
      (.ok (tabs.map fun t => (⟨r.length, t.length, t⟩ : Dense F)) : Out (List (Dense F))) := by
    clear hs h0
    induction tabs with
    | nil => rfl
    | cons t ts ih =>
      rw [List.mapM_cons, Dense.new_eq (htab t (by simp)), ok_bind,
        ih (fun x hx => htab x (by simp [hx])), ok_bind]
      rfl
  rw [hm, ok_bind]
  unfold Dense.merge
  simp only [List.map_map]
  have hmap : List.map ((fun x : Dense F => x.Z) ∘ fun t => (⟨r.length, t.length, t⟩ : Dense F)) tabs
      = tabs := by
    conv_rhs => rw [← List.map_id tabs]
    rfl
  rw [hmap]
  have hlen : tabs.flatten.length = tabs.length * 2 ^ r.length := by
    clear hs hm hmap h0
    induction tabs with
    | nil => simp
    | cons t ts ih =>
      rw [List.flatten_cons, List.length_append, htab t (by simp),
        ih (fun x hx => htab x (by simp [hx])), List.length_cons]; ring
  have hle : tabs.length ≤ 2 ^ s.length := by rw [← hs]; exact le_nextPow2 _
  have hnp : nextPow2 tabs.flatten.length = 2 ^ (s ++ r).length := by
    rw [hlen, List.length_append, pow_add]
    unfold nextPow2 at hs ⊢
    have hc : Nat.clog 2 tabs.length = s.length := Nat.pow_right_injective le_rfl hs
    rw [← pow_add]
    congr 1
    have h1 : 1 ≤ tabs.length := List.length_pos_iff.mpr h0
    rw [clog_mul_pow h1, hc]
  have hfl : (tabs.flatten ++ List.replicate (nextPow2 tabs.flatten.length - tabs.flatten.length)
      (0 : F)).length = 2 ^ (s ++ r).length := by
    rw [List.length_append, List.length_replicate, hnp]
    have : tabs.flatten.length ≤ 2 ^ (s ++ r).length := by
      rw [hlen, List.length_append, pow_add]; exact Nat.mul_le_mul_right _ hle
    omega
  rw [dense_evaluate_correct hfl, mle_blocks]
  congr 1
  rw [← Finset.sum_subset (Finset.range_subset_range.mpr hle)]
  · apply Finset.sum_congr rfl
    intro j hj
    have hj := Finset.mem_range.1 hj
    congr 1
    have hd : j * 2 ^ r.length ≤ tabs.flatten.length := by
      rw [hlen]; exact Nat.mul_le_mul_right _ (by omega)
    rw [List.drop_append_of_le_length hd, drop_flatten tabs htab, List.drop_eq_getElem_cons hj,
      List.flatten_cons, List.append_assoc, mle_append_left]
    · rw [List.getD_eq_getElem _ _ hj]
    · exact (htab _ (List.getElem_mem hj)).ge
  · intro j _ hj
    have hj : tabs.length ≤ j := by simpa using hj
    rw [List.drop_append, List.drop_eq_nil_of_le (by rw [hlen]; exact Nat.mul_le_mul_right _ hj),
      List.nil_append, mle_zeros, mul_zero]
    intro x hx
    exact List.eq_of_mem_replicate (List.mem_of_mem_drop hx)

/-- C68: `extend` appends the second polynomial as the other half of the first variable. -/
theorem extend_evaluate {A B r : List F} (t : F) (hA : A.length = 2 ^ r.length)
    (hB : B.length = 2 ^ r.length) :
    (do let a ← Dense.new A
        let b ← Dense.new B
        let e ← a.extend b
        e.evaluate (t :: r)) = .ok ((1 - t) * mle A r + t * mle B r) := by
  rw [Dense.new_eq hA, ok_bind, Dense.new_eq hB, ok_bind]
  unfold Dense.extend
  rw [check_true rfl, ok_bind]
  simp only
  rw [check_true (by rw [hA, hB]), ok_bind]
  have hl : (A ++ B).length = 2 ^ (t :: r).length := by
    rw [List.length_append, List.length_cons, hA, hB, pow_succ]; ring
  have h := dense_evaluate_correct hl
  rw [Dense.new_eq hl, ok_bind, mle_append hA hB] at h
  rw [← h, pure_bind, hl, List.length_cons, pow_succ, hA]

/-- C68: `split` in half, then evaluate both parts: the two restrictions of the first variable. -/
theorem split_evaluate {Z r : List F} (t : F) (hZ : Z.length = 2 ^ (r.length + 1)) :
    ∃ A B : Dense F, (do let d ← Dense.new Z; d.split (2 ^ r.length)) = .ok (A, B) ∧
      ∃ a b, A.evaluate r = .ok a ∧ B.evaluate r = .ok b ∧ mle Z (t :: r) = (1 - t) * a + t * b := by
  have h2 : Z.length = 2 ^ r.length + 2 ^ r.length := by rw [hZ, pow_succ]; ring
  have hp : 0 < 2 ^ r.length := Nat.two_pow_pos _
  have hA : (Z.take (2 ^ r.length)).length = 2 ^ r.length := by simp; omega
  have hB : ((Z.drop (2 ^ r.length)).take (2 ^ r.length)).length = 2 ^ r.length := by simp; omega
  refine ⟨⟨r.length, (Z.take (2 ^ r.length)).length, Z.take (2 ^ r.length)⟩,
    ⟨r.length, ((Z.drop (2 ^ r.length)).take (2 ^ r.length)).length,
      (Z.drop (2 ^ r.length)).take (2 ^ r.length)⟩, ?_,
    mle (Z.take (2 ^ r.length)) r, mle ((Z.drop (2 ^ r.length)).take (2 ^ r.length)) r, ?_, ?_, ?_⟩
  · rw [Dense.new_eq hZ, ok_bind]
    unfold Dense.split
    rw [check_true (by simp only; omega), ok_bind, check_true (by simp only; omega), ok_bind,
      Dense.new_eq hA, ok_bind, Dense.new_eq hB, ok_bind]
    rfl
  · have h := dense_evaluate_correct hA
    rwa [Dense.new_eq hA, ok_bind] at h
  · have h := dense_evaluate_correct hB
    rwa [Dense.new_eq hB, ok_bind] at h
  · rw [← mle_append hA hB, List.take_of_length_le (l := Z.drop _) (by simp; omega),
      List.take_append_drop]

theorem sum_chi (r : List F) : ∑ i ∈ Finset.range (2 ^ r.length), chi r i = 1 := by
  induction r with
  | nil => simp [chi_nil]
  | cons x r ih =>
    rw [List.length_cons, pow_succ, mul_two, Finset.sum_range_add]
    rw [Finset.sum_congr rfl fun i hi => chi_cons_lo (Finset.mem_range.1 hi),
      Finset.sum_congr rfl fun i hi => chi_cons_hi (Finset.mem_range.1 hi),
      ← Finset.mul_sum, ← Finset.mul_sum, ih]
    ring

/-- C68: the identity polynomial is the multilinear extension of `i ↦ i`. -/
theorem identity_evaluate (r : List F) : identityEvaluate r.length r =
    .ok (∑ i ∈ Finset.range (2 ^ r.length), (i : F) * chi r i) := by
  unfold identityEvaluate
  rw [check_true rfl, ok_bind, pure_ok, list_sum_range]
  congr 1
  induction r with
  | nil => simp
  | cons x r ih =>
    have hhi : ∑ i ∈ Finset.range (2 ^ r.length),
        ((2 ^ r.length + i : ℕ) : F) * chi (x :: r) (2 ^ r.length + i) =
        x * ∑ i ∈ Finset.range (2 ^ r.length), (i : F) * chi r i + ((2 ^ r.length : ℕ) : F) * x := by
      rw [← mul_one (((2 ^ r.length : ℕ) : F) * x), ← sum_chi r, Finset.mul_sum, Finset.mul_sum,
        ← Finset.sum_add_distrib]
      refine Finset.sum_congr rfl fun i hi => ?_
      rw [chi_cons_hi (Finset.mem_range.1 hi), Nat.cast_add]; ring
    have hlo : ∑ i ∈ Finset.range (2 ^ r.length), (i : F) * chi (x :: r) i =
        (1 - x) * ∑ i ∈ Finset.range (2 ^ r.length), (i : F) * chi r i := by
      rw [Finset.mul_sum]
      refine Finset.sum_congr rfl fun i hi => ?_
      rw [chi_cons_lo (Finset.mem_range.1 hi)]; ring
    rw [List.length_cons, Finset.sum_range_succ', pow_succ, mul_two, Finset.sum_range_add, hlo, hhi,
      ← ih]
    have hs : ∀ i ∈ Finset.range r.length,
        ((2 ^ (r.length + 1 - (i + 1) - 1) : ℕ) : F) * (x :: r).getD (i + 1) 0 =
          ((2 ^ (r.length - i - 1) : ℕ) : F) * r.getD i 0 := by
      intro i _
      rw [List.getD_cons_succ, show r.length + 1 - (i + 1) - 1 = r.length - i - 1 by omega]
    rw [Finset.sum_congr rfl hs]
    simp only [List.getD_cons_zero, show r.length + 1 - 0 - 1 = r.length by omega]
    ring

/-- On the Boolean points the identity polynomial is the index; a wrong number of coordinates
panics. -/
theorem identity_boolean {ell i : Nat} (hi : i < 2 ^ ell) :
    identityEvaluate ell (boolPoint ell i : List F) = .ok (i : F) := by
  have h := identity_evaluate (boolPoint ell i : List F)
  rw [boolPoint_length] at h
  rw [h, Finset.sum_eq_single i]
  · rw [chi_boolPoint hi hi]; simp
  · intro b hb hne
    rw [chi_boolPoint hi (Finset.mem_range.1 hb)]; simp [hne]
  · intro h; exact absurd (Finset.mem_range.2 hi) h

theorem identity_panics (n : Nat) (r : List F) (h : r.length ≠ n) :
    identityEvaluate n r = .error .panic := by
  unfold identityEvaluate
  rw [check_false h]; rfl

/-- Non-vacuity: three polynomials of two variables merge into one of four variables. -/
example : (do let ds ← ([[1, 2, 3, 4], [5, 6, 7, 8], [9, 10, 11, 12]] : List (List ℚ)).mapM Dense.new
              let m ← Dense.merge ds
              m.evaluate ([1, 0] ++ [1, 1])) = .ok 12 := by
  rw [merge_evaluate (by simp) (by simp) (by decide)]
  congr 1
  simp [Finset.sum_range_succ, chi, mle, bitBE, Finset.prod_range_succ, Nat.testBit]

end Spartan
