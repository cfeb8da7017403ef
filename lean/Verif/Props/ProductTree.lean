import Verif.Lemmas.ProductTree

/-!
Properties C42 and C43: product and dot-product circuits, and completeness of the proofs of their
evaluation.
-/

namespace Spartan
open Spec
variable {F G P : Type} [Field F] [AddCommGroup G] [Module F G]
  [DecidableEq F] [DecidableEq P] [DecidableEq G]

/-! ### C42 -/

/-- C42: the product circuit of a table of length `2^n`, `n ≥ 1`, evaluates to the product of the
entries. -/
theorem product_circuit_evaluate {n : Nat} (hn : 1 ≤ n) {T : List F} (h : T.length = 2 ^ n) :
    (do let d ← Dense.new T
        let c ← ProductCircuit.new d
        c.evaluate) = .ok T.prod := by
  rw [Dense.new_eq h, ok_bind]
  have := circ_new hn h
  unfold dn at this
  rw [this, ok_bind, circ_evaluate hn h]

example : (do let d ← Dense.new [2, 3, 5, (7 : ℚ)]
              let c ← ProductCircuit.new d
              c.evaluate) = .ok 210 := by
  rw [product_circuit_evaluate (n := 2) (by norm_num) rfl]; norm_num

/-- C42: a table of length one has no product circuit: building it panics. -/
theorem product_circuit_short (x : F) :
    (do let d ← Dense.new [x]
        ProductCircuit.new d) = .error .panic := by
  rw [Dense.new_eq (k := 0) rfl, ok_bind]
  unfold ProductCircuit.new Dense.split
  simp [log2, log2ceil, check, Dense.new, pure_ok]

/-- C42: the dot-product circuit of three tables of equal power-of-two length evaluates to the
weighted inner product. -/
theorem dot_circuit_evaluate {n : Nat} {A B C : List F} (hA : A.length = 2 ^ n) (hB : B.length = 2 ^ n)
    (hC : C.length = 2 ^ n) :
    (do let a ← Dense.new A
        let b ← Dense.new B
        let c ← Dense.new C
        let d ← DotProductCircuit.new a b c
        d.evaluate) = .ok (∑ i ∈ Finset.range (2 ^ n), A.getD i 0 * B.getD i 0 * C.getD i 0) := by
  rw [dn_new hA, ok_bind, dn_new hB, ok_bind, dn_new hC, ok_bind]
  unfold DotProductCircuit.new
  rw [check_true (by simp only [dn_len]; omega), ok_bind, check_true (by simp only [dn_len]; omega), ok_bind,
    pure_ok, ok_bind]
  exact dcirc_evaluate (d := (A, B, C)) hA hB hC

/-- C42: tables of different lengths are refused (panic). -/
theorem dot_circuit_lengths {a b c : Dense F} (h : ¬ (a.len = b.len ∧ a.len = c.len)) :
    DotProductCircuit.new a b c = .error .panic := by
  unfold DotProductCircuit.new
  by_cases h1 : a.len = b.len
  · rw [check_true h1, ok_bind, check_false (fun h2 => h ⟨h1, h2⟩)]; rfl
  · rw [check_false h1]; rfl

theorem sum_take_drop {m : Nat} {A B C : List F} (hA : A.length = 2 ^ (m + 1))
    (hB : B.length = 2 ^ (m + 1)) (hC : C.length = 2 ^ (m + 1)) :
    triSum m (A.take (2 ^ m), B.take (2 ^ m), C.take (2 ^ m)) +
      triSum m (A.drop (2 ^ m), B.drop (2 ^ m), C.drop (2 ^ m)) = triSum (m + 1) (A, B, C) := by
  unfold triSum
  rw [pow_succ, mul_two, Finset.sum_range_add]
  congr 1
  · apply Finset.sum_congr rfl
    intro i hi
    have hi := Finset.mem_range.1 hi
    simp only [List.getD_eq_getElem?_getD, List.getElem?_take_of_lt hi]
  · apply Finset.sum_congr rfl
    intro i hi
    simp only [List.getD_eq_getElem?_getD, List.getElem?_drop]

theorem dcirc_split {m : Nat} {A B C : List F} (hA : A.length = 2 ^ (m + 1))
    (hB : B.length = 2 ^ (m + 1)) (hC : C.length = 2 ^ (m + 1)) :
    (dcirc (m + 1) (A, B, C)).split =
      .ok (dcirc m (A.take (2 ^ m), B.take (2 ^ m), C.take (2 ^ m)),
        dcirc m (A.drop (2 ^ m), B.drop (2 ^ m), C.drop (2 ^ m))) := by
  have e : 2 ^ (m + 1) = 2 ^ m + 2 ^ m := by rw [pow_succ]; ring
  unfold DotProductCircuit.split
  have hl : (dcirc (m + 1) (A, B, C)).left.len / 2 = 2 ^ m := by
    show A.length / 2 = _; omega
  rw [hl]
  simp only
  rw [check_true (by show 2 ^ m * 2 = A.length; omega), ok_bind]
  show (do let x ← (dn (m + 1) A).split (2 ^ m); _) = _
  rw [split_dn hA, ok_bind]
  show (do let x ← (dn (m + 1) B).split (2 ^ m); _) = _
  rw [split_dn hB, ok_bind]
  show (do let x ← (dn (m + 1) C).split (2 ^ m); _) = _
  rw [split_dn hC, ok_bind]
  rfl

/-- C42: splitting a dot-product circuit of length at least two preserves the total. -/
theorem dot_circuit_split {m : Nat} {A B C : List F} (hA : A.length = 2 ^ (m + 1))
    (hB : B.length = 2 ^ (m + 1)) (hC : C.length = 2 ^ (m + 1)) :
    ∃ d d1 d2 v1 v2, (do let a ← Dense.new A
                         let b ← Dense.new B
                         let c ← Dense.new C
                         DotProductCircuit.new a b c) = .ok d ∧
      d.split = .ok (d1, d2) ∧ d1.evaluate = .ok v1 ∧ d2.evaluate = .ok v2 ∧
      d.evaluate = .ok (v1 + v2) := by
  have e : 2 ^ (m + 1) = 2 ^ m + 2 ^ m := by rw [pow_succ]; ring
  refine ⟨_, _, _, _, _, ?_, dcirc_split hA hB hC,
    dcirc_evaluate (by simp [hA, e]) (by simp [hB, e]) (by simp [hC, e]),
    dcirc_evaluate (by simp [hA, e]) (by simp [hB, e]) (by simp [hC, e]), ?_⟩
  · rw [dn_new hA, ok_bind, dn_new hB, ok_bind, dn_new hC, ok_bind]
    unfold DotProductCircuit.new
    rw [check_true (by simp only [dn_len]; omega), ok_bind, check_true (by simp only [dn_len]; omega),
      ok_bind]
    rfl
  · rw [sum_take_drop hA hB hC, dcirc_evaluate hA hB hC]

/-- C42: a dot-product circuit of length one cannot be split (panic). -/
theorem dot_circuit_split_short (x y z : F) :
    (dcirc 0 ([x], [y], [z])).split = .error .panic := by
  unfold DotProductCircuit.split
  simp [dcirc, dn, check]

/-! ### C43 -/

/-- C43: the honest proof for one product circuit is accepted for the product of the table, and
prover and verifier end with the same point and the value of the table's extension there. -/
theorem product_proof_complete (h2 : (2 : F) ≠ 0) (h3 : (3 : F) ≠ 0) (E : Env F G P) {n : Nat}
    (hn : 1 ≤ n) {T : List F} (h : T.length = 2 ^ n) (tr : Tr F P) :
    ∃ d c pf r tr', Dense.new T = .ok d ∧ ProductCircuit.new d = .ok c ∧
      prodProve E c tr = .ok (pf, mle T r, r, tr') ∧ r.length = n ∧ tr <+: tr' ∧
      prodVerify E pf T.prod T.length tr = .ok (mle T r, r, tr') := by
  obtain ⟨lps, r, tr', hP, hL, hR, hpre, hV⟩ := prodLoop_complete h2 h3 E h n le_rfl [] tr (by simp)
  have hm : mle (tab T n) [] = T.prod := by
    rw [mle_nil_of_one (by rw [tab_length h n le_rfl]; simp), tab_prod h n le_rfl]
  rw [hm] at hP hV
  refine ⟨dn n T, circ n T, lps, r, tr', dn_new h, circ_new hn h, ?_, hR, hpre, ?_⟩
  · unfold prodProve
    rw [circ_evaluate hn h, ok_bind, check_true (by simp [circ]), ok_bind, ← hP]
    congr 1
    simp only [circ, layersDown, List.zip_map']
  · unfold prodVerify
    rw [log2_eq_of_pow h, ok_bind, check_true hL, ok_bind, ← hV, Nat.sub_self]

/-- C43: the honest batched proof for any number of product circuits and dot-product circuits
is accepted for the products and the weighted sums; prover and verifier end with the same point
`r`; the product claims become the values of the tables' extensions at `r`, and each pair of
dot-product instances becomes the values at `r` of the extensions of the concatenated tables. -/
theorem product_proof_batched_complete (h2 : (2 : F) ≠ 0) (h3 : (3 : F) ≠ 0) (E : Env F G P) {n : Nat}
    (hn : 1 ≤ n) {Ts : List (List F)} (hne : Ts ≠ []) (hT : ∀ T ∈ Ts, T.length = 2 ^ n)
    {ds : List (List F × List F × List F)}
    (hd : ∀ d ∈ ds, d.1.length = 2 ^ (n - 1) ∧ d.2.1.length = 2 ^ (n - 1) ∧ d.2.2.length = 2 ^ (n - 1))
    (tr : Tr F P) :
    ∃ cs pf r tr',
      (Ts.mapM fun T => do let d ← Dense.new T; ProductCircuit.new d) = .ok cs ∧
      prodBProve E cs (ds.map fun d => ⟨dn (n - 1) d.1, dn (n - 1) d.2.1, dn (n - 1) d.2.2⟩) tr =
        .ok (pf, r, tr') ∧ r.length = n ∧ tr <+: tr' ∧
      prodBVerify E pf (Ts.map List.prod)
        (ds.map fun d => ∑ i ∈ Finset.range (2 ^ (n - 1)), d.1.getD i 0 * d.2.1.getD i 0 * d.2.2.getD i 0)
        (2 ^ n) tr = .ok (Ts.map (fun T => mle T r), dotAt ds r, r, tr') := by
  obtain ⟨lps, dL, dR, dW, r, tr', hP, hL, hR, hpre, -, hV⟩ :=
    prodBLoop_complete h2 h3 E hne hT hd n le_rfl [] tr (by simp)
  have hm : (Ts.map fun T => mle (tab T n) []) = Ts.map List.prod := by
    apply List.map_congr_left
    intro T hT'
    rw [mle_nil_of_one (by rw [tab_length (hT T hT') n le_rfl]; simp), tab_prod (hT T hT') n le_rfl]
  rw [hm] at hP hV
  refine ⟨Ts.map (circ n), ⟨lps, dL, dR, dW⟩, r, tr', ?_, ?_, hR, hpre, ?_⟩
  · clear hm hP hV hL hpre hne
    induction Ts with
    | nil => rfl
    | cons T Ts ih =>
      rw [List.mapM_cons, dn_new (hT T (by simp)), ok_bind, circ_new hn (hT T (by simp)), ok_bind,
        ih fun x hx => hT x (by simp [hx]), ok_bind]
      rfl
  · unfold prodBProve
    obtain ⟨T0, Ts', hTs⟩ : ∃ a b, Ts = a :: b := by
      cases Ts with
      | nil => exact absurd rfl hne
      | cons a b => exact ⟨a, b, rfl⟩
    have hc0 : idx (Ts.map (circ n)) 0 = .ok (circ n T0) := by
      rw [hTs, idx_ok (by simp) (circ 0 [])]; rfl
    have hev : (Ts.map (circ n)).mapM ProductCircuit.evaluate = .ok (Ts.map List.prod) := by
      clear hm hP hV hL hpre hne hc0 hTs
      induction Ts with
      | nil => rfl
      | cons T Ts ih =>
        rw [List.map_cons, List.mapM_cons, circ_evaluate hn (hT T (by simp)), ok_bind,
          ih fun x hx => hT x (by simp [hx]), ok_bind]
        rfl
    rw [hc0, ok_bind, hev, ok_bind]
    have : (circ n T0).left.length = n := by simp [circ]
    rw [this]
    show (do let x ← prodBProveLoop E (Ts.map (circ n)) (ds.map (dcirc (n - 1))) n _ _ _; _) = _
    rw [hP, ok_bind]
    rfl
  · unfold prodBVerify
    rw [log2_eq_of_pow rfl, ok_bind, check_true hL, ok_bind]
    have := hV ⟨lps, dL, dR, dW⟩ [] (fun _ => ⟨rfl, rfl, rfl⟩)
    rw [if_neg (by omega), Nat.sub_self] at this
    rw [List.length_map]
    exact this

/-- Non-vacuity: two product circuits of length 4 and a pair of dot products of length 2. -/
example (E : Env ℚ ℚ ℚ) : ∃ cs pf r tr',
    ([[1, 2, 3, 4], [5, 6, 7, 8]].mapM fun T => do let d ← Dense.new (T : List ℚ); ProductCircuit.new d)
      = .ok cs ∧
    prodBProve E cs ([([1, 2], [3, 4], [5, 6]), ([7, 8], [9, 10], [11, 12])].map fun d =>
      ⟨dn 1 d.1, dn 1 d.2.1, dn 1 d.2.2⟩) [] = .ok (pf, r, tr') ∧
    prodBVerify E pf [24, 1680] [63, 1653] 4 [] =
      .ok ([mle [1, 2, 3, 4] r, mle [5, 6, 7, 8] r],
        [mle [1, 2, 7, 8] r, mle [3, 4, 9, 10] r, mle [5, 6, 11, 12] r], r, tr') := by
  obtain ⟨cs, pf, r, tr', a, b, -, -, c⟩ := product_proof_batched_complete (F := ℚ) (by norm_num)
    (by norm_num) E (n := 2) (by norm_num) (Ts := [[1, 2, 3, 4], [5, 6, 7, 8]]) (by simp) (by simp)
    (ds := [([1, 2], [3, 4], [5, 6]), ([7, 8], [9, 10], [11, 12])]) (by simp) []
  refine ⟨cs, pf, r, tr', a, b, ?_⟩
  have e1 : ([[1, 2, 3, 4], [5, 6, 7, 8]] : List (List ℚ)).map List.prod = [24, 1680] := by norm_num
  have e2 : ([([1, 2], [3, 4], [5, 6]), ([7, 8], [9, 10], [11, 12])] : List (List ℚ × List ℚ × List ℚ)).map
      (fun d => ∑ i ∈ Finset.range (2 ^ (2 - 1)), d.1.getD i 0 * d.2.1.getD i 0 * d.2.2.getD i 0)
      = [63, 1653] := by
    norm_num [Finset.sum_range_succ]
  rw [e1, e2] at c
  exact c

end Spartan
