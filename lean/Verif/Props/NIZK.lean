import Verif.Lemmas.NIZK
import Verif.Props.Instance

/-! C33, C34, C36–C41: the R1CS proof and the NIZK. -/

set_option linter.unusedSectionVars false

namespace Spartan
open Spec
variable {F G P : Type} [Field F] [AddCommGroup G] [Module F G]
  [DecidableEq F] [DecidableEq P] [DecidableEq G]

/-! ### C36 -/

/-- C36: `multiply_vec` returns the tables of `A z`, `B z`, `C z`, and the assignment satisfies
the instance iff for every `tau` the sum of the first sum-check is zero. -/
theorem sat_iff_sumcheck {I : R1CS F} {k j : Nat} (h : I.WF k j) {vars inputs : List F}
    (hv : vars.length = 2 ^ j) (hi : inputs.length = I.numInputs) :
    ∃ Az Bz Cz : List F,
      I.multiplyVec (2 ^ k) (2 ^ (j + 1)) (zpad vars inputs) = .ok (dn k Az, dn k Bz, dn k Cz) ∧
      (∀ i < 2 ^ k, Az.getD i 0 = rowDot I.A.triples (zvec vars inputs) i ∧
        Bz.getD i 0 = rowDot I.B.triples (zvec vars inputs) i ∧
        Cz.getD i 0 = rowDot I.C.triples (zvec vars inputs) i) ∧
      ((∀ tau : List F, tau.length = k → ∑ x ∈ Finset.range (2 ^ k),
          chi tau x * (Az.getD x 0 * Bz.getD x 0 - Cz.getD x 0) = 0) ↔
        Sat I.A.triples I.B.triples I.C.triples (2 ^ k) (zvec vars inputs)) := by
  have hzl : (zpad vars inputs).length = 2 ^ (j + 1) := by rw [zpad_length, hv, pow_succ]; ring
  have hl : inputs.length < vars.length := by rw [hv, hi]; exact h.inputs
  have hh := fun m (hm : SparseMat.InRange m (2 ^ k) (2 ^ j + I.numInputs + 1)) =>
    rowDot_zpad (M := m.triples) hl (by rw [hv, hi]; exact triples_range hm)
  refine ⟨_, _, _, h.multiplyVec hzl, ?_, ?_⟩
  · intro i hi
    rw [rowsVec_getD hi, rowsVec_getD hi, rowsVec_getD hi, hh _ h.A, hh _ h.B, hh _ h.C]
    exact ⟨rfl, rfl, rfl⟩
  · rw [← h.sat_zpad hv hi]
    constructor
    · intro hs i hi
      have := hs (boolPoint k i) (boolPoint_length k i)
      rw [Finset.sum_eq_single i] at this
      · rw [chi_boolPoint hi hi, if_pos rfl, one_mul, rowsVec_getD hi, rowsVec_getD hi,
          rowsVec_getD hi] at this
        exact sub_eq_zero.1 this
      · intro b hb hne
        rw [chi_boolPoint hi (Finset.mem_range.1 hb), if_neg hne, zero_mul]
      · intro h; exact absurd (Finset.mem_range.2 hi) h
    · intro hs tau _
      apply Finset.sum_eq_zero
      intro i hi
      have hi := Finset.mem_range.1 hi
      rw [rowsVec_getD hi, rowsVec_getD hi, rowsVec_getD hi, hs i hi, sub_self, mul_zero]

/-- C36: the tables of the second sum-check.  `compute_eval_table_sparse` returns tables whose
product sums with `z` are the extensions of `A z`, `B z`, `C z` at `rx`, and whose extensions at
`ry` are the matrix evaluations returned by `evaluate`. -/
theorem second_sumcheck_tables {I : R1CS F} {k j : Nat} (h : I.WF k j) {z : List F}
    (hz : z.length = 2 ^ (j + 1)) {rx ry : List F} (hx : rx.length = k) (hy : ry.length = j + 1) :
    ∃ Az Bz Cz TA TB TC : List F,
      I.multiplyVec (2 ^ k) (2 ^ (j + 1)) z = .ok (dn k Az, dn k Bz, dn k Cz) ∧
      I.evalTable (2 ^ k) (2 ^ (j + 1)) (eqEvals rx) = .ok (TA, TB, TC) ∧
      I.evaluate rx ry = .ok (mle TA ry, mle TB ry, mle TC ry) ∧
      mle Az rx = ∑ y ∈ Finset.range (2 ^ (j + 1)), z.getD y 0 * TA.getD y 0 ∧
      mle Bz rx = ∑ y ∈ Finset.range (2 ^ (j + 1)), z.getD y 0 * TB.getD y 0 ∧
      mle Cz rx = ∑ y ∈ Finset.range (2 ^ (j + 1)), z.getD y 0 * TC.getD y 0 := by
  refine ⟨_, _, _, _, _, _, h.multiplyVec hz, h.evalTable hx, ?_, ?_⟩
  · rw [h.evaluate hx hy, ← hy, cols_mle, cols_mle, cols_mle]
  · have := fun M => rows_mle (F := F) M z rx
    rw [hx, hz] at this
    exact ⟨this _, this _, this _⟩

/-- Restriction of the first variable. -/
theorem mle_cons_affine (Z : List F) (r : F) (rs : List F) :
    mle Z (r :: rs) = (1 - r) * mle Z (0 :: rs) + r * mle Z (1 :: rs) := by
  have := mle_affine Z (r :: rs) 0 (by simp) r
  simpa using this

open Classical in
/-- Schwartz–Zippel for multilinear extensions. -/
theorem mle_zero_count [Fintype F] : ∀ (n : Nat) (f : List F → F),
    (∀ pre post : List F, pre.length + 1 + post.length = n → ∀ r, f (pre ++ r :: post) =
      (1 - r) * f (pre ++ 0 :: post) + r * f (pre ++ 1 :: post)) →
    (∃ x : List F, x.length = n ∧ f x ≠ 0) →
    (Finset.univ.filter fun t : Fin n → F => f (List.ofFn t) = 0).card
      ≤ n * Fintype.card F ^ (n - 1)
  | 0, f, _, ⟨x, hx, hne⟩ => by
    rw [List.length_eq_zero_iff] at hx
    subst hx
    simp [hne]
  | n + 1, f, hf, ⟨x, hx, hne⟩ => by
    obtain ⟨x0, xs, rfl⟩ : ∃ a b, x = a :: b := by
      cases x with
      | nil => simp at hx
      | cons a b => exact ⟨a, b, rfl⟩
    have hsub : (Finset.univ.filter fun t : Fin (n + 1) → F => f (List.ofFn t) = 0).card
        = ∑ r : F, (Finset.univ.filter fun t : Fin n → F => f (r :: List.ofFn t) = 0).card := by
      rw [← Finset.card_sigma]
      symm
      apply Finset.card_bij (fun (a : (_ : F) × (Fin n → F)) _ => (Fin.cons a.1 a.2 : Fin (n + 1) → F))
      · rintro ⟨r, rs⟩ h; simpa [List.ofFn_succ] using h
      · rintro ⟨r, rs⟩ _ ⟨r', rs'⟩ _ h
        obtain ⟨h1, h2⟩ := Fin.cons_inj.1 h
        simp only at h1 h2
        rw [h1, h2]
      · intro rs h
        refine ⟨⟨rs 0, Fin.tail rs⟩, ?_, Fin.cons_self_tail rs⟩
        simp only [Finset.mem_sigma, Finset.mem_univ, Finset.mem_filter, true_and,
          List.ofFn_succ] at h ⊢
        exact h
    rw [hsub]
    -- at most one value of the first coordinate kills the restriction to `xs`
    have hone : (Finset.univ.filter fun r : F => f (r :: xs) = 0).card ≤ 1 := by
      rw [Finset.card_le_one]
      intro a ha b hb
      simp only [Finset.mem_filter, Finset.mem_univ, true_and] at ha hb
      by_contra hab
      apply hne
      have h0 := hf [] xs (by simp at hx ⊢; omega)
      simp only [List.nil_append] at h0
      rw [h0] at ha hb ⊢
      have h1 : f (0 :: xs) = 0 := by
        have : (a - b) * f (0 :: xs) = 0 := by linear_combination (-b) * ha + a * hb
        rcases mul_eq_zero.1 this with h | h
        · exact absurd (sub_eq_zero.1 h) hab
        · exact h
      have h2 : f (1 :: xs) = 0 := by
        have : (a - b) * f (1 :: xs) = 0 := by linear_combination (1 - b) * ha - (1 - a) * hb
        rcases mul_eq_zero.1 this with h | h
        · exact absurd (sub_eq_zero.1 h) hab
        · exact h
      rw [h1, h2]; ring
    have hgood : ∀ r, f (r :: xs) ≠ 0 → (Finset.univ.filter fun t : Fin n → F =>
        f (r :: List.ofFn t) = 0).card ≤ n * Fintype.card F ^ (n - 1) := by
      intro r hr
      exact mle_zero_count n (fun l => f (r :: l))
        (fun pre post hl s => hf (r :: pre) post (by simp; omega) s) ⟨xs, by simpa using hx, hr⟩
    have hbad : ∀ r, (Finset.univ.filter fun t : Fin n → F => f (r :: List.ofFn t) = 0).card
        ≤ Fintype.card F ^ n := by
      intro r
      refine (Finset.card_le_univ _).trans ?_
      simp
    calc ∑ r : F, (Finset.univ.filter fun t : Fin n → F => f (r :: List.ofFn t) = 0).card
        ≤ ∑ r : F, ((if f (r :: xs) = 0 then Fintype.card F ^ n else 0) +
            n * Fintype.card F ^ (n - 1)) := by
          apply Finset.sum_le_sum
          intro r _
          by_cases h : f (r :: xs) = 0
          · rw [if_pos h]; exact (hbad r).trans (Nat.le_add_right _ _)
          · rw [if_neg h, zero_add]; exact hgood r h
      _ = (Finset.univ.filter fun r : F => f (r :: xs) = 0).card * Fintype.card F ^ n
            + Fintype.card F * (n * Fintype.card F ^ (n - 1)) := by
          rw [Finset.sum_add_distrib, ← Finset.sum_filter, Finset.sum_const, Finset.sum_const,
            smul_eq_mul, smul_eq_mul, Finset.card_univ]
      _ ≤ 1 * Fintype.card F ^ n + Fintype.card F * (n * Fintype.card F ^ (n - 1)) :=
          Nat.add_le_add_right (Nat.mul_le_mul_right _ hone) _
      _ ≤ (n + 1) * Fintype.card F ^ (n + 1 - 1) := by
          cases n with
          | zero => simp
          | succ m =>
            simp only [Nat.add_sub_cancel]
            rw [pow_succ]
            apply le_of_eq; ring

theorem chi_affine (pre post : List F) (r : F) (i : Nat) (hi : i < 2 ^ (pre.length + 1 + post.length)) :
    chi (pre ++ r :: post) i = (1 - r) * chi (pre ++ 0 :: post) i + r * chi (pre ++ 1 :: post) i := by
  have h := chi_set_affine (pre ++ r :: post) pre.length i r (by simp)
    (by simp; rw [show pre.length + (post.length + 1) = pre.length + 1 + post.length by omega]; exact hi)
  simpa using h

/-- C36, counting form: for an assignment that does not satisfy the instance, at most
`k · |F|^(k-1)` of the `|F|^k` values of `tau` make the sum of the first sum-check zero. -/
theorem unsat_tau_count [Fintype F] {I : R1CS F} {k j : Nat} (h : I.WF k j) {vars inputs : List F}
    (hv : vars.length = 2 ^ j) (hi : inputs.length = I.numInputs)
    (hu : ¬ Sat I.A.triples I.B.triples I.C.triples (2 ^ k) (zvec vars inputs)) :
    Set.ncard {tau : Fin k → F | ∑ x ∈ Finset.range (2 ^ k), chi (List.ofFn tau) x *
      (rowDot I.A.triples (zvec vars inputs) x * rowDot I.B.triples (zvec vars inputs) x -
        rowDot I.C.triples (zvec vars inputs) x) = 0} ≤ k * Fintype.card F ^ (k - 1) := by
  classical
  obtain ⟨Az, Bz, Cz, -, hrow, hiff⟩ := sat_iff_sumcheck h hv hi
  have := mle_zero_count k (fun tau => ∑ x ∈ Finset.range (2 ^ k), chi tau x *
      (rowDot I.A.triples (zvec vars inputs) x * rowDot I.B.triples (zvec vars inputs) x -
        rowDot I.C.triples (zvec vars inputs) x)) ?_ ?_
  · rw [← Set.ncard_coe_finset] at this
    refine le_trans (le_of_eq ?_) this
    congr 1
    ext t; simp
  · intro pre post hl r
    simp only [Finset.mul_sum, ← Finset.sum_add_distrib]
    apply Finset.sum_congr rfl
    intro x hx
    rw [chi_affine pre post r x (by rw [hl]; exact Finset.mem_range.1 hx)]; ring
  · by_contra hno
    push Not at hno
    apply hu
    rw [← hiff]
    intro tau ht
    refine Eq.trans ?_ (hno tau ht)
    apply Finset.sum_congr rfl
    intro x hx
    obtain ⟨a, b, c⟩ := hrow x (Finset.mem_range.1 hx)
    rw [a, b, c]

/-! ### C37 -/

/-- `Inst::is_sat` saying yes on an instance of well-formed shape: the assignment fits and satisfies the
padded system. -/
theorem isSat_wf {I : Inst F} {k j : Nat} (hwf : I.inst.WF k j) {vars inputs : List F}
    (hsat : I.isSat vars inputs = .ok (.ok true)) :
    vars.length ≤ 2 ^ j ∧ inputs.length = I.inst.numInputs ∧
      Sat I.inst.A.triples I.inst.B.triples I.inst.C.triples (2 ^ k) (zpad (fit (2 ^ j) vars) inputs) := by
  have hlen : vars.length ≤ I.inst.numVars ∧ inputs.length = I.inst.numInputs := by
    by_contra hcon
    have := isSat_wrong_length I vars
      inputs (by rcases not_and_or.1 hcon with h | h
                 · left; exact Nat.lt_of_not_le h
                 · right; exact h)
    rw [this] at hsat; simp at hsat
  obtain ⟨hvl, hil⟩ := hlen
  rw [hwf.vars] at hvl
  refine ⟨hvl, hil, ?_⟩
  rw [hwf.sat_zpad (fit_length _ _) hil]
  obtain ⟨b, hb, hbs⟩ := r1cs_isSat_eq (I := I.inst)
    (vars := fit (2 ^ j) vars) (input := inputs) (by rw [fit_length, hwf.vars]) hil
    (by rw [hwf.cons, hwf.vars]; exact hwf.A) (by rw [hwf.cons, hwf.vars]; exact hwf.B)
    (by rw [hwf.cons, hwf.vars]; exact hwf.C)
  rw [hwf.cons] at hbs
  apply hbs.1
  unfold Inst.isSat at hsat
  rw [if_neg (by rw [hwf.vars]; exact Nat.not_lt.2 hvl), if_neg (by simp [hil]), hwf.vars, padVars_eq hvl,
    ok_bind, hb, ok_bind] at hsat
  simpa [pure_ok] using hsat

/-- C37 for every instance of well-formed shape, however it was made. -/
theorem nizk_complete_wf (h2 : (2 : F) ≠ 0) (h3 : (3 : F) ≠ 0) {E : Env F G P} (hE : E.Lawful)
    {nv ni k j : Nat} {I : Inst F} (hwf : I.inst.WF k j) (hk : 1 ≤ k)
    (hj : varsPadded nv ni = 2 ^ j) (hj62 : j ≤ 62)
    (S : GenSrc G) (label : List UInt8) {vars inputs : List F}
    (hsat : I.isSat vars inputs = .ok (.ok true)) (tr : Tr F P) (tape : Tape F) :
    ∃ gens, NIZKGens.new S label nv ni = .ok gens ∧
      ((∃ pf tr', NIZK.prove E I vars inputs gens tr tape = .ok (pf, tr') ∧
          NIZK.verify E pf I inputs gens tr = .ok tr') ∨
        (NIZK.prove E I vars inputs gens tr tape = .error .panic ∧
          ∃ t, E.hash (t ++ [.chal "u"]) = 0)) := by
  obtain ⟨gens, g0, h, hg, hgw⟩ := r1csGens_wf S hj62 label
  refine ⟨gens, by unfold NIZKGens.new; rw [hj]; exact hg, ?_⟩
  obtain ⟨hvl, hil, hS⟩ := isSat_wf hwf hsat
  have hvl' : (fit (2 ^ j) vars).length = 2 ^ j := fit_length _ _
  have hil' : inputs.length < 2 ^ j := by rw [hil]; exact hwf.inputs
  unfold NIZK.prove NIZK.verify
  simp only
  rw [hwf.vars, padVars_eq hvl, ok_bind]
  rcases r1csProof_complete h2 h3 hE hwf hk hj62 hgw hvl' hil' hS
    ((tr.protocol "Spartan NIZK proof") ++ [.blob "R1CSInstanceDigest" I.digest]) tape with
    ⟨pf, rx, ry, tr', tape', evals, p, e, v⟩ | ⟨p, t, ht⟩
  · left
    rw [p, ok_bind]
    refine ⟨_, _, rfl, ?_⟩
    simp only
    rw [e, ok_bind, check_true (by rw [hil]), ok_bind, hwf.cons, v, ok_bind]
    simp only
    rw [check_true trivial, ok_bind, ok_bind]
    rfl
  · right
    rw [p]
    exact ⟨rfl, t, ht⟩

/-- C37.  For every instance built by `Instance::new` with at least one constraint (and at most
`2^62` variables), the generators derived for it, every satisfying assignment, transcript and
tape: `NIZK::prove` returns a proof that `NIZK::verify` accepts with the same final transcript,
or a folding challenge is zero and the prover panics. -/
theorem nizk_complete (h2 : (2 : F) ≠ 0) (h3 : (3 : F) ≠ 0) {E : Env F G P} (hE : E.Lawful)
    {K : Codec F} {nc nv ni : Nat} {A B C : List (Nat × Nat × List UInt8)} {I : Inst F}
    (hnew : Inst.new K nc nv ni A B C = .ok (.ok I)) (hc : 1 ≤ nc) (hsz : I.inst.numVars ≤ 2 ^ 62)
    (S : GenSrc G) (label : List UInt8) {vars inputs : List F}
    (hsat : I.isSat vars inputs = .ok (.ok true)) (tr : Tr F P) (tape : Tape F) :
    ∃ gens, NIZKGens.new S label nv ni = .ok gens ∧
      ((∃ pf tr', NIZK.prove E I vars inputs gens tr tape = .ok (pf, tr') ∧
          NIZK.verify E pf I inputs gens tr = .ok tr') ∨
        (NIZK.prove E I vars inputs gens tr tape = .error .panic ∧
          ∃ t, E.hash (t ++ [.chal "u"]) = 0)) := by
  obtain ⟨hA, hB, hC, rfl⟩ := new_ok_entries hnew
  obtain ⟨k, j, hwf, -, hk, hj⟩ := builtR1CS_wf hA hB hC
  have hj62 : j ≤ 62 := by
    have : 2 ^ j ≤ 2 ^ 62 := by rw [← hj]; exact hsz
    exact (Nat.pow_le_pow_iff_right (by norm_num)).1 this
  exact nizk_complete_wf (I := ⟨builtR1CS K nc nv ni A B C, K.digest (builtR1CS K nc nv ni A B C)⟩)
    h2 h3 hE hwf (hk hc) hj hj62 S label hsat tr tape

/-- C37 for oracles whose folding challenges are never zero. -/
theorem nizk_complete_nonzero (h2 : (2 : F) ≠ 0) (h3 : (3 : F) ≠ 0) {E : Env F G P} (hE : E.Lawful)
    (hu : ∀ t, E.hash (t ++ [.chal "u"]) ≠ 0)
    {K : Codec F} {nc nv ni : Nat} {A B C : List (Nat × Nat × List UInt8)} {I : Inst F}
    (hnew : Inst.new K nc nv ni A B C = .ok (.ok I)) (hc : 1 ≤ nc) (hsz : I.inst.numVars ≤ 2 ^ 62)
    (S : GenSrc G) (label : List UInt8) {vars inputs : List F}
    (hsat : I.isSat vars inputs = .ok (.ok true)) (tr : Tr F P) (tape : Tape F) :
    ∃ gens pf tr', NIZKGens.new S label nv ni = .ok gens ∧
      NIZK.prove E I vars inputs gens tr tape = .ok (pf, tr') ∧
      NIZK.verify E pf I inputs gens tr = .ok tr' := by
  obtain ⟨gens, hg, ⟨pf, tr', hp, hv⟩ | ⟨-, t, ht⟩⟩ :=
    nizk_complete h2 h3 hE hnew hc hsz S label hsat tr tape
  · exact ⟨gens, pf, tr', hg, hp, hv⟩
  · exact absurd ht (hu t)

/-- The instance `v0 * v1 = x` over ℚ with `v = (2, 3)`, `x = 6` meets the hypotheses. -/
example : ∃ I gens pf tr', Inst.new toyCodec 1 2 1 [(0, 0, [1])] [(0, 1, [1])] [(0, 3, [1])] = .ok (.ok I) ∧
    NIZKGens.new (⟨fun _ i => UInt8.ofNat i, fun b => (b.getD 0 0).toNat⟩ : GenSrc ℚ) [1] 2 1 = .ok gens ∧
    NIZK.prove (⟨id, some, fun _ => 5⟩ : Env ℚ ℚ ℚ) I [2, 3] [6] gens [] (fun i => i) = .ok (pf, tr') ∧
    NIZK.verify (⟨id, some, fun _ => 5⟩ : Env ℚ ℚ ℚ) pf I [6] gens [] = .ok tr' := by
  obtain ⟨I, hI⟩ := (instance_new_ok_iff toyCodec 1 2 1 [(0, 0, [1])] [(0, 1, [1])] [(0, 3, [1])]).2
    (by decide)
  have hn : I.inst.numVars = 2 := by
    obtain ⟨-, -, -, rfl⟩ := new_ok_entries hI
    show varsPadded 2 1 = 2
    rw [varsPadded_eq]
    exact nextPow2_pow 1
  obtain ⟨b, hb, hiff⟩ := padding_preserves_sat hI (vars := [2, 3]) (inputs := [6]) (by rw [hn]; simp) rfl
  have hbt : b = true := hiff.2 (by
    intro i hi
    interval_cases i
    norm_num [rowDot, parsed, toyCodec, matEntry, zvec, fit, Finset.sum_range_succ,
      show UInt8.toNat 1 = 1 from rfl])
  subst hbt
  obtain ⟨gens, pf, tr', h1, h2, h3⟩ := nizk_complete_nonzero (E := (⟨id, some, fun _ => 5⟩ : Env ℚ ℚ ℚ))
    (by norm_num) (by norm_num) (fun _ => rfl) (fun _ => by norm_num) hI le_rfl (by rw [hn]; norm_num)
    ⟨fun _ i => UInt8.ofNat i, fun b => (b.getD 0 0).toNat⟩ [1] hb [] (fun i => i)
  exact ⟨I, gens, pf, tr', hI, h1, h2, h3⟩

/-! ### C33 -/

theorem panicOnly_mapM {α β : Type} {f : α → Out β} (hf : ∀ a, PanicOnly (f a)) :
    ∀ l : List α, PanicOnly (l.mapM f)
  | [] => by rw [List.mapM_nil]; exact panicOnly_ok _
  | a :: l => by
    rw [List.mapM_cons]
    exact (hf a).bind fun _ => (panicOnly_mapM hf l).bind fun _ => panicOnly_ok _

theorem panicOnly_idx {α : Type} (v : List α) (i : Nat) : PanicOnly (idx v i) := by
  unfold idx; split
  · exact panicOnly_ok _
  · exact panicOnly_panic

theorem panicOnly_evaluate (I : R1CS F) (rx ry : List F) : PanicOnly (I.evaluate rx ry) := by
  have h : ∀ m : SparseMat F, PanicOnly (m.evaluate rx ry) := fun m =>
    panicOnly_check.bind fun _ => panicOnly_check.bind fun _ =>
      PanicOnly.bind (panicOnly_mapM (fun e => (panicOnly_idx _ _).bind fun _ =>
        (panicOnly_idx _ _).bind fun _ => panicOnly_ok _) _) fun _ => panicOnly_ok _
  exact (h _).bind fun _ => (h _).bind fun _ => (h _).bind fun _ => panicOnly_ok _

/-- C33 fails: an instance with one (padded) constraint makes `NIZK::verify` panic, whatever the
proof, inputs, generators and transcript. -/
theorem nizk_one_constraint_verify_panics (E : Env F G P) (pf : NIZK F P) {I : Inst F}
    (h1 : I.inst.numCons = 1) (hv : I.inst.numVars ≠ 0) (input : List F) (gens : R1CSGens G)
    (hg : gens.gens1.n = 1 ∧ gens.gens1.G ≠ []) (tr : Tr F P) :
    NIZK.verify E pf I input gens tr = .error .panic := by
  unfold NIZK.verify
  simp only
  have he := panicOnly_evaluate I.inst pf.rx pf.ry
  cases hev : I.inst.evaluate pf.rx pf.ry with
  | error e => rw [he e hev]; rfl
  | ok evals =>
    rw [ok_bind]
    by_cases hi : input.length = I.inst.numInputs
    · rw [check_true hi, ok_bind]
      unfold R1CSProof.verify
      simp only
      rw [h1, show log2 1 = .ok 0 from log2_pow 0, ok_bind]
      have hl : log2 (2 * I.inst.numVars) = .ok (log2ceil (2 * I.inst.numVars)) := by
        unfold log2; rw [check_true (by omega)]; rfl
      obtain ⟨c, hc⟩ : ∃ c, commit1 (0 : F) 0 gens.gens1 = .ok c := by
        unfold commit1
        rw [check_true hg.1, ok_bind]
        cases hG : gens.gens1.G with
        | nil => exact absurd hG hg.2
        | cons g0 l => exact ⟨_, rfl⟩
      rw [hl, ok_bind, hc, ok_bind, zk_zero_rounds_panic]; rfl
    · rw [check_false hi]; rfl

/-- C33 fails: no proof can be produced for such an instance. -/
theorem nizk_one_constraint_unprovable (E : Env F G P) {I : Inst F} (h1 : I.inst.numCons = 1)
    (vars input : List F) (gens : R1CSGens G) (tr : Tr F P) (tape : Tape F) (r : NIZK F P × Tr F P) :
    NIZK.prove E I vars input gens tr tape ≠ .ok r := by
  intro h
  unfold NIZK.prove at h
  obtain ⟨pv, -, ha⟩ := bind_ok h
  obtain ⟨x, hx, -⟩ := bind_ok ha
  unfold R1CSProof.prove at hx
  obtain ⟨_, -, hb⟩ := bind_ok hx
  obtain ⟨_, -, hc⟩ := bind_ok hb
  obtain ⟨_, -, hd⟩ := bind_ok hc
  obtain ⟨nx, hnx, he⟩ := bind_ok hd
  rw [h1, show log2 1 = .ok 0 from log2_pow 0] at hnx
  cases hnx
  obtain ⟨_, -, hf⟩ := bind_ok he
  obtain ⟨_, -, hg⟩ := bind_ok hf
  obtain ⟨_, -, hh⟩ := bind_ok hg
  obtain ⟨y, hy, -⟩ := bind_ok hh
  unfold proveCubicAdditive zkProve at hy
  obtain ⟨_, -, hi⟩ := bind_ok hy
  obtain ⟨_, -, hj⟩ := bind_ok hi
  obtain ⟨_, -, hk⟩ := bind_ok hj
  obtain ⟨_, hl, -⟩ := bind_ok hk
  exact absurd (check_ok hl) (by omega)

/-- C33 is false: the empty system is accepted by `Instance::new` and is satisfied by every
assignment, yet it can be neither proved nor verified. -/
theorem empty_instance_unusable (E : Env F G P) (K : Codec F) (S : GenSrc G) (label : List UInt8)
    (nv ni : Nat) (hsz : varsPadded nv ni ≤ 2 ^ 62) :
    ∃ I gens, Inst.new K 0 nv ni [] [] [] = .ok (.ok I) ∧ NIZKGens.new S label nv ni = .ok gens ∧
      (∀ vars inputs, vars.length ≤ nv → inputs.length = ni → I.isSat vars inputs = .ok (.ok true)) ∧
      (∀ vars inputs tr tape r, NIZK.prove E I vars inputs gens tr tape ≠ .ok r) ∧
      ∀ pf inputs tr, NIZK.verify E pf I inputs gens tr = .error .panic := by
  obtain ⟨I, hI, h1⟩ := instance_no_cons_padded_to_one K nv ni
  obtain ⟨-, -, -, hIe⟩ := new_ok_entries hI
  have hj := varsPadded_pow nv ni
  have hj62 : Nat.clog 2 (max nv (ni + 1)) ≤ 62 :=
    (Nat.pow_le_pow_iff_right (a := 2) (by norm_num)).1 (by rw [← hj]; exact hsz)
  obtain ⟨gens, g0, h, hg, hgw⟩ := r1csGens_wf S hj62 label
  have hnv : I.inst.numVars = varsPadded nv ni := by rw [hIe]; rfl
  refine ⟨I, gens, hI, by unfold NIZKGens.new; rw [hj]; exact hg, ?_, ?_, ?_⟩
  · intro vars inputs hv hi
    obtain ⟨b, hb, hiff⟩ := padding_preserves_sat hI (vars := vars) (inputs := inputs)
      (by rw [hnv]; exact hv.trans (le_varsPadded nv ni).1) hi
    rw [hb, hiff.2 (fun i hi => absurd hi (by omega))]
  · intro vars inputs tr tape r
    exact nizk_one_constraint_unprovable E h1 vars inputs gens tr tape r
  · intro pf inputs tr
    refine nizk_one_constraint_verify_panics E pf h1 ?_ inputs gens ?_ tr
    · rw [hnv, hj]; positivity
    · rw [hgw.g1]; exact ⟨rfl, by simp [Gens.single]⟩

/-! ### C34 -/

/-- The instance with twice as many variables and the same matrices. -/
def R1CS.widen (I : R1CS F) : R1CS F :=
  { I with numVars := 2 * I.numVars, A := { I.A with ny := I.A.ny + 1 },
           B := { I.B with ny := I.B.ny + 1 }, C := { I.C with ny := I.C.ny + 1 } }

theorem widen_multiplyVec (I : R1CS F) {n m : Nat} {z : List F} (h : 2 * I.numVars < m) :
    I.multiplyVec n m z = I.widen.multiplyVec n m z := by
  unfold R1CS.multiplyVec
  rw [check_true (show m > I.numVars by omega), check_true (show m > I.widen.numVars from h)]
  rfl

theorem widen_evalTable (I : R1CS F) {n m : Nat} {z : List F} (h : 2 * I.numVars < m) :
    I.evalTable n m z = I.widen.evalTable n m z := by
  unfold R1CS.evalTable
  rw [check_true (show m > I.numVars by omega), check_true (show m > I.widen.numVars from h)]
  rfl

theorem widen_prove (E : Env F G P) (I : R1CS F) {vars input : List F} (gens : R1CSGens G) (tr : Tr F P)
    (tape : Tape F) (hv : 2 * I.numVars = vars.length) :
    R1CSProof.prove E I vars input gens tr tape = R1CSProof.prove E I.widen vars input gens tr tape := by
  unfold R1CSProof.prove
  have hz : 2 * I.numVars <
      (vars ++ [1] ++ input ++ List.replicate (vars.length - input.length - 1) 0).length := by
    simp; omega
  simp only [widen_multiplyVec I hz, widen_evalTable I hz]
  rfl

/-- C34 fails for `NIZK::prove`: an assignment with twice as many variables as the instance has is
not rejected.  It returns a proof whenever the number of (padded) variables is `2^j` with `j` odd
and the surplus is the constant and the inputs. -/
theorem nizk_prove_oversized (h2 : (2 : F) ≠ 0) (h3 : (3 : F) ≠ 0) {E : Env F G P} (hE : E.Lawful)
    (hu : ∀ t, E.hash (t ++ [.chal "u"]) ≠ 0) {I : Inst F} {k j : Nat} (hI : I.inst.WF k j)
    (hk : 1 ≤ k) (hj : j ≤ 61) (hodd : j % 2 = 1) {gens : R1CSGens G} {g0 h : G} (hg : gens.WF j g0 h)
    {vars input : List F} (hv : vars.length = 2 ^ j) (hi : input.length = I.inst.numInputs)
    (hsat : Sat I.inst.A.triples I.inst.B.triples I.inst.C.triples (2 ^ k) (zvec vars input))
    (tr : Tr F P) (tape : Tape F) :
    (vars ++ fit (2 ^ j) (1 :: input)).length > I.inst.numVars ∧
    ∃ r, NIZK.prove E I (vars ++ fit (2 ^ j) (1 :: input)) input gens tr tape = .ok r := by
  have hp : 0 < 2 ^ j := Nat.two_pow_pos _
  have hinp := hI.inputs
  have hl : (vars ++ fit (2 ^ j) (1 :: input)).length = 2 ^ (j + 1) := by
    rw [List.length_append, hv, fit_length, pow_succ]; ring
  refine ⟨by rw [hl, hI.vars, pow_succ]; omega, ?_⟩
  have hpow : 2 ^ (j + 1) = 2 * 2 ^ j := by rw [pow_succ]; ring
  have hr : ∀ m : SparseMat F, m.InRange (2 ^ k) (2 ^ j + I.inst.numInputs + 1) →
      ({ m with ny := m.ny + 1 } : SparseMat F).InRange (2 ^ k) (2 ^ (j + 1) + I.inst.numInputs + 1) :=
    fun m hm e he => ⟨(hm e he).1, by have := (hm e he).2; omega⟩
  have hW : I.inst.widen.WF k (j + 1) :=
    ⟨hI.cons, by show 2 * I.inst.numVars = _; rw [hI.vars, hpow], by
      show I.inst.numInputs < _; omega, hr _ hI.A, hr _ hI.B, hr _ hI.C,
      ⟨hI.nA.1, by show I.inst.A.ny + 1 = _; rw [hI.nA.2]⟩,
      ⟨hI.nB.1, by show I.inst.B.ny + 1 = _; rw [hI.nB.2]⟩,
      ⟨hI.nC.1, by show I.inst.C.ny + 1 = _; rw [hI.nC.2]⟩⟩
  have hgW : gens.WF (j + 1) g0 h := ⟨hg.g1, hg.g3, hg.g4, by
    have := hg.pc; rwa [show j - j / 2 = j + 1 - (j + 1) / 2 by omega] at this⟩
  have hsplit : zpad vars input = vars ++ fit (2 ^ j) (1 :: input) := by
    rw [zpad_split (by omega), hv]
  have hrow : ∀ m : SparseMat F, m.InRange (2 ^ k) (2 ^ j + I.inst.numInputs + 1) → ∀ i,
      rowDot m.triples (zpad (vars ++ fit (2 ^ j) (1 :: input)) input) i =
        rowDot m.triples (zpad vars input) i := by
    intro m hm i
    have hm' := triples_range hm
    rw [rowDot_eq _ (fun e he => by rw [zpad_length, hl]; have := hm' e he; omega),
      rowDot_eq _ (fun e he => by rw [zpad_length, hv]; have := hm' e he; omega)]
    congr 1
    apply List.map_congr_left
    intro e he
    rw [zpad_split (by omega), ← hsplit]
    congr 2
    rw [List.getD_append]
    rw [zpad_length, hv]; have := hm' e he; omega
  have hS : Sat I.inst.widen.A.triples I.inst.widen.B.triples I.inst.widen.C.triples (2 ^ k)
      (zpad (vars ++ fit (2 ^ j) (1 :: input)) input) := by
    have hs := (hI.sat_zpad hv hi).2 hsat
    intro i hi
    show rowDot I.inst.A.triples _ i * rowDot I.inst.B.triples _ i = rowDot I.inst.C.triples _ i
    rw [hrow _ hI.A, hrow _ hI.B, hrow _ hI.C]
    exact hs i hi
  unfold NIZK.prove
  simp only
  rw [show padVars (vars ++ fit (2 ^ j) (1 :: input)) I.inst.numVars =
    .ok (vars ++ fit (2 ^ j) (1 :: input)) from by unfold padVars; rw [if_neg (by rw [hl, hI.vars]; omega)], ok_bind,
    widen_prove _ _ _ _ _ (by rw [hI.vars, hl, hpow])]
  rcases r1csProof_complete h2 h3 hE hW hk (by omega) hgW hl (by omega) hS
    ((tr.protocol "Spartan NIZK proof") ++ [.blob "R1CSInstanceDigest" I.digest]) tape with
    ⟨pf, rx, ry, tr', tape', evals, p, e, v⟩ | ⟨p, t, ht⟩
  · rw [p]; exact ⟨_, rfl⟩
  · exact absurd ht (hu t)

/-! ### C38 -/

/-- C38 is FALSE: for every instance (satisfiable or not) and every input of the right length
there is a proof object that `NIZK::verify` accepts, provided no folding challenge is zero and no
round challenge is one.  It is made of identity points and zero responses, except for one point. -/
theorem nizk_forgery {E : Env F G P} (hE : E.Lawful) (hu : ∀ t, E.hash (t ++ [.chal "u"]) ≠ 0)
    (hr : ∀ t, E.hash (t ++ [.chal "challenge_nextround"]) ≠ 1) {I : Inst F} {k j : Nat}
    (hI : I.inst.WF k j) (hk : 1 ≤ k) (hj : j ≤ 62) {gens : R1CSGens G} {g0 h : G}
    (hg : gens.WF j g0 h) {input : List F} (hi : input.length = I.inst.numInputs) (tr : Tr F P) :
    ∃ pf tr', NIZK.verify E pf I input gens tr = .ok tr' := by
  -- run the verifier on the zero proof
  obtain ⟨tr0, htr0⟩ : ∃ t, t = ((((tr.protocol "Spartan NIZK proof") ++
    [Msg.blob "R1CSInstanceDigest" I.digest] : Tr F P).protocol "R1CS proof").scalars "input" input).polyComm
    "poly_commitment" (List.replicate (2 ^ (j / 2)) (E.compress 0)) := ⟨_, rfl⟩
  obtain ⟨tau, tr2, htau, htl⟩ : ∃ a b, E.challengeVec tr0 "challenge_tau" k = (a, b) ∧ a.length = k :=
    ⟨_, _, rfl, challengeVec_length _ _ _ _⟩
  obtain ⟨rx, tr3, v1, hrx, -⟩ := zeroSC_verify hE (g0 := g0) (h := h) hg.g4.1 hg.g4.2 hk tr2
  obtain ⟨tr4, kv⟩ := zero_knowledge hE g0 h tr3
  obtain ⟨tr5, pv⟩ := zero_product hE g0 h tr4
  obtain ⟨tr6, htr6⟩ : ∃ t, t = (((tr5.point "comm_Az_claim" (E.compress 0)).point
    "comm_Bz_claim" (E.compress 0)).point "comm_Cz_claim" (E.compress 0)).point
    "comm_prod_Az_Bz_claims" (E.compress 0) := ⟨_, rfl⟩
  obtain ⟨tr7, ev⟩ := zero_equality hE (Gens.single g0 h) tr6
  obtain ⟨rA, tr8, cA⟩ : ∃ a b, E.challenge tr7 "challenege_Az" = (a, b) := ⟨_, _, rfl⟩
  obtain ⟨rB, tr9, cB⟩ : ∃ a b, E.challenge tr8 "challenege_Bz" = (a, b) := ⟨_, _, rfl⟩
  obtain ⟨rC, tr10, cC⟩ : ∃ a b, E.challenge tr9 "challenege_Cz" = (a, b) := ⟨_, _, rfl⟩
  obtain ⟨ry, tr11, v2, hry, hch⟩ := zeroSC_verify hE (g0 := g0) (h := h) hg.g3.1 hg.g3.2
    (Nat.succ_pos j) tr10
  rw [show j.succ = j + 1 from rfl] at v2 hry
  obtain ⟨r0, ry', rfl⟩ : ∃ a b, ry = a :: b := by
    cases ry with
    | nil => simp at hry
    | cons a b => exact ⟨a, b, rfl⟩
  have hry' : ry'.length = j := by simpa using hry
  have hr0 : r0 ≠ 1 := by
    obtain ⟨t, ht⟩ := hch r0 (by simp)
    rw [ht]; exact hr t
  have hr0' : 1 - r0 ≠ 0 := sub_ne_zero.2 (Ne.symm hr0)
  have hilt : input.length < 2 ^ ry'.length := by rw [hi, hry']; exact hI.inputs
  have hsp := sparse_inputs hilt
  set io := mle (fit (2 ^ ry'.length) (1 :: input)) ry' with hio
  obtain ⟨tr12, pe⟩ := zero_polyEval hE hu (r := ry') (gens := gens.pc) (g0 := g0) (h := h)
    (by rw [hry']; exact hg.pc) (by omega) tr11 ((-(r0 * io) / (1 - r0)) • g0)
  obtain ⟨tr13, ev2⟩ := zero_equality hE (Gens.single g0 h) tr12
  rw [hry'] at pe hsp
  refine ⟨⟨⟨List.replicate (2 ^ (j / 2)) (E.compress 0), zeroSC E k 3, E.compress 0, E.compress 0,
    E.compress 0, E.compress 0, ⟨E.compress 0, 0, 0⟩,
    ⟨E.compress 0, E.compress 0, E.compress 0, 0, 0, 0, 0, 0⟩, ⟨E.compress 0, 0⟩, zeroSC E (j + 1) 2,
    E.compress ((-(r0 * io) / (1 - r0)) • g0),
    ⟨⟨List.replicate (j - j / 2) (E.compress 0), List.replicate (j - j / 2 + 1) (E.compress 0)⟩,
      E.compress 0, E.compress 0, 0, 0⟩, ⟨E.compress 0, 0⟩⟩, rx, r0 :: ry'⟩, tr13, ?_⟩
  unfold NIZK.verify
  simp only
  rw [hI.evaluate hrx hry, ok_bind, check_true hi, ok_bind]
  unfold R1CSProof.verify
  simp only [← htr0]
  rw [hI.cons, log2_pow, ok_bind, hI.vars, show 2 * 2 ^ j = 2 ^ (j + 1) by rw [pow_succ]; ring, log2_pow,
    ok_bind, hg.g1, commit1_single, ok_bind]
  simp only [htau, zero_smul, add_zero]
  rw [v1, ok_bind]
  simp only
  rw [kv, ok_bind, pv, ok_bind]
  simp only [← htr6]
  rw [tausBound_eq (hrx.trans htl.symm), ok_bind, decompressU_compress hE, ok_bind, ok_bind]
  simp only [sub_zero, smul_zero]
  rw [ev, ok_bind]
  simp only [cA, cB, cC, ok_bind]
  rw [msm3, ok_bind]
  simp only [smul_zero, add_zero]
  rw [v2, ok_bind]
  simp only [List.drop_succ_cons, List.drop_zero, List.getD_cons_zero, List.length_cons]
  rw [check_true (by omega), ok_bind, pe, ok_bind, log2_pow, ok_bind, hsp, ok_bind,
    decompressU_compress hE, ok_bind, hg.pc.g1, commit1_single, ok_bind, msm2, ok_bind]
  have hz : (1 - r0) • (-(r0 * io) / (1 - r0)) • g0 + (r0 • (io • g0 + (0 : F) • h) + 0) = (0 : G) := by
    rw [smul_smul, mul_div_cancel₀ _ hr0']
    module
  rw [hz, smul_zero, ev2, ok_bind]
  simp only [pure_bind, ok_bind]
  rw [check_true trivial, ok_bind, ok_bind]
  rfl

/-- C38 is FALSE, concretely: for the unsatisfiable system `1 * 1 = 0` over any field, with any
number of variables and inputs, an accepted proof exists. -/
theorem nizk_unsound {E : Env F G P} (hE : E.Lawful) (hu : ∀ t, E.hash (t ++ [.chal "u"]) ≠ 0)
    (hr : ∀ t, E.hash (t ++ [.chal "challenge_nextround"]) ≠ 1) {K : Codec F} {one : List UInt8}
    (h1 : K.fromBytes one = some 1) (S : GenSrc G) (label : List UInt8) (nv ni : Nat)
    (hsz : varsPadded nv ni ≤ 2 ^ 62) {input : List F} (hi : input.length = ni) (tr : Tr F P) :
    ∃ I gens pf tr', Inst.new K 1 nv ni [(0, nv, one)] [(0, nv, one)] [] = .ok (.ok I) ∧
      NIZKGens.new S label nv ni = .ok gens ∧
      NIZK.verify E pf I input gens tr = .ok tr' ∧
      ∀ vars : List F, vars.length ≤ I.inst.numVars → I.isSat vars input = .ok (.ok false) := by
  obtain ⟨I, hI⟩ := (instance_new_ok_iff K 1 nv ni [(0, nv, one)] [(0, nv, one)] []).2
    (by simp [h1])
  obtain ⟨hA, hB, hC, hIe⟩ := new_ok_entries hI
  obtain ⟨k, j, hwf, -, hk, hj⟩ := builtR1CS_wf hA hB hC
  have hj62 : j ≤ 62 := (Nat.pow_le_pow_iff_right (a := 2) (by norm_num)).1 (by rw [← hj]; exact hsz)
  obtain ⟨gens, g0, h, hg, hgw⟩ := r1csGens_wf S hj62 label
  obtain ⟨pf, tr', hv⟩ := nizk_forgery hE hu hr (I := I) (by rw [hIe]; exact hwf) (hk le_rfl) hj62 hgw
    (input := input) (by rw [hi, hIe]; rfl) tr
  refine ⟨I, gens, pf, tr', hI, by unfold NIZKGens.new; rw [hj]; exact hg, hv, ?_⟩
  intro vars hvl
  obtain ⟨b, hb, hiff⟩ := padding_preserves_sat hI hvl hi
  rw [hb]
  congr 2
  rw [Bool.eq_false_iff]
  intro hbt
  have := hiff.1 hbt 0 (by norm_num)
  rw [rowDot_eq _ (by simp [parsed, zvec, fit_length]), rowDot_eq _ (by simp [parsed])] at this
  have e := zvec_getD_ge (fit nv vars) input 0
  rw [fit_length, add_zero] at e
  simp only [parsed, List.map_cons, List.map_nil, List.sum_cons, List.sum_nil, if_true, h1,
    Option.getD_some, e, List.getD_cons_zero] at this
  norm_num at this

/-- The hypotheses are met over ℚ with the constant oracle 5, two variables and one input. -/
example : ∃ I gens pf tr', Inst.new toyCodec 1 2 1 [(0, 2, [1])] [(0, 2, [1])] [] = .ok (.ok I) ∧
    NIZKGens.new (⟨fun _ i => UInt8.ofNat i, fun b => (b.getD 0 0).toNat⟩ : GenSrc ℚ) [1] 2 1 = .ok gens ∧
    NIZK.verify (⟨id, some, fun _ => 5⟩ : Env ℚ ℚ ℚ) pf I [7] gens [] = .ok tr' ∧
    ∀ vars : List ℚ, vars.length ≤ I.inst.numVars → I.isSat vars [7] = .ok (.ok false) :=
  nizk_unsound (fun _ => rfl) (fun _ => by norm_num) (fun _ => by norm_num)
    (by simp [toyCodec, show UInt8.toNat 1 = 1 from rfl]) _ _ 2 1
    (by rw [varsPadded_eq]; exact (Nat.le_of_eq (nextPow2_pow 1)).trans (by norm_num)) rfl []

/-! ### C39 -/

/-- C39 is FALSE: a proof whose claimed `rx` has the wrong length makes the verifier panic. -/
theorem nizk_verify_panics (E : Env F G P) {pf : NIZK F P} {I : Inst F} {k j : Nat} (hI : I.inst.WF k j)
    (h : pf.rx.length ≠ k) (input : List F) (gens : R1CSGens G) (tr : Tr F P) :
    NIZK.verify E pf I input gens tr = .error .panic := by
  unfold NIZK.verify
  simp only
  have : I.inst.evaluate pf.rx pf.ry = .error .panic := by
    unfold R1CS.evaluate SparseMat.evaluate SparseMat.evalTables
    rw [check_false (by
      rw [(eqEvals_correct pf.rx).1, hI.nA.1]
      exact fun e => h ((Nat.pow_right_injective le_rfl) e).symm)]
    rfl
  rw [this]; rfl

/-- C39: so does a wrong public input length. -/
theorem nizk_verify_panics_inputs (E : Env F G P) {pf : NIZK F P} {I : Inst F} {input : List F}
    (h : input.length ≠ I.inst.numInputs) (gens : R1CSGens G) (tr : Tr F P) :
    NIZK.verify E pf I input gens tr = .error .panic := by
  unfold NIZK.verify
  simp only
  cases hev : I.inst.evaluate pf.rx pf.ry with
  | error e => rw [panicOnly_evaluate _ _ _ e hev]; rfl
  | ok evals => rw [ok_bind, check_false h]; rfl

/-! ### C40 -/

/-- What the verifier absorbs before the first challenge. -/
def nizkHeader (digest : List UInt8) (input : List F) (comm : List P) : List (Msg F P) :=
  [.bytes "protocol-name" "Spartan NIZK proof", .blob "R1CSInstanceDigest" digest,
    .bytes "protocol-name" "R1CS proof", .bytes "input" "begin_append_vector"] ++
  input.map (.scalar "input") ++ [.bytes "input" "end_append_vector",
    .bytes "poly_commitment" "poly_commitment_begin"] ++
  comm.map (.point "poly_commitment_share") ++ [.bytes "poly_commitment" "poly_commitment_end"]

/-- Parsing a delimited list. -/
theorem delimited_inj {α β : Type} {f : α → β} (hf : Function.Injective f) {x y : β}
    (hx : ∀ a, f a ≠ x) (hy : ∀ a, f a ≠ y) : ∀ {l l' : List α} {t t' : List β},
    l.map f ++ x :: t = l'.map f ++ y :: t' → l = l' ∧ x = y ∧ t = t'
  | [], [], _, _, h => by simpa using h
  | [], a :: l', _, _, h => by simp at h; exact absurd h.1.symm (hx a)
  | a :: l, [], _, _, h => by simp at h; exact absurd h.1 (hy a)
  | a :: l, b :: l', _, _, h => by
    simp only [List.map_cons, List.cons_append, List.cons.injEq] at h
    obtain ⟨h1, h2⟩ := delimited_inj hf hx hy h.2
    exact ⟨by rw [hf h.1, h1], h2⟩

/-- C40: the absorbed sequence determines digest, public inputs and commitment, even when it is
only known to be the beginning of a longer transcript. -/
theorem nizkHeader_inj {d d' : List UInt8} {input input' : List F} {comm comm' : List P}
    {t : List (Msg F P)} (h : nizkHeader d input comm <+: t) (h' : nizkHeader d' input' comm' <+: t) :
    d = d' ∧ input = input' ∧ comm = comm' := by
  obtain ⟨u, hu⟩ := h
  obtain ⟨u', hu'⟩ := h'
  have e := hu.trans hu'.symm
  simp only [nizkHeader, List.append_assoc, List.cons_append, List.nil_append, List.cons.injEq,
    Msg.blob.injEq, true_and] at e
  obtain ⟨e1, e2⟩ := e
  obtain ⟨e3, -, e4⟩ := delimited_inj (f := fun x : F => (Msg.scalar "input" x : Msg F P))
    (fun a b h => by simpa using h) (by simp) (by simp) e2
  simp only [List.cons.injEq, true_and] at e4
  obtain ⟨e5, -⟩ := delimited_inj (f := fun x : P => (Msg.point "poly_commitment_share" x : Msg F P))
    (fun a b h => by simpa using h) (by simp) (by simp) e4
  exact ⟨e1, e3, e5⟩

theorem prefix_trans_point {t t' : Tr F P} (l : String) (p : P) (h : t <+: t') : t <+: t'.point l p :=
  h.trans (by simp [Tr.point])

theorem challenge_prefix (E : Env F G P) (tr : Tr F P) (l : String) : tr <+: (E.challenge tr l).2 := by
  simp [Env.challenge]

theorem challengeVec_prefix (E : Env F G P) (l : String) : ∀ (n : Nat) (tr : Tr F P),
    tr <+: (E.challengeVec tr l n).2
  | 0, tr => List.prefix_refl _
  | n + 1, tr => by
    simp only [Env.challengeVec]
    exact (challenge_prefix E tr l).trans (challengeVec_prefix E l n _)

theorem zkVerifyLoop_prefix {E : Env F G P} {d : Nat} {g0 h : G} {gensn : Gens G} (hg : gensn.WF) :
    ∀ {cps ces : List P} {pfs : List (DotProductProof F P)} {claim : P} {tr tr' : Tr F P} {rs : List F},
    zkVerifyLoop E d (Gens.single g0 h) gensn cps ces pfs claim tr = .ok (rs, tr') → tr <+: tr'
  | [], _, _, _, tr, tr', rs, h => by
    simp only [zkVerifyLoop] at h
    cases h; exact List.prefix_refl _
  | cp :: cps, ces, pfs, claim, tr, tr', rs, hh => by
    unfold zkVerifyLoop at hh
    obtain ⟨ce, -, h1⟩ := bind_ok hh
    obtain ⟨pts, -, h2⟩ := bind_ok h1
    obtain ⟨tg, -, h3⟩ := bind_ok h2
    obtain ⟨pf, -, h4⟩ := bind_ok h3
    obtain ⟨t, h5, h6⟩ := bind_ok h4
    obtain ⟨⟨rs', t''⟩, h7, h8⟩ := bind_ok h6
    cases h8
    have p1 := zkVerifyLoop_prefix hg h7
    obtain ⟨-, -, rfl, -⟩ := (DotProductProof.verify_ok_iff hg).1 h5
    refine List.IsPrefix.trans ?_ p1
    have p2 : ∀ (s : Tr F P) (a : List F) (x y z w : P), s <+: dotTr s x y a z w := by
      intro s a x y z w; simp [dotTr, Tr.protocol, Tr.point, Tr.scalars, List.append_assoc]
    refine List.IsPrefix.trans ?_ (p2 _ _ _ _ _ _)
    simp [Tr.point, List.append_assoc]

theorem zkVerify_prefix {E : Env F G P} {pf : ZKSumcheck F P} {claim : P} {n d : Nat} {g0 h : G}
    {gensn : Gens G} (hg : gensn.WF) {tr : Tr F P} {res : P × List F × Tr F P}
    (hv : zkVerify E pf claim n d (Gens.single g0 h) gensn tr = .ok res) : tr <+: res.2.2 := by
  unfold zkVerify at hv
  obtain ⟨_, -, h1⟩ := bind_ok hv
  obtain ⟨_, -, h2⟩ := bind_ok h1
  obtain ⟨_, -, h3⟩ := bind_ok h2
  obtain ⟨⟨rs, t⟩, h4, h5⟩ := bind_ok h3
  obtain ⟨_, -, h6⟩ := bind_ok h5
  obtain ⟨_, -, h7⟩ := bind_ok h6
  cases h7
  exact zkVerifyLoop_prefix hg h4

/-- The transcript up to the first challenge. -/
theorem nizk_start (tr : Tr F P) (d : List UInt8) (input : List F) (comm : List P) :
    (((((tr.protocol "Spartan NIZK proof") ++ [Msg.blob "R1CSInstanceDigest" d] : Tr F P).protocol
      "R1CS proof").scalars "input" input).polyComm "poly_commitment" comm) =
      tr ++ nizkHeader d input comm := by
  simp [nizkHeader, Tr.protocol, Tr.scalars, Tr.polyComm, List.append_assoc]

/-- C40: every accepting run starts by absorbing the header, and only then draws the first
challenge, which is the oracle's answer to exactly this sequence. -/
theorem nizk_absorbs_statement {E : Env F G P} (hE : E.Lawful) {pf : NIZK F P} {I : Inst F} {k j : Nat}
    (hI : I.inst.WF (k + 1) j) {gens : R1CSGens G} {g0 h : G} (hg : gens.WF j g0 h) {input : List F}
    {tr tr' : Tr F P} (hv : NIZK.verify E pf I input gens tr = .ok tr') :
    tr ++ nizkHeader I.digest input pf.sat.commVars ++ [.chal "challenge_tau"] <+: tr' ∧
    ∀ m ∈ nizkHeader I.digest input pf.sat.commVars, ∀ l, m ≠ .chal l := by
  constructor
  · unfold NIZK.verify at hv
    obtain ⟨evals, -, h1⟩ := bind_ok hv
    obtain ⟨_, -, h2⟩ := bind_ok h1
    obtain ⟨⟨rx, ry, t⟩, h3, h4⟩ := bind_ok h2
    obtain ⟨_, -, h5⟩ := bind_ok h4
    obtain ⟨_, -, h6⟩ := bind_ok h5
    have htt : t = tr' := by simpa [pure_ok] using h6
    subst htt
    unfold R1CSProof.verify at h3
    simp only [nizk_start, hg.g1] at h3
    rw [hI.cons, log2_pow, ok_bind] at h3
    obtain ⟨ny, -, a1⟩ := bind_ok h3
    obtain ⟨c1, -, a2⟩ := bind_ok a1
    obtain ⟨res1, b1, a3⟩ := bind_ok a2
    obtain ⟨t4, b2, a4⟩ := bind_ok a3
    obtain ⟨t5, b3, a5⟩ := bind_ok a4
    obtain ⟨tb, -, a6⟩ := bind_ok a5
    obtain ⟨prodP, -, a7⟩ := bind_ok a6
    obtain ⟨czP, -, a8⟩ := bind_ok a7
    obtain ⟨t7, b4, a9⟩ := bind_ok a8
    obtain ⟨pA, -, a10⟩ := bind_ok a9
    obtain ⟨pB, -, a11⟩ := bind_ok a10
    obtain ⟨pC, -, a12⟩ := bind_ok a11
    obtain ⟨c2, -, a13⟩ := bind_ok a12
    obtain ⟨res2, b5, a14⟩ := bind_ok a13
    obtain ⟨_, -, a15⟩ := bind_ok a14
    obtain ⟨t12, b6, a16⟩ := bind_ok a15
    obtain ⟨ln, -, a17⟩ := bind_ok a16
    obtain ⟨io, -, a18⟩ := bind_ok a17
    obtain ⟨pV, -, a19⟩ := bind_ok a18
    obtain ⟨cI, -, a20⟩ := bind_ok a19
    obtain ⟨cZ, -, a21⟩ := bind_ok a20
    obtain ⟨t13, b7, a22⟩ := bind_ok a21
    have ht : t13 = t := congrArg (fun x : Out (List F × List F × Tr F P) =>
      match x with | .ok y => y.2.2 | .error _ => []) a22
    subst ht
    have q1 := zkVerify_prefix hg.g4.1 b1
    have q2 : res1.2.2 <+: t4 := by
      obtain ⟨rfl, -⟩ := (KnowledgeProof.verify_ok_iff hE).1 b2
      simp [knowTr, Tr.protocol, Tr.point, List.append_assoc]
    have q3 : t4 <+: t5 := by
      obtain ⟨rfl, -⟩ := (ProductProof.verify_ok_iff hE).1 b3
      simp [prodTr, Tr.protocol, Tr.point, List.append_assoc]
    have q4 : t5 <+: t7 := by
      obtain ⟨rfl, -⟩ := (EqualityProof.verify_ok_iff hE).1 b4
      simp [eqTr, Tr.protocol, Tr.point, List.append_assoc]
    have q5 := zkVerify_prefix hg.g3.1 b5
    have q5' : t7 <+: res2.2.2 := by
      refine List.IsPrefix.trans ?_ q5
      simp [Env.challenge, List.append_assoc]
    have q6 : res2.2.2 <+: t12 := by
      unfold polyEvalVerify at b6
      obtain ⟨C, -, d1⟩ := bind_ok b6
      obtain ⟨Clz, -, d2⟩ := bind_ok d1
      unfold DotProductProofLog.verify at d2
      obtain ⟨_, -, d3⟩ := bind_ok d2
      obtain ⟨_, -, d4⟩ := bind_ok d3
      obtain ⟨g1s, -, d5⟩ := bind_ok d4
      obtain ⟨_, -, d6⟩ := bind_ok d5
      obtain ⟨_, -, d7⟩ := bind_ok d6
      obtain ⟨⟨gh, Gh, ah, s1⟩, e1, d8⟩ := bind_ok d7
      obtain ⟨_, -, d9⟩ := bind_ok d8
      obtain ⟨_, -, d10⟩ := bind_ok d9
      have hs1 : ∀ (L R : List P) (t : Tr F P), t <+: (bulletChallenges E L R t).2 := by
        intro L
        induction L with
        | nil => intro R t; simp [bulletChallenges]
        | cons l L ih =>
          intro R t
          cases R with
          | nil => simp [bulletChallenges]
          | cons r R =>
            simp only [bulletChallenges]
            refine List.IsPrefix.trans ?_ (ih R _)
            simp [Env.challenge, Tr.point, List.append_assoc]
      unfold BulletProof.verify at e1
      obtain ⟨⟨usq, uisq, s, s2⟩, f1, f2⟩ := bind_ok e1
      obtain ⟨_, -, f3⟩ := bind_ok f2
      obtain ⟨_, -, f4⟩ := bind_ok f3
      obtain ⟨_, -, f5⟩ := bind_ok f4
      obtain ⟨_, -, f6⟩ := bind_ok f5
      obtain ⟨_, -, f7⟩ := bind_ok f6
      cases f7
      unfold BulletProof.scalars at f1
      simp only at f1
      split at f1
      · cases f1
      split at f1
      · cases f1
      obtain ⟨_, -, k1⟩ := bind_ok f1
      obtain ⟨_, -, k2⟩ := bind_ok k1
      obtain ⟨_, -, k3⟩ := bind_ok k2
      cases k3
      split at d10
      · cases d10
      obtain ⟨_, -, d11⟩ := bind_ok d10
      split at d11
      swap
      · cases d11
      cases d11
      have hpt : ∀ (t : Tr F P) (l : String) (x : P), t <+: t.point l x := fun t l x => by
        simp [Tr.point]
      refine List.IsPrefix.trans ?_ (List.prefix_append _ _)
      refine List.IsPrefix.trans ?_ (hpt _ _ _)
      refine List.IsPrefix.trans ?_ (hpt _ _ _)
      refine List.IsPrefix.trans ?_ (hs1 _ _ _)
      simp [Tr.protocol, Tr.scalars, Tr.point, List.append_assoc]
    have q7 : t12 <+: t13 := by
      obtain ⟨rfl, -⟩ := (EqualityProof.verify_ok_iff hE).1 b7
      simp [eqTr, Tr.protocol, Tr.point, List.append_assoc]
    refine List.IsPrefix.trans ?_ (q1.trans (q2.trans (q3.trans (q4.trans (q5'.trans (q6.trans q7))))))
    simp only [Env.challengeVec]
    refine List.IsPrefix.trans ?_ (challengeVec_prefix E _ _ _)
    simp [Env.challenge]
  · intro m hm l
    simp only [nizkHeader, List.mem_append, List.mem_cons, List.mem_map, List.not_mem_nil, or_false] at hm
    rcases hm with ((((rfl | rfl | rfl | rfl) | ⟨_, _, rfl⟩) | rfl | rfl) | ⟨_, _, rfl⟩) | rfl <;> simp

/-- C40: two accepting runs from the same state that end with the same transcript were about the
same instance digest, the same public inputs and the same commitment. -/
theorem nizk_transcript_binds {E : Env F G P} (hE : E.Lawful) {pf pf' : NIZK F P} {I I' : Inst F}
    {k j k' j' : Nat} (hI : I.inst.WF (k + 1) j) (hI' : I'.inst.WF (k' + 1) j') {gens gens' : R1CSGens G}
    {g0 h g0' h' : G} (hg : gens.WF j g0 h) (hg' : gens'.WF j' g0' h') {input input' : List F}
    {tr t : Tr F P} (hv : NIZK.verify E pf I input gens tr = .ok t)
    (hv' : NIZK.verify E pf' I' input' gens' tr = .ok t) :
    I.digest = I'.digest ∧ input = input' ∧ pf.sat.commVars = pf'.sat.commVars := by
  have a := (List.prefix_append _ _).trans (nizk_absorbs_statement hE hI hg hv).1
  have b := (List.prefix_append _ _).trans (nizk_absorbs_statement hE hI' hg' hv').1
  obtain ⟨u, hu⟩ := a
  obtain ⟨u', hu'⟩ := b
  have e := hu.trans hu'.symm
  rw [List.append_assoc, List.append_assoc] at e
  have e := List.append_cancel_left e
  exact nizkHeader_inj ⟨u, rfl⟩ ⟨u', e.symm⟩

/-! ### C41 -/

theorem bind_mono {α β : Type} {x : Out α} {f f' : α → Out β} {r : β} (h : (x >>= f) = .ok r)
    (hf : ∀ a, f a = .ok r → f' a = .ok r) : (x >>= f') = .ok r := by
  cases x with
  | error e => exact h
  | ok a => exact hf a h

theorem zkVerifyLoop_extra (E : Env F G P) (d : Nat) (gens1 gensn : Gens G) (x : DotProductProof F P) :
    ∀ (cps ces : List P) (pfs : List (DotProductProof F P)) (claim : P) (tr : Tr F P) (r : List F × Tr F P),
    zkVerifyLoop E d gens1 gensn cps ces pfs claim tr = .ok r →
    zkVerifyLoop E d gens1 gensn cps ces (pfs ++ [x]) claim tr = .ok r
  | [], _, _, _, _, _, h => h
  | cp :: cps, ces, pfs, claim, tr, r, h => by
    cases pfs with
    | nil =>
      unfold zkVerifyLoop at h
      obtain ⟨_, -, h1⟩ := bind_ok h
      obtain ⟨_, -, h2⟩ := bind_ok h1
      obtain ⟨_, -, h3⟩ := bind_ok h2
      obtain ⟨_, h4, -⟩ := bind_ok h3
      simp [idx] at h4
    | cons p ps =>
      unfold zkVerifyLoop at h ⊢
      refine bind_mono h fun ce h1 => bind_mono h1 fun _ h2 => bind_mono h2 fun _ h3 =>
        bind_mono h3 fun _ h4 => bind_mono h4 fun _ h5 => ?_
      obtain ⟨q, h6, h7⟩ := bind_ok h5
      simp only [List.cons_append, List.tail_cons] at h6 ⊢
      rw [zkVerifyLoop_extra E d gens1 gensn x _ _ _ _ _ _ h6, ok_bind]
      exact h7

/-- C41 is FALSE: any accepted proof stays accepted, with the same transcript, when an arbitrary
extra element is appended to the list of round proofs of the first sum-check. -/
theorem nizk_malleable {E : Env F G P} {pf : NIZK F P} {I : Inst F} {gens : R1CSGens G} {input : List F}
    {tr tr' : Tr F P} (hv : NIZK.verify E pf I input gens tr = .ok tr') (x : DotProductProof F P) :
    let pf' : NIZK F P := { pf with sat := { pf.sat with sc1 :=
      { pf.sat.sc1 with proofs := pf.sat.sc1.proofs ++ [x] } } }
    pf' ≠ pf ∧ NIZK.verify E pf' I input gens tr = .ok tr' := by
  intro pf'
  constructor
  · intro h
    have := congrArg (fun p : NIZK F P => p.sat.sc1.proofs.length) h
    simp [pf'] at this
  · have hz : ∀ claim n d g1 gn t r, zkVerify E pf.sat.sc1 claim n d g1 gn t = .ok r →
        zkVerify E pf'.sat.sc1 claim n d g1 gn t = .ok r := by
      intro claim n d g1 gn t r hh
      unfold zkVerify at hh ⊢
      obtain ⟨u1, e1, h1⟩ := bind_ok hh
      obtain ⟨u2, e2, h2⟩ := bind_ok h1
      obtain ⟨u3, e3, h3⟩ := bind_ok h2
      obtain ⟨q, e4, h4⟩ := bind_ok h3
      simp only [pf']
      rw [e1, ok_bind, e2, ok_bind, e3, ok_bind, zkVerifyLoop_extra _ _ _ _ x _ _ _ _ _ _ e4, ok_bind]
      exact h4
    unfold NIZK.verify at hv ⊢
    obtain ⟨ev, e1, h1⟩ := bind_ok hv
    obtain ⟨u, e2, h2⟩ := bind_ok h1
    obtain ⟨res, e3, h3⟩ := bind_ok h2
    have hr : R1CSProof.verify E pf'.sat I.inst.numVars I.inst.numCons input ev gens
        ((tr.protocol "Spartan NIZK proof") ++ [.blob "R1CSInstanceDigest" I.digest]) = .ok res := by
      unfold R1CSProof.verify at e3 ⊢
      obtain ⟨nx, f1, g1⟩ := bind_ok e3
      obtain ⟨ny, f2, g2⟩ := bind_ok g1
      obtain ⟨c, f3, g3⟩ := bind_ok g2
      obtain ⟨q, f4, g4⟩ := bind_ok g3
      simp only at f4 ⊢
      rw [f1, ok_bind, f2, ok_bind, f3, ok_bind, hz _ _ _ _ _ _ _ f4, ok_bind]
      exact g4
    simp only at e3 ⊢
    rw [show I.inst.evaluate pf'.rx pf'.ry = .ok ev from e1, ok_bind, e2, ok_bind, hr, ok_bind]
    exact h3

end Spartan
