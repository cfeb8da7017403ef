import Verif.Lemmas.R1CS
import Verif.Props.Sumcheck
import Verif.Props.PolyEval

/-! Lemmas about the R1CS sum-check identity, used by C36 and C37. -/

set_option linter.unusedSectionVars false

namespace Spartan
open Spec
variable {F G P : Type} [Field F] [AddCommGroup G] [Module F G]
  [DecidableEq F] [DecidableEq P] [DecidableEq G]

/-- Shape of an instance with `2^k` constraints and `2^j` variables. -/
structure R1CS.WF (I : R1CS F) (k j : Nat) : Prop where
  cons : I.numCons = 2 ^ k
  vars : I.numVars = 2 ^ j
  inputs : I.numInputs < 2 ^ j
  A : I.A.InRange (2 ^ k) (2 ^ j + I.numInputs + 1)
  B : I.B.InRange (2 ^ k) (2 ^ j + I.numInputs + 1)
  C : I.C.InRange (2 ^ k) (2 ^ j + I.numInputs + 1)
  nA : I.A.nx = k ∧ I.A.ny = j + 1
  nB : I.B.nx = k ∧ I.B.ny = j + 1
  nC : I.C.nx = k ∧ I.C.ny = j + 1

/-- `M z` on the rows below `m`. -/
def rowsVec (M : List (Nat × Nat × F)) (z : List F) (m : Nat) : List F := (List.range m).map (rowDot M z)

theorem rowsVec_length (M : List (Nat × Nat × F)) (z : List F) (m : Nat) :
    (rowsVec M z m).length = m := by simp [rowsVec]

theorem map_range_getD {f : Nat → F} {m i : Nat} (h : i < m) :
    ((List.range m).map f).getD i 0 = f i := by
  simp [List.getD_eq_getElem?_getD, h]

theorem rowsVec_getD {M : List (Nat × Nat × F)} {z : List F} {m i : Nat} (h : i < m) :
    (rowsVec M z m).getD i 0 = rowDot M z i := map_range_getD h

theorem multiplyVec_rows {m : SparseMat F} {rows cols : Nat} {z : List F}
    (hz : z.length = cols) (h : m.InRange rows cols) :
    m.multiplyVec rows cols z = .ok (rowsVec m.triples z rows) := by
  obtain ⟨res, h1, h2, h3⟩ := multiplyVec_correct m rows cols z hz h
  rw [h1]; congr 1
  apply ext_getD (by rw [h2, rowsVec_length])
  intro i hi
  rw [h2] at hi
  rw [h3 i hi, rowsVec_getD hi, rowDot, hz]

theorem SparseMat.InRange.mono {m : SparseMat F} {r c r' c' : Nat} (h : m.InRange r c) (hr : r ≤ r')
    (hc : c ≤ c') : m.InRange r' c' := fun e he =>
  ⟨lt_of_lt_of_le (h e he).1 hr, lt_of_lt_of_le (h e he).2 hc⟩

theorem R1CS.WF.cols {I : R1CS F} {k j : Nat} (h : I.WF k j) :
    2 ^ j + I.numInputs + 1 ≤ 2 ^ (j + 1) := by
  have := h.inputs; rw [pow_succ]; omega

theorem R1CS.WF.multiplyVec {I : R1CS F} {k j : Nat} (h : I.WF k j) {z : List F}
    (hz : z.length = 2 ^ (j + 1)) :
    I.multiplyVec (2 ^ k) (2 ^ (j + 1)) z = .ok (dn k (rowsVec I.A.triples z (2 ^ k)),
      dn k (rowsVec I.B.triples z (2 ^ k)), dn k (rowsVec I.C.triples z (2 ^ k))) := by
  unfold R1CS.multiplyVec
  have hp : 0 < 2 ^ j := Nat.two_pow_pos _
  rw [check_true h.cons.symm, ok_bind, check_true hz, ok_bind,
    check_true (by rw [h.vars, pow_succ]; omega), ok_bind,
    multiplyVec_rows hz (h.A.mono le_rfl h.cols), ok_bind, dn_new (rowsVec_length _ _ _), ok_bind,
    multiplyVec_rows hz (h.B.mono le_rfl h.cols), ok_bind, dn_new (rowsVec_length _ _ _), ok_bind,
    multiplyVec_rows hz (h.C.mono le_rfl h.cols), ok_bind, dn_new (rowsVec_length _ _ _), ok_bind]
  rfl

/-! ### the solution vector -/

theorem zpad_eq {vars inputs : List F} (h : inputs.length < vars.length) :
    vars ++ [1] ++ inputs ++ List.replicate (vars.length - inputs.length - 1) 0 = zpad vars inputs := by
  unfold zpad fit zvec
  rw [List.take_of_length_le (by simp; omega)]
  simp only [List.append_assoc, List.singleton_append, List.cons_append, List.nil_append,
    List.length_append, List.length_cons]
  congr 4
  omega

theorem zpad_length (vars inputs : List F) : (zpad vars inputs).length = 2 * vars.length :=
  fit_length _ _

theorem rowDot_zpad {M : List (Nat × Nat × F)} {vars inputs : List F}
    (h : inputs.length < vars.length)
    (hM : ∀ e ∈ M, e.2.1 < vars.length + inputs.length + 1) (i : Nat) :
    rowDot M (zpad vars inputs) i = rowDot M (zvec vars inputs) i := by
  rw [rowDot_eq _ (fun e he => by rw [zpad_length]; have := hM e he; omega),
    rowDot_eq _ (fun e he => by have := hM e he; simp [zvec]; omega)]
  congr 1
  apply List.map_congr_left
  intro e he
  rw [zpad, fit_getD _ (by have := hM e he; omega)]

theorem triples_range {m : SparseMat F} {r c : Nat} (h : m.InRange r c) :
    ∀ e ∈ m.triples, e.2.1 < c := by
  intro e he
  simp only [SparseMat.triples, List.mem_map] at he
  obtain ⟨a, ha, rfl⟩ := he
  exact (h a ha).2

theorem mle_append {a b : List F} {r : F} {rs : List F} (ha : a.length = 2 ^ rs.length)
    (hb : b.length = 2 ^ rs.length) :
    mle (a ++ b) (r :: rs) = (1 - r) * mle a rs + r * mle b rs := by
  rw [mle_eq_dot (by simp [ha, hb, pow_succ]; ring), mle_eq_dot ha, mle_eq_dot hb]
  simp only [eqT]
  rw [dot_append (by simp [ha]), dot_map_right, dot_map_right]

theorem zpad_split {vars inputs : List F} (h : inputs.length < vars.length) :
    zpad vars inputs = vars ++ fit vars.length (1 :: inputs) := by
  rw [← zpad_eq h, fit, List.take_of_length_le (by simp; omega)]
  simp only [List.append_assoc, List.singleton_append, List.cons_append, List.nil_append,
    List.length_cons]
  congr 4

theorem vecEntry_inputEntries (input : List F) (i : Nat) :
    vecEntry (inputEntries input) i = (1 :: input).getD i 0 := by
  unfold vecEntry inputEntries
  rw [List.map_cons, List.sum_cons, List.map_map, range_sum_eq]
  simp only [Function.comp]
  cases i with
  | zero => simp
  | succ i =>
    simp only [Nat.add_right_cancel_iff, Finset.sum_ite_eq', Finset.mem_range]
    rw [if_neg (by omega), zero_add, List.getD_cons_succ]
    split
    · rfl
    · rename_i hi
      rw [List.getD_eq_default _ _ (by omega)]

theorem sparse_inputs {input rs : List F} (h : input.length < 2 ^ rs.length) :
    sparseEvaluate rs.length (inputEntries input) rs =
      .ok (mle (fit (2 ^ rs.length) (1 :: input)) rs) := by
  rw [sparseEvaluate_correct]
  · congr 1
    unfold mle
    apply Finset.sum_congr rfl
    intro i hi
    have hi := Finset.mem_range.1 hi
    rw [map_range_getD hi, vecEntry_inputEntries, fit_getD _ hi]
  · intro e he
    simp only [inputEntries, List.mem_cons, List.mem_map, List.mem_range] at he
    rcases he with rfl | ⟨a, ha, rfl⟩
    · exact Nat.two_pow_pos _
    · simp; omega

/-! ### matrix extensions -/

/-- The multilinear extension of a `2^a × 2^b` matrix. -/
def matMLE (M : List (Nat × Nat × F)) (rx ry : List F) : F :=
  ∑ i ∈ Finset.range (2 ^ rx.length), ∑ j ∈ Finset.range (2 ^ ry.length),
    matEntry M i j * (chi rx i * chi ry j)

theorem R1CS.WF.evaluate {I : R1CS F} {k j : Nat} (h : I.WF k j) {rx ry : List F}
    (hx : rx.length = k) (hy : ry.length = j + 1) :
    I.evaluate rx ry = .ok (matMLE I.A.triples rx ry, matMLE I.B.triples rx ry,
      matMLE I.C.triples rx ry) := by
  have key : ∀ m : SparseMat F, m.InRange (2 ^ k) (2 ^ j + I.numInputs + 1) → m.nx = k ∧ m.ny = j + 1 →
      m.evaluate rx ry = .ok (matMLE m.triples rx ry) := by
    intro m hm ⟨h1, h2⟩
    rw [sparseMat_evaluate_correct m rx ry (hx.trans h1.symm) (hy.trans h2.symm)
      (by rw [h1, h2]; exact hm.mono le_rfl h.cols), matMLE, h1, h2, hx, hy]
  unfold R1CS.evaluate
  rw [key _ h.A h.nA, ok_bind, key _ h.B h.nB, ok_bind, key _ h.C h.nC, ok_bind]; rfl

/-- Column vector `chi(rx)ᵀ M`. -/
def colsVec (M : List (Nat × Nat × F)) (rx : List F) (n : Nat) : List F :=
  (List.range n).map fun j => ∑ i ∈ Finset.range (2 ^ rx.length), chi rx i * matEntry M i j

theorem colsVec_length (M : List (Nat × Nat × F)) (rx : List F) (n : Nat) :
    (colsVec M rx n).length = n := by simp [colsVec]

theorem evalTable_cols {m : SparseMat F} {cols : Nat} {rx : List F}
    (h : m.InRange (2 ^ rx.length) cols) :
    m.evalTable (eqEvals rx) (2 ^ rx.length) cols = .ok (colsVec m.triples rx cols) := by
  obtain ⟨res, h1, h2, h3⟩ := evalTable_correct m (2 ^ rx.length) cols (eqEvals rx)
    (eqEvals_correct rx).1 h
  rw [h1]; congr 1
  apply ext_getD (by rw [h2, colsVec_length])
  intro i hi
  rw [h2] at hi
  rw [h3 i hi, colsVec, map_range_getD hi]
  apply Finset.sum_congr rfl
  intro x hx
  rw [(eqEvals_correct rx).2 x (Finset.mem_range.1 hx)]

theorem R1CS.WF.evalTable {I : R1CS F} {k j : Nat} (h : I.WF k j) {rx : List F} (hx : rx.length = k) :
    I.evalTable (2 ^ k) (2 ^ (j + 1)) (eqEvals rx) =
      .ok (colsVec I.A.triples rx (2 ^ (j + 1)), colsVec I.B.triples rx (2 ^ (j + 1)),
        colsVec I.C.triples rx (2 ^ (j + 1))) := by
  unfold R1CS.evalTable
  have hp : 0 < 2 ^ j := Nat.two_pow_pos _
  subst hx
  rw [check_true h.cons.symm, ok_bind, check_true (by rw [h.vars, pow_succ]; omega), ok_bind,
    evalTable_cols (h.A.mono le_rfl h.cols), ok_bind, evalTable_cols (h.B.mono le_rfl h.cols), ok_bind,
    evalTable_cols (h.C.mono le_rfl h.cols), ok_bind]
  rfl

/-- `(M z)~(rx) = Σ_y M~(rx, y) z(y)`. -/
theorem rows_mle (M : List (Nat × Nat × F)) (z rx : List F) :
    mle (rowsVec M z (2 ^ rx.length)) rx =
      ∑ y ∈ Finset.range z.length, z.getD y 0 * (colsVec M rx z.length).getD y 0 := by
  unfold mle
  have e1 : ∀ i ∈ Finset.range (2 ^ rx.length), (rowsVec M z (2 ^ rx.length)).getD i 0 * chi rx i =
      ∑ y ∈ Finset.range z.length, z.getD y 0 * (chi rx i * matEntry M i y) := by
    intro i hi
    rw [rowsVec_getD (Finset.mem_range.1 hi), rowDot, Finset.sum_mul]
    apply Finset.sum_congr rfl; intro y _; ring
  rw [Finset.sum_congr rfl e1, Finset.sum_comm]
  apply Finset.sum_congr rfl
  intro y hy
  rw [colsVec, map_range_getD (Finset.mem_range.1 hy), Finset.mul_sum]

theorem cols_mle (M : List (Nat × Nat × F)) (rx ry : List F) :
    mle (colsVec M rx (2 ^ ry.length)) ry = matMLE M rx ry := by
  unfold mle matMLE
  rw [Finset.sum_comm]
  apply Finset.sum_congr rfl
  intro y hy
  rw [colsVec, map_range_getD (Finset.mem_range.1 hy), Finset.sum_mul]
  apply Finset.sum_congr rfl; intro i _; ring

theorem mle_lin3 (a b c : F) (X Y Z r : List F) :
    mle ((List.range (2 ^ r.length)).map fun i => a * X.getD i 0 + b * Y.getD i 0 + c * Z.getD i 0) r =
      a * mle X r + b * mle Y r + c * mle Z r := by
  unfold mle
  simp only [Finset.mul_sum, ← Finset.sum_add_distrib]
  apply Finset.sum_congr rfl
  intro i hi
  rw [map_range_getD (Finset.mem_range.1 hi)]; ring

theorem mle_eqEvals {tau rx : List F} (h : rx.length = tau.length) :
    mle (eqEvals tau) rx = (List.zipWith (fun r t => r * t + (1 - r) * (1 - t)) rx tau).prod := by
  rw [mle_eq_dot (by rw [(eqEvals_correct tau).1, h]), eqEvals_eq, dot_eqT _ _ h.symm,
    List.zipWith_comm]
  congr 2
  funext a b; ring

theorem tausBound_eq {tau rx : List F} (h : rx.length = tau.length) :
    tausBound rx tau = .ok (mle (eqEvals tau) rx) := by
  unfold tausBound
  rw [check_true h.le, ok_bind, mle_eqEvals h]; rfl

theorem challengeVec_length (E : Env F G P) (l : String) : ∀ (n : Nat) (tr : Tr F P),
    (E.challengeVec tr l n).1.length = n
  | 0, _ => rfl
  | n + 1, tr => by simp [Env.challengeVec, challengeVec_length E l n]

theorem R1CS.WF.sat_zpad {I : R1CS F} {k j : Nat} (h : I.WF k j) {vars inputs : List F}
    (hv : vars.length = 2 ^ j) (hi : inputs.length = I.numInputs) :
    Sat I.A.triples I.B.triples I.C.triples (2 ^ k) (zpad vars inputs) ↔
      Sat I.A.triples I.B.triples I.C.triples (2 ^ k) (zvec vars inputs) := by
  have hl : inputs.length < vars.length := by rw [hv, hi]; exact h.inputs
  unfold Sat
  refine forall_congr' fun i => forall_congr' fun _ => ?_
  have hh := fun m (hm : SparseMat.InRange m (2 ^ k) (2 ^ j + I.numInputs + 1)) =>
    rowDot_zpad (M := m.triples) hl (by rw [hv, hi]; exact triples_range hm) i
  rw [hh _ h.A, hh _ h.B, hh _ h.C]

end Spartan
