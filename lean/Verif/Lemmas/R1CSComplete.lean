import Verif.Lemmas.R1CSEval
import Verif.Props.Sigma

/-! Completeness of `R1CSProof`. -/

set_option linter.unusedSectionVars false

namespace Spartan
open Spec
variable {F G P : Type} [Field F] [AddCommGroup G] [Module F G]
  [DecidableEq F] [DecidableEq P] [DecidableEq G]

/-- Shape of the generators `R1CSGens::new` derives for `2^j` variables. -/
structure R1CSGens.WF (gens : R1CSGens G) (j : Nat) (g0 h : G) : Prop where
  g1 : gens.gens1 = Gens.single g0 h
  g3 : gens.gens3.WF ∧ gens.gens3.n = 3
  g4 : gens.gens4.WF ∧ gens.gens4.n = 4
  pc : gens.pc.WF (j - j / 2) g0 h

theorem msm3 (a b c : F) (A B C : G) : msm [a, b, c] [A, B, C] = .ok (a • A + (b • B + (c • C + 0))) := rfl
theorem msm2 (a b : F) (A B : G) : msm [a, b] [A, B] = .ok (a • A + (b • B + 0)) := rfl

theorem r1csProof_complete (h2 : (2 : F) ≠ 0) (h3 : (3 : F) ≠ 0) {E : Env F G P} (hE : E.Lawful)
    {I : R1CS F} {k j : Nat} (hI : I.WF k j) (hk : 1 ≤ k) (hj : j ≤ 62) {gens : R1CSGens G} {g0 h : G}
    (hg : gens.WF j g0 h) {vars input : List F} (hv : vars.length = 2 ^ j)
    (hi : input.length < 2 ^ j)
    (hs : Sat I.A.triples I.B.triples I.C.triples (2 ^ k) (zpad vars input))
    (tr : Tr F P) (tape : Tape F) :
    (∃ pf rx ry tr' tape' evals, R1CSProof.prove E I vars input gens tr tape =
        .ok (pf, rx, ry, tr', tape') ∧ I.evaluate rx ry = .ok evals ∧
      pf.verify E (2 ^ j) (2 ^ k) input evals gens tr = .ok (rx, ry, tr')) ∨
    (R1CSProof.prove E I vars input gens tr tape = .error .panic ∧
      ∃ t, E.hash (t ++ [.chal "u"]) = 0) := by
  have hzl : (zpad vars input).length = 2 ^ (j + 1) := by rw [zpad_length, hv, pow_succ]; ring
  have hlog : log2 (zpad vars input).length = .ok (j + 1) := by rw [hzl, log2_pow]
  have hlt : input.length < vars.length := by rw [hv]; exact hi
  obtain ⟨commVars, hcommit⟩ : ∃ c, c = (rowComms gens.pc.gensn.G h
    (rowsOf (2 ^ (j - j / 2)) (2 ^ (j / 2)) vars) (commitBlinds (2 ^ (j / 2)) (some tape)).1).map
      E.compress := ⟨_, rfl⟩
  have hcm := commit_eq E hv hg.pc (some tape)
  rw [← hcommit] at hcm
  obtain ⟨blinds, hblinds⟩ : ∃ b, b = (commitBlinds (2 ^ (j / 2)) (some tape)).1 := ⟨_, rfl⟩
  have hbl : blinds.length = 2 ^ (j / 2) := by rw [hblinds]; exact commitBlinds_length _ _
  -- start of both runs
  unfold R1CSProof.prove R1CSProof.verify
  simp only
  rw [check_true hlt, ok_bind, Dense.new_eq hv, ok_bind, hcm, ok_bind]
  simp only
  rw [hI.cons, log2_pow, ok_bind, zpad_eq hlt, hlog, ok_bind]
  obtain ⟨tr1, htr1⟩ : ∃ t, t = (((tr.protocol "R1CS proof").scalars "input" input).polyComm
    "poly_commitment" commVars) := ⟨_, rfl⟩
  obtain ⟨tau, tr2, htau, htl⟩ : ∃ a b, E.challengeVec tr1 "challenge_tau" k = (a, b) ∧ a.length = k :=
    ⟨_, _, rfl, challengeVec_length _ _ _ _⟩
  simp only [← htr1, htau]
  have hel : (eqEvals tau).length = 2 ^ k := by rw [(eqEvals_correct tau).1, htl]
  rw [dn_new hel, ok_bind, hzl, hI.multiplyVec hzl, ok_bind]
  simp only
  rw [hg.g1, show 2 * 2 ^ j = 2 ^ (j + 1) by rw [pow_succ]; ring, log2_pow]
  -- the first sum-check
  set z := zpad vars input with hz
  set Az := rowsVec I.A.triples z (2 ^ k) with hAz
  set Bz := rowsVec I.B.triples z (2 ^ k) with hBz
  set Cz := rowsVec I.C.triples z (2 ^ k) with hCz
  obtain ⟨tape1, htape1⟩ : ∃ t, t = ((commitBlinds (2 ^ (j / 2)) (some tape)).2).getD tape := ⟨_, rfl⟩
  rw [← htape1, ← hblinds]
  have hsum : ∑ i ∈ Finset.range (2 ^ k), (fun a b c d : F => a * (b * c - d)) ((eqEvals tau).getD i 0)
      (Az.getD i 0) (Bz.getD i 0) (Cz.getD i 0) = 0 := by
    apply Finset.sum_eq_zero
    intro i hi
    have hi := Finset.mem_range.1 hi
    simp only
    rw [hAz, hBz, hCz, rowsVec_getD hi, rowsVec_getD hi, rowsVec_getD hi, hs i hi, sub_self, mul_zero]
  obtain ⟨sc1, rx, b1, tr3, tape3, p1, v1, hrx, -⟩ := proveCubicAdditive_complete h2 h3 hE (g0 := g0)
    (h := h) hg.g4.1 hg.g4.2 hk hel (rowsVec_length I.A.triples z _) (rowsVec_length I.B.triples z _)
    (rowsVec_length I.C.triples z _) cubic4_r1cs 0 tr2 tape1
  rw [← hAz, ← hBz, ← hCz, hsum] at p1 v1
  rw [p1, ok_bind, commit1_single]
  simp only [List.getD_cons_zero, List.getD_cons_succ]
  set tauC := mle (eqEvals tau) rx with htauC
  set AzC := mle Az rx with hAzC
  set BzC := mle Bz rx with hBzC
  set CzC := mle Cz rx with hCzC
  -- sigma protocols
  obtain ⟨AzB, tape4, n1⟩ : ∃ a b, tape3.next = (a, b) := ⟨_, _, rfl⟩
  obtain ⟨BzB, tape5, n2⟩ : ∃ a b, tape4.next = (a, b) := ⟨_, _, rfl⟩
  obtain ⟨CzB, tape6, n3⟩ : ∃ a b, tape5.next = (a, b) := ⟨_, _, rfl⟩
  obtain ⟨prodB, tape7, n4⟩ : ∃ a b, tape6.next = (a, b) := ⟨_, _, rfl⟩
  simp only [n1, n2, n3, n4]
  obtain ⟨pok, cCz, tr4, tape8, kp, rfl, kv⟩ := knowledge_complete hE g0 h tr3 tape7 CzC CzB
  rw [kp, ok_bind]
  simp only
  obtain ⟨pp, cAz, cBz, cProd, tr5, tape9, ppp, rfl, rfl, rfl, ppv⟩ :=
    product_complete hE g0 h tr4 tape8 AzC AzB BzC BzB prodB
  rw [ppp, ok_bind]
  simp only
  obtain ⟨tr6, htr6⟩ : ∃ t, t = (((tr5.point "comm_Az_claim" (E.compress (AzC • g0 + AzB • h))).point
    "comm_Bz_claim" (E.compress (BzC • g0 + BzB • h))).point "comm_Cz_claim"
    (E.compress (CzC • g0 + CzB • h))).point "comm_prod_Az_Bz_claims"
    (E.compress ((AzC * BzC) • g0 + prodB • h)) := ⟨_, rfl⟩
  simp only [← htr6]
  obtain ⟨eq1, c1, c2, tr7, tape10, e1p, rfl, rfl, e1v⟩ := equality_complete hE g0 h tr6 tape9
    ((AzC * BzC - CzC) * tauC) (tauC * (prodB - CzB)) b1
  rw [e1p, ok_bind]
  simp only
  obtain ⟨rA, tr8, cA⟩ : ∃ a b, E.challenge tr7 "challenege_Az" = (a, b) := ⟨_, _, rfl⟩
  obtain ⟨rB, tr9, cB⟩ : ∃ a b, E.challenge tr8 "challenege_Bz" = (a, b) := ⟨_, _, rfl⟩
  obtain ⟨rC, tr10, cC⟩ : ∃ a b, E.challenge tr9 "challenege_Cz" = (a, b) := ⟨_, _, rfl⟩
  simp only [cA, cB, cC]
  -- the second sum-check
  rw [hI.evalTable hrx, ok_bind]
  simp only [colsVec_length]
  rw [check_true trivial, ok_bind, ok_bind]
  set ABC := (List.range (2 ^ (j + 1))).map fun i => rA * (colsVec I.A.triples rx (2 ^ (j + 1))).getD i 0
    + rB * (colsVec I.B.triples rx (2 ^ (j + 1))).getD i 0
    + rC * (colsVec I.C.triples rx (2 ^ (j + 1))).getD i 0 with hABC
  have hABCl : ABC.length = 2 ^ (j + 1) := by simp [hABC]
  rw [dn_new hzl, ok_bind, dn_new hABCl, ok_bind]
  have hclaim2 : ∑ i ∈ Finset.range (2 ^ (j + 1)), (fun a b : F => a * b) (z.getD i 0) (ABC.getD i 0) =
      rA * AzC + rB * BzC + rC * CzC := by
    have hr := fun M => rows_mle (F := F) M z rx
    rw [hrx, hzl] at hr
    rw [hAzC, hBzC, hCzC, hAz, hBz, hCz, hr, hr, hr]
    simp only [Finset.mul_sum, ← Finset.sum_add_distrib]
    apply Finset.sum_congr rfl
    intro i hi
    rw [hABC, map_range_getD (Finset.mem_range.1 hi)]; ring
  obtain ⟨sc2, ry, b2, tr11, tape11, p2, v2, hry, -⟩ := proveQuad_complete h2 hE (g0 := g0)
    (h := h) hg.g3.1 hg.g3.2 (Nat.succ_pos j) hzl hABCl quad2_product
    (rA * AzB + rB * BzB + rC * CzB) tr10 tape10
  rw [hclaim2] at p2 v2
  rw [show j.succ = j + 1 from rfl] at p2 v2 hry
  rw [p2, ok_bind]
  simp only [List.getD_cons_zero, List.getD_cons_succ]
  obtain ⟨r0, ry', rfl⟩ : ∃ a b, ry = a :: b := by
    cases ry with
    | nil => simp at hry
    | cons a b => exact ⟨a, b, rfl⟩
  have hry' : ry'.length = j := by simpa using hry
  simp only [List.drop_succ_cons, List.drop_zero, List.getD_cons_zero, List.length_cons]
  rw [check_true (by omega), ok_bind]
  have hev : (⟨j, vars.length, vars⟩ : Dense F).evaluate ry' = .ok (mle vars ry') := by
    have := dense_evaluate_correct (Z := vars) (r := ry') (by rw [hv, hry'])
    rwa [Dense.new_eq hv, ok_bind] at this
  rw [hev, ok_bind]
  obtain ⟨be, tape12, n5⟩ : ∃ a b, tape11.next = (a, b) := ⟨_, _, rfl⟩
  simp only [n5]
  have hpe := polyEval_complete hE (Z := vars) (r := ry') (by rw [hv, hry']) (gens := gens.pc)
    (g0 := g0) (h := h) (by rw [hry']; exact hg.pc) (by omega) blinds (by rw [hry']; exact hbl)
    (some blinds) (by simp) (some be) tr11 tape12
  simp only [hry'] at hpe
  rw [hblinds, ← hcommit, ← hblinds] at hpe
  rcases hpe with ⟨pe, cEv, tr12, tape13, pp3, rfl, pv3, -⟩ | ⟨hpan, t, -, hz0⟩
  swap
  · right
    rw [hpan]
    exact ⟨rfl, t, hz0⟩
  left
  rw [pp3, ok_bind]
  simp only [hg.pc.g1, Option.getD_some] at pv3 ⊢
  set c0 := mle z (r0 :: ry') with hc0
  set c1 := mle ABC (r0 :: ry') with hc1
  obtain ⟨eq2, d1, d2, tr13, tape14, e2p, rfl, rfl, e2v⟩ := equality_complete hE g0 h tr12 tape13
    (c0 * c1) (c1 * ((1 - r0) * be)) b2
  rw [e2p, ok_bind]
  refine ⟨_, _, _, _, _, _, rfl, hI.evaluate hrx hry, ?_⟩
  simp only [← htr1, htau, ok_bind]
  rw [v1, ok_bind]
  simp only
  rw [kv, ok_bind, ppv, ok_bind]
  simp only [← htr6]
  rw [tausBound_eq (hrx.trans htl.symm), ok_bind, decompressU_compress hE, ok_bind,
    decompressU_compress hE, ok_bind]
  have hexp1 : mle (eqEvals tau) rx • ((AzC * BzC) • g0 + prodB • h - (CzC • g0 + CzB • h)) =
      ((AzC * BzC - CzC) * tauC) • g0 + (tauC * (prodB - CzB)) • h := by
    rw [← htauC]; module
  have hpost1 : tauC * (AzC * BzC - CzC) = (AzC * BzC - CzC) * tauC := by ring
  rw [hexp1, hpost1, e1v, ok_bind]
  simp only [cA, cB, cC]
  rw [decompressU_compress hE, ok_bind, decompressU_compress hE, ok_bind, decompressU_compress hE,
    ok_bind, msm3, ok_bind]
  have hcl2 : rA • (AzC • g0 + AzB • h) + (rB • (BzC • g0 + BzB • h) +
      (rC • (CzC • g0 + CzB • h) + 0)) =
      (rA * AzC + rB * BzC + rC * CzC) • g0 + (rA * AzB + rB * BzB + rC * CzB) • h := by module
  rw [hcl2, v2, ok_bind]
  simp only [List.drop_succ_cons, List.drop_zero, List.getD_cons_zero, List.length_cons]
  rw [check_true (by omega), ok_bind, pv3, ok_bind, log2_pow, ok_bind]
  have hsp := sparse_inputs (input := input) (rs := ry') (by rw [hry']; exact hi)
  rw [hry'] at hsp
  rw [hsp, ok_bind, ok_bind, commit1_single, ok_bind, msm2, ok_bind]
  have hzm : c0 = (1 - r0) * mle vars ry' + r0 * mle (fit (2 ^ j) (1 :: input)) ry' := by
    rw [hc0, hz, zpad_split hlt, mle_append (by rw [hv, hry']) (by rw [fit_length, hv, hry']), hv]
  have hABCm : c1 = rA * matMLE I.A.triples rx (r0 :: ry') + rB * matMLE I.B.triples rx (r0 :: ry')
      + rC * matMLE I.C.triples rx (r0 :: ry') := by
    have := mle_lin3 rA rB rC (colsVec I.A.triples rx (2 ^ (j + 1))) (colsVec I.B.triples rx (2 ^ (j + 1)))
      (colsVec I.C.triples rx (2 ^ (j + 1))) (r0 :: ry')
    have hc := fun M => cols_mle (F := F) M rx (r0 :: ry')
    rw [hry] at this hc
    rw [hc1, hABC, this, hc, hc, hc]
  have hexp2 : (rA * matMLE I.A.triples rx (r0 :: ry') + rB * matMLE I.B.triples rx (r0 :: ry')
      + rC * matMLE I.C.triples rx (r0 :: ry')) •
      ((1 - r0) • (mle vars ry' • g0 + be • h) +
        (r0 • (mle (fit (2 ^ j) (1 :: input)) ry' • g0 + (0 : F) • h) + 0)) =
      (c0 * c1) • g0 + (c1 * ((1 - r0) * be)) • h := by
    rw [← hABCm, hzm]; module
  rw [hexp2, e2v, ok_bind]
  rfl

end Spartan
