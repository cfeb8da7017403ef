import Verif.Spec.Simulator
import Verif.Lemmas.CouplingR1CS
import Verif.Lemmas.SumcheckSound
import Verif.Props.PolyMerge

/-! The simulator's runs match the prover's. -/

set_option linter.unusedSectionVars false
namespace Spartan
open Spec
variable {F G P β : Type} [Field F] [AddCommGroup G] [Module F G]
  [DecidableEq F] [DecidableEq P] [DecidableEq G]

/-! ### Counting challenges -/

@[simp] theorem numChal_append (t u : Tr F P) : numChal (t ++ u) = numChal t + numChal u := List.countP_append
@[simp] theorem numChal_nil : numChal ([] : Tr F P) = 0 := rfl
@[simp] theorem numChal_chal (l : String) : numChal ([.chal l] : Tr F P) = 1 := rfl
@[simp] theorem numChal_bytes (l s : String) : numChal ([.bytes l s] : Tr F P) = 0 := rfl
@[simp] theorem numChal_blob (l : String) (b : List UInt8) : numChal ([.blob l b] : Tr F P) = 0 := rfl
@[simp] theorem numChal_protocol (t : Tr F P) (s : String) : numChal (t.protocol s) = numChal t := by
  simp [Tr.protocol]
@[simp] theorem numChal_point (t : Tr F P) (l : String) (p : P) : numChal (t.point l p) = numChal t := by
  rw [Tr.point, numChal_append]; rfl
theorem numChal_map_scalar (l : String) (xs : List F) : numChal (xs.map (.scalar l) : Tr F P) = 0 := by
  rw [numChal, List.countP_eq_zero]
  intro a ha
  obtain ⟨x, -, rfl⟩ := List.mem_map.1 ha
  simp [isChal]
theorem numChal_map_point (l : String) (xs : List P) : numChal (xs.map (.point l) : Tr F P) = 0 := by
  rw [numChal, List.countP_eq_zero]
  intro a ha
  obtain ⟨x, -, rfl⟩ := List.mem_map.1 ha
  simp [isChal]
@[simp] theorem numChal_scalars (t : Tr F P) (l : String) (xs : List F) : numChal (t.scalars l xs) = numChal t := by
  rw [Tr.scalars, numChal_append, numChal_append, numChal_append, numChal_map_scalar]; rfl
@[simp] theorem numChal_polyComm (t : Tr F P) (l : String) (xs : List P) : numChal (t.polyComm l xs) = numChal t := by
  rw [Tr.polyComm, numChal_append, numChal_append, numChal_append, numChal_map_point]; rfl

theorem coins_challenge (E : Env F G P) (c : Nat → F) (tr : Tr F P) (l : String) :
    (withCoins E c).challenge tr l = (c (numChal tr + 1), tr ++ [.chal l]) := by
  simp [Env.challenge, withCoins]

theorem numChal_challengeVec (E : Env F G P) (l : String) : ∀ (n : Nat) (tr : Tr F P),
    numChal (E.challengeVec tr l n).2 = numChal tr + n
  | 0, tr => rfl
  | n + 1, tr => by
    simp only [Env.challengeVec, Env.challenge]
    rw [numChal_challengeVec E l n]
    simp only [numChal_append, numChal_chal]; omega

theorem knowledge_count {E : Env F G P} {g : Gens G} {tr tr' : Tr F P} {tape tape' : Tape F} {x r : F}
    {pf : KnowledgeProof F P} {C : P} (h : KnowledgeProof.prove E g tr tape x r = .ok (pf, C, tr', tape')) :
    numChal tr' = numChal tr + 1 := by
  unfold KnowledgeProof.prove at h
  simp only at h
  obtain ⟨_, -, h⟩ := bind_ok h
  obtain ⟨_, -, h⟩ := bind_ok h
  cases h
  simp [Env.challenge]

theorem equality_count {E : Env F G P} {g : Gens G} {tr tr' : Tr F P} {tape tape' : Tape F} {v1 s1 v2 s2 : F}
    {pf : EqualityProof F P} {C1 C2 : P} (h : EqualityProof.prove E g tr tape v1 s1 v2 s2 = .ok (pf, C1, C2, tr', tape')) :
    numChal tr' = numChal tr + 1 := by
  unfold EqualityProof.prove at h
  simp only at h
  obtain ⟨_, -, h⟩ := bind_ok h
  obtain ⟨_, -, h⟩ := bind_ok h
  cases h
  simp [Env.challenge]

theorem product_count {E : Env F G P} {g : Gens G} {tr tr' : Tr F P} {tape tape' : Tape F} {x rX y rY z rZ : F}
    {pf : ProductProof F P} {X Y Z : P}
    (h : ProductProof.prove E g tr tape x rX y rY z rZ = .ok (pf, X, Y, Z, tr', tape')) :
    numChal tr' = numChal tr + 1 := by
  unfold ProductProof.prove at h
  simp only at h
  iterate 7 obtain ⟨_, -, h⟩ := bind_ok h
  cases h
  simp [Env.challenge]

theorem dotproduct_count {E : Env F G P} {g1 gn : Gens G} {tr tr' : Tr F P} {tape tape' : Tape F} {x a : List F}
    {bx y bY : F} {pf : DotProductProof F P} {Cx Cy : P}
    (h : DotProductProof.prove E g1 gn tr tape x bx a y bY = .ok (pf, Cx, Cy, tr', tape')) :
    numChal tr' = numChal tr + 1 := by
  unfold DotProductProof.prove at h
  simp only at h
  iterate 8 obtain ⟨_, -, h⟩ := bind_ok h
  cases h
  simp [Env.challenge]

theorem zkLoop_coins {S : Type} {E : Env F G P} {c : Nat → F} {points : S → Out (List F)} {bind : F → S → Out S}
    {g1 gn : Gens G} : ∀ (blinds : List (F × F)) {bclaim claim : F} {C : P} {s s' : S} {tr tr' : Tr F P}
    {tape tape' : Tape F} {zk : ZKSumcheck F P} {rs : List F},
    zkProveLoop (withCoins E c) points bind g1 gn blinds bclaim claim C s tr tape = .ok (zk, rs, s', tr', tape') →
    numChal tr' = numChal tr + 4 * blinds.length ∧
      rs = (List.range blinds.length).map fun i => c (numChal tr + 4 * i + 1) := by
  intro blinds
  induction blinds with
  | nil =>
    intro bclaim claim C s s' tr tr' tape tape' zk rs h
    rw [zkProveLoop] at h
    cases h
    exact ⟨rfl, rfl⟩
  | cons b blinds ih =>
    intro bclaim claim C s s' tr tr' tape tape' zk rs h
    obtain ⟨bp, be⟩ := b
    rw [zkProveLoop] at h
    simp only [coins_challenge] at h
    iterate 11 obtain ⟨_, -, h⟩ := bind_ok h
    obtain ⟨_, -, h⟩ := bind_ok h
    obtain ⟨⟨pf, Cx, Cy, tr4, tape4⟩, hd, h⟩ := bind_ok h
    obtain ⟨⟨zk', rs', s'', tr5, tape5⟩, hl, h⟩ := bind_ok h
    cases h
    have h1 := dotproduct_count hd
    obtain ⟨h2, h3⟩ := ih hl
    rw [numChal_challengeVec] at h1
    simp only [numChal_point, numChal_append, numChal_chal] at h1
    refine ⟨by rw [h2, h1, List.length_cons]; ring, ?_⟩
    rw [List.length_cons, List.range_succ_eq_map, List.map_cons, List.map_map, h3]
    congr 1
    · rw [numChal_point, mul_zero, add_zero]
    · refine List.map_congr_left fun i _ => ?_
      rw [h1]
      simp only [Function.comp]
      congr 1; omega

theorem zkProve_coins {E : Env F G P} {c : Nat → F} {points : List (Dense F) → Out (List F)}
    {g1 gn : Gens G} {claim bclaim b : F} {n : Nat} {ts : List (Dense F)} {tr tr' : Tr F P} {tape tape' : Tape F}
    {zk : ZKSumcheck F P} {rs fin : List F}
    (h : zkProve (withCoins E c) points claim bclaim n ts g1 gn tr tape = .ok (zk, rs, fin, b, tr', tape')) :
    numChal tr' = numChal tr + 4 * n ∧ rs = (List.range n).map fun i => c (numChal tr + 4 * i + 1) := by
  unfold zkProve at h
  simp only at h
  obtain ⟨_, -, h⟩ := bind_ok h
  obtain ⟨⟨zk', rs', ts', tr2, tape2⟩, hl, h⟩ := bind_ok h
  obtain ⟨_, -, h⟩ := bind_ok h
  obtain ⟨_, -, h⟩ := bind_ok h
  obtain ⟨_, -, h⟩ := bind_ok h
  cases h
  have := zkLoop_coins _ hl
  simpa [Tape.nextVec] using this

/-- The run of `proveWith` once the outcome of each sub-protocol is known. -/
theorem proveWith_run {E : Env F G P} {I : R1CS F} {k j : Nat} (hI : I.WF k j)
    {gens : R1CSGens G} {g0 h : G} (hg : gens.WF j g0 h) {vars input : List F}
    (hv : vars.length = 2 ^ j) (hi : input.length < 2 ^ j) {tr : Tr F P}
    {b : Fin (2 ^ (j / 2)) → F} {tape1 : Tape F} {commVars : List P}
    (hcv : (rowComms gens.pc.gensn.G h (rowsOf (2 ^ (j - j / 2)) (2 ^ (j / 2)) vars)
      (List.ofFn b)).map E.compress = commVars)
    {TA TB TC : List F} {tau : List F} {tr2 : Tr F P}
    (htau : E.challengeVec (((tr.protocol "R1CS proof").scalars "input" input).polyComm
      "poly_commitment" commVars) "challenge_tau" k = (tau, tr2))
    {sc1 : ZKSumcheck F P} {rx : List F} {tauC AzC BzC CzC b1 : F} {tr3 : Tr F P} {tape3 : Tape F}
    (hrx : rx.length = k)
    (p1 : proveCubicAdditive E 0 0 k (dn k (eqEvals tau))
      (dn k TA)
      (dn k TB)
      (dn k TC)
      (fun a b c d => a * (b * c - d)) (Gens.single g0 h) gens.gens4 tr2 tape1 =
      .ok (sc1, rx, [tauC, AzC, BzC, CzC], b1, tr3, tape3))
    {AzB BzB CzB prodB : F} {tape7 : Tape F}
    (hn : tape3 = Tape.cons AzB (Tape.cons BzB (Tape.cons CzB (Tape.cons prodB tape7))))
    {pok : KnowledgeProof F P} {cCz : P} {tr4 : Tr F P} {tape8 : Tape F}
    (kp : KnowledgeProof.prove E (Gens.single g0 h) tr3 tape7 CzC CzB = .ok (pok, cCz, tr4, tape8))
    {pp : ProductProof F P} {cAz cBz cProd : P} {tr5 : Tr F P} {tape9 : Tape F}
    (ppp : ProductProof.prove E (Gens.single g0 h) tr4 tape8 AzC AzB BzC BzB (AzC * BzC) prodB =
      .ok (pp, cAz, cBz, cProd, tr5, tape9))
    {eq1 : EqualityProof F P} {c1 c2 : P} {tr7 : Tr F P} {tape10 : Tape F}
    (e1p : EqualityProof.prove E (Gens.single g0 h) ((((tr5.point "comm_Az_claim" cAz).point
      "comm_Bz_claim" cBz).point "comm_Cz_claim" cCz).point "comm_prod_Az_Bz_claims" cProd) tape9
      ((AzC * BzC - CzC) * tauC) (tauC * (prodB - CzB)) ((AzC * BzC - CzC) * tauC) b1 =
      .ok (eq1, c1, c2, tr7, tape10))
    {rA rB rC : F} {tr8 tr9 tr10 : Tr F P} (cA : E.challenge tr7 "challenege_Az" = (rA, tr8))
    (cB : E.challenge tr8 "challenege_Bz" = (rB, tr9)) (cC : E.challenge tr9 "challenege_Cz" = (rC, tr10))
    {sc2 : ZKSumcheck F P} {r0 : F} {ry : List F} {zC mC b2 : F} {tr11 : Tr F P} {tape11 : Tape F}
    (hry : ry.length = j)
    (p2 : proveQuad E (rA * AzC + rB * BzC + rC * CzC) (rA * AzB + rB * BzB + rC * CzB) (j + 1)
      (dn (j + 1) (zpad vars input)) (dn (j + 1) (abcTable I rx (2 ^ (j + 1)) rA rB rC))
      (fun a b => a * b) (Gens.single g0 h) gens.gens3 tr10 tape10 =
      .ok (sc2, r0 :: ry, [zC, mC], b2, tr11, tape11))
    {be : F} {tape12 : Tape F} (hn2 : tape11 = Tape.cons be tape12)
    (K : R1CSProof F P × List F × List F × Tr F P × Tape F → Out β) :
    (proveWith E I (.ok (dn k TA, dn k TB, dn k TC)) vars input gens tr (Tape.pre b tape1) >>= K) =
    (polyEvalProve E ⟨j, vars.length, vars⟩ (some (List.ofFn b)) ry (mle vars ry) (some be) gens.pc tr11
        tape12 >>= fun x =>
      EqualityProof.prove E (Gens.single g0 h) x.2.2.1 x.2.2.2 (zC * mC) (mC * ((1 - r0) * be)) (zC * mC) b2
        >>= fun y => K (⟨commVars, sc1, cAz, cBz, cCz, cProd, pok, pp, eq1, sc2, x.2.1, x.1, y.1⟩, rx,
          r0 :: ry, y.2.2.2.1, y.2.2.2.2)) := by
  have hzl : (zpad vars input).length = 2 ^ (j + 1) := by rw [zpad_length, hv, pow_succ]; ring
  have hlog : log2 (zpad vars input).length = .ok (j + 1) := by rw [hzl, log2_pow]
  have hlt : input.length < vars.length := by rw [hv]; exact hi
  have hel : (eqEvals tau).length = 2 ^ k := by
    rw [(eqEvals_correct tau).1, show tau = (tau, tr2).1 from rfl, ← htau, challengeVec_length]
  unfold proveWith
  simp only
  rw [check_true hlt, ok_bind, Dense.new_eq hv, ok_bind, commit_pre E hv hg.pc, ok_bind, hcv]
  simp only [Option.getD_some]
  rw [hI.cons, log2_pow, ok_bind, zpad_eq hlt, hlog, ok_bind, htau]
  simp only
  rw [dn_new hel, ok_bind, hzl, ok_bind]
  simp only
  rw [hg.g1, p1, ok_bind]
  simp only [List.getD_cons_zero, List.getD_cons_succ, hn, Tape.next_cons]
  rw [kp, ok_bind]
  simp only
  rw [ppp, ok_bind]
  simp only
  rw [e1p, ok_bind]
  simp only [cA, cB, cC]
  rw [hI.evalTable hrx, ok_bind]
  simp only [colsVec_length]
  rw [check_true trivial, ok_bind, ok_bind]
  have hABCl : (abcTable I rx (2 ^ (j + 1)) rA rB rC).length = 2 ^ (j + 1) := by simp [abcTable]
  rw [dn_new hzl, ok_bind, ← abcTable, dn_new hABCl, ok_bind, p2, ok_bind]
  simp only [List.getD_cons_zero, List.getD_cons_succ, hn2, Tape.next_cons]
  simp only [List.drop_succ_cons, List.drop_zero, List.length_cons]
  rw [check_true (by omega), ok_bind]
  have hev : (⟨j, vars.length, vars⟩ : Dense F).evaluate ry = .ok (mle vars ry) := by
    have := dense_evaluate_correct (Z := vars) (r := ry) (by rw [hv, hry])
    rwa [Dense.new_eq hv, ok_bind] at this
  rw [hev, ok_bind, hg.pc.g1]
  simp only [bind_assoc]
  rfl

theorem simPair_spec {rA rB rC s : F} (h : rA = 0 → rB = 0 → rC = 0 → s = 0) :
    rA * (simPair rA rB rC s).1 + rB * (simPair rA rB rC s).2 + rC * ((simPair rA rB rC s).1 * (simPair rA rB rC s).2) = s := by
  unfold simPair
  by_cases hA : rA ≠ 0
  · rw [if_pos hA]; simp only; field_simp; ring
  rw [if_neg hA]
  by_cases hB : rB ≠ 0
  · rw [if_pos hB]; simp only; field_simp; ring
  rw [if_neg hB]
  push Not at hA hB
  simp only
  by_cases hC : rC = 0
  · rw [h hA hB hC, hA, hB, hC]; ring
  · rw [hA, hB]; field_simp; ring

/-- A run of the prover with the coins `c` and a run of the simulator agree under a bijection of the random scalars. -/
theorem simulate_coupled (h2 : (2 : F) ≠ 0) (h3 : (3 : F) ≠ 0) {E : Env F G P} (hE : E.Lawful) (c : Nat → F)
    {I : R1CS F} {k j : Nat} (hI : I.WF k j) (hk : 1 ≤ k) {gens : R1CSGens G} {g0 h : G}
    (hg : gens.WF j g0 h) (hh : Function.Bijective fun s : F => s • h)
    (hh3 : Function.Surjective fun s : F => s • gens.gens3.h)
    (hh4 : Function.Surjective fun s : F => s • gens.gens4.h)
    {vars input : List F} (hv : vars.length = 2 ^ j)
    (hi : input.length < 2 ^ j)
    (hs : Sat I.A.triples I.B.triples I.C.triples (2 ^ k) (zpad vars input))
    (tr : Tr F P) {K : R1CSProof F P × List F × List F × Tr F P × Tape F → Out β}
    {R : Tape F → Tape F → Prop} (hK : ∀ a b c d t t', R t t' → K (a, b, c, d, t) = K (a, b, c, d, t')) :
    Coup R (r1csDraws k j) (fun t => R1CSProof.prove (withCoins E c) I vars input gens tr t >>= K)
      (fun t => simulate E c I input gens tr t >>= K) := by
  obtain ⟨vars', hvd⟩ : ∃ v, v = List.replicate (2 ^ j) (0 : F) := ⟨_, rfl⟩
  have hv' : vars'.length = 2 ^ j := by rw [hvd, List.length_replicate]
  -- the constants of the simulator
  obtain ⟨cx, hcx⟩ : ∃ l : List F, l = (List.range k).map fun i => c (numChal tr + k + 4 * i + 1) := ⟨_, rfl⟩
  have hcxl : cx.length = k := by rw [hcx]; simp
  obtain ⟨cA, hcA⟩ : ∃ x, x = c (numChal tr + k + 4 * k + 4) := ⟨_, rfl⟩
  obtain ⟨cB, hcB⟩ : ∃ x, x = c (numChal tr + k + 4 * k + 5) := ⟨_, rfl⟩
  obtain ⟨cC, hcC⟩ : ∃ x, x = c (numChal tr + k + 4 * k + 6) := ⟨_, rfl⟩
  obtain ⟨xa, xb, hab, hsim⟩ : ∃ xa xb : F,
      ∑ i ∈ Finset.range (2 ^ (j + 1)), (zpad vars' input).getD i 0 * (abcTable I cx (2 ^ (j + 1)) cA cB cC).getD i 0 =
        cA * xa + cB * xb + cC * (xa * xb) ∧
      ∀ t, simulate E c I input gens tr t = proveWith (withCoins E c) I
        (.ok (dn k (List.replicate (2 ^ k) xa), dn k (List.replicate (2 ^ k) xb), dn k (List.replicate (2 ^ k) (xa * xb))))
        vars' input gens tr t := by
    have hzl' : (zpad vars' input).length = 2 ^ (j + 1) := by rw [zpad_length, hv', pow_succ]; ring
    obtain ⟨S, hS⟩ : ∃ S, S = ∑ i ∈ Finset.range (2 ^ (j + 1)), (zpad vars' input).getD i 0 *
      (abcTable I cx (2 ^ (j + 1)) cA cB cC).getD i 0 := ⟨_, rfl⟩
    refine ⟨(simPair cA cB cC S).1, (simPair cA cB cC S).2, ?_, fun t => ?_⟩
    · rw [← hS]
      refine (simPair_spec ?_).symm
      rintro rfl rfl rfl
      rw [hS]
      apply Finset.sum_eq_zero
      intro i hi
      rw [abcTable, map_range_getD (Finset.mem_range.1 hi)]; ring
    · have hz : ∑ i ∈ Finset.range (2 ^ (j + 1)), (zpad vars' input).getD i 0 * (cA *
          (colsVec I.A.triples cx (2 ^ (j + 1))).getD i 0 + cB * (colsVec I.B.triples cx (2 ^ (j + 1))).getD i 0 +
          cC * (colsVec I.C.triples cx (2 ^ (j + 1))).getD i 0) = S := by
        rw [hS]
        refine Finset.sum_congr rfl fun i hi => ?_
        rw [abcTable, map_range_getD (Finset.mem_range.1 hi)]
      unfold simulate
      simp only
      rw [hI.cons, log2_pow, ok_bind, hI.vars, ← hvd, zpad_eq (by rw [hv']; exact hi), hzl', ← hcx,
        hI.evalTable hcxl, ok_bind]
      simp only [← hcA, ← hcB, ← hcC, hz]
      rw [dn_new (n := k) (by simp), dn_new (n := k) (by simp), dn_new (n := k) (by simp)]
      rfl
  simp only [hsim]
  have hEc : (withCoins E c).Lawful := hE
  have hrun : ∀ t, R1CSProof.prove (withCoins E c) I vars input gens tr t = proveWith (withCoins E c) I
      (.ok (dn k (rowsVec I.A.triples (zpad vars input) (2 ^ k)), dn k (rowsVec I.B.triples (zpad vars input) (2 ^ k)),
        dn k (rowsVec I.C.triples (zpad vars input) (2 ^ k)))) vars input gens tr t := by
    intro t
    rw [prove_eq_proveWith, zpad_eq (by rw [hv]; exact hi), hI.cons,
      show (zpad vars input).length = 2 ^ (j + 1) by rw [zpad_length, hv, pow_succ]; ring, hI.multiplyVec
        (by rw [zpad_length, hv, pow_succ]; ring)]
  simp only [hrun]
  obtain ⟨TA, hTA⟩ : ∃ l, l = List.replicate (2 ^ k) xa := ⟨_, rfl⟩
  obtain ⟨TB, hTB⟩ : ∃ l, l = List.replicate (2 ^ k) xb := ⟨_, rfl⟩
  obtain ⟨TC, hTC⟩ : ∃ l, l = List.replicate (2 ^ k) (xa * xb) := ⟨_, rfl⟩
  simp only [← hTA, ← hTB, ← hTC]
  have hzl : ∀ {vars : List F}, vars.length = 2 ^ j → (zpad vars input).length = 2 ^ (j + 1) := by
    intro vars hv; rw [zpad_length, hv, pow_succ]; ring
  -- commitment
  obtain ⟨δ, hδ⟩ := rowComms_shift hh.2 gens.pc.gensn.G
    (rowsOf_length (2 ^ (j - j / 2)) (2 ^ (j / 2)) vars)
    (rowsOf_length (2 ^ (j - j / 2)) (2 ^ (j / 2)) vars')
  refine Coup.draw (Lay.vec F _) (Equiv.addRight δ) fun b => ?_
  obtain ⟨commVars, hcv⟩ : ∃ cm, (rowComms gens.pc.gensn.G h (rowsOf (2 ^ (j - j / 2)) (2 ^ (j / 2)) vars)
      (List.ofFn b)).map (withCoins E c).compress = cm := ⟨_, rfl⟩
  have hcv' := hcv
  rw [← hδ b] at hcv'
  obtain ⟨tau, tr2, htau⟩ : ∃ a tr2, (withCoins E c).challengeVec (((tr.protocol "R1CS proof").scalars "input" input).polyComm
      "poly_commitment" commVars) "challenge_tau" k = (a, tr2) := ⟨_, _, rfl⟩
  have hel : (eqEvals tau).length = 2 ^ k := by
    rw [(eqEvals_correct tau).1, show tau = (tau, tr2).1 from rfl, ← htau, challengeVec_length]
  -- first sum-check
  have hsum : ∀ {vars : List F}, Sat I.A.triples I.B.triples I.C.triples (2 ^ k) (zpad vars input) →
      ∑ i ∈ Finset.range (2 ^ k), (fun a b c d : F => a * (b * c - d)) ((eqEvals tau).getD i 0)
      ((rowsVec I.A.triples (zpad vars input) (2 ^ k)).getD i 0)
      ((rowsVec I.B.triples (zpad vars input) (2 ^ k)).getD i 0)
      ((rowsVec I.C.triples (zpad vars input) (2 ^ k)).getD i 0) = 0 := by
    intro vars hs
    apply Finset.sum_eq_zero
    intro i hi
    have hi := Finset.mem_range.1 hi
    simp only
    rw [rowsVec_getD hi, rowsVec_getD hi, rowsVec_getD hi, hs i hi, sub_self, mul_zero]
  have hmle : ∀ x : F, ∀ i < 2 ^ k, (List.replicate (2 ^ k) x).getD i 0 = x := by
    intro x i hi
    rw [List.getD_eq_getElem?_getD, List.getElem?_replicate, if_pos hi, Option.getD_some]
  have hsum' : ∑ i ∈ Finset.range (2 ^ k), (fun a b c d : F => a * (b * c - d)) ((eqEvals tau).getD i 0)
      (TA.getD i 0) (TB.getD i 0) (TC.getD i 0) = 0 := by
    apply Finset.sum_eq_zero
    intro i hi
    have hi := Finset.mem_range.1 hi
    simp only
    rw [hTA, hTB, hTC, hmle _ i hi, hmle _ i hi, hmle _ i hi, sub_self, mul_zero]
  obtain ⟨σ1, hσ1⟩ := proveCubicAdditive_coupled h2 h3 hEc (g0 := g0) (h := h) hg.g4.1 hg.g4.2 hh.2 hh4 hk
    hel (rowsVec_length I.A.triples (zpad vars input) _) (by rw [hTA]; simp)
    (rowsVec_length I.B.triples (zpad vars input) _) (by rw [hTB]; simp)
    (rowsVec_length I.C.triples (zpad vars input) _) (by rw [hTC]; simp)
    cubic4_r1cs (hsum hs) hsum' (bclaim := 0) (bclaim' := 0) rfl rfl tr2
  refine Coup.draw (layZK F 3 k) σ1 fun D1 => ?_
  obtain ⟨sc1, rx, b1, b1', tr3, hrx, hb1, p1⟩ := hσ1 D1
  obtain ⟨tauC, hT⟩ : ∃ x, mle (eqEvals tau) rx = x := ⟨_, rfl⟩
  obtain ⟨AzC, hA⟩ : ∃ x, mle (rowsVec I.A.triples (zpad vars input) (2 ^ k)) rx = x := ⟨_, rfl⟩
  obtain ⟨BzC, hB⟩ : ∃ x, mle (rowsVec I.B.triples (zpad vars input) (2 ^ k)) rx = x := ⟨_, rfl⟩
  obtain ⟨CzC, hC⟩ : ∃ x, mle (rowsVec I.C.triples (zpad vars input) (2 ^ k)) rx = x := ⟨_, rfl⟩
  obtain ⟨AzC', hA'⟩ : ∃ x, mle TA rx = x := ⟨_, rfl⟩
  obtain ⟨BzC', hB'⟩ : ∃ x, mle TB rx = x := ⟨_, rfl⟩
  obtain ⟨CzC', hC'⟩ : ∃ x, mle TC rx = x := ⟨_, rfl⟩
  simp only [hT, hA, hB, hC, hA', hB', hC'] at p1 hb1
  -- the four claims
  obtain ⟨dA, hdA⟩ := hh.2 ((AzC - AzC') • g0)
  obtain ⟨dB, hdB⟩ := hh.2 ((BzC - BzC') • g0)
  obtain ⟨dC, hdC⟩ := hh.2 ((CzC - CzC') • g0)
  obtain ⟨dP, hdP⟩ := hh.2 ((AzC * BzC - AzC' * BzC') • g0)
  simp only at hdA hdB hdC hdP
  refine Coup.draw (lay4 F) (Equiv.addRight (dA, dB, dC, dP)) fun ⟨AzB, BzB, CzB, prodB⟩ => ?_
  have qA : AzC' • g0 + (AzB + dA) • h = AzC • g0 + AzB • h := by rw [add_smul, hdA]; module
  have qB : BzC' • g0 + (BzB + dB) • h = BzC • g0 + BzB • h := by rw [add_smul, hdB]; module
  have qC : CzC' • g0 + (CzB + dC) • h = CzC • g0 + CzB • h := by rw [add_smul, hdC]; module
  have qP : (AzC' * BzC') • g0 + (prodB + dP) • h = (AzC * BzC) • g0 + prodB • h := by
    rw [add_smul, hdP]; module
  -- sigma protocols
  obtain ⟨σ2, hσ2⟩ := knowledge_coupled (withCoins E c) (g0 := g0) (h := h) (C := CzC • g0 + CzB • h) rfl qC tr3
  refine Coup.draw (lay2 F) σ2 fun D2 => ?_
  obtain ⟨pok, tr4, kp⟩ := hσ2 D2
  obtain ⟨σ3, hσ3⟩ := product_coupled hEc (g0 := g0) (h := h) (X := AzC • g0 + AzB • h)
    (Y := BzC • g0 + BzB • h) (Z := (AzC * BzC) • g0 + prodB • h) rfl rfl rfl qA qB qP tr4
  refine Coup.draw (lay5 F) σ3 fun D3 => ?_
  obtain ⟨pp, tr5, ppp⟩ := hσ3 D3
  obtain ⟨σ4, hσ4⟩ := equality_coupled (withCoins E c) (g0 := g0) (h := h)
    (v := (AzC * BzC - CzC) * tauC) (s1 := tauC * (prodB - CzB)) (s2 := b1)
    (v' := (AzC' * BzC' - CzC') * tauC) (s1' := tauC * ((prodB + dP) - (CzB + dC))) (s2' := b1')
    rfl rfl (by
      have e : ∀ a p c q : F, ((a - c) * tauC) • g0 + (tauC * (p - q)) • h =
          tauC • ((a • g0 + p • h) - (c • g0 + q • h)) := by intros; module
      rw [e, e, qP, qC]) (by
      rw [mul_comm (AzC' * BzC' - CzC'), mul_comm (AzC * BzC - CzC)]; exact hb1.symm)
    ((((tr5.point "comm_Az_claim" ((withCoins E c).compress (AzC • g0 + AzB • h))).point
      "comm_Bz_claim" ((withCoins E c).compress (BzC • g0 + BzB • h))).point "comm_Cz_claim"
      ((withCoins E c).compress (CzC • g0 + CzB • h))).point "comm_prod_Az_Bz_claims"
      ((withCoins E c).compress ((AzC * BzC) • g0 + prodB • h)))
  refine Coup.draw (Lay.one F) σ4 fun D4 => ?_
  obtain ⟨eq1, tr7, e1p⟩ := hσ4 D4
  obtain ⟨rA, tr8, cA'⟩ : ∃ a b, (withCoins E c).challenge tr7 "challenege_Az" = (a, b) := ⟨_, _, rfl⟩
  obtain ⟨rB, tr9, cB'⟩ : ∃ a b, (withCoins E c).challenge tr8 "challenege_Bz" = (a, b) := ⟨_, _, rfl⟩
  obtain ⟨rC, tr10, cC'⟩ : ∃ a b, (withCoins E c).challenge tr9 "challenege_Cz" = (a, b) := ⟨_, _, rfl⟩
  -- second sum-check
  have hABCl : (abcTable I rx (2 ^ (j + 1)) rA rB rC).length = 2 ^ (j + 1) := by simp [abcTable]
  have hclaim : ∀ {vars : List F} (hv : vars.length = 2 ^ j),
      ∑ i ∈ Finset.range (2 ^ (j + 1)), (fun a b : F => a * b) ((zpad vars input).getD i 0)
        ((abcTable I rx (2 ^ (j + 1)) rA rB rC).getD i 0) =
      rA * mle (rowsVec I.A.triples (zpad vars input) (2 ^ k)) rx +
      rB * mle (rowsVec I.B.triples (zpad vars input) (2 ^ k)) rx +
      rC * mle (rowsVec I.C.triples (zpad vars input) (2 ^ k)) rx := by
    intro vars hv
    have hr := fun M => rows_mle (F := F) M (zpad vars input) rx
    rw [hrx, hzl hv] at hr
    rw [hr, hr, hr]
    simp only [Finset.mul_sum, ← Finset.sum_add_distrib]
    apply Finset.sum_congr rfl
    intro i hi
    rw [abcTable, map_range_getD (Finset.mem_range.1 hi)]; ring
  have hcl := hclaim hv
  have hcount : rx = cx ∧ rA = cA ∧ rB = cB ∧ rC = cC := by
    have n2 : numChal tr2 = numChal tr + k := by
      have := numChal_challengeVec (withCoins E c) "challenge_tau" k (((tr.protocol "R1CS proof").scalars "input" input).polyComm
        "poly_commitment" commVars)
      rw [htau] at this
      simpa using this
    obtain ⟨n3, hr⟩ := zkProve_coins (p1 (fun _ => 0)).1
    have n4 := knowledge_count (kp (fun _ => 0)).1
    have n5 := product_count (ppp (fun _ => 0)).1
    have n7 := equality_count (e1p (fun _ => 0)).1
    simp only [numChal_point] at n7
    rw [coins_challenge, Prod.mk.injEq] at cA' cB' cC'
    obtain ⟨a1, a2⟩ := cA'
    obtain ⟨b1, b2⟩ := cB'
    obtain ⟨c1, -⟩ := cC'
    refine ⟨by rw [hr, hcx, n2], ?_, ?_, ?_⟩
    · rw [← a1, hcA]; congr 1; omega
    · rw [← b1, hcB, ← a2, numChal_append, numChal_chal]; congr 1; omega
    · rw [← c1, hcC, ← b2, ← a2, numChal_append, numChal_append, numChal_chal, numChal_chal]; congr 1; omega
  obtain ⟨ex, eA, eB, eC⟩ := hcount
  have hconst : ∀ x : F, mle (List.replicate (2 ^ k) x) rx = x := by
    intro x
    unfold mle
    rw [hrx, Finset.sum_congr rfl fun i hi => by rw [hmle x i (Finset.mem_range.1 hi)], ← Finset.mul_sum, ← hrx, sum_chi,
      mul_one]
  have hcl' : ∑ i ∈ Finset.range (2 ^ (j + 1)), (fun a b : F => a * b) ((zpad vars' input).getD i 0)
        ((abcTable I rx (2 ^ (j + 1)) rA rB rC).getD i 0) = rA * AzC' + rB * BzC' + rC * CzC' := by
    rw [← hA', ← hB', ← hC', hTA, hTB, hTC, hconst, hconst, hconst, ex, eA, eB, eC]
    exact hab
  rw [hA, hB, hC] at hcl
  obtain ⟨σ5, hσ5⟩ := proveQuad_coupled h2 hEc (g0 := g0) (h := h) hg.g3.1 hg.g3.2 hh.2 hh3
    (Nat.succ_pos j) (hzl hv) (hzl hv') hABCl quad2_product hcl hcl'
    (bclaim := rA * AzB + rB * BzB + rC * CzB)
    (bclaim' := rA * (AzB + dA) + rB * (BzB + dB) + rC * (CzB + dC)) rfl (by
      have e : ∀ a b c x y z : F, (rA * a + rB * b + rC * c) • g0 + (rA * x + rB * y + rC * z) • h =
          rA • (a • g0 + x • h) + rB • (b • g0 + y • h) + rC • (c • g0 + z • h) := by intros; module
      rw [e, e, qA, qB, qC]) tr10
  refine Coup.draw (layZK F 2 (j + 1)) σ5 fun D5 => ?_
  obtain ⟨sc2, ry0, b2, b2', tr11, hry0, hb2, p2⟩ := hσ5 D5
  obtain ⟨r0, ry, rfl⟩ : ∃ a b, ry0 = a :: b := by
    cases ry0 with
    | nil => simp at hry0
    | cons a b => exact ⟨a, b, rfl⟩
  have hry : ry.length = j := by simpa using hry0
  obtain ⟨mC, hmC⟩ : ∃ x, mle (abcTable I rx (2 ^ (j + 1)) rA rB rC) (r0 :: ry) = x := ⟨_, rfl⟩
  obtain ⟨zC, hzC⟩ : ∃ x, mle (zpad vars input) (r0 :: ry) = x := ⟨_, rfl⟩
  obtain ⟨zC', hzC'⟩ : ∃ x, mle (zpad vars' input) (r0 :: ry) = x := ⟨_, rfl⟩
  simp only [hmC, hzC, hzC'] at p2 hb2
  -- evaluation
  obtain ⟨dE, hdE⟩ := hh.2 ((mle vars ry - mle vars' ry) • g0)
  simp only at hdE
  refine Coup.draw (Lay.one F) (Equiv.addRight dE) fun be => ?_
  have qE : mle vars' ry • g0 + (be + dE) • h = mle vars ry • g0 + be • h := by
    rw [add_smul, hdE]; module
  have hpe := polyEval_coupled (withCoins E c) (Z := vars) (Z' := vars') (r := ry) (by rw [hv, hry])
    (by rw [hv', hry]) (gens := gens.pc) (g0 := g0) (h := h) (by rw [hry]; exact hg.pc) hh
    (bl := List.ofFn b) (bl' := List.ofFn (b + δ)) (by rw [hry]; simp) (by rw [hry]; simp)
    (by rw [hry]; exact (hδ b).symm) (bz := be) (bz' := be + dE) rfl qE tr11
  rw [hry] at hpe
  obtain ⟨σ6, hσ6⟩ := hpe
  refine Coup.draw (layDL F (j - j / 2)) σ6 fun D6 => ?_
  have hzm : ∀ {vars : List F}, vars.length = 2 ^ j → mle (zpad vars input) (r0 :: ry) =
      (1 - r0) * mle vars ry + r0 * mle (fit (2 ^ j) (1 :: input)) ry := by
    intro vars hv
    rw [zpad_split (by rw [hv]; exact hi), mle_append (by rw [hv, hry]) (by rw [fit_length, hv, hry]), hv]
  rcases hσ6 D6 with ⟨pe, tr12, pe6⟩ | pan
  swap
  · refine Coup.const' fun t t' => ?_
    exact (proveWith_run hI hg hv hi hcv htau hrx (p1 _).1 rfl (kp _).1 (ppp _).1 (e1p _).1 cA' cB' cC' hry
      (p2 _).1 rfl K).trans ((by simp only [Equiv.coe_addRight]; rw [(pan _).1, (pan _).2]; rfl : _ = _).trans
      (proveWith_run hI hg hv' hi hcv' htau hrx (p1 _).2 rfl (kp _).2 (ppp _).2 (e1p _).2 cA' cB' cC' hry
      (p2 _).2 rfl K).symm)
  obtain ⟨σ7, hσ7⟩ := equality_coupled (withCoins E c) (g0 := g0) (h := h)
    (v := zC * mC) (s1 := mC * ((1 - r0) * be)) (s2 := b2)
    (v' := zC' * mC) (s1' := mC * ((1 - r0) * (be + dE))) (s2' := b2') rfl rfl (by
      have e : ∀ x y : F, (((1 - r0) * x + r0 * mle (fit (2 ^ j) (1 :: input)) ry) * mC) • g0 +
          (mC * ((1 - r0) * y)) • h = (mC * (1 - r0)) • (x • g0 + y • h) +
            (mC * r0 * mle (fit (2 ^ j) (1 :: input)) ry) • g0 := by intros; module
      rw [← hzC, ← hzC', hzm hv, hzm hv', e, e, qE]) hb2.symm tr12
  refine Coup.draw (Lay.one F) σ7 fun D7 => ?_
  obtain ⟨eq2, tr13, e2p⟩ := hσ7 D7
  refine Coup.const fun t t' hR => ?_
  refine (proveWith_run hI hg hv hi hcv htau hrx (p1 _).1 rfl (kp _).1 (ppp _).1 (e1p _).1 cA' cB' cC' hry
      (p2 _).1 rfl K).trans (Eq.trans ?_
      (proveWith_run hI hg hv' hi hcv' htau hrx (p1 _).2 rfl (kp _).2 (ppp _).2 (e1p _).2 cA' cB' cC' hry
      (p2 _).2 rfl K).symm)
  simp only [Equiv.coe_addRight]
  rw [(pe6 _).1, (pe6 _).2, ok_bind, ok_bind]
  simp only
  rw [(e2p _).1, (e2p _).2, ok_bind, ok_bind]
  exact hK _ _ _ _ _ _ hR


end Spartan
