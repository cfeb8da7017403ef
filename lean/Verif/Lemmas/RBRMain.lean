import Verif.Lemmas.RBRR1CS

/-! Round-by-round soundness of the R1CS proof: assembly. -/

set_option linter.unusedSectionVars false

namespace Spartan
open Spec
variable {F G P M : Type} [Field F] [AddCommGroup G] [Module F G] [AddCommGroup M] [Module F M]
  [DecidableEq F] [DecidableEq P] [DecidableEq G]

theorem zkVerify_ok {E : Env F G P} {pf : ZKSumcheck F P} {claim : P} {n d : Nat} {g1 gn : Gens G}
    {tr tr' : Tr F P} {post : P} {rs : List F}
    (h : zkVerify E pf claim n d g1 gn tr = .ok (post, rs, tr')) :
    gn.n = d + 1 ∧ pf.commPolys.length = n ∧ pf.commEvals.length = n ∧ 1 ≤ n ∧
      zkVerifyLoop E d g1 gn pf.commPolys pf.commEvals pf.proofs claim tr = .ok (rs, tr') ∧
      post = pf.commEvals.getLastD claim := by
  unfold zkVerify at h
  obtain ⟨_, h1, h⟩ := bind_ok h
  obtain ⟨_, h2, h⟩ := bind_ok h
  obtain ⟨_, h3, h⟩ := bind_ok h
  obtain ⟨⟨rs', t⟩, h4, h⟩ := bind_ok h
  obtain ⟨_, h5, h⟩ := bind_ok h
  obtain ⟨p, h6, h⟩ := bind_ok h
  simp only [pure, Except.pure, Except.ok.injEq, Prod.mk.injEq] at h
  obtain ⟨rfl, rfl, rfl⟩ := h
  have h3 := check_ok h3
  have h5 := check_ok h5
  refine ⟨check_ok h1, check_ok h2, h3, h3 ▸ h5, h4, ?_⟩
  unfold idx at h6
  cases hc : pf.commEvals with
  | nil => rw [hc] at h5; simp at h5
  | cons a l =>
    rw [hc] at h6
    simp at h6
    rw [List.getLastD_eq_getLast?, List.getLast?_eq_getElem?]
    simp [h6]

theorem zkPt_length : ∀ (l : List F) (k : Nat), l.length = 4 * k → (zkPt l).length = k
  | [], k, h => by simp at h; subst h; rfl
  | a :: b :: c :: d :: l, k, h => by
    obtain ⟨k, rfl⟩ : ∃ k', k = k' + 1 := ⟨k - 1, by simp at h; omega⟩
    simp [zkPt, zkPt_length l k (by simp at h; omega)]
  | [_], k, h => by simp at h; omega
  | [_, _], k, h => by simp at h; omega
  | [_, _, _], k, h => by simp at h; omega

theorem r1csRels_ok {E : Env F G P} {rep : P → M} {π : M →ₗ[F] G} {gens : R1CSGens G} {gm : R1CSGens M}
    {g0 h : M} {pf : R1CSProof F P} {numVars numCons : Nat} {input : List F} {evals : F × F × F}
    {rx ry : List F} {tr tr' : Tr F P}
    (hok : pf.verify E numVars numCons input evals gens tr = .ok (rx, ry, tr')) :
    ∃ es, r1csRels E rep π gens gm g0 h pf numVars numCons input evals tr = .ok es := by
  unfold R1CSProof.verify at hok
  unfold r1csRels
  simp only at hok ⊢
  obtain ⟨nx, e, hok⟩ := bind_ok hok
  rw [e, ok_bind]
  obtain ⟨ny, e, hok⟩ := bind_ok hok
  rw [e, ok_bind]
  obtain ⟨cl, e, hok⟩ := bind_ok hok
  rw [e, ok_bind]
  obtain ⟨⟨post1, rx', tr3⟩, e, hok⟩ := bind_ok hok
  rw [e, ok_bind]
  simp only at hok ⊢
  obtain ⟨tr4, e, hok⟩ := bind_ok hok
  rw [e, ok_bind]
  obtain ⟨tr5, e, hok⟩ := bind_ok hok
  rw [e, ok_bind]
  obtain ⟨tb, e, hok⟩ := bind_ok hok
  rw [e, ok_bind]
  obtain ⟨prodP, e, hok⟩ := bind_ok hok
  rw [e, ok_bind]
  obtain ⟨czP, hczP, hok⟩ := bind_ok hok
  rw [hczP, ok_bind]
  obtain ⟨tr7, e, hok⟩ := bind_ok hok
  rw [e, ok_bind]
  obtain ⟨pA, e, hok⟩ := bind_ok hok
  rw [e, ok_bind]
  obtain ⟨pB, e, hok⟩ := bind_ok hok
  rw [e, ok_bind]
  obtain ⟨pC, e, hok⟩ := bind_ok hok
  rw [hczP] at e
  cases e
  rw [ok_bind]
  obtain ⟨c2, e, hok⟩ := bind_ok hok
  rw [e, ok_bind]
  obtain ⟨⟨post2, ry', tr8⟩, e, hok⟩ := bind_ok hok
  rw [e, ok_bind]
  simp only at hok ⊢
  obtain ⟨_, -, hok⟩ := bind_ok hok
  obtain ⟨tr9, e, hok⟩ := bind_ok hok
  rw [e, ok_bind]
  obtain ⟨ln, e, hok⟩ := bind_ok hok
  rw [e, ok_bind]
  obtain ⟨ie, e, hok⟩ := bind_ok hok
  rw [e, ok_bind]
  obtain ⟨pV, e, hok⟩ := bind_ok hok
  rw [e, ok_bind]
  obtain ⟨cI, e, hok⟩ := bind_ok hok
  rw [e, ok_bind]
  obtain ⟨cz, e, hok⟩ := bind_ok hok
  rw [e, ok_bind]
  obtain ⟨tr10, e, hok⟩ := bind_ok hok
  rw [e, ok_bind]
  exact ⟨_, rfl⟩

/-- Number of challenges of the protocol. -/
def r1csRounds (k j : Nat) : Nat := k + (4 * k + (1 + (1 + (1 + (3 + (4 * (j + 1) + (j - j / 2 + 2 + 1)))))))

/-- The row point, read off the challenges. -/
def r1csRx (k : Nat) (cs : List F) : List F := zkPt ((cs.drop k).take (4 * k))

/-- The column point, read off the challenges. -/
def r1csRy (k j : Nat) (cs : List F) : List F := zkPt ((cs.drop (k + (4 * k + 6))).take (4 * (j + 1)))

theorem r1cs_rbr {E : Env F G P} (hE : E.Lawful) {rep : P → M} {π : M →ₗ[F] G} (hrep : IsRep E rep π)
    {I : R1CS F} {k j : Nat} (hI : I.WF k j) {n : Nat} (hn : n = 2 ^ (j - j / 2))
    {v : M →ₗ[F] F} {x : M →ₗ[F] (Fin n → F)} {x3 : M →ₗ[F] (Fin 3 → F)} {x4 : M →ₗ[F] (Fin 4 → F)}
    {g0 h : M} {gm : R1CSGens M} (hpc : ReadsPc v x g0 h gm.pc.gensn.G)
    (hx3 : ReadsBasis x3 gm.gens3) (hx4 : ReadsBasis x4 gm.gens4) {gens : R1CSGens G}
    (hg : gens.WF j (π g0) (π h))
    (hG3 : gens.gens3.G = gm.gens3.G.map π) (hh3 : gens.gens3.h = π gm.gens3.h)
    (hG4 : gens.gens4.G = gm.gens4.G.map π) (hh4 : gens.gens4.h = π gm.gens4.h)
    (hGp : gens.pc.gensn.G = gm.pc.gensn.G.map π) {pf : R1CSProof F P}
    (hlen : pf.evalVars.bullet.L.length = pf.evalVars.bullet.R.length) {input : List F}
    (hi : input.length = I.numInputs) {evals : F × F × F} {rx ry : List F} {tr tr' : Tr F P}
    (hok : pf.verify E (2 ^ j) (2 ^ k) input evals gens tr = .ok (rx, ry, tr')) {es : List M}
    (hes : r1csRels E rep π gens gm g0 h pf (2 ^ j) (2 ^ k) input evals tr = .ok es) (hF : Free π es)
    {cur : List (Msg F M)} {np : Nat} (hc1 : (pts cur).length = np) (hc2 : scs cur = []) :
    2 ^ (j / 2) ≤ pf.commVars.length ∧ ∃ Rs, Seg E rep tr cur Rs tr' [] ∧ Rs.length = r1csRounds k j ∧
      rx = r1csRx k (chs Rs) ∧ ry = r1csRy k j (chs Rs) ∧ rx.length = k ∧ ry.length = j + 1 ∧
      (I.evaluate rx ry = .ok evals → ¬ Sat I.A.triples I.B.triples I.C.triples (2 ^ k)
          (zpad (extractVars x (2 ^ (j / 2)) (pf.commVars.map rep)) input) →
        Hit (r1csBad I k j np v x x3 x4) Rs) := by
  have hgh : (Gens.single (π g0) (π h)).h = π h := rfl
  unfold R1CSProof.verify at hok
  unfold r1csRels at hes
  simp only at hok hes
  rw [log2_pow, ok_bind, show 2 * 2 ^ j = 2 ^ (j + 1) by rw [pow_succ]; ring, log2_pow, ok_bind,
    hg.g1, commit1_single, ok_bind, zero_smul, zero_smul, zero_add] at hok hes
  obtain ⟨tr1, htr1⟩ : ∃ t, t = (((tr.protocol "R1CS proof").scalars "input" input).polyComm
    "poly_commitment" pf.commVars) := ⟨_, rfl⟩
  have S1 : ∃ cur1, Seg E rep tr cur [] tr1 cur1 ∧ (pts cur1).drop np = pf.commVars.map rep ∧ scs cur1 = input := by
    rw [htr1]
    unfold Tr.polyComm
    exact ⟨_, (Seg.pointList _ _ ((((Seg.refl E rep tr cur).protocol _).scalars _ _).bytes _ _)).bytes _ _,
      by simp [← hc1], by simp [hc2]⟩
  obtain ⟨cur1, S1, hp1, hs1⟩ := S1
  rw [← htr1] at hok hes
  obtain ⟨R1, S2, l1, ht, hhd⟩ := challengeVec_seg E rep "challenge_tau" k tr1 cur1
  obtain ⟨tau, tr2, htau⟩ : ∃ a b, E.challengeVec tr1 "challenge_tau" k = (a, b) := ⟨_, _, rfl⟩
  simp only [htau] at hok hes S2 ht
  have htl : tau.length = k := by rw [← ht]; simp [chs, l1]
  -- first sum-check
  obtain ⟨⟨post1, rx', tr3⟩, hz1, hok⟩ := bind_ok hok
  rw [hz1, ok_bind] at hes
  simp only at hok hes
  obtain ⟨hd4, a1, a2, hk, hl1, hpost1⟩ := zkVerify_ok hz1
  rw [if_neg (by omega)] at S2
  -- sigma protocols
  obtain ⟨tr4, hkn, hok⟩ := bind_ok hok
  rw [hkn, ok_bind] at hes
  obtain ⟨tr5, hpr, hok⟩ := bind_ok hok
  rw [hpr, ok_bind] at hes
  obtain ⟨tb, htb, hok⟩ := bind_ok hok
  rw [htb, ok_bind] at hes
  obtain ⟨prodP, hprodP, hok⟩ := bind_ok hok
  rw [hprodP, ok_bind] at hes
  obtain ⟨czP, hczP, hok⟩ := bind_ok hok
  rw [hczP, ok_bind] at hes
  obtain ⟨tr7, heq1, hok⟩ := bind_ok hok
  rw [heq1, ok_bind] at hes
  simp only [Env.challenge] at hok hes
  obtain ⟨rA, hrA⟩ : ∃ a, a = E.hash (tr7 ++ [.chal "challenege_Az"]) := ⟨_, rfl⟩
  obtain ⟨rB, hrB⟩ : ∃ a, a = E.hash (tr7 ++ [.chal "challenege_Az"] ++ [.chal "challenege_Bz"]) := ⟨_, rfl⟩
  obtain ⟨rC, hrC⟩ : ∃ a, a = E.hash (tr7 ++ [.chal "challenege_Az"] ++ [.chal "challenege_Bz"] ++
    [.chal "challenege_Cz"]) := ⟨_, rfl⟩
  rw [← hrA, ← hrB, ← hrC] at hok hes
  obtain ⟨pA, hpA, hok⟩ := bind_ok hok
  rw [hpA, ok_bind] at hes
  obtain ⟨pB, hpB, hok⟩ := bind_ok hok
  rw [hpB, ok_bind] at hes
  obtain ⟨pC, hpC, hok⟩ := bind_ok hok
  rw [hczP] at hpC
  cases hpC
  rw [ok_bind] at hes
  rw [msm3, ok_bind] at hok hes
  obtain ⟨⟨post2, ry', tr8⟩, hz2, hok⟩ := bind_ok hok
  rw [hz2, ok_bind] at hes
  simp only at hok hes
  obtain ⟨hd3, b1, b2, -, hl2, hpost2⟩ := zkVerify_ok hz2
  obtain ⟨_, -, hok⟩ := bind_ok hok
  obtain ⟨tr9, hpe, hok⟩ := bind_ok hok
  rw [hpe, ok_bind, log2_pow, ok_bind] at hes
  rw [log2_pow, ok_bind] at hok
  obtain ⟨ie, hie, hok⟩ := bind_ok hok
  rw [hie, ok_bind] at hes
  obtain ⟨pV, hpV, hok⟩ := bind_ok hok
  rw [hpV, ok_bind] at hes
  rw [hg.pc.g1, commit1_single, ok_bind, msm2, ok_bind] at hok hes
  obtain ⟨tr10, heq2, hok⟩ := bind_ok hok
  rw [heq2, ok_bind] at hes
  simp only [pure, Except.pure, Except.ok.injEq, Prod.mk.injEq] at hok hes
  obtain ⟨rfl, rfl, rfl⟩ := hok
  subst hes
  -- the relations
  simp only [List.cons_append, free_cons, free_append] at hF
  obtain ⟨hF0, ⟨⟨⟨⟨hF1, hF2⟩, hF3a, hF3⟩, hF4a, hF4⟩, hF5⟩, hF6a, hF6⟩ := hF
  have dU : ∀ {p : P} {g : G}, E.decompressU p = .ok g → π (rep p) = g :=
    fun hp => hrep _ _ (decompressU_ok_iff.1 hp)
  have rc : ∀ g, π (rep (E.compress g)) = g := fun g => hrep _ _ (hE g)
  have c1 : v (rep (E.compress (0 : G))) = 0 := by rw [hF0 (rc 0), map_zero]
  have e1 : v (rep (E.compress (tb • (prodP - czP)))) = tb * (v (rep pf.commProd) - v (rep pf.commCz)) := by
    rw [Free.eq hF3a (by rw [rc, map_smul, map_sub, dU hprodP, dU hczP])]
    simp
  have c2 : v (rep (E.compress (rA • pA + (rB • pB + (rC • czP + 0))))) =
      rA * v (rep pf.commAz) + rB * v (rep pf.commBz) + rC * v (rep pf.commCz) := by
    rw [Free.eq hF4a (by
      rw [rc]; simp only [map_add, map_smul, dU hpA, dU hpB, dU hczP, add_zero, add_assoc])]
    simp
  have e2 := congrArg v (Free.eq hF6a (by
      rw [rc]; simp only [map_add, map_smul, dU hpV, add_zero, zero_smul]))
  simp only [map_smul, map_add, hpc.vg, smul_eq_mul, mul_one] at e2
  -- the rounds
  obtain ⟨R2, S3, l2, hrx, H2⟩ := zk_rbr hE hrep hpc.vg hpc.vh hx4 hg.g4.1 hd4 hG4 hh4 _ _ _
    (f1 I k (zpad (extractVars x (2 ^ (j / 2)) (pf.commVars.map rep)) input) tau) _ _ _ _ [] (a2.trans a1.symm) hl1 hF1
  rw [if_neg (by intro h0; rw [h0] at a1; simp at a1; omega)] at S3
  obtain ⟨m3, S4⟩ := know_seg hE rep hkn []
  obtain ⟨m4, S5, H4⟩ := prod_rbr hE hrep hpc.vg hpc.vh hpr hF2 []
  have S5b := (((S5.point "comm_Az_claim" pf.commAz).point "comm_Bz_claim" pf.commBz).point "comm_Cz_claim"
    pf.commCz).point "comm_prod_Az_Bz_claims" pf.commProd
  obtain ⟨m5, S6, hp5, H5⟩ := eq_rbr hE hrep hpc.vh hgh heq1 hF3 ([] ++ [.point "comm_Az_claim" (rep pf.commAz)] ++
    [.point "comm_Bz_claim" (rep pf.commBz)] ++ [.point "comm_Cz_claim" (rep pf.commCz)] ++
    [.point "comm_prod_Az_Bz_claims" (rep pf.commProd)])
  have S7 := (((Seg.refl E rep tr7 ([] : List (Msg F M))).chal "challenege_Az").chal "challenege_Bz").chal "challenege_Cz"
  rw [← hrA, ← hrB, ← hrC] at S7
  obtain ⟨R7, S8, l7, hry, H7⟩ := zk_rbr hE hrep hpc.vg hpc.vh hx3 hg.g3.1 hd3 hG3 hh3 _ _ _
    (fun y => mle (zpad (extractVars x (2 ^ (j / 2)) (pf.commVars.map rep)) input) y * mle (abc I j rx' rA rB rC) y) _ _ _ _ [] (b2.trans b1.symm) hl2 hF4
  rw [if_neg (by intro h0; rw [h0] at b1; simp at b1)] at S8
  have hrxl : rx'.length = k := by
    rw [hrx]; exact zkPt_length _ _ (by simp [chs, l2, a1])
  have hryl : ry'.length = j + 1 := by
    rw [hry]; exact zkPt_length _ _ (by simp [chs, l7, b1])
  obtain ⟨r0, ry2, rfl⟩ : ∃ a b, ry' = a :: b := by
    cases ry' with
    | nil => simp at hryl
    | cons a b => exact ⟨a, b, rfl⟩
  have hry2 : ry2.length = j := by simpa using hryl
  simp only [List.drop_succ_cons, List.drop_zero, List.getD_cons_zero] at *
  subst hry2
  obtain ⟨hcl, R8, S9, l8, H8⟩ := poly_rbr hE hrep hpc hn hg.pc hGp hlen hpe hF5 []
  obtain ⟨m9, S10, -, H9⟩ := eq_rbr hE hrep hpc.vh hgh heq2 hF6 []
  refine ⟨hcl, _, S1.trans (S2.trans (S3.trans (S4.trans (S5b.trans (S6.trans (S7.trans (S8.trans
    (S9.trans S10)))))))), ?_, ?_, ?_, hrxl, hryl, fun hev hns => ?_⟩
  · simp [r1csRounds, l1, l2, l7, l8, a1, b1]
    omega
  · rw [hrx, r1csRx]
    congr 1
    simp only [chs, List.nil_append, List.map_append]
    rw [List.drop_append_of_le_length (by simp [l1]), List.drop_eq_nil_of_le (by simp [l1]), List.nil_append,
      List.take_append_of_le_length (by simp [l2, a1]), List.take_of_length_le (by simp [l2, a1])]
  · rw [hry, r1csRy]
    congr 1
    simp only [chs, List.nil_append, List.map_append, ← List.append_assoc]
    rw [List.append_assoc, List.append_assoc, List.drop_append_of_le_length (by simp [l1, l2, a1]),
      List.drop_eq_nil_of_le (by simp [l1, l2, a1]), List.nil_append,
      List.take_append_of_le_length (by simp [l7, b1]), List.take_of_length_le (by simp [l7, b1])]
  have hzO : zOf x ry2.length np cur1 =
      zpad (extractVars x (2 ^ (ry2.length / 2)) (pf.commVars.map rep)) input := by
    rw [zOf, hp1, hs1]
  have hvl : (extractVars x (2 ^ (ry2.length / 2)) (pf.commVars.map rep)).length = 2 ^ ry2.length := by
    rw [extractVars_length x (by simpa using hcl), hn, ← pow_add]; congr 1; omega
  have hilt : input.length < (extractVars x (2 ^ (ry2.length / 2)) (pf.commVars.map rep)).length := by
    rw [hvl, hi]; exact hI.inputs
  obtain ⟨vars, hvars⟩ : ∃ a, a = extractVars x (2 ^ (ry2.length / 2)) (pf.commVars.map rep) := ⟨_, rfl⟩
  rw [← hvars] at hvl hilt hzO hns H2 H7 H8
  have hzl : (zpad vars input).length = 2 ^ (ry2.length + 1) := by rw [zpad_length, hvl, pow_succ]; ring
  have hzm : mle (zpad vars input) (r0 :: ry2) = (1 - r0) * mle vars ry2 +
      r0 * mle (fit (2 ^ ry2.length) (1 :: input)) ry2 := by
    rw [zpad_split hilt, mle_append hvl (by rw [fit_length, hvl]), hvl]
  have hie' : ie = mle (fit (2 ^ ry2.length) (1 :: input)) ry2 := by
    have := sparse_inputs (input := input) (rs := ry2) (by rw [hi]; exact hI.inputs)
    rw [this] at hie
    exact (Except.ok.inj hie).symm
  have htb' : tb = mle (eqEvals tau) rx' := by
    rw [tausBound_eq (hrxl.trans htl.symm)] at htb
    exact (Except.ok.inj htb).symm
  have hev' := hI.evaluate hrxl hryl
  rw [hev] at hev'
  have hev' := Except.ok.inj hev'
  obtain ⟨z, hz⟩ : ∃ z, z = zpad vars input := ⟨_, rfl⟩
  rw [← hz] at hns hzO hzl hzm H2 H7
  unfold r1csBad
  rw [List.nil_append]
  -- tau
  by_cases hsum : mle (consErr I k z) tau = 0
  · refine Spec.Hit.left l1 ?_
    obtain ⟨y, hy, hne⟩ := consErr_ne hns
    obtain ⟨hist, ms, c, rest, hR, hm⟩ := tau_hit (f := mle (consErr I k z)) R1 [] (by simpa using l1)
      ⟨y, by simpa using hy, hne⟩ (by simpa [ht] using hsum)
    refine ⟨hist, ms, c, rest, hR, ?_⟩
    have hh : ((hist ++ [(ms, (0 : F))]).headD ([], 0)).1 = cur1 := by
      rw [← hhd hk, hR]
      cases hist <;> rfl
    simp only
    rw [hh, hzO]
    exact hm
  refine Spec.Hit.right l1 ?_
  simp only
  rw [hhd hk, hzO, ht]
  -- first sum-check
  rw [a1] at H2 l2
  rw [c1, ← consErr_mle htl] at H2
  rcases H2 (Ne.symm hsum) with hH | hH2
  · exact Spec.Hit.left l2 hH
  refine Spec.Hit.right l2 (Spec.Hit.right rfl ?_)
  rw [← hpost1] at hH2
  by_cases hprod : v (rep pf.commProd) = v (rep pf.commAz) * v (rep pf.commBz)
  swap
  · exact Spec.Hit.left rfl (Spec.Hit.one (H4 hprod))
  refine Spec.Hit.right rfl ?_
  by_cases hq1 : v (rep (E.compress (tb • (prodP - czP)))) = v (rep post1)
  swap
  · exact Spec.Hit.left rfl (Spec.Hit.one (H5 hq1))
  refine Spec.Hit.right rfl ?_
  have p6 : ptR m5 6 = rep pf.commAz := by rw [ptR, hp5]; rfl
  have p5 : ptR m5 5 = rep pf.commBz := by rw [ptR, hp5]; rfl
  have p4 : ptR m5 4 = rep pf.commCz := by rw [ptR, hp5]; rfl
  simp only [List.headD_cons]
  rw [p6, p5, p4, ← hrx]
  by_cases hlin : rA * (v (rep pf.commAz) - mle (rowsVec I.A.triples z (2 ^ k)) rx') +
      rB * (v (rep pf.commBz) - mle (rowsVec I.B.triples z (2 ^ k)) rx') +
      rC * (v (rep pf.commCz) - mle (rowsVec I.C.triples z (2 ^ k)) rx') = 0
  · refine Spec.Hit.left rfl (lin_hit ?_ hlin)
    rintro ⟨q1, q2, q3⟩
    apply hH2
    rw [← hq1, e1, hprod, f1, ← htb', sub_eq_zero.1 q1, sub_eq_zero.1 q2, sub_eq_zero.1 q3]
  refine Spec.Hit.right rfl ?_
  -- second sum-check
  rw [b1] at H7 l7
  rw [c2, abc_sum hzl hrxl] at H7
  rcases H7 (fun hh => hlin (by linear_combination hh)) with hH | hH7
  · exact Spec.Hit.left l7 hH
  refine Spec.Hit.right l7 ?_
  rw [← hpost2] at hH7
  have hd : ((zkPt (chs R7)).drop 1).length = ry2.length := by rw [← hry]; rfl
  rw [if_pos hd, ← hry]
  by_cases hq2 : v (rep (E.compress ((rA * evals.1 + rB * evals.2.1 + rC * evals.2.2) •
      ((1 - r0) • pV + (r0 • (ie • π g0 + (0 : F) • π h) + 0))))) = v (rep post2)
  swap
  · exact Spec.Hit.right l8 (Spec.Hit.one (H9 hq2))
  refine Spec.Hit.left l8 (H8 fun hh => hH7 ?_)
  rw [← hq2, e2, hh, hzm, abc_mle hryl, hev', hie']
  ring

end Spartan
