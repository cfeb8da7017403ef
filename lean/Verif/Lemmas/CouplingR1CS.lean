import Verif.Lemmas.CouplingZK
import Verif.Lemmas.R1CSComplete

/-! Coupling of two runs of `R1CSProof::prove` on two satisfying assignments. -/

set_option linter.unusedSectionVars false
namespace Spartan
open Spec
variable {F G P β : Type} [Field F] [AddCommGroup G] [Module F G]
  [DecidableEq F] [DecidableEq P] [DecidableEq G]

/-! ### Commitment to the rows -/

theorem rowComms_shift {h : G} (hh : Function.Surjective fun s : F => s • h) (Gv : List G) {n : Nat}
    {rows rows' : List (List F)} (hr : rows.length = n) (hr' : rows'.length = n) :
    ∃ δ : Fin n → F, ∀ b : Fin n → F,
      rowComms Gv h rows' (List.ofFn (b + δ)) = rowComms Gv h rows (List.ofFn b) := by
  have : ∀ i : Fin n, ∃ δ : F, δ • h = lc (rows.getD i []) Gv - lc (rows'.getD i []) Gv := fun i => hh _
  choose δ hδ using this
  refine ⟨δ, fun b => ?_⟩
  unfold rowComms
  apply List.ext_getElem
  · simp [hr, hr']
  · intro i h1 h2
    have hi : i < n := by simp at h1; omega
    have e := hδ ⟨i, hi⟩
    simp only [List.getD_eq_getElem?_getD, List.getElem?_eq_getElem (show i < rows.length by omega),
      List.getElem?_eq_getElem (show i < rows'.length by omega), Option.getD_some] at e
    simp only [List.getElem_zipWith, List.getElem_ofFn, Pi.add_apply, add_smul, e]
    abel

theorem commit_pre (E : Env F G P) {Z : List F} {ell : Nat} (hZ : Z.length = 2 ^ ell)
    {gens : DotGens G} {g0 h : G} (hg : gens.WF (ell - ell / 2) g0 h) (b : Fin (2 ^ (ell / 2)) → F)
    (t : Tape F) :
    Dense.commit E ⟨ell, Z.length, Z⟩ gens (some (Tape.pre b t)) =
      .ok ((rowComms gens.gensn.G h (rowsOf (2 ^ (ell - ell / 2)) (2 ^ (ell / 2)) Z)
          (List.ofFn b)).map E.compress, List.ofFn b, some t) := by
  rw [commit_eq E hZ hg]
  simp [commitBlinds]

/-! ### Evaluation proof -/

theorem polyEval_coupled (E : Env F G P) {Z Z' r : List F} (hZ : Z.length = 2 ^ r.length)
    (hZ' : Z'.length = 2 ^ r.length) {gens : DotGens G} {g0 h : G}
    (hg : gens.WF (r.length - r.length / 2) g0 h) (hh : Function.Bijective fun s : F => s • h)
    {bl bl' : List F} (hb : bl.length = 2 ^ (r.length / 2)) (hb' : bl'.length = 2 ^ (r.length / 2))
    (hC : rowComms gens.gensn.G h (rowsOf (2 ^ (r.length - r.length / 2)) (2 ^ (r.length / 2)) Z) bl =
      rowComms gens.gensn.G h (rowsOf (2 ^ (r.length - r.length / 2)) (2 ^ (r.length / 2)) Z') bl')
    {bz bz' : F} {Cy : G} (hCy : mle Z r • g0 + bz • h = Cy) (hCy' : mle Z' r • g0 + bz' • h = Cy)
    (tr : Tr F P) :
    ∃ σ : ((F × F × F) × (Fin (2 * (r.length - r.length / 2)) → F × F)) ≃
        ((F × F × F) × (Fin (2 * (r.length - r.length / 2)) → F × F)), ∀ d,
      (∃ pf tr', ∀ t,
        polyEvalProve E ⟨r.length, Z.length, Z⟩ (some bl) r (mle Z r) (some bz) gens tr
          ((layDL F (r.length - r.length / 2)).put d t) = .ok (pf, E.compress Cy, tr', t) ∧
        polyEvalProve E ⟨r.length, Z'.length, Z'⟩ (some bl') r (mle Z' r) (some bz') gens tr
          ((layDL F (r.length - r.length / 2)).put (σ d) t) = .ok (pf, E.compress Cy, tr', t)) ∨
      (∀ t, polyEvalProve E ⟨r.length, Z.length, Z⟩ (some bl) r (mle Z r) (some bz) gens tr
          ((layDL F (r.length - r.length / 2)).put d t) = .error .panic ∧
        polyEvalProve E ⟨r.length, Z'.length, Z'⟩ (some bl') r (mle Z' r) (some bz') gens tr
          ((layDL F (r.length - r.length / 2)).put (σ d) t) = .error .panic) := by
  obtain ⟨hL, hR, -⟩ := factoredEvals_correct r
  obtain ⟨LZ, hb1, hb2, hb3, hb4⟩ := bound_eval hZ
  obtain ⟨LZ', hb1', hb2', hb3', hb4'⟩ := bound_eval hZ'
  have key : ∀ {Z bl LZ : List F}, Z.length = 2 ^ r.length → bl.length = 2 ^ (r.length / 2) →
      LZ.length = 2 ^ (r.length - r.length / 2) →
      (∀ i < 2 ^ (r.length - r.length / 2), LZ.getD i 0 = ∑ j ∈ Finset.range (2 ^ (r.length / 2)),
        (factoredEvals r).1.getD j 0 * Z.getD (j * 2 ^ (r.length - r.length / 2) + i) 0) →
      lc LZ gens.gensn.G + dot bl (factoredEvals r).1 • h = lc (factoredEvals r).1
        (rowComms gens.gensn.G h (rowsOf (2 ^ (r.length - r.length / 2)) (2 ^ (r.length / 2)) Z) bl) := by
    intro Z bl LZ hZ hb h2 h3
    rw [← hb] at h3 ⊢
    rw [lc_rowComms (w := 2 ^ (r.length - r.length / 2)) (by rw [hL, hb])
      (by rw [hb, two_pow_split, hZ]) hg.glen h2 h3]
  obtain ⟨σ, hσ⟩ := dotlog_coupled E hg hh (tr.protocol "polynomial evaluation proof") hb2 hb2' hR hb4 hb4'
    (key hZ hb hb2 hb3) ((key hZ' hb' hb2' hb3').trans (by rw [hC])) hCy hCy'
  refine ⟨σ, fun d => ?_⟩
  have e : ∀ {Z bl LZ : List F} {bz : F} (tape : Tape F), bl.length = 2 ^ (r.length / 2) →
      (⟨r.length, Z.length, Z⟩ : Dense F).bound (factoredEvals r).1 = .ok LZ →
      polyEvalProve E ⟨r.length, Z.length, Z⟩ (some bl) r (mle Z r) (some bz) gens tr tape = (do
        let (pf, _, Czr, tr, tape) ← DotProductProofLog.prove E gens (tr.protocol "polynomial evaluation proof")
          tape LZ (dot bl (factoredEvals r).1) (factoredEvals r).2 (mle Z r) bz
        pure (pf, Czr, tr, tape)) := by
    intro Z bl LZ bz tape hb hb1
    unfold polyEvalProve
    have hbO : (some bl).getD (List.replicate (2 ^ (r.length / 2)) 0) = bl := rfl
    simp only [factoredLens, hbO]
    rw [check_true trivial, ok_bind, check_true hb, ok_bind]
    simp only [hL, hR]
    rw [check_true trivial, ok_bind, ok_bind, hb1, ok_bind]
    rfl
  rcases hσ d with ⟨pf, tr', h1⟩ | h1
  · left
    refine ⟨pf, tr', fun t => ⟨?_, ?_⟩⟩
    · rw [e _ hb hb1, (h1 t).1, ok_bind]; rfl
    · rw [e _ hb' hb1', (h1 t).2, ok_bind]; rfl
  · right
    refine fun t => ⟨?_, ?_⟩
    · rw [e _ hb hb1, (h1 t).1]; rfl
    · rw [e _ hb' hb1', (h1 t).2]; rfl

/-! ### The two sum-checks -/

theorem proveQuad_coupled (h2 : (2 : F) ≠ 0) {E : Env F G P} (hE : E.Lawful) {g0 h : G}
    {gensn : Gens G} (hg : gensn.WF) (hn : gensn.n = 3) (hh : Function.Surjective fun s : F => s • h)
    (hhn : Function.Surjective fun s : F => s • gensn.h) {n : Nat} (hn1 : 1 ≤ n) {A A' B : List F}
    (hA : A.length = 2 ^ n) (hA' : A'.length = 2 ^ n) (hB : B.length = 2 ^ n) {comb : F → F → F}
    (hc : Quad2 comb) {claim claim' bclaim bclaim' : F} {CC : G}
    (hcl : ∑ i ∈ Finset.range (2 ^ n), comb (A.getD i 0) (B.getD i 0) = claim)
    (hcl' : ∑ i ∈ Finset.range (2 ^ n), comb (A'.getD i 0) (B.getD i 0) = claim')
    (hC : claim • g0 + bclaim • h = CC) (hC' : claim' • g0 + bclaim' • h = CC) (tr : Tr F P) :
    ∃ σ : (Fin n → ZKR F 2) ≃ (Fin n → ZKR F 2), ∀ D, ∃ zk rs b b' tr', rs.length = n ∧
      comb (mle A rs) (mle B rs) • g0 + b • h = comb (mle A' rs) (mle B rs) • g0 + b' • h ∧
      ∀ t,
        proveQuad E claim bclaim n (dn n A) (dn n B) comb (Gens.single g0 h) gensn tr ((layZK F 2 n).put D t) =
          .ok (zk, rs, [mle A rs, mle B rs], b, tr', t) ∧
        proveQuad E claim' bclaim' n (dn n A') (dn n B) comb (Gens.single g0 h) gensn tr
          ((layZK F 2 n).put (σ D) t) = .ok (zk, rs, [mle A' rs, mle B rs], b', tr', t) := by
  have hi : ∀ {A : List F}, A.length = 2 ^ n → TInv n [dn n A, dn n B] := by
    intro A hA
    refine ⟨by simp, ?_⟩
    intro t ht
    simp only [List.mem_cons, List.not_mem_nil, or_false] at ht
    rcases ht with rfl | rfl
    exacts [(dense_new_live hA).1, (dense_new_live hB).1]
  have hs : ∀ {A : List F}, A.length = 2 ^ n →
      tTotal (fun l => comb (l.getD 0 0) (l.getD 1 0)) [dn n A, dn n B]
      = ∑ i ∈ Finset.range (2 ^ n), comb (A.getD i 0) (B.getD i 0) := by
    intro A hA; rw [tTotal_eq (hi hA)]; rfl
  have hm : ∀ Z : List F, (dn n Z).live = Z := fun Z => by simp [dn, Dense.live]
  have := zk_coupled_core hE (h := h) (g0 := g0) hg hn hh hhn
    (combDeg2 hc) (points := fun ts => do
      let (e0, e2, _) ← scPoints (fun l => comb (l.getD 0 0) (l.getD 1 0)) ts
      pure [e0, e2]) (pts := fun cs => [polyEval cs 0, polyEval cs 2])
    (by intro ts cs hp; simp only [hp, ok_bind]; rfl)
    (by intro cs hl; exact ⟨[polyEval cs 2], rfl, fromEvals_quad_eq h2 hl⟩) hn1 (hi hA) (hi hA') rfl rfl
    ((hs hA).trans hcl) ((hs hA').trans hcl') hC hC' tr
  simp only [List.map_cons, List.map_nil, hm, List.getD_cons_zero, List.getD_cons_succ] at this
  exact this

theorem proveCubicAdditive_coupled (h2 : (2 : F) ≠ 0) (h3 : (3 : F) ≠ 0) {E : Env F G P} (hE : E.Lawful)
    {g0 h : G} {gensn : Gens G} (hg : gensn.WF) (hn : gensn.n = 4)
    (hh : Function.Surjective fun s : F => s • h)
    (hhn : Function.Surjective fun s : F => s • gensn.h) {n : Nat} (hn1 : 1 ≤ n)
    {T A A' B B' C C' : List F} (hT : T.length = 2 ^ n)
    (hA : A.length = 2 ^ n) (hA' : A'.length = 2 ^ n) (hB : B.length = 2 ^ n) (hB' : B'.length = 2 ^ n)
    (hCl : C.length = 2 ^ n) (hCl' : C'.length = 2 ^ n) {comb : F → F → F → F → F}
    (hc : Cubic4 comb) {claim claim' bclaim bclaim' : F} {CC : G}
    (hcl : ∑ i ∈ Finset.range (2 ^ n), comb (T.getD i 0) (A.getD i 0) (B.getD i 0) (C.getD i 0) = claim)
    (hcl' : ∑ i ∈ Finset.range (2 ^ n), comb (T.getD i 0) (A'.getD i 0) (B'.getD i 0) (C'.getD i 0) = claim')
    (hC : claim • g0 + bclaim • h = CC) (hC' : claim' • g0 + bclaim' • h = CC) (tr : Tr F P) :
    ∃ σ : (Fin n → ZKR F 3) ≃ (Fin n → ZKR F 3), ∀ D, ∃ zk rs b b' tr', rs.length = n ∧
      comb (mle T rs) (mle A rs) (mle B rs) (mle C rs) • g0 + b • h =
        comb (mle T rs) (mle A' rs) (mle B' rs) (mle C' rs) • g0 + b' • h ∧
      ∀ t,
        proveCubicAdditive E claim bclaim n (dn n T) (dn n A) (dn n B) (dn n C) comb (Gens.single g0 h)
          gensn tr ((layZK F 3 n).put D t) =
          .ok (zk, rs, [mle T rs, mle A rs, mle B rs, mle C rs], b, tr', t) ∧
        proveCubicAdditive E claim' bclaim' n (dn n T) (dn n A') (dn n B') (dn n C') comb
          (Gens.single g0 h) gensn tr ((layZK F 3 n).put (σ D) t) =
          .ok (zk, rs, [mle T rs, mle A' rs, mle B' rs, mle C' rs], b', tr', t) := by
  have hi : ∀ {A B C : List F}, A.length = 2 ^ n → B.length = 2 ^ n → C.length = 2 ^ n →
      TInv n [dn n T, dn n A, dn n B, dn n C] := by
    intro A B C hA hB hC
    refine ⟨by simp, ?_⟩
    intro t ht
    simp only [List.mem_cons, List.not_mem_nil, or_false] at ht
    rcases ht with rfl | rfl | rfl | rfl
    exacts [(dense_new_live hT).1, (dense_new_live hA).1, (dense_new_live hB).1, (dense_new_live hC).1]
  have hs : ∀ {A B C : List F}, A.length = 2 ^ n → B.length = 2 ^ n → C.length = 2 ^ n →
      tTotal (fun l => comb (l.getD 0 0) (l.getD 1 0) (l.getD 2 0) (l.getD 3 0))
        [dn n T, dn n A, dn n B, dn n C]
      = ∑ i ∈ Finset.range (2 ^ n), comb (T.getD i 0) (A.getD i 0) (B.getD i 0) (C.getD i 0) := by
    intro A B C hA hB hC; rw [tTotal_eq (hi hA hB hC)]; rfl
  have hm : ∀ Z : List F, (dn n Z).live = Z := fun Z => by simp [dn, Dense.live]
  have := zk_coupled_core hE (h := h) (g0 := g0) hg hn hh hhn
    (combDeg4 hc) (points := fun ts => do
      let (e0, e2, e3) ← scPoints
        (fun l => comb (l.getD 0 0) (l.getD 1 0) (l.getD 2 0) (l.getD 3 0)) ts
      pure [e0, e2, e3]) (pts := fun cs => [polyEval cs 0, polyEval cs 2, polyEval cs 3])
    (by intro ts cs hp; simp only [hp, ok_bind]; rfl)
    (by intro cs hl; exact ⟨[polyEval cs 2, polyEval cs 3], rfl, fromEvals_cubic_eq h2 h3 hl⟩)
    hn1 (hi hA hB hCl) (hi hA' hB' hCl') rfl rfl
    ((hs hA hB hCl).trans hcl) ((hs hA' hB' hCl').trans hcl') hC hC' tr
  simp only [List.map_cons, List.map_nil, hm, List.getD_cons_zero, List.getD_cons_succ] at this
  exact this

/-! ### The whole prover -/

/-- The combined table of the second sum-check. -/
def abcTable (I : R1CS F) (rx : List F) (m : Nat) (rA rB rC : F) : List F :=
  (List.range m).map fun i => rA * (colsVec I.A.triples rx m).getD i 0
    + rB * (colsVec I.B.triples rx m).getD i 0 + rC * (colsVec I.C.triples rx m).getD i 0

/-- The run of the prover once the outcome of each sub-protocol is known. -/
theorem r1csProof_run {E : Env F G P} {I : R1CS F} {k j : Nat} (hI : I.WF k j)
    {gens : R1CSGens G} {g0 h : G} (hg : gens.WF j g0 h) {vars input : List F}
    (hv : vars.length = 2 ^ j) (hi : input.length < 2 ^ j) {tr : Tr F P}
    {b : Fin (2 ^ (j / 2)) → F} {tape1 : Tape F} {commVars : List P}
    (hcv : (rowComms gens.pc.gensn.G h (rowsOf (2 ^ (j - j / 2)) (2 ^ (j / 2)) vars)
      (List.ofFn b)).map E.compress = commVars)
    {tau : List F} {tr2 : Tr F P}
    (htau : E.challengeVec (((tr.protocol "R1CS proof").scalars "input" input).polyComm
      "poly_commitment" commVars) "challenge_tau" k = (tau, tr2))
    {sc1 : ZKSumcheck F P} {rx : List F} {tauC AzC BzC CzC b1 : F} {tr3 : Tr F P} {tape3 : Tape F}
    (hrx : rx.length = k)
    (p1 : proveCubicAdditive E 0 0 k (dn k (eqEvals tau))
      (dn k (rowsVec I.A.triples (zpad vars input) (2 ^ k)))
      (dn k (rowsVec I.B.triples (zpad vars input) (2 ^ k)))
      (dn k (rowsVec I.C.triples (zpad vars input) (2 ^ k)))
      (fun a b c d => a * (b * c - d)) (Gens.single g0 h) gens.gens4 tr2 tape1 =
      .ok (sc1, rx, [tauC, AzC, BzC, CzC], b1, tr3, tape3))
    {AzB BzB CzB prodB : F} {tape7 : Tape F}
    (hn : tape3 = Tape.cons AzB (Tape.cons BzB (Tape.cons CzB (Tape.cons prodB tape7))))
    {pok : KnowledgeProof F P} {cCz : P} {tr4 : Tr F P} {tape8 : Tape F}
    (kp : KnowledgeProof.prove E (Gens.single g0 h) tr3 tape7 CzC CzB = .ok (pok, cCz, tr4, tape8))
    {pp : ProductProof F P} {cAz cBz cProd : P} {tr5 : Tr F P} {tape9 : Tape F}
    (ppp : ProductProof.prove E (Gens.single g0 h) tr4 tape8 AzC AzB BzC BzB (AzC * BzC) prodB =
      .ok (pp, cAz, cBz, cProd, tr5, tape9))
    {eq1 : EqualityProof F P} {c1 c2 : P} {tr7 : Tr F P} {tape10 : Tape F}
    (e1p : EqualityProof.prove E (Gens.single g0 h) ((((tr5.point "comm_Az_claim" cAz).point
      "comm_Bz_claim" cBz).point "comm_Cz_claim" cCz).point "comm_prod_Az_Bz_claims" cProd) tape9
      ((AzC * BzC - CzC) * tauC) (tauC * (prodB - CzB)) ((AzC * BzC - CzC) * tauC) b1 =
      .ok (eq1, c1, c2, tr7, tape10))
    {rA rB rC : F} {tr8 tr9 tr10 : Tr F P} (cA : E.challenge tr7 "challenege_Az" = (rA, tr8))
    (cB : E.challenge tr8 "challenege_Bz" = (rB, tr9)) (cC : E.challenge tr9 "challenege_Cz" = (rC, tr10))
    {sc2 : ZKSumcheck F P} {r0 : F} {ry : List F} {zC mC b2 : F} {tr11 : Tr F P} {tape11 : Tape F}
    (hry : ry.length = j)
    (p2 : proveQuad E (rA * AzC + rB * BzC + rC * CzC) (rA * AzB + rB * BzB + rC * CzB) (j + 1)
      (dn (j + 1) (zpad vars input)) (dn (j + 1) (abcTable I rx (2 ^ (j + 1)) rA rB rC))
      (fun a b => a * b) (Gens.single g0 h) gens.gens3 tr10 tape10 =
      .ok (sc2, r0 :: ry, [zC, mC], b2, tr11, tape11))
    {be : F} {tape12 : Tape F} (hn2 : tape11 = Tape.cons be tape12)
    (K : R1CSProof F P × List F × List F × Tr F P × Tape F → Out β) :
    (R1CSProof.prove E I vars input gens tr (Tape.pre b tape1) >>= K) =
    (polyEvalProve E ⟨j, vars.length, vars⟩ (some (List.ofFn b)) ry (mle vars ry) (some be) gens.pc tr11
        tape12 >>= fun x =>
      EqualityProof.prove E (Gens.single g0 h) x.2.2.1 x.2.2.2 (zC * mC) (mC * ((1 - r0) * be)) (zC * mC) b2
        >>= fun y => K (⟨commVars, sc1, cAz, cBz, cCz, cProd, pok, pp, eq1, sc2, x.2.1, x.1, y.1⟩, rx,
          r0 :: ry, y.2.2.2.1, y.2.2.2.2)) := by
  have hzl : (zpad vars input).length = 2 ^ (j + 1) := by rw [zpad_length, hv, pow_succ]; ring
  have hlog : log2 (zpad vars input).length = .ok (j + 1) := by rw [hzl, log2_pow]
  have hlt : input.length < vars.length := by rw [hv]; exact hi
  have hel : (eqEvals tau).length = 2 ^ k := by
    rw [(eqEvals_correct tau).1, show tau = (tau, tr2).1 from rfl, ← htau, challengeVec_length]
  unfold R1CSProof.prove
  simp only
  rw [check_true hlt, ok_bind, Dense.new_eq hv, ok_bind, commit_pre E hv hg.pc, ok_bind, hcv]
  simp only [Option.getD_some]
  rw [hI.cons, log2_pow, ok_bind, zpad_eq hlt, hlog, ok_bind, htau]
  simp only
  rw [dn_new hel, ok_bind, hzl, hI.multiplyVec hzl, ok_bind]
  simp only
  rw [hg.g1, p1, ok_bind]
  simp only [List.getD_cons_zero, List.getD_cons_succ, hn, Tape.next_cons]
  rw [kp, ok_bind]
  simp only
  rw [ppp, ok_bind]
  simp only
  rw [e1p, ok_bind]
  simp only [cA, cB, cC]
  rw [hI.evalTable hrx, ok_bind]
  simp only [colsVec_length]
  rw [check_true trivial, ok_bind, ok_bind]
  have hABCl : (abcTable I rx (2 ^ (j + 1)) rA rB rC).length = 2 ^ (j + 1) := by simp [abcTable]
  rw [dn_new hzl, ok_bind, ← abcTable, dn_new hABCl, ok_bind, p2, ok_bind]
  simp only [List.getD_cons_zero, List.getD_cons_succ, hn2, Tape.next_cons]
  simp only [List.drop_succ_cons, List.drop_zero, List.length_cons]
  rw [check_true (by omega), ok_bind]
  have hev : (⟨j, vars.length, vars⟩ : Dense F).evaluate ry = .ok (mle vars ry) := by
    have := dense_evaluate_correct (Z := vars) (r := ry) (by rw [hv, hry])
    rwa [Dense.new_eq hv, ok_bind] at this
  rw [hev, ok_bind, hg.pc.g1]
  simp only [bind_assoc]
  rfl

/-- Four scalars. -/
def lay4 (F : Type) : Lay F (F × F × F × F) (1 + (1 + (1 + 1))) :=
  (Lay.one F).prod ((Lay.one F).prod ((Lay.one F).prod (Lay.one F)))

/-- The number of random scalars `R1CSProof::prove` draws for `2^k` constraints and `2^j` variables. -/
def r1csDraws (k j : Nat) : Nat :=
  2 ^ (j / 2) + (((k + k) + k * (3 + 1 + (1 + 1))) + ((1 + (1 + (1 + 1))) + ((1 + 1) +
    ((1 + (1 + (1 + (1 + 1)))) + (1 + ((((j + 1) + (j + 1)) + (j + 1) * (2 + 1 + (1 + 1))) + (1 +
    (((1 + (1 + 1)) + (2 * (j - j / 2) + 2 * (j - j / 2))) + (1 + 0)))))))))

theorem r1csProof_coupled (h2 : (2 : F) ≠ 0) (h3 : (3 : F) ≠ 0) {E : Env F G P} (hE : E.Lawful)
    {I : R1CS F} {k j : Nat} (hI : I.WF k j) (hk : 1 ≤ k) {gens : R1CSGens G} {g0 h : G}
    (hg : gens.WF j g0 h) (hh : Function.Bijective fun s : F => s • h)
    (hh3 : Function.Surjective fun s : F => s • gens.gens3.h)
    (hh4 : Function.Surjective fun s : F => s • gens.gens4.h)
    {vars vars' input : List F} (hv : vars.length = 2 ^ j) (hv' : vars'.length = 2 ^ j)
    (hi : input.length < 2 ^ j)
    (hs : Sat I.A.triples I.B.triples I.C.triples (2 ^ k) (zpad vars input))
    (hs' : Sat I.A.triples I.B.triples I.C.triples (2 ^ k) (zpad vars' input))
    (tr : Tr F P) {K : R1CSProof F P × List F × List F × Tr F P × Tape F → Out β}
    {R : Tape F → Tape F → Prop} (hK : ∀ a b c d t t', R t t' → K (a, b, c, d, t) = K (a, b, c, d, t')) :
    Coup R (r1csDraws k j) (fun t => R1CSProof.prove E I vars input gens tr t >>= K)
      (fun t => R1CSProof.prove E I vars' input gens tr t >>= K) := by
  have hzl : ∀ {vars : List F}, vars.length = 2 ^ j → (zpad vars input).length = 2 ^ (j + 1) := by
    intro vars hv; rw [zpad_length, hv, pow_succ]; ring
  -- commitment
  obtain ⟨δ, hδ⟩ := rowComms_shift hh.2 gens.pc.gensn.G
    (rowsOf_length (2 ^ (j - j / 2)) (2 ^ (j / 2)) vars)
    (rowsOf_length (2 ^ (j - j / 2)) (2 ^ (j / 2)) vars')
  refine Coup.draw (Lay.vec F _) (Equiv.addRight δ) fun b => ?_
  obtain ⟨commVars, hcv⟩ : ∃ c, (rowComms gens.pc.gensn.G h (rowsOf (2 ^ (j - j / 2)) (2 ^ (j / 2)) vars)
      (List.ofFn b)).map E.compress = c := ⟨_, rfl⟩
  have hcv' := hcv
  rw [← hδ b] at hcv'
  obtain ⟨tau, tr2, htau⟩ : ∃ a c, E.challengeVec (((tr.protocol "R1CS proof").scalars "input" input).polyComm
      "poly_commitment" commVars) "challenge_tau" k = (a, c) := ⟨_, _, rfl⟩
  have hel : (eqEvals tau).length = 2 ^ k := by
    rw [(eqEvals_correct tau).1, show tau = (tau, tr2).1 from rfl, ← htau, challengeVec_length]
  -- first sum-check
  have hsum : ∀ {vars : List F}, Sat I.A.triples I.B.triples I.C.triples (2 ^ k) (zpad vars input) →
      ∑ i ∈ Finset.range (2 ^ k), (fun a b c d : F => a * (b * c - d)) ((eqEvals tau).getD i 0)
      ((rowsVec I.A.triples (zpad vars input) (2 ^ k)).getD i 0)
      ((rowsVec I.B.triples (zpad vars input) (2 ^ k)).getD i 0)
      ((rowsVec I.C.triples (zpad vars input) (2 ^ k)).getD i 0) = 0 := by
    intro vars hs
    apply Finset.sum_eq_zero
    intro i hi
    have hi := Finset.mem_range.1 hi
    simp only
    rw [rowsVec_getD hi, rowsVec_getD hi, rowsVec_getD hi, hs i hi, sub_self, mul_zero]
  obtain ⟨σ1, hσ1⟩ := proveCubicAdditive_coupled h2 h3 hE (g0 := g0) (h := h) hg.g4.1 hg.g4.2 hh.2 hh4 hk
    hel (rowsVec_length I.A.triples (zpad vars input) _) (rowsVec_length I.A.triples (zpad vars' input) _)
    (rowsVec_length I.B.triples (zpad vars input) _) (rowsVec_length I.B.triples (zpad vars' input) _)
    (rowsVec_length I.C.triples (zpad vars input) _) (rowsVec_length I.C.triples (zpad vars' input) _)
    cubic4_r1cs (hsum hs) (hsum hs') (bclaim := 0) (bclaim' := 0) rfl rfl tr2
  refine Coup.draw (layZK F 3 k) σ1 fun D1 => ?_
  obtain ⟨sc1, rx, b1, b1', tr3, hrx, hb1, p1⟩ := hσ1 D1
  obtain ⟨tauC, hT⟩ : ∃ x, mle (eqEvals tau) rx = x := ⟨_, rfl⟩
  obtain ⟨AzC, hA⟩ : ∃ x, mle (rowsVec I.A.triples (zpad vars input) (2 ^ k)) rx = x := ⟨_, rfl⟩
  obtain ⟨BzC, hB⟩ : ∃ x, mle (rowsVec I.B.triples (zpad vars input) (2 ^ k)) rx = x := ⟨_, rfl⟩
  obtain ⟨CzC, hC⟩ : ∃ x, mle (rowsVec I.C.triples (zpad vars input) (2 ^ k)) rx = x := ⟨_, rfl⟩
  obtain ⟨AzC', hA'⟩ : ∃ x, mle (rowsVec I.A.triples (zpad vars' input) (2 ^ k)) rx = x := ⟨_, rfl⟩
  obtain ⟨BzC', hB'⟩ : ∃ x, mle (rowsVec I.B.triples (zpad vars' input) (2 ^ k)) rx = x := ⟨_, rfl⟩
  obtain ⟨CzC', hC'⟩ : ∃ x, mle (rowsVec I.C.triples (zpad vars' input) (2 ^ k)) rx = x := ⟨_, rfl⟩
  simp only [hT, hA, hB, hC, hA', hB', hC'] at p1 hb1
  -- the four claims
  obtain ⟨dA, hdA⟩ := hh.2 ((AzC - AzC') • g0)
  obtain ⟨dB, hdB⟩ := hh.2 ((BzC - BzC') • g0)
  obtain ⟨dC, hdC⟩ := hh.2 ((CzC - CzC') • g0)
  obtain ⟨dP, hdP⟩ := hh.2 ((AzC * BzC - AzC' * BzC') • g0)
  simp only at hdA hdB hdC hdP
  refine Coup.draw (lay4 F) (Equiv.addRight (dA, dB, dC, dP)) fun ⟨AzB, BzB, CzB, prodB⟩ => ?_
  have qA : AzC' • g0 + (AzB + dA) • h = AzC • g0 + AzB • h := by rw [add_smul, hdA]; module
  have qB : BzC' • g0 + (BzB + dB) • h = BzC • g0 + BzB • h := by rw [add_smul, hdB]; module
  have qC : CzC' • g0 + (CzB + dC) • h = CzC • g0 + CzB • h := by rw [add_smul, hdC]; module
  have qP : (AzC' * BzC') • g0 + (prodB + dP) • h = (AzC * BzC) • g0 + prodB • h := by
    rw [add_smul, hdP]; module
  -- sigma protocols
  obtain ⟨σ2, hσ2⟩ := knowledge_coupled E (g0 := g0) (h := h) (C := CzC • g0 + CzB • h) rfl qC tr3
  refine Coup.draw (lay2 F) σ2 fun D2 => ?_
  obtain ⟨pok, tr4, kp⟩ := hσ2 D2
  obtain ⟨σ3, hσ3⟩ := product_coupled hE (g0 := g0) (h := h) (X := AzC • g0 + AzB • h)
    (Y := BzC • g0 + BzB • h) (Z := (AzC * BzC) • g0 + prodB • h) rfl rfl rfl qA qB qP tr4
  refine Coup.draw (lay5 F) σ3 fun D3 => ?_
  obtain ⟨pp, tr5, ppp⟩ := hσ3 D3
  obtain ⟨σ4, hσ4⟩ := equality_coupled E (g0 := g0) (h := h)
    (v := (AzC * BzC - CzC) * tauC) (s1 := tauC * (prodB - CzB)) (s2 := b1)
    (v' := (AzC' * BzC' - CzC') * tauC) (s1' := tauC * ((prodB + dP) - (CzB + dC))) (s2' := b1')
    rfl rfl (by
      have e : ∀ a p c q : F, ((a - c) * tauC) • g0 + (tauC * (p - q)) • h =
          tauC • ((a • g0 + p • h) - (c • g0 + q • h)) := by intros; module
      rw [e, e, qP, qC]) (by
      rw [mul_comm (AzC' * BzC' - CzC'), mul_comm (AzC * BzC - CzC)]; exact hb1.symm)
    ((((tr5.point "comm_Az_claim" (E.compress (AzC • g0 + AzB • h))).point
      "comm_Bz_claim" (E.compress (BzC • g0 + BzB • h))).point "comm_Cz_claim"
      (E.compress (CzC • g0 + CzB • h))).point "comm_prod_Az_Bz_claims"
      (E.compress ((AzC * BzC) • g0 + prodB • h)))
  refine Coup.draw (Lay.one F) σ4 fun D4 => ?_
  obtain ⟨eq1, tr7, e1p⟩ := hσ4 D4
  obtain ⟨rA, tr8, cA⟩ : ∃ a b, E.challenge tr7 "challenege_Az" = (a, b) := ⟨_, _, rfl⟩
  obtain ⟨rB, tr9, cB⟩ : ∃ a b, E.challenge tr8 "challenege_Bz" = (a, b) := ⟨_, _, rfl⟩
  obtain ⟨rC, tr10, cC⟩ : ∃ a b, E.challenge tr9 "challenege_Cz" = (a, b) := ⟨_, _, rfl⟩
  -- second sum-check
  have hABCl : (abcTable I rx (2 ^ (j + 1)) rA rB rC).length = 2 ^ (j + 1) := by simp [abcTable]
  have hclaim : ∀ {vars : List F} (hv : vars.length = 2 ^ j),
      ∑ i ∈ Finset.range (2 ^ (j + 1)), (fun a b : F => a * b) ((zpad vars input).getD i 0)
        ((abcTable I rx (2 ^ (j + 1)) rA rB rC).getD i 0) =
      rA * mle (rowsVec I.A.triples (zpad vars input) (2 ^ k)) rx +
      rB * mle (rowsVec I.B.triples (zpad vars input) (2 ^ k)) rx +
      rC * mle (rowsVec I.C.triples (zpad vars input) (2 ^ k)) rx := by
    intro vars hv
    have hr := fun M => rows_mle (F := F) M (zpad vars input) rx
    rw [hrx, hzl hv] at hr
    rw [hr, hr, hr]
    simp only [Finset.mul_sum, ← Finset.sum_add_distrib]
    apply Finset.sum_congr rfl
    intro i hi
    rw [abcTable, map_range_getD (Finset.mem_range.1 hi)]; ring
  have hcl := hclaim hv
  have hcl' := hclaim hv'
  rw [hA, hB, hC] at hcl
  rw [hA', hB', hC'] at hcl'
  obtain ⟨σ5, hσ5⟩ := proveQuad_coupled h2 hE (g0 := g0) (h := h) hg.g3.1 hg.g3.2 hh.2 hh3
    (Nat.succ_pos j) (hzl hv) (hzl hv') hABCl quad2_product hcl hcl'
    (bclaim := rA * AzB + rB * BzB + rC * CzB)
    (bclaim' := rA * (AzB + dA) + rB * (BzB + dB) + rC * (CzB + dC)) rfl (by
      have e : ∀ a b c x y z : F, (rA * a + rB * b + rC * c) • g0 + (rA * x + rB * y + rC * z) • h =
          rA • (a • g0 + x • h) + rB • (b • g0 + y • h) + rC • (c • g0 + z • h) := by intros; module
      rw [e, e, qA, qB, qC]) tr10
  refine Coup.draw (layZK F 2 (j + 1)) σ5 fun D5 => ?_
  obtain ⟨sc2, ry0, b2, b2', tr11, hry0, hb2, p2⟩ := hσ5 D5
  obtain ⟨r0, ry, rfl⟩ : ∃ a b, ry0 = a :: b := by
    cases ry0 with
    | nil => simp at hry0
    | cons a b => exact ⟨a, b, rfl⟩
  have hry : ry.length = j := by simpa using hry0
  obtain ⟨mC, hmC⟩ : ∃ x, mle (abcTable I rx (2 ^ (j + 1)) rA rB rC) (r0 :: ry) = x := ⟨_, rfl⟩
  obtain ⟨zC, hzC⟩ : ∃ x, mle (zpad vars input) (r0 :: ry) = x := ⟨_, rfl⟩
  obtain ⟨zC', hzC'⟩ : ∃ x, mle (zpad vars' input) (r0 :: ry) = x := ⟨_, rfl⟩
  simp only [hmC, hzC, hzC'] at p2 hb2
  -- evaluation
  obtain ⟨dE, hdE⟩ := hh.2 ((mle vars ry - mle vars' ry) • g0)
  simp only at hdE
  refine Coup.draw (Lay.one F) (Equiv.addRight dE) fun be => ?_
  have qE : mle vars' ry • g0 + (be + dE) • h = mle vars ry • g0 + be • h := by
    rw [add_smul, hdE]; module
  have hpe := polyEval_coupled E (Z := vars) (Z' := vars') (r := ry) (by rw [hv, hry])
    (by rw [hv', hry]) (gens := gens.pc) (g0 := g0) (h := h) (by rw [hry]; exact hg.pc) hh
    (bl := List.ofFn b) (bl' := List.ofFn (b + δ)) (by rw [hry]; simp) (by rw [hry]; simp)
    (by rw [hry]; exact (hδ b).symm) (bz := be) (bz' := be + dE) rfl qE tr11
  rw [hry] at hpe
  obtain ⟨σ6, hσ6⟩ := hpe
  refine Coup.draw (layDL F (j - j / 2)) σ6 fun D6 => ?_
  have hzm : ∀ {vars : List F}, vars.length = 2 ^ j → mle (zpad vars input) (r0 :: ry) =
      (1 - r0) * mle vars ry + r0 * mle (fit (2 ^ j) (1 :: input)) ry := by
    intro vars hv
    rw [zpad_split (by rw [hv]; exact hi), mle_append (by rw [hv, hry]) (by rw [fit_length, hv, hry]), hv]
  rcases hσ6 D6 with ⟨pe, tr12, pe6⟩ | pan
  swap
  · refine Coup.const' fun t t' => ?_
    exact (r1csProof_run hI hg hv hi hcv htau hrx (p1 _).1 rfl (kp _).1 (ppp _).1 (e1p _).1 cA cB cC hry
      (p2 _).1 rfl K).trans ((by simp only [Equiv.coe_addRight]; rw [(pan _).1, (pan _).2]; rfl : _ = _).trans
      (r1csProof_run hI hg hv' hi hcv' htau hrx (p1 _).2 rfl (kp _).2 (ppp _).2 (e1p _).2 cA cB cC hry
      (p2 _).2 rfl K).symm)
  obtain ⟨σ7, hσ7⟩ := equality_coupled E (g0 := g0) (h := h)
    (v := zC * mC) (s1 := mC * ((1 - r0) * be)) (s2 := b2)
    (v' := zC' * mC) (s1' := mC * ((1 - r0) * (be + dE))) (s2' := b2') rfl rfl (by
      have e : ∀ x y : F, (((1 - r0) * x + r0 * mle (fit (2 ^ j) (1 :: input)) ry) * mC) • g0 +
          (mC * ((1 - r0) * y)) • h = (mC * (1 - r0)) • (x • g0 + y • h) +
            (mC * r0 * mle (fit (2 ^ j) (1 :: input)) ry) • g0 := by intros; module
      rw [← hzC, ← hzC', hzm hv, hzm hv', e, e, qE]) hb2.symm tr12
  refine Coup.draw (Lay.one F) σ7 fun D7 => ?_
  obtain ⟨eq2, tr13, e2p⟩ := hσ7 D7
  refine Coup.const fun t t' hR => ?_
  refine (r1csProof_run hI hg hv hi hcv htau hrx (p1 _).1 rfl (kp _).1 (ppp _).1 (e1p _).1 cA cB cC hry
      (p2 _).1 rfl K).trans (Eq.trans ?_
      (r1csProof_run hI hg hv' hi hcv' htau hrx (p1 _).2 rfl (kp _).2 (ppp _).2 (e1p _).2 cA cB cC hry
      (p2 _).2 rfl K).symm)
  simp only [Equiv.coe_addRight]
  rw [(pe6 _).1, (pe6 _).2, ok_bind, ok_bind]
  simp only
  rw [(e2p _).1, (e2p _).2, ok_bind, ok_bind]
  exact hK _ _ _ _ _ _ hR

end Spartan
