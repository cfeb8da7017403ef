import Verif.Lemmas.Local

/-!
The same for the verifiers: an accepting run depends on the oracle only through the challenges that
occur in its transcript.
-/

set_option linter.unusedSectionVars false

namespace Spartan
variable {F G P : Type} [Field F] [AddCommGroup G] [Module F G]
  [DecidableEq F] [DecidableEq P] [DecidableEq G]
variable {E : Env F G P} {h' : Tr F P → F} {T : Tr F P}

theorem withHash_unpack (E : Env F G P) (h : Tr F P → F) : (E.withHash h).unpack = E.unpack := rfl
theorem withHash_checkEquality (E : Env F G P) (h : Tr F P → F) :
    ProductProof.checkEquality (E.withHash h) = ProductProof.checkEquality E := rfl

theorem Sim.ite {α : Type} {tr : Tr F P} {out : α → Tr F P} {c : Prop} [Decidable c] {x x' y y' : Out α}
    (h1 : Sim T tr out x x') (h2 : Sim T tr out y y') :
    Sim T tr out (if c then x else y) (if c then x' else y') := by
  split_ifs <;> assumption

theorem knowledgeV_local (hag : Agree T E.hash h') (pf : KnowledgeProof F P) (g : Gens G) (tr : Tr F P) (C : P) :
    Sim T tr id (pf.verify E g tr C) (pf.verify (E.withHash h') g tr C) := by
  unfold KnowledgeProof.verify
  simp only [withHash_compress, withHash_unpack]
  sim_chal
  refine Sim.any fun _ => Sim.any fun _ => Sim.any fun _ => Sim.ite (Sim.pure List.prefix_rfl) Sim.err

theorem equalityV_local (hag : Agree T E.hash h') (pf : EqualityProof F P) (g : Gens G) (tr : Tr F P) (C1 C2 : P) :
    Sim T tr id (pf.verify E g tr C1 C2) (pf.verify (E.withHash h') g tr C1 C2) := by
  unfold EqualityProof.verify
  simp only [withHash_compress, withHash_unpack]
  sim_chal
  refine Sim.any fun _ => Sim.any fun _ => Sim.any fun _ => Sim.ite (Sim.pure List.prefix_rfl) Sim.err

theorem productV_local (hag : Agree T E.hash h') (pf : ProductProof F P) (g : Gens G) (tr : Tr F P) (X Y Z : P) :
    Sim T tr id (pf.verify E g tr X Y Z) (pf.verify (E.withHash h') g tr X Y Z) := by
  unfold ProductProof.verify
  simp only [withHash_unpack, withHash_checkEquality]
  sim_chal
  exact Sim.any fun _ => Sim.ite Sim.err (Sim.any fun _ => Sim.ite Sim.err (Sim.any fun _ => Sim.any fun _ =>
    Sim.ite Sim.err (Sim.pure List.prefix_rfl)))

theorem dotProofV_local (hag : Agree T E.hash h') (pf : DotProductProof F P) (gens1 gensn : Gens G) (tr : Tr F P)
    (a : List F) (Cx Cy : P) :
    Sim T tr id (pf.verify E gens1 gensn tr a Cx Cy) (pf.verify (E.withHash h') gens1 gensn tr a Cx Cy) := by
  unfold DotProductProof.verify
  simp only [withHash_unpack]
  refine Sim.any fun _ => Sim.any fun _ => ?_
  sim_chal
  exact Sim.any fun _ => Sim.any fun _ => Sim.any fun _ => Sim.any fun _ => Sim.any fun _ => Sim.any fun _ =>
    Sim.any fun _ => Sim.ite (Sim.pure List.prefix_rfl) Sim.err

theorem bulletChal_sim {α : Type} {out : α → Tr F P} (hag : Agree T E.hash h') :
    ∀ (Ls Rs : List P) {tr tr1 : Tr F P} {k k' : List F × Tr F P → Out α} (_ : tr <+: tr1)
    (_ : ∀ us tr2, tr1 <+: tr2 → Sim T tr2 out (k (us, tr2)) (k' (us, tr2))),
    ∀ p', bulletChallenges (E.withHash h') Ls Rs tr1 = p' → ∀ p, bulletChallenges E Ls Rs tr1 = p →
      Sim T tr out (k p) (k' p')
  | L :: Ls, R :: Rs, tr, tr1, k, k', hp, hk => by
    rintro p' rfl p rfl
    refine Sim.weaken (tr1 := tr1) ?_ hp
    simp only [bulletChallenges]
    generalize hp' : Env.challenge (Env.withHash _ _) _ _ = p'
    generalize hp : Env.challenge _ _ _ = p
    revert p p'
    refine Sim.chal hag (by sim_pre) fun c => ?_
    simp only
    generalize hq' : bulletChallenges (E.withHash h') Ls Rs _ = q'
    generalize hq : bulletChallenges E Ls Rs _ = q
    revert q' q
    refine bulletChal_sim hag Ls Rs (k := fun q => k (c :: q.1, q.2)) (k' := fun q => k' (c :: q.1, q.2))
      List.prefix_rfl fun us tr2 h2 => hk _ _ (List.IsPrefix.trans (by sim_pre) h2)
  | [], _, tr, tr1, k, k', hp, hk => by
    rintro p' rfl p rfl
    simp only [bulletChallenges]
    exact (hk [] tr1 List.prefix_rfl).weaken hp
  | _ :: _, [], tr, tr1, k, k', hp, hk => by
    rintro p' rfl p rfl
    simp only [bulletChallenges]
    exact (hk [] tr1 List.prefix_rfl).weaken hp

theorem bulletScalars_local (hag : Agree T E.hash h') (pf : BulletProof P) (n : Nat) (tr : Tr F P) :
    Sim T tr (fun o => o.2.2.2) (pf.scalars E n tr) (pf.scalars (E.withHash h') n tr) := by
  unfold BulletProof.scalars
  simp only
  refine Sim.ite Sim.err (Sim.ite Sim.err ?_)
  generalize hq' : bulletChallenges (E.withHash h') _ _ _ = q'
  generalize hq : bulletChallenges E _ _ _ = q
  revert q' q
  refine bulletChal_sim hag _ _ List.prefix_rfl fun us tr2 h2 => ?_
  simp only
  refine Sim.any ?_
  rintro ⟨_, _⟩
  exact Sim.any fun _ => Sim.any fun _ => Sim.pure List.prefix_rfl

theorem bulletV_local (hag : Agree T E.hash h') (pf : BulletProof P) (n : Nat) (a : List F) (tr : Tr F P)
    (Gamma : G) (Gv : List G) :
    Sim T tr (fun o => o.2.2.2) (pf.verify E n a tr Gamma Gv) (pf.verify (E.withHash h') n a tr Gamma Gv) := by
  unfold BulletProof.verify
  refine Sim.bind (bulletScalars_local hag _ _ _) List.prefix_rfl ?_
  rintro ⟨_, _, _, _⟩
  simp only [withHash_decompressU]
  exact Sim.any fun _ => Sim.any fun _ => Sim.any fun _ => Sim.any fun _ => Sim.any fun _ => Sim.pure List.prefix_rfl

theorem dotLogV_local (hag : Agree T E.hash h') (pf : DotProductProofLog F P) (n : Nat) (gens : DotGens G)
    (tr : Tr F P) (a : List F) (Cx Cy : P) :
    Sim T tr id (pf.verify E n gens tr a Cx Cy) (pf.verify (E.withHash h') n gens tr a Cx Cy) := by
  unfold DotProductProofLog.verify
  refine Sim.any fun _ => Sim.any fun _ => ?_
  dsimp only
  sim_chal
  refine Sim.any fun _ => Sim.any fun _ => Sim.any fun _ => ?_
  refine Sim.bind (bulletV_local hag _ _ _ _ _ _) List.prefix_rfl ?_
  rintro ⟨_, _, _, _⟩
  simp only
  sim_chal
  refine Sim.any fun _ => Sim.any fun _ => ?_
  split
  · exact Sim.err
  · exact Sim.any fun _ => Sim.ite (Sim.pure List.prefix_rfl) Sim.err

theorem polyEvalV_local (hag : Agree T E.hash h') (pf : DotProductProofLog F P) (gens : DotGens G)
    (tr : Tr F P) (r : List F) (Czr : P) (comm : List P) :
    Sim T tr id (polyEvalVerify E pf gens tr r Czr comm) (polyEvalVerify (E.withHash h') pf gens tr r Czr comm) := by
  unfold polyEvalVerify
  simp only [withHash_compress, withHash_decompressU]
  refine Sim.any fun _ => Sim.any fun _ => ?_
  exact (dotLogV_local hag _ _ _ _ _ _ _).weaken (by sim_pre)

theorem polyEvalVP_local (hag : Agree T E.hash h') (pf : DotProductProofLog F P) (gens : DotGens G)
    (tr : Tr F P) (r : List F) (Zr : F) (comm : List P) :
    Sim T tr id (polyEvalVerifyPlain E pf gens tr r Zr comm)
      (polyEvalVerifyPlain (E.withHash h') pf gens tr r Zr comm) := by
  unfold polyEvalVerifyPlain
  simp only [withHash_compress]
  exact Sim.any fun _ => polyEvalV_local hag _ _ _ _ _ _

theorem zkVLoop_local (hag : Agree T E.hash h') (deg : Nat) (gens1 gensn : Gens G) :
    ∀ (cps ces : List P) (pfs : List (DotProductProof F P)) (claim : P) (tr : Tr F P),
    Sim T tr (fun o => o.2) (zkVerifyLoop E deg gens1 gensn cps ces pfs claim tr)
      (zkVerifyLoop (E.withHash h') deg gens1 gensn cps ces pfs claim tr)
  | [], ces, pfs, claim, tr => by
    unfold zkVerifyLoop
    exact Sim.ok List.prefix_rfl
  | cp :: cps, ces, pfs, claim, tr => by
    unfold zkVerifyLoop
    simp only [withHash_compress, withHash_decompressU]
    sim_chal
    refine Sim.any fun _ => ?_
    sim_chalVec
    refine Sim.any fun _ => Sim.any fun _ => Sim.any fun _ => ?_
    refine Sim.bind (dotProofV_local hag _ _ _ _ _ _ _) List.prefix_rfl fun tr3 => ?_
    refine Sim.bind (zkVLoop_local hag deg gens1 gensn cps _ _ _ _) List.prefix_rfl ?_
    rintro ⟨_, _⟩
    exact Sim.pure List.prefix_rfl

theorem zkV_local (hag : Agree T E.hash h') (pf : ZKSumcheck F P) (claim : P) (numRounds deg : Nat)
    (gens1 gensn : Gens G) (tr : Tr F P) :
    Sim T tr (fun o => o.2.2) (zkVerify E pf claim numRounds deg gens1 gensn tr)
      (zkVerify (E.withHash h') pf claim numRounds deg gens1 gensn tr) := by
  unfold zkVerify
  refine Sim.any fun _ => Sim.any fun _ => Sim.any fun _ => ?_
  refine Sim.bind (zkVLoop_local hag _ _ _ _ _ _ _ _) List.prefix_rfl ?_
  rintro ⟨_, _⟩
  exact Sim.any fun _ => Sim.any fun _ => Sim.pure List.prefix_rfl

theorem r1csV_local (hag : Agree T E.hash h') (pf : R1CSProof F P) (numVars numCons : Nat) (input : List F)
    (evals : F × F × F) (gens : R1CSGens G) (tr : Tr F P) :
    Sim T tr (fun o => o.2.2) (pf.verify E numVars numCons input evals gens tr)
      (pf.verify (E.withHash h') numVars numCons input evals gens tr) := by
  unfold R1CSProof.verify
  simp only [withHash_compress, withHash_decompressU]
  refine Sim.any fun _ => Sim.any fun _ => ?_
  sim_chalVec
  refine Sim.any fun _ => ?_
  refine Sim.bind (zkV_local hag _ _ _ _ _ _ _) List.prefix_rfl ?_
  rintro ⟨_, _, _⟩
  simp only
  refine Sim.bind (knowledgeV_local hag _ _ _ _) List.prefix_rfl fun _ => ?_
  refine Sim.bind (productV_local hag _ _ _ _ _ _) List.prefix_rfl fun _ => ?_
  refine Sim.any fun _ => Sim.any fun _ => Sim.any fun _ => ?_
  refine Sim.bind (equalityV_local hag _ _ _ _ _) (by simp only [id_eq]; sim_pre) fun _ => ?_
  simp only [id_eq]
  sim_chal
  sim_chal
  sim_chal
  refine Sim.any fun _ => Sim.any fun _ => Sim.any fun _ => Sim.any fun _ => ?_
  refine Sim.bind (zkV_local hag _ _ _ _ _ _ _) List.prefix_rfl ?_
  rintro ⟨_, _, _⟩
  simp only
  refine Sim.any fun _ => ?_
  refine Sim.bind (polyEvalV_local hag _ _ _ _ _ _) List.prefix_rfl fun _ => ?_
  refine Sim.any fun _ => Sim.any fun _ => Sim.any fun _ => Sim.any fun _ => Sim.any fun _ => ?_
  refine Sim.bind (equalityV_local hag _ _ _ _ _) List.prefix_rfl fun _ => ?_
  exact Sim.pure List.prefix_rfl

theorem nizkV_local (hag : Agree T E.hash h') (pf : NIZK F P) (I : Inst F) (input : List F) (gens : R1CSGens G)
    (tr : Tr F P) :
    Sim T tr id (pf.verify E I input gens tr) (pf.verify (E.withHash h') I input gens tr) := by
  unfold NIZK.verify
  simp only
  refine Sim.any fun _ => Sim.any fun _ => ?_
  refine Sim.bind (r1csV_local hag _ _ _ _ _ _ _) (by sim_pre) ?_
  rintro ⟨_, _, _⟩
  exact Sim.any fun _ => Sim.any fun _ => Sim.pure List.prefix_rfl

/-! ### The SNARK -/

theorem scVLoop_local (hag : Agree T E.hash h') (deg : Nat) :
    ∀ (cps : List (CompressedUniPoly F)) (e : F) (tr : Tr F P),
    Sim T tr (fun o => o.2.2) (scVerifyLoop E deg cps e tr) (scVerifyLoop (E.withHash h') deg cps e tr)
  | [], e, tr => by
    unfold scVerifyLoop
    exact Sim.ok List.prefix_rfl
  | cp :: cps, e, tr => by
    unfold scVerifyLoop
    refine Sim.bind (tr1 := tr) (out1 := fun o => o.2.2) ?_ List.prefix_rfl ?_
    · unfold scVerifyRound
      simp only
      refine Sim.any fun _ => Sim.any fun _ => Sim.any fun _ => Sim.any fun _ => Sim.any fun _ => ?_
      sim_chal
      exact Sim.any fun _ => Sim.pure List.prefix_rfl
    · rintro ⟨_, _, _⟩
      simp only
      refine Sim.bind (scVLoop_local hag deg cps _ _) List.prefix_rfl ?_
      rintro ⟨_, _, _⟩
      exact Sim.pure List.prefix_rfl

theorem scV_local (hag : Agree T E.hash h') (cps : List (CompressedUniPoly F)) (claim : F) (n deg : Nat)
    (tr : Tr F P) :
    Sim T tr (fun o => o.2.2) (scVerify E cps claim n deg tr) (scVerify (E.withHash h') cps claim n deg tr) := by
  unfold scVerify
  exact Sim.any fun _ => scVLoop_local hag _ _ _ _

theorem prodBVLoop_local (hag : Agree T E.hash h') (m : Nat) (cd : List F) (pf : ProdProofBatched F) :
    ∀ (lps : List (LayerProofBatched F)) (k : Nat) (claims dclaims rand : List F) (tr : Tr F P),
    Sim T tr (fun o => o.2.2.2) (prodBVerifyLoop E m cd pf lps k claims dclaims rand tr)
      (prodBVerifyLoop (E.withHash h') m cd pf lps k claims dclaims rand tr)
  | [], k, claims, dclaims, rand, tr => by
    unfold prodBVerifyLoop
    exact Sim.ok List.prefix_rfl
  | lp :: lps, k, claims, dclaims, rand, tr => by
    unfold prodBVerifyLoop
    simp only
    sim_chalVec
    refine Sim.bind (scV_local hag _ _ _ _ _) List.prefix_rfl ?_
    rintro ⟨_, _, tr1⟩
    simp only
    refine Sim.any fun _ => Sim.any fun _ => Sim.any fun _ => Sim.any fun _ => ?_
    have step : ∀ tr2, tr1 <+: tr2 → ∀ (rp : List F), Sim T tr1 (fun o => o.2.2.2)
        (if lps.isEmpty = true then do
            check (2 * (cd.length / 2) ≤ pf.dotpL.length ∧ 2 * (cd.length / 2) ≤ pf.dotpR.length ∧
              2 * (cd.length / 2) ≤ pf.dotpW.length)
            prodBVerifyLoop E m cd pf lps (k + 1)
              (nextClaims (E.challenge tr2 "challenge_r_layer").1 lp.left lp.right)
              (dotpNext (E.challenge tr2 "challenge_r_layer").1 (cd.length / 2) pf.dotpL pf.dotpR pf.dotpW)
              ((E.challenge tr2 "challenge_r_layer").1 :: rp) (E.challenge tr2 "challenge_r_layer").2
          else prodBVerifyLoop E m cd pf lps (k + 1)
              (nextClaims (E.challenge tr2 "challenge_r_layer").1 lp.left lp.right) dclaims
              ((E.challenge tr2 "challenge_r_layer").1 :: rp) (E.challenge tr2 "challenge_r_layer").2)
        (if lps.isEmpty = true then do
            check (2 * (cd.length / 2) ≤ pf.dotpL.length ∧ 2 * (cd.length / 2) ≤ pf.dotpR.length ∧
              2 * (cd.length / 2) ≤ pf.dotpW.length)
            prodBVerifyLoop (E.withHash h') m cd pf lps (k + 1)
              (nextClaims ((E.withHash h').challenge tr2 "challenge_r_layer").1 lp.left lp.right)
              (dotpNext ((E.withHash h').challenge tr2 "challenge_r_layer").1 (cd.length / 2) pf.dotpL pf.dotpR pf.dotpW)
              (((E.withHash h').challenge tr2 "challenge_r_layer").1 :: rp)
              ((E.withHash h').challenge tr2 "challenge_r_layer").2
          else prodBVerifyLoop (E.withHash h') m cd pf lps (k + 1)
              (nextClaims ((E.withHash h').challenge tr2 "challenge_r_layer").1 lp.left lp.right) dclaims
              (((E.withHash h').challenge tr2 "challenge_r_layer").1 :: rp)
              ((E.withHash h').challenge tr2 "challenge_r_layer").2) := by
      intro tr2 h2 rp
      generalize hp' : Env.challenge (Env.withHash _ _) _ _ = p'
      generalize hp : Env.challenge _ _ _ = p
      revert p p'
      refine Sim.chal hag h2 fun c => ?_
      exact Sim.ite (Sim.any fun _ => prodBVLoop_local hag m cd pf lps _ _ _ _ _)
        (prodBVLoop_local hag m cd pf lps _ _ _ _ _)
    refine Sim.ite (Sim.any fun _ => ?_) ?_
    · simp only [pure_bind]
      exact Sim.any fun _ => step _ ((appendPairs_prefix _ _ _).trans (appendTriples_prefix _ _ _ _)) _
    · simp only [pure_bind]
      exact Sim.any fun _ => step _ (appendPairs_prefix _ _ _) _

theorem prodBV_local (hag : Agree T E.hash h') (pf : ProdProofBatched F) (cp cd : List F) (len : Nat)
    (tr : Tr F P) :
    Sim T tr (fun o => o.2.2.2) (prodBVerify E pf cp cd len tr) (prodBVerify (E.withHash h') pf cp cd len tr) := by
  unfold prodBVerify
  exact Sim.any fun _ => Sim.any fun _ => prodBVLoop_local hag _ _ _ _ _ _ _ _ _

theorem dotpCheckLoop_grows : ∀ (es ls rs : List F) (tr : Tr F P),
    Sim T tr (fun o => o.2) (dotpCheckLoop es ls rs tr) (dotpCheckLoop es ls rs tr)
  | [], _, _, tr => by
    unfold dotpCheckLoop
    exact Sim.ok List.prefix_rfl
  | e :: es, l :: ls, r :: rs, tr => by
    unfold dotpCheckLoop
    simp only
    refine Sim.any fun _ => ?_
    refine Sim.bind (dotpCheckLoop_grows es ls rs _) (by sim_pre) ?_
    rintro ⟨_, _⟩
    exact Sim.pure List.prefix_rfl
  | _ :: _, [], _, tr => by
    unfold dotpCheckLoop
    exact Sim.err
  | _ :: _, _ :: _, [], tr => by
    unfold dotpCheckLoop
    exact Sim.err

theorem prodLayerV_local (hag : Agree T E.hash h') (pf : ProdLayerProof F) (numOps numCells : Nat)
    (eval : List F) (tr : Tr F P) :
    Sim T tr (fun o => o.2.2.2.2.2) (prodLayerVerify E pf numOps numCells eval tr)
      (prodLayerVerify (E.withHash h') pf numOps numCells eval tr) := by
  unfold prodLayerVerify
  simp only
  refine Sim.any fun _ => Sim.any fun _ => Sim.any fun _ => ?_
  refine Sim.bind (dotpCheckLoop_grows _ _ _ _) (by sim_pre) ?_
  rintro ⟨_, _⟩
  simp only
  refine Sim.bind (prodBV_local hag _ _ _ _ _) List.prefix_rfl ?_
  rintro ⟨_, _, _, _⟩
  simp only
  refine Sim.bind (prodBV_local hag _ _ _ _ _) List.prefix_rfl ?_
  rintro ⟨_, _, _, _⟩
  exact Sim.pure List.prefix_rfl

theorem derefsV_local (hag : Agree T E.hash h') (pf : DotProductProofLog F P) (r er ec : List F)
    (gens : DotGens G) (comm : List P) (tr : Tr F P) :
    Sim T tr id (derefsVerify E pf r er ec gens comm tr) (derefsVerify (E.withHash h') pf r er ec gens comm tr) := by
  unfold derefsVerify
  simp only
  refine Sim.bind (combine_local hag _ _ _) (by sim_pre) ?_
  rintro ⟨_, _, _⟩
  exact (polyEvalVP_local hag _ _ _ _ _ _).weaken (by sim_pre)

theorem hashLayerV_local (hag : Agree T E.hash h') (pf : HashLayerProof F P) (randMem randOps : List F)
    (clRow clCol : MemClaims F) (clDotp : List F) (comm : SparseComm P) (gens : SparseGens G)
    (cDerefs : List P) (rx ry : List F) (rh g : F) (tr : Tr F P) :
    Sim T tr id (hashLayerVerify E pf randMem randOps clRow clCol clDotp comm gens cDerefs rx ry rh g tr)
      (hashLayerVerify (E.withHash h') pf randMem randOps clRow clCol clDotp comm gens cDerefs rx ry rh g tr) := by
  unfold hashLayerVerify
  simp only
  refine Sim.any fun _ => ?_
  refine Sim.bind (derefsV_local hag _ _ _ _ _ _ _) (by sim_pre) fun tr1 => ?_
  simp only [id_eq]
  refine Sim.any fun _ => ?_
  refine Sim.bind (combine_local hag _ _ _) (by sim_pre) ?_
  rintro ⟨_, _, _⟩
  simp only
  refine Sim.bind (polyEvalVP_local hag _ _ _ _ _ _) (by sim_pre) fun tr2 => ?_
  simp only [id_eq]
  refine Sim.bind (combine_local hag _ _ _) (by sim_pre) ?_
  rintro ⟨_, _, _⟩
  simp only
  refine Sim.bind (polyEvalVP_local hag _ _ _ _ _ _) (by sim_pre) fun tr2 => ?_
  exact Sim.any fun _ => Sim.any fun _ => Sim.pure List.prefix_rfl

theorem netV_local (hag : Agree T E.hash h') (pf : NetProof F P) (comm : SparseComm P) (cDerefs : List P)
    (evals : List F) (gens : SparseGens G) (rx ry : List F) (rh g : F) (nz : Nat) (tr : Tr F P) :
    Sim T tr id (netVerify E pf comm cDerefs evals gens rx ry rh g nz tr)
      (netVerify (E.withHash h') pf comm cDerefs evals gens rx ry rh g nz tr) := by
  unfold netVerify
  simp only
  refine Sim.any fun _ => ?_
  refine Sim.bind (prodLayerV_local hag _ _ _ _ _) (by sim_pre) ?_
  rintro ⟨_, _, _, _, _, _⟩
  simp only
  exact Sim.any fun _ => Sim.any fun _ => Sim.any fun _ => hashLayerV_local hag _ _ _ _ _ _ _ _ _ _ _ _ _ _

theorem sparseV_local (hag : Agree T E.hash h') (pf : SparseEvalProof F P) (comm : SparseComm P)
    (rx ry evals : List F) (gens : SparseGens G) (tr : Tr F P) :
    Sim T tr id (sparseVerify E pf comm rx ry evals gens tr)
      (sparseVerify (E.withHash h') pf comm rx ry evals gens tr) := by
  unfold sparseVerify
  simp only
  refine Sim.any fun _ => ?_
  sim_chalVec
  exact netV_local hag _ _ _ _ _ _ _ _ _ _ _

theorem snarkV_local (hag : Agree T E.hash h') (pf : SNARK F P) (comm : R1CSComm P) (input : List F)
    (gens : SNARKGens G) (tr : Tr F P) :
    Sim T tr id (pf.verify E comm input gens tr) (pf.verify (E.withHash h') comm input gens tr) := by
  unfold SNARK.verify
  simp only
  refine Sim.any fun _ => ?_
  refine Sim.bind (r1csV_local hag _ _ _ _ _ _ _) (by sim_pre) ?_
  rintro ⟨_, _, _⟩
  simp only
  exact (sparseV_local hag _ _ _ _ _ _ _).weaken (by sim_pre)

end Spartan
