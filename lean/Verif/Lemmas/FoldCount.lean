import Verif.Lemmas.LocalVerify
import Verif.Lemmas.RandomRun

/-!
The verifiers draw few folding challenges: at most 31 in an inner-product argument, hence at most 31 in
`NIZK::verify` and 124 in `SNARK::verify`.
-/

set_option linter.unusedSectionVars false

namespace Spartan
variable {F G P : Type} [Field F] [AddCommGroup G] [Module F G]
  [DecidableEq F] [DecidableEq P] [DecidableEq G]

/-- If `x` succeeds, its transcript has at most `k` more folding challenges than `tr`. -/
def Cnt {α : Type} (k : Nat) (tr : Tr F P) (out : α → Tr F P) (x : Out α) : Prop :=
  ∀ r, x = .ok r → folds (out r) ≤ folds tr + k

namespace Cnt
variable {α β : Type} {tr tr1 : Tr F P} {out : α → Tr F P} {k k1 : Nat}

theorem pure {a : α} (h : folds (out a) ≤ folds tr + k) : Cnt k tr out (Pure.pure a) := by
  intro r hr; cases hr; exact h

theorem ok {a : α} (h : folds (out a) ≤ folds tr + k) : Cnt k tr out (.ok a) := pure h

theorem err {e : Fail} : Cnt k tr out (.error e : Out α) := by
  intro r hr; cases hr

theorem any {x : Out β} {f : β → Out α} (h : ∀ b, Cnt k tr out (f b)) : Cnt k tr out (x >>= f) := by
  intro r hr
  cases x with
  | error e => cases hr
  | ok b => exact h b r hr

theorem bind {out1 : β → Tr F P} {x : Out β} {f : β → Out α} (hx : Cnt k1 tr1 out1 x)
    (hp : folds tr1 ≤ folds tr) (h : ∀ b, Cnt (k - k1) (out1 b) out (f b)) (hk : k1 ≤ k := by omega) :
    Cnt k tr out (x >>= f) := by
  intro r hr
  cases hx' : x with
  | error e => rw [hx'] at hr; cases hr
  | ok b =>
    rw [hx'] at hr
    have h1 := h b r hr
    have h2 := hx b hx'
    omega

theorem weaken {x : Out α} (h : Cnt k tr1 out x) (hp : folds tr1 ≤ folds tr) : Cnt k tr out x :=
  fun r hr => (h r hr).trans (Nat.add_le_add_right hp k)

theorem ite {c : Prop} [Decidable c] {x y : Out α} (h1 : Cnt k tr out x) (h2 : Cnt k tr out y) :
    Cnt k tr out (if c then x else y) := by
  split_ifs <;> assumption

theorem chal {E : Env F G P} {l : String} {f : F × Tr F P → Out α} (hl : l ≠ "u")
    (hp : folds tr1 ≤ folds tr) (hk : ∀ c, Cnt k (tr1 ++ [.chal l]) out (f (c, tr1 ++ [.chal l]))) :
    ∀ p, E.challenge tr1 l = p → Cnt k tr out (f p) := by
  rintro p rfl
  refine (hk _).weaken ?_
  rw [folds_append]
  have : folds ([.chal l] : Tr F P) = 0 := by
    simp [folds, isFold, hl]
  omega

theorem chalVec {E : Env F G P} {l : String} (hl : l ≠ "u") :
    ∀ (n : Nat) {tr tr1 : Tr F P} {f : List F × Tr F P → Out α} (_ : folds tr1 ≤ folds tr)
    (_ : ∀ cs, Cnt k (tr1 ++ List.replicate n (.chal l)) out (f (cs, tr1 ++ List.replicate n (.chal l)))),
    ∀ p, E.challengeVec tr1 l n = p → Cnt k tr out (f p)
  | 0, tr, tr1, f, hp, hk => by
    rintro p rfl
    have := hk []
    simp only [List.replicate_zero, List.append_nil] at this
    exact this.weaken hp
  | n + 1, tr, tr1, f, hp, hk => by
    rintro p rfl
    simp only [Env.challengeVec, Env.challenge]
    generalize E.hash (tr1 ++ [.chal l]) = c
    generalize hq : E.challengeVec (tr1 ++ [.chal l]) l n = q
    revert q
    refine chalVec hl n (f := fun q => f (c :: q.1, q.2)) ?_ fun cs => ?_
    · rw [folds_append]
      have : folds ([.chal l] : Tr F P) = 0 := by
        simp [folds, isFold, hl]
      omega
    · have := hk (c :: cs)
      rw [List.replicate_succ, ← List.singleton_append, ← List.append_assoc] at this
      exact this

end Cnt

theorem folds_scalars (l : String) (xs : List F) : folds (xs.map (.scalar l) : Tr F P) = 0 := by
  simp [folds, List.countP_eq_zero, isFold]

theorem folds_points (l : String) (xs : List P) : folds (xs.map (.point l) : Tr F P) = 0 := by
  simp [folds, List.countP_eq_zero, isFold]

/-- Number of folding challenges of an extended transcript. -/
macro "cnt_tr" : tactic => `(tactic| (
  try simp only [Tr.protocol, Tr.point, Tr.scalar, Tr.scalars, Tr.polyComm, Tr.derefsComm, Tr.memEvals,
    Tr.sparseComm, Tr.r1csComm, Tr.evalClaims, UniPoly.append, id_eq, folds_append, folds_scalars, folds_points]
  try simp [folds, isFold, List.countP_eq_zero]))

variable {E : Env F G P}

/-- Steps over a challenge. -/
macro "cnt_chal" : tactic => `(tactic| (
  try simp only
  generalize hp : Env.challenge _ _ _ = p
  revert p
  refine Cnt.chal (by decide) (by cnt_tr) fun c => ?_
  try simp only))

/-- Steps over a vector of challenges. -/
macro "cnt_chalVec" : tactic => `(tactic| (
  try simp only
  generalize hp : Env.challengeVec _ _ _ _ = p
  revert p
  refine Cnt.chalVec (by decide) _ (by cnt_tr) fun cs => ?_
  try simp only))

theorem knowledgeV_cnt (pf : KnowledgeProof F P) (g : Gens G) (tr : Tr F P) (C : P) :
    Cnt 0 tr id (pf.verify E g tr C) := by
  unfold KnowledgeProof.verify
  cnt_chal
  refine Cnt.any fun _ => Cnt.any fun _ => Cnt.any fun _ => Cnt.ite (Cnt.pure (Nat.le_add_right _ _)) Cnt.err

theorem equalityV_cnt (pf : EqualityProof F P) (g : Gens G) (tr : Tr F P) (C1 C2 : P) :
    Cnt 0 tr id (pf.verify E g tr C1 C2) := by
  unfold EqualityProof.verify
  cnt_chal
  refine Cnt.any fun _ => Cnt.any fun _ => Cnt.any fun _ => Cnt.ite (Cnt.pure (Nat.le_add_right _ _)) Cnt.err

theorem productV_cnt (pf : ProductProof F P) (g : Gens G) (tr : Tr F P) (X Y Z : P) :
    Cnt 0 tr id (pf.verify E g tr X Y Z) := by
  unfold ProductProof.verify
  cnt_chal
  exact Cnt.any fun _ => Cnt.ite Cnt.err (Cnt.any fun _ => Cnt.ite Cnt.err (Cnt.any fun _ => Cnt.any fun _ =>
    Cnt.ite Cnt.err (Cnt.pure (Nat.le_add_right _ _))))

theorem dotProofV_cnt (pf : DotProductProof F P) (gens1 gensn : Gens G) (tr : Tr F P)
    (a : List F) (Cx Cy : P) :
    Cnt 0 tr id (pf.verify E gens1 gensn tr a Cx Cy) := by
  unfold DotProductProof.verify
  refine Cnt.any fun _ => Cnt.any fun _ => ?_
  cnt_chal
  exact Cnt.any fun _ => Cnt.any fun _ => Cnt.any fun _ => Cnt.any fun _ => Cnt.any fun _ => Cnt.any fun _ =>
    Cnt.any fun _ => Cnt.ite (Cnt.pure (Nat.le_add_right _ _)) Cnt.err

theorem bulletChal_cnt : ∀ (Ls Rs : List P) (tr : Tr F P),
    folds (bulletChallenges E Ls Rs tr).2 ≤ folds tr + Ls.length
  | L :: Ls, R :: Rs, tr => by
    simp only [bulletChallenges, Env.challenge]
    refine (bulletChal_cnt Ls Rs _).trans ?_
    rw [folds_fold, List.length_cons]
    have : folds ((tr.point "L" L).point "R" R) = folds tr := by cnt_tr
    omega
  | [], _, tr => by simp [bulletChallenges]
  | _ :: _, [], tr => by simp [bulletChallenges]

theorem bulletScalars_cnt (pf : BulletProof P) (n : Nat) (tr : Tr F P) :
    Cnt 31 tr (fun o => o.2.2.2) (pf.scalars E n tr) := by
  unfold BulletProof.scalars
  simp only
  split_ifs with h1 h2
  · exact Cnt.err
  · exact Cnt.err
  · refine Cnt.any ?_
    rintro ⟨_, _⟩
    refine Cnt.any fun _ => Cnt.any fun _ => Cnt.pure ?_
    have := bulletChal_cnt (E := E) pf.L pf.R tr
    simp only
    omega

theorem bulletV_cnt (pf : BulletProof P) (n : Nat) (a : List F) (tr : Tr F P)
    (Gamma : G) (Gv : List G) :
    Cnt 31 tr (fun o => o.2.2.2) (pf.verify E n a tr Gamma Gv) := by
  unfold BulletProof.verify
  refine Cnt.bind (bulletScalars_cnt _ _ _) le_rfl ?_
  rintro ⟨_, _, _, _⟩
  exact Cnt.any fun _ => Cnt.any fun _ => Cnt.any fun _ => Cnt.any fun _ => Cnt.any fun _ => Cnt.pure (Nat.le_add_right _ _)

theorem dotLogV_cnt (pf : DotProductProofLog F P) (n : Nat) (gens : DotGens G)
    (tr : Tr F P) (a : List F) (Cx Cy : P) :
    Cnt 31 tr id (pf.verify E n gens tr a Cx Cy) := by
  unfold DotProductProofLog.verify
  refine Cnt.any fun _ => Cnt.any fun _ => ?_
  dsimp only
  cnt_chal
  refine Cnt.any fun _ => Cnt.any fun _ => Cnt.any fun _ => ?_
  refine Cnt.bind (bulletV_cnt _ _ _ _ _ _) le_rfl ?_
  rintro ⟨_, _, _, _⟩
  simp only
  cnt_chal
  refine Cnt.any fun _ => Cnt.any fun _ => ?_
  split
  · exact Cnt.err
  · exact Cnt.any fun _ => Cnt.ite (Cnt.pure (Nat.le_add_right _ _)) Cnt.err

theorem polyEvalV_cnt (pf : DotProductProofLog F P) (gens : DotGens G)
    (tr : Tr F P) (r : List F) (Czr : P) (comm : List P) :
    Cnt 31 tr id (polyEvalVerify E pf gens tr r Czr comm) := by
  unfold polyEvalVerify
  refine Cnt.any fun _ => Cnt.any fun _ => ?_
  exact (dotLogV_cnt _ _ _ _ _ _ _).weaken (by cnt_tr)

theorem polyEvalVP_cnt (pf : DotProductProofLog F P) (gens : DotGens G)
    (tr : Tr F P) (r : List F) (Zr : F) (comm : List P) :
    Cnt 31 tr id (polyEvalVerifyPlain E pf gens tr r Zr comm) := by
  unfold polyEvalVerifyPlain
  exact Cnt.any fun _ => polyEvalV_cnt _ _ _ _ _ _

theorem zkVLoop_cnt (deg : Nat) (gens1 gensn : Gens G) :
    ∀ (cps ces : List P) (pfs : List (DotProductProof F P)) (claim : P) (tr : Tr F P),
    Cnt 0 tr (fun o => o.2) (zkVerifyLoop E deg gens1 gensn cps ces pfs claim tr)
  | [], ces, pfs, claim, tr => by
    unfold zkVerifyLoop
    exact Cnt.ok (Nat.le_add_right _ _)
  | cp :: cps, ces, pfs, claim, tr => by
    unfold zkVerifyLoop
    dsimp only
    cnt_chal
    refine Cnt.any fun _ => ?_
    cnt_chalVec
    refine Cnt.any fun _ => Cnt.any fun _ => Cnt.any fun _ => ?_
    refine Cnt.bind (dotProofV_cnt _ _ _ _ _ _ _) le_rfl fun tr3 => ?_
    refine Cnt.bind (zkVLoop_cnt deg gens1 gensn cps _ _ _ _) le_rfl ?_
    rintro ⟨_, _⟩
    exact Cnt.pure (Nat.le_add_right _ _)

theorem zkV_cnt (pf : ZKSumcheck F P) (claim : P) (numRounds deg : Nat)
    (gens1 gensn : Gens G) (tr : Tr F P) :
    Cnt 0 tr (fun o => o.2.2) (zkVerify E pf claim numRounds deg gens1 gensn tr) := by
  unfold zkVerify
  refine Cnt.any fun _ => Cnt.any fun _ => Cnt.any fun _ => ?_
  refine Cnt.bind (zkVLoop_cnt _ _ _ _ _ _ _ _) le_rfl ?_
  rintro ⟨_, _⟩
  exact Cnt.any fun _ => Cnt.any fun _ => Cnt.pure (Nat.le_add_right _ _)

theorem r1csV_cnt (pf : R1CSProof F P) (numVars numCons : Nat) (input : List F)
    (evals : F × F × F) (gens : R1CSGens G) (tr : Tr F P) :
    Cnt 31 tr (fun o => o.2.2) (pf.verify E numVars numCons input evals gens tr) := by
  unfold R1CSProof.verify
  refine Cnt.any fun _ => Cnt.any fun _ => ?_
  cnt_chalVec
  refine Cnt.any fun _ => ?_
  refine Cnt.bind (zkV_cnt _ _ _ _ _ _ _) le_rfl ?_
  rintro ⟨_, _, _⟩
  simp only
  refine Cnt.bind (knowledgeV_cnt _ _ _ _) le_rfl fun _ => ?_
  refine Cnt.bind (productV_cnt _ _ _ _ _ _) le_rfl fun _ => ?_
  refine Cnt.any fun _ => Cnt.any fun _ => Cnt.any fun _ => ?_
  refine Cnt.bind (equalityV_cnt _ _ _ _ _) (by cnt_tr) fun _ => ?_
  simp only [id_eq]
  cnt_chal
  cnt_chal
  cnt_chal
  refine Cnt.any fun _ => Cnt.any fun _ => Cnt.any fun _ => Cnt.any fun _ => ?_
  refine Cnt.bind (zkV_cnt _ _ _ _ _ _ _) le_rfl ?_
  rintro ⟨_, _, _⟩
  simp only
  refine Cnt.any fun _ => ?_
  refine Cnt.bind (polyEvalV_cnt _ _ _ _ _ _) le_rfl fun _ => ?_
  refine Cnt.any fun _ => Cnt.any fun _ => Cnt.any fun _ => Cnt.any fun _ => Cnt.any fun _ => ?_
  refine Cnt.bind (equalityV_cnt _ _ _ _ _) le_rfl fun _ => ?_
  exact Cnt.pure (Nat.le_add_right _ _)

theorem nizkV_cnt (pf : NIZK F P) (I : Inst F) (input : List F) (gens : R1CSGens G)
    (tr : Tr F P) :
    Cnt 31 tr id (pf.verify E I input gens tr) := by
  unfold NIZK.verify
  simp only
  refine Cnt.any fun _ => Cnt.any fun _ => ?_
  refine Cnt.bind (r1csV_cnt _ _ _ _ _ _ _) (by cnt_tr) ?_
  rintro ⟨_, _, _⟩
  exact Cnt.any fun _ => Cnt.any fun _ => Cnt.pure (Nat.le_add_right _ _)

/-! ### The SNARK -/

theorem scVLoop_cnt (deg : Nat) :
    ∀ (cps : List (CompressedUniPoly F)) (e : F) (tr : Tr F P),
    Cnt 0 tr (fun o => o.2.2) (scVerifyLoop E deg cps e tr)
  | [], e, tr => by
    unfold scVerifyLoop
    exact Cnt.ok (Nat.le_add_right _ _)
  | cp :: cps, e, tr => by
    unfold scVerifyLoop
    refine Cnt.bind (k1 := 0) (tr1 := tr) (out1 := fun o => o.2.2) ?_ le_rfl ?_
    · unfold scVerifyRound
      simp only
      refine Cnt.any fun _ => Cnt.any fun _ => Cnt.any fun _ => Cnt.any fun _ => Cnt.any fun _ => ?_
      cnt_chal
      exact Cnt.any fun _ => Cnt.pure (Nat.le_add_right _ _)
    · rintro ⟨_, _, _⟩
      simp only
      refine Cnt.bind (scVLoop_cnt deg cps _ _) le_rfl ?_
      rintro ⟨_, _, _⟩
      exact Cnt.pure (Nat.le_add_right _ _)

theorem scV_cnt (cps : List (CompressedUniPoly F)) (claim : F) (n deg : Nat)
    (tr : Tr F P) :
    Cnt 0 tr (fun o => o.2.2) (scVerify E cps claim n deg tr) := by
  unfold scVerify
  exact Cnt.any fun _ => scVLoop_cnt _ _ _ _

theorem appendPairs_folds : ∀ (tr : Tr F P) (ls rs : List F), folds (appendPairs tr ls rs) = folds tr := by
  intro tr ls
  induction ls generalizing tr with
  | nil => intro rs; simp [appendPairs]
  | cons l ls ih =>
    intro rs
    cases rs with
    | nil => simp [appendPairs]
    | cons r rs =>
      rw [appendPairs, ih]
      cnt_tr

theorem appendTriples_folds : ∀ (tr : Tr F P) (ls rs ws : List F),
    folds (appendTriples tr ls rs ws) = folds tr := by
  intro tr ls
  induction ls generalizing tr with
  | nil => intro rs ws; simp [appendTriples]
  | cons l ls ih =>
    intro rs ws
    cases rs with
    | nil => simp [appendTriples]
    | cons r rs =>
      cases ws with
      | nil => simp [appendTriples]
      | cons w ws =>
        rw [appendTriples, ih]
        cnt_tr

theorem combine_cnt (l : String) (hl : l ≠ "u") (evals : List F) (tr : Tr F P) :
    Cnt 0 tr (fun o => o.2.2) (combineEvals E l evals tr) := by
  unfold combineEvals
  refine Cnt.any fun _ => ?_
  generalize hp : Env.challengeVec _ _ _ _ = p
  revert p
  refine Cnt.chalVec hl _ le_rfl fun cs => ?_
  simp only
  repeat' (first | exact Cnt.pure (Nat.le_add_right _ _) | refine Cnt.any (fun _ => ?_))

theorem prodBVLoop_cnt (m : Nat) (cd : List F) (pf : ProdProofBatched F) :
    ∀ (lps : List (LayerProofBatched F)) (k : Nat) (claims dclaims rand : List F) (tr : Tr F P),
    Cnt 0 tr (fun o => o.2.2.2) (prodBVerifyLoop E m cd pf lps k claims dclaims rand tr)
  | [], k, claims, dclaims, rand, tr => by
    unfold prodBVerifyLoop
    exact Cnt.ok (Nat.le_add_right _ _)
  | lp :: lps, k, claims, dclaims, rand, tr => by
    unfold prodBVerifyLoop
    simp only
    cnt_chalVec
    refine Cnt.bind (scV_cnt _ _ _ _ _) le_rfl ?_
    rintro ⟨_, _, tr1⟩
    simp only
    refine Cnt.any fun _ => Cnt.any fun _ => Cnt.any fun _ => Cnt.any fun _ => ?_
    have step : ∀ tr2, folds tr2 ≤ folds tr1 → ∀ (rp : List F), Cnt 0 tr1 (fun o => o.2.2.2) (if lps.isEmpty = true then do
            check (2 * (cd.length / 2) ≤ pf.dotpL.length ∧ 2 * (cd.length / 2) ≤ pf.dotpR.length ∧
              2 * (cd.length / 2) ≤ pf.dotpW.length)
            prodBVerifyLoop E m cd pf lps (k + 1)
              (nextClaims (E.challenge tr2 "challenge_r_layer").1 lp.left lp.right)
              (dotpNext (E.challenge tr2 "challenge_r_layer").1 (cd.length / 2) pf.dotpL pf.dotpR pf.dotpW)
              ((E.challenge tr2 "challenge_r_layer").1 :: rp) (E.challenge tr2 "challenge_r_layer").2
          else prodBVerifyLoop E m cd pf lps (k + 1)
              (nextClaims (E.challenge tr2 "challenge_r_layer").1 lp.left lp.right) dclaims
              ((E.challenge tr2 "challenge_r_layer").1 :: rp) (E.challenge tr2 "challenge_r_layer").2) := by
      intro tr2 h2 rp
      generalize hp : Env.challenge _ _ _ = p
      revert p
      refine Cnt.chal (by decide) h2 fun c => ?_
      exact Cnt.ite (Cnt.any fun _ => prodBVLoop_cnt m cd pf lps _ _ _ _ _)
        (prodBVLoop_cnt m cd pf lps _ _ _ _ _)
    refine Cnt.ite (Cnt.any fun _ => ?_) ?_
    · simp only [pure_bind]
      exact Cnt.any fun _ => step _ (by rw [appendTriples_folds, appendPairs_folds]) _
    · simp only [pure_bind]
      exact Cnt.any fun _ => step _ (by rw [appendPairs_folds]) _

theorem prodBV_cnt (pf : ProdProofBatched F) (cp cd : List F) (len : Nat)
    (tr : Tr F P) :
    Cnt 0 tr (fun o => o.2.2.2) (prodBVerify E pf cp cd len tr) := by
  unfold prodBVerify
  exact Cnt.any fun _ => Cnt.any fun _ => prodBVLoop_cnt _ _ _ _ _ _ _ _ _

theorem dotpCheckLoop_cnt : ∀ (es ls rs : List F) (tr : Tr F P),
    Cnt 0 tr (fun o => o.2) (dotpCheckLoop es ls rs tr)
  | [], _, _, tr => by
    unfold dotpCheckLoop
    exact Cnt.ok (Nat.le_add_right _ _)
  | e :: es, l :: ls, r :: rs, tr => by
    unfold dotpCheckLoop
    simp only
    refine Cnt.any fun _ => ?_
    refine Cnt.bind (dotpCheckLoop_cnt es ls rs _) (by cnt_tr) ?_
    rintro ⟨_, _⟩
    exact Cnt.pure (Nat.le_add_right _ _)
  | _ :: _, [], _, tr => by
    unfold dotpCheckLoop
    exact Cnt.err
  | _ :: _, _ :: _, [], tr => by
    unfold dotpCheckLoop
    exact Cnt.err

theorem prodLayerV_cnt (pf : ProdLayerProof F) (numOps numCells : Nat)
    (eval : List F) (tr : Tr F P) :
    Cnt 0 tr (fun o => o.2.2.2.2.2) (prodLayerVerify E pf numOps numCells eval tr) := by
  unfold prodLayerVerify
  simp only
  refine Cnt.any fun _ => Cnt.any fun _ => Cnt.any fun _ => ?_
  refine Cnt.bind (dotpCheckLoop_cnt _ _ _ _) (by cnt_tr) ?_
  rintro ⟨_, _⟩
  simp only
  refine Cnt.bind (prodBV_cnt _ _ _ _ _) le_rfl ?_
  rintro ⟨_, _, _, _⟩
  simp only
  refine Cnt.bind (prodBV_cnt _ _ _ _ _) le_rfl ?_
  rintro ⟨_, _, _, _⟩
  exact Cnt.pure (Nat.le_add_right _ _)

theorem derefsV_cnt (pf : DotProductProofLog F P) (r er ec : List F)
    (gens : DotGens G) (comm : List P) (tr : Tr F P) :
    Cnt 31 tr id (derefsVerify E pf r er ec gens comm tr) := by
  unfold derefsVerify
  simp only
  refine Cnt.bind (combine_cnt _ (by decide) _ _) (by cnt_tr) ?_
  rintro ⟨_, _, _⟩
  exact (polyEvalVP_cnt _ _ _ _ _ _).weaken (by cnt_tr)

theorem hashLayerV_cnt (pf : HashLayerProof F P) (randMem randOps : List F)
    (clRow clCol : MemClaims F) (clDotp : List F) (comm : SparseComm P) (gens : SparseGens G)
    (cDerefs : List P) (rx ry : List F) (rh g : F) (tr : Tr F P) :
    Cnt 93 tr id (hashLayerVerify E pf randMem randOps clRow clCol clDotp comm gens cDerefs rx ry rh g tr) := by
  unfold hashLayerVerify
  simp only
  refine Cnt.any fun _ => ?_
  refine Cnt.bind (derefsV_cnt _ _ _ _ _ _ _) (by cnt_tr) fun tr1 => ?_
  simp only [id_eq]
  refine Cnt.any fun _ => ?_
  refine Cnt.bind (combine_cnt _ (by decide) _ _) (by cnt_tr) ?_
  rintro ⟨_, _, _⟩
  simp only
  refine Cnt.bind (polyEvalVP_cnt _ _ _ _ _ _) (by cnt_tr) fun tr2 => ?_
  simp only [id_eq]
  refine Cnt.bind (combine_cnt _ (by decide) _ _) (by cnt_tr) ?_
  rintro ⟨_, _, _⟩
  simp only
  refine Cnt.bind (polyEvalVP_cnt _ _ _ _ _ _) (by cnt_tr) fun tr2 => ?_
  exact Cnt.any fun _ => Cnt.any fun _ => Cnt.pure (Nat.le_add_right _ _)

theorem netV_cnt (pf : NetProof F P) (comm : SparseComm P) (cDerefs : List P)
    (evals : List F) (gens : SparseGens G) (rx ry : List F) (rh g : F) (nz : Nat) (tr : Tr F P) :
    Cnt 93 tr id (netVerify E pf comm cDerefs evals gens rx ry rh g nz tr) := by
  unfold netVerify
  simp only
  refine Cnt.any fun _ => ?_
  refine Cnt.bind (prodLayerV_cnt _ _ _ _ _) (by cnt_tr) ?_
  rintro ⟨_, _, _, _, _, _⟩
  simp only
  exact Cnt.any fun _ => Cnt.any fun _ => Cnt.any fun _ => hashLayerV_cnt _ _ _ _ _ _ _ _ _ _ _ _ _ _

theorem sparseV_cnt (pf : SparseEvalProof F P) (comm : SparseComm P)
    (rx ry evals : List F) (gens : SparseGens G) (tr : Tr F P) :
    Cnt 93 tr id (sparseVerify E pf comm rx ry evals gens tr) := by
  unfold sparseVerify
  simp only
  refine Cnt.any fun _ => ?_
  cnt_chalVec
  exact netV_cnt _ _ _ _ _ _ _ _ _ _ _

theorem snarkV_cnt (pf : SNARK F P) (comm : R1CSComm P) (input : List F)
    (gens : SNARKGens G) (tr : Tr F P) :
    Cnt 124 tr id (pf.verify E comm input gens tr) := by
  unfold SNARK.verify
  simp only
  refine Cnt.any fun _ => ?_
  refine Cnt.bind (r1csV_cnt _ _ _ _ _ _ _) (by cnt_tr) ?_
  rintro ⟨_, _, _⟩
  simp only
  exact (sparseV_cnt _ _ _ _ _ _ _).weaken (by cnt_tr)

end Spartan
