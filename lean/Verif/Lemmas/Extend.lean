import Verif.Lemmas.ProductTree
import Verif.Lemmas.Rounds
import Verif.Model.R1CS

/-! The verifier only appends to the transcript. -/

namespace Spartan
variable {F G P : Type} [Field F] [AddCommGroup G] [Module F G]
  [DecidableEq F] [DecidableEq P] [DecidableEq G]

theorem ite_pure_ok {α : Type} {c : Prop} [Decidable c] {a b : α} {e : Fail}
    (h : (if c then (pure a : Out α) else .error e) = .ok b) : a = b := by
  by_cases hc : c
  · rw [if_pos hc] at h; cases h; rfl
  · rw [if_neg hc] at h; cases h

theorem knowledge_extends {E : Env F G P} {pf : KnowledgeProof F P} {g : Gens G} {tr tr' : Tr F P} {C : P}
    (h : pf.verify E g tr C = .ok tr') : tr <+: tr' := by
  unfold KnowledgeProof.verify at h
  simp only [Env.challenge] at h
  obtain ⟨_, -, h⟩ := bind_ok h
  obtain ⟨_, -, h⟩ := bind_ok h
  obtain ⟨_, -, h⟩ := bind_ok h
  rw [← ite_pure_ok h]
  simp [Tr.protocol, Tr.point]

theorem equality_extends {E : Env F G P} {pf : EqualityProof F P} {g : Gens G} {tr tr' : Tr F P} {C1 C2 : P}
    (h : pf.verify E g tr C1 C2 = .ok tr') : tr <+: tr' := by
  unfold EqualityProof.verify at h
  simp only [Env.challenge] at h
  obtain ⟨_, -, h⟩ := bind_ok h
  obtain ⟨_, -, h⟩ := bind_ok h
  obtain ⟨_, -, h⟩ := bind_ok h
  rw [← ite_pure_ok h]
  simp [Tr.protocol, Tr.point]

theorem product_extends {E : Env F G P} {pf : ProductProof F P} {g : Gens G} {tr tr' : Tr F P} {X Y Z : P}
    (h : pf.verify E g tr X Y Z = .ok tr') : tr <+: tr' := by
  unfold ProductProof.verify at h
  simp only [Env.challenge] at h
  obtain ⟨_, -, h⟩ := bind_ok h
  split at h
  · cases h
  obtain ⟨_, -, h⟩ := bind_ok h
  split at h
  · cases h
  obtain ⟨_, -, h⟩ := bind_ok h
  obtain ⟨_, -, h⟩ := bind_ok h
  split at h
  · cases h
  · cases h; simp [Tr.protocol, Tr.point]

theorem dotProduct_extends {E : Env F G P} {pf : DotProductProof F P} {g1 gn : Gens G} {tr tr' : Tr F P}
    {a : List F} {Cx Cy : P} (h : pf.verify E g1 gn tr a Cx Cy = .ok tr') : tr <+: tr' := by
  unfold DotProductProof.verify at h
  simp only [Env.challenge] at h
  obtain ⟨_, -, h⟩ := bind_ok h
  obtain ⟨_, -, h⟩ := bind_ok h
  obtain ⟨_, -, h⟩ := bind_ok h
  obtain ⟨_, -, h⟩ := bind_ok h
  obtain ⟨_, -, h⟩ := bind_ok h
  obtain ⟨_, -, h⟩ := bind_ok h
  obtain ⟨_, -, h⟩ := bind_ok h
  obtain ⟨_, -, h⟩ := bind_ok h
  obtain ⟨_, -, h⟩ := bind_ok h
  rw [← ite_pure_ok h]
  simp [Tr.protocol, Tr.point, Tr.scalars]

theorem zkLoop_extends {E : Env F G P} {deg : Nat} {g1 gn : Gens G} : ∀ (cps ces : List P)
    (pfs : List (DotProductProof F P)) (claim : P) (tr : Tr F P) {rs : List F} {tr' : Tr F P},
    zkVerifyLoop E deg g1 gn cps ces pfs claim tr = .ok (rs, tr') → tr <+: tr'
  | [], _, _, _, tr, rs, tr', h => by
    unfold zkVerifyLoop at h
    cases h
    exact List.prefix_rfl
  | cp :: cps, ces, pfs, claim, tr, rs, tr', h => by
    unfold zkVerifyLoop at h
    simp only [Env.challenge] at h
    obtain ⟨_, -, h⟩ := bind_ok h
    obtain ⟨_, -, h⟩ := bind_ok h
    obtain ⟨_, -, h⟩ := bind_ok h
    obtain ⟨_, -, h⟩ := bind_ok h
    obtain ⟨tr1, h1, h⟩ := bind_ok h
    obtain ⟨⟨rs2, tr2⟩, h2, h⟩ := bind_ok h
    cases h
    refine List.IsPrefix.trans ?_ (List.IsPrefix.trans (dotProduct_extends h1)
      (zkLoop_extends cps _ _ _ tr1 h2))
    exact List.IsPrefix.trans (by simp [Tr.point]) (challengeVec_shape E _ 2 _).2

theorem zk_extends {E : Env F G P} {pf : ZKSumcheck F P} {claim : P} {n deg : Nat} {g1 gn : Gens G}
    {tr : Tr F P} {r : P × List F × Tr F P} (h : zkVerify E pf claim n deg g1 gn tr = .ok r) :
    tr <+: r.2.2 := by
  unfold zkVerify at h
  obtain ⟨_, -, h⟩ := bind_ok h
  obtain ⟨_, -, h⟩ := bind_ok h
  obtain ⟨_, -, h⟩ := bind_ok h
  obtain ⟨⟨rs, tr1⟩, h1, h⟩ := bind_ok h
  obtain ⟨_, -, h⟩ := bind_ok h
  obtain ⟨_, -, h⟩ := bind_ok h
  cases h
  exact zkLoop_extends _ _ _ _ _ h1

theorem bulletChallenges_extends (E : Env F G P) : ∀ (L R : List P) (tr : Tr F P),
    tr <+: (bulletChallenges E L R tr).2
  | [], R, tr => by simp [bulletChallenges]
  | _ :: _, [], tr => by simp [bulletChallenges]
  | l :: L, r :: R, tr => by
    unfold bulletChallenges
    simp only [Env.challenge]
    exact List.IsPrefix.trans (by simp [Tr.point]) (bulletChallenges_extends E L R _)

theorem dotLog_extends {E : Env F G P} {pf : DotProductProofLog F P} {n : Nat} {g : DotGens G}
    {tr tr' : Tr F P} {a : List F} {Cx Cy : P} (h : pf.verify E n g tr a Cx Cy = .ok tr') : tr <+: tr' := by
  unfold DotProductProofLog.verify at h
  simp only [Env.challenge] at h
  obtain ⟨_, -, h⟩ := bind_ok h
  obtain ⟨_, -, h⟩ := bind_ok h
  obtain ⟨_, -, h⟩ := bind_ok h
  obtain ⟨_, -, h⟩ := bind_ok h
  obtain ⟨_, -, h⟩ := bind_ok h
  obtain ⟨⟨gh, Gh, ah, tr1⟩, hb, h⟩ := bind_ok h
  obtain ⟨_, -, h⟩ := bind_ok h
  obtain ⟨_, -, h⟩ := bind_ok h
  split at h
  · cases h
  obtain ⟨_, -, h⟩ := bind_ok h
  rw [← ite_pure_ok h]
  unfold BulletProof.verify at hb
  obtain ⟨⟨u1, u2, s, tr2⟩, hs, hb⟩ := bind_ok hb
  obtain ⟨_, -, hb⟩ := bind_ok hb
  obtain ⟨_, -, hb⟩ := bind_ok hb
  obtain ⟨_, -, hb⟩ := bind_ok hb
  obtain ⟨_, -, hb⟩ := bind_ok hb
  obtain ⟨_, -, hb⟩ := bind_ok hb
  cases hb
  unfold BulletProof.scalars at hs
  simp only at hs
  split at hs
  · cases hs
  split at hs
  · cases hs
  obtain ⟨_, -, hs⟩ := bind_ok hs
  obtain ⟨_, -, hs⟩ := bind_ok hs
  obtain ⟨_, -, hs⟩ := bind_ok hs
  cases hs
  have k := bulletChallenges_extends E pf.bullet.L pf.bullet.R
    ((((tr.protocol "dot product proof (log)").point "Cx" Cx).point "Cy" Cy).scalars "a" a ++ [.chal "r"])
  refine List.IsPrefix.trans ?_ (List.IsPrefix.trans k ?_)
  · simp [Tr.protocol, Tr.point, Tr.scalars]
  · simp only [Tr.point, List.append_assoc]
    exact List.prefix_append _ _

theorem polyEval_extends {E : Env F G P} {pf : DotProductProofLog F P} {g : DotGens G} {tr tr' : Tr F P}
    {r : List F} {C : P} {comm : List P} (h : polyEvalVerify E pf g tr r C comm = .ok tr') : tr <+: tr' := by
  unfold polyEvalVerify at h
  simp only at h
  obtain ⟨_, -, h⟩ := bind_ok h
  obtain ⟨_, -, h⟩ := bind_ok h
  exact List.IsPrefix.trans (by simp [Tr.protocol]) (dotLog_extends h)

theorem r1cs_extends {E : Env F G P} {pf : R1CSProof F P} {nv nc : Nat} {input : List F} {evals : F × F × F}
    {gens : R1CSGens G} {tr : Tr F P} {r : List F × List F × Tr F P}
    (h : pf.verify E nv nc input evals gens tr = .ok r) : tr <+: r.2.2 := by
  unfold R1CSProof.verify at h
  simp only [Env.challenge] at h
  obtain ⟨_, -, h⟩ := bind_ok h
  obtain ⟨_, -, h⟩ := bind_ok h
  obtain ⟨_, -, h⟩ := bind_ok h
  obtain ⟨⟨_, _, t1⟩, h1, h⟩ := bind_ok h
  obtain ⟨t2, h2, h⟩ := bind_ok h
  obtain ⟨t3, h3, h⟩ := bind_ok h
  obtain ⟨_, -, h⟩ := bind_ok h
  obtain ⟨_, -, h⟩ := bind_ok h
  obtain ⟨_, -, h⟩ := bind_ok h
  obtain ⟨t4, h4, h⟩ := bind_ok h
  obtain ⟨_, -, h⟩ := bind_ok h
  obtain ⟨_, -, h⟩ := bind_ok h
  obtain ⟨_, -, h⟩ := bind_ok h
  obtain ⟨_, -, h⟩ := bind_ok h
  obtain ⟨⟨_, _, t5⟩, h5, h⟩ := bind_ok h
  obtain ⟨_, -, h⟩ := bind_ok h
  obtain ⟨t6, h6, h⟩ := bind_ok h
  obtain ⟨_, -, h⟩ := bind_ok h
  obtain ⟨_, -, h⟩ := bind_ok h
  obtain ⟨_, -, h⟩ := bind_ok h
  obtain ⟨_, -, h⟩ := bind_ok h
  obtain ⟨_, -, h⟩ := bind_ok h
  obtain ⟨t7, h7, h⟩ := bind_ok h
  cases h
  have k1 := zk_extends h1
  have k4 := equality_extends h4
  have k5 := zk_extends h5
  refine List.IsPrefix.trans ?_ (List.IsPrefix.trans k1 (List.IsPrefix.trans (knowledge_extends h2)
    (List.IsPrefix.trans (product_extends h3) (List.IsPrefix.trans ?_ (List.IsPrefix.trans k4
      (List.IsPrefix.trans ?_ (List.IsPrefix.trans k5 (List.IsPrefix.trans (polyEval_extends h6)
        (equality_extends h7)))))))))
  · refine List.IsPrefix.trans ?_ (challengeVec_shape E _ _ _).2
    simp [Tr.protocol, Tr.scalars, Tr.polyComm]
  · simp [Tr.point]
  · simp

/-- What `NIZK::verify` returns extends the transcript it was given. -/
theorem nizk_verify_extends {E : Env F G P} {pf : NIZK F P} {I : Inst F} {input : List F} {gens : R1CSGens G}
    {tr tr' : Tr F P} (h : NIZK.verify E pf I input gens tr = .ok tr') : ∃ ms, tr' = tr ++ ms := by
  unfold NIZK.verify at h
  simp only at h
  obtain ⟨_, -, h⟩ := bind_ok h
  obtain ⟨_, -, h⟩ := bind_ok h
  obtain ⟨⟨_, _, t1⟩, h1, h⟩ := bind_ok h
  obtain ⟨_, -, h⟩ := bind_ok h
  obtain ⟨_, -, h⟩ := bind_ok h
  cases h
  have k1 := r1cs_extends h1
  obtain ⟨ms, hms⟩ := List.IsPrefix.trans (show tr <+: _ by
    rw [Tr.protocol, List.append_assoc]; exact List.prefix_append _ _) k1
  exact ⟨ms, hms.symm⟩

end Spartan
