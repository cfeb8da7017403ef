import Verif.Spec.Soft
import Verif.Lemmas.NIZK

/-! Which calls of the verifier can panic (C39). -/

set_option linter.unusedSectionVars false

namespace Spartan
open Spec
variable {F G P : Type} [Field F] [AddCommGroup G] [Module F G]
  [DecidableEq F] [DecidableEq P] [DecidableEq G]

/-- The call does not panic and its result, if any, has the property. -/
def Safe {α : Type} (o : Out α) (Q : α → Prop) : Prop :=
  match o with
  | .ok a => Q a
  | .error e => e ≠ .panic

theorem Safe.bind {α β : Type} {x : Out α} {f : α → Out β} {R : α → Prop} {Q : β → Prop} (hx : Safe x R)
    (hf : ∀ a, R a → Safe (f a) Q) : Safe (x >>= f) Q := by
  cases x with
  | error e => exact hx
  | ok a => exact hf a hx

theorem Safe.ok {α : Type} {a : α} {Q : α → Prop} (h : Q a) : Safe (.ok a : Out α) Q := h
theorem Safe.pure {α : Type} {a : α} {Q : α → Prop} (h : Q a) : Safe (pure a : Out α) Q := h
theorem Safe.err {α : Type} {e : VErr} {Q : α → Prop} : Safe (.error (.err e) : Out α) Q :=
  fun h => Fail.noConfusion h
theorem Safe.ite {α : Type} {c : Prop} [Decidable c] {x y : Out α} {Q : α → Prop} (hx : c → Safe x Q)
    (hy : ¬ c → Safe y Q) : Safe (if c then x else y) Q := by
  split_ifs with h
  · exact hx h
  · exact hy h

theorem Safe.ne {α : Type} {o : Out α} {Q : α → Prop} (h : Safe o Q) : o ≠ .error .panic := by
  rintro rfl; exact h rfl

theorem Safe.mono {α : Type} {o : Out α} {Q R : α → Prop} (h : Safe o Q) (hq : ∀ a, Q a → R a) : Safe o R := by
  cases o with
  | error e => exact h
  | ok a => exact hq a h

theorem unpack_some {E : Env F G P} {p : P} (h : (E.decompress p).isSome) : ∃ g, E.unpack p = .ok g := by
  obtain ⟨g, hg⟩ := Option.isSome_iff_exists.mp h
  exact ⟨g, unpack_ok_iff.2 hg⟩

theorem decompressU_some {E : Env F G P} {p : P} (h : (E.decompress p).isSome) : ∃ g, E.decompressU p = .ok g := by
  obtain ⟨g, hg⟩ := Option.isSome_iff_exists.mp h
  exact ⟨g, decompressU_ok_iff.2 hg⟩

theorem compress_some {E : Env F G P} (hE : E.Lawful) (g : G) : (E.decompress (E.compress g)).isSome := by
  rw [hE]; rfl

theorem mapM_decompressU_some {E : Env F G P} : ∀ {ps : List P}, (∀ p ∈ ps, (E.decompress p).isSome) →
    ∃ gs : List G, ps.mapM E.decompressU = .ok gs ∧ gs.length = ps.length
  | [], _ => ⟨[], by rw [List.mapM_nil]; rfl, rfl⟩
  | p :: ps, h => by
    obtain ⟨g, hg⟩ := decompressU_some (h p (by simp))
    obtain ⟨gs, e, hl⟩ := mapM_decompressU_some (ps := ps) fun q hq => h q (by simp [hq])
    exact ⟨g :: gs, by rw [List.mapM_cons, hg, ok_bind, e, ok_bind]; rfl, by simp [hl]⟩

theorem knowledge_safe {E : Env F G P} {pf : KnowledgeProof F P} {g0 h : G} {C : P}
    (h1 : (E.decompress C).isSome) (h2 : (E.decompress pf.alpha).isSome) (tr : Tr F P) :
    Safe (pf.verify E (Gens.single g0 h) tr C) fun _ => True := by
  obtain ⟨C', hC⟩ := unpack_some h1
  obtain ⟨a', ha⟩ := unpack_some h2
  unfold KnowledgeProof.verify
  simp only [Env.challenge]
  rw [commit1_single, ok_bind, hC, ok_bind, ha, ok_bind]
  exact Safe.ite (fun _ => Safe.pure trivial) (fun _ => Safe.err)

theorem equality_safe {E : Env F G P} {pf : EqualityProof F P} {g : Gens G} {C1 C2 : P}
    (h1 : (E.decompress C1).isSome) (h2 : (E.decompress C2).isSome) (h3 : (E.decompress pf.alpha).isSome)
    (tr : Tr F P) : Safe (pf.verify E g tr C1 C2) fun _ => True := by
  obtain ⟨a, ha⟩ := unpack_some h1
  obtain ⟨b, hb⟩ := unpack_some h2
  obtain ⟨c, hc⟩ := unpack_some h3
  unfold EqualityProof.verify
  simp only [Env.challenge]
  rw [ha, ok_bind, hb, ok_bind, hc, ok_bind]
  exact Safe.ite (fun _ => Safe.pure trivial) (fun _ => Safe.err)

theorem checkEquality_some {E : Env F G P} {Pt X : P} (h1 : (E.decompress Pt).isSome)
    (h2 : (E.decompress X).isSome) (c : F) (g0 h : G) (z1 z2 : F) :
    ∃ b, ProductProof.checkEquality E Pt X c (Gens.single g0 h) z1 z2 = .ok b := by
  obtain ⟨a, ha⟩ := decompressU_some h1
  obtain ⟨b, hb⟩ := decompressU_some h2
  unfold ProductProof.checkEquality
  rw [ha, ok_bind, hb, ok_bind, commit1_single, ok_bind]
  exact ⟨_, rfl⟩

theorem product_safe {E : Env F G P} {pf : ProductProof F P} {g0 h : G} {X Y Z : P}
    (hX : (E.decompress X).isSome) (hY : (E.decompress Y).isSome) (hZ : (E.decompress Z).isSome)
    (ha : (E.decompress pf.alpha).isSome) (hb : (E.decompress pf.beta).isSome)
    (hd : (E.decompress pf.delta).isSome) (tr : Tr F P) :
    Safe (pf.verify E (Gens.single g0 h) tr X Y Z) fun _ => True := by
  unfold ProductProof.verify
  simp only [Env.challenge]
  obtain ⟨b1, e1⟩ := checkEquality_some ha hX (E.hash (((((((((tr.protocol "product proof").point "X" X).point "Y"
    Y).point "Z" Z).point "alpha" pf.alpha).point "beta" pf.beta).point "delta" pf.delta) ++ [Msg.chal "c"])))
    g0 h pf.z1 pf.z2
  rw [e1, ok_bind]
  refine Safe.ite (fun _ => Safe.err) fun _ => ?_
  obtain ⟨b2, e2⟩ := checkEquality_some hb hY (E.hash (((((((((tr.protocol "product proof").point "X" X).point "Y"
    Y).point "Z" Z).point "alpha" pf.alpha).point "beta" pf.beta).point "delta" pf.delta) ++ [Msg.chal "c"])))
    g0 h pf.z3 pf.z4
  rw [e2, ok_bind]
  refine Safe.ite (fun _ => Safe.err) fun _ => ?_
  obtain ⟨X', eX⟩ := unpack_some hX
  rw [eX, ok_bind]
  obtain ⟨b3, e3⟩ := checkEquality_some hd hZ (E.hash (((((((((tr.protocol "product proof").point "X" X).point "Y"
    Y).point "Z" Z).point "alpha" pf.alpha).point "beta" pf.beta).point "delta" pf.delta) ++ [Msg.chal "c"])))
    X' h pf.z3 pf.z5
  rw [show ({ n := 1, G := [X'], h := (Gens.single g0 h).h } : Gens G) = Gens.single X' h from rfl, e3, ok_bind]
  exact Safe.ite (fun _ => Safe.err) fun _ => Safe.pure trivial

theorem dotProduct_safe {E : Env F G P} {pf : DotProductProof F P} {g0 h : G} {gensn : Gens G} (hw : gensn.WF)
    {a : List F} {Cx Cy : P} (hn : gensn.n = a.length) (hz : pf.z.length = a.length)
    (hx : (E.decompress Cx).isSome) (hy : (E.decompress Cy).isSome)
    (hd : (E.decompress pf.delta).isSome) (hb : (E.decompress pf.beta).isSome) (tr : Tr F P) :
    Safe (pf.verify E (Gens.single g0 h) gensn tr a Cx Cy) fun _ => True := by
  obtain ⟨x, ex⟩ := unpack_some hx
  obtain ⟨y, ey⟩ := unpack_some hy
  obtain ⟨d, ed⟩ := unpack_some hd
  obtain ⟨b, eb⟩ := unpack_some hb
  unfold DotProductProof.verify
  simp only [Env.challenge]
  rw [check_true hn, ok_bind, check_true (b := (Gens.single g0 h).n = 1) rfl, ok_bind, ex, ok_bind, ed, ok_bind,
    commitV_eq hw (hn.trans hz.symm), ok_bind, innerProduct_eq hz, ok_bind, ey, ok_bind, eb, ok_bind,
    commit1_single, ok_bind]
  exact Safe.ite (fun _ => Safe.pure trivial) (fun _ => Safe.err)

theorem zkLoop_safe {E : Env F G P} (hE : E.Lawful) {d : Nat} {g0 h : G} {gensn : Gens G} (hw : gensn.WF)
    (hn : gensn.n = d + 1) : ∀ (cps ces : List P) (pfs : List (DotProductProof F P)) (claim : P) (tr : Tr F P),
    cps.length = ces.length → cps.length ≤ pfs.length → (∀ q ∈ pfs.take cps.length, q.z.length = d + 1) →
    (∀ p ∈ cps, (E.decompress p).isSome) → (∀ p ∈ ces, (E.decompress p).isSome) →
    (∀ q ∈ pfs.take cps.length, (E.decompress q.delta).isSome ∧ (E.decompress q.beta).isSome) → (E.decompress claim).isSome →
    Safe (zkVerifyLoop E d (Gens.single g0 h) gensn cps ces pfs claim tr) fun r => r.1.length = cps.length
  | [], _, _, _, _, _, _, _, _, _, _, _ => rfl
  | cp :: cps, [], _, _, _, h1, _, _, _, _, _, _ => by simp at h1
  | cp :: cps, ce :: ces, [], _, _, _, h2, _, _, _, _, _ => by simp at h2
  | cp :: cps, ce :: ces, q :: pfs, claim, tr, h1, h2, hz, hc, he, hq, hcl => by
    unfold zkVerifyLoop
    simp only [Env.challenge]
    obtain ⟨pts, ep, hl⟩ := mapM_decompressU_some (E := E) (ps := [claim, ce])
      (by simp [hcl, he ce (by simp)])
    rw [show idx (ce :: ces) 0 = .ok ce from rfl, ok_bind, ep, ok_bind,
      msm_eq (by rw [challengeVec_length, hl]; rfl), ok_bind, show idx (q :: pfs) 0 = .ok q from rfl, ok_bind]
    refine Safe.bind (dotProduct_safe hw (by rw [zkWeights_length]; exact hn)
      (by rw [zkWeights_length]; exact hz q (by simp)) (hc cp (by simp)) (compress_some hE _)
      (hq q (by simp)).1 (hq q (by simp)).2 _) fun tr' _ => ?_
    refine Safe.bind (zkLoop_safe hE hw hn cps ces pfs ce tr' (by simpa using h1) (by simpa using h2)
      (fun q' h' => hz q' (by simp [h'])) (fun p h' => hc p (by simp [h'])) (fun p h' => he p (by simp [h']))
      (fun q' h' => hq q' (by simp [h'])) (he ce (by simp))) fun r hr => ?_
    exact Safe.pure (by simp [hr])

theorem zkVerify_safe {E : Env F G P} (hE : E.Lawful) {d n : Nat} {g0 h : G} {gensn : Gens G} (hw : gensn.WF)
    (hn : gensn.n = d + 1) {pf : ZKSumcheck F P} (hs : ScShape pf n (d + 1)) (h1 : 1 ≤ n)
    (hp : ∀ p ∈ scPts pf, (E.decompress p).isSome) {claim : P} (hc : (E.decompress claim).isSome)
    (tr : Tr F P) :
    Safe (zkVerify E pf claim n d (Gens.single g0 h) gensn tr) fun r =>
      (E.decompress r.1).isSome ∧ r.2.1.length = n := by
  have hp1 : ∀ p ∈ pf.commPolys, (E.decompress p).isSome := fun p h' => hp p (by simp [scPts, h'])
  have hp2 : ∀ p ∈ pf.commEvals, (E.decompress p).isSome := fun p h' => hp p (by simp [scPts, h'])
  have hp3 : ∀ q ∈ pf.proofs.take pf.commPolys.length,
      (E.decompress q.delta).isSome ∧ (E.decompress q.beta).isSome := fun q h' =>
    ⟨hp _ (List.mem_append.2 (.inr (List.mem_flatMap.2 ⟨q, h', by simp⟩))),
      hp _ (List.mem_append.2 (.inr (List.mem_flatMap.2 ⟨q, h', by simp⟩)))⟩
  unfold zkVerify
  rw [check_true hn, ok_bind, check_true hs.polys, ok_bind, check_true hs.evals, ok_bind]
  refine Safe.bind (zkLoop_safe hE hw hn _ _ _ claim tr (hs.polys.trans hs.evals.symm)
    (by rw [hs.polys]; exact hs.proofs) (by rw [hs.polys]; exact hs.coeffs) hp1 hp2 hp3 hc) ?_
  rintro ⟨rs, t⟩ hr
  simp only at hr ⊢
  have hlt : pf.commEvals.length - 1 < pf.commEvals.length := by rw [hs.evals]; omega
  rw [check_true (by rw [hs.evals]; exact h1), ok_bind,
    show idx pf.commEvals (pf.commEvals.length - 1) = .ok (pf.commEvals[pf.commEvals.length - 1]) by
      simp [idx, hlt], ok_bind]
  exact Safe.pure ⟨hp2 _ (List.getElem_mem hlt), by rw [hr, hs.polys]⟩

theorem bulletChallenges_ne {E : Env F G P} (hu : ∀ t, E.hash (t ++ [.chal "u"]) ≠ 0) :
    ∀ (Ls Rs : List P) (tr : Tr F P), (0 : F) ∉ (bulletChallenges E Ls Rs tr).1
  | [], _, _ => by simp [bulletChallenges]
  | L :: Ls, [], _ => by simp [bulletChallenges]
  | L :: Ls, R :: Rs, tr => by
    simp only [bulletChallenges, Env.challenge, List.mem_cons, not_or]
    exact ⟨(hu _).symm, bulletChallenges_ne hu Ls Rs _⟩

theorem bullet_safe {E : Env F G P} (hu : ∀ t, E.hash (t ++ [.chal "u"]) ≠ 0) {pf : BulletProof P} {n : Nat}
    {a : List F} {Gv : List G} (ha : a.length = n) (hG : n ≤ Gv.length) (hLR : pf.L.length ≤ pf.R.length)
    (hL : ∀ p ∈ pf.L, (E.decompress p).isSome) (hR : ∀ p ∈ pf.R, (E.decompress p).isSome) (Gamma : G)
    (tr : Tr F P) : Safe (pf.verify E n a tr Gamma Gv) fun _ => True := by
  obtain ⟨Ls, eL, lL⟩ := mapM_decompressU_some hL
  obtain ⟨Rs, eR, lR⟩ := mapM_decompressU_some hR
  have hlen : (bulletChallenges E pf.L pf.R tr).1.length = pf.L.length := by
    rw [bulletChallenges_length, min_eq_left hLR]
  have hne := bulletChallenges_ne hu pf.L pf.R tr
  unfold BulletProof.verify
  refine Safe.bind (R := fun r => r.1.length = pf.L.length ∧ r.2.1.length = pf.L.length ∧
    r.2.2.1.length = n) ?_ ?_
  · unfold BulletProof.scalars
    refine Safe.ite (fun _ => Safe.err) fun _ => Safe.ite (fun _ => Safe.err) fun hn => ?_
    push Not at hn
    generalize bulletChallenges E pf.L pf.R tr = u at *
    obtain ⟨us, t⟩ := u
    simp only at hlen hne ⊢
    unfold batchInvert
    rw [if_neg hne, ok_bind, check_true hlen.ge, ok_bind]
    have := sLoop_start us hne
    rw [hn, ← hlen, this, ok_bind]
    refine Safe.pure ⟨?_, ?_, ?_⟩ <;> simp
  · rintro ⟨usq, uinvsq, s, t⟩ ⟨h1, h2, h3⟩
    simp only at h1 h2 h3 ⊢
    rw [eL, ok_bind, eR, ok_bind, msm_eq (by rw [h3]; exact hG), ok_bind,
      innerProduct_eq (ha.trans h3.symm), ok_bind,
      msm_eq (by simp only [List.length_append, h1, h2, List.length_singleton, lL, lR]; omega), ok_bind]
    exact Safe.pure trivial

theorem dotLog_safe {E : Env F G P} (hu : ∀ t, E.hash (t ++ [.chal "u"]) ≠ 0) {pf : DotProductProofLog F P}
    {k : Nat} {gens : DotGens G} {g0 h : G} (hg : gens.WF k g0 h) {a : List F} (ha : a.length = 2 ^ k)
    {Cx Cy : P} (hx : (E.decompress Cx).isSome) (hy : (E.decompress Cy).isSome)
    (hLR : pf.bullet.L.length ≤ pf.bullet.R.length)
    (hL : ∀ p ∈ pf.bullet.L, (E.decompress p).isSome) (hR : ∀ p ∈ pf.bullet.R, (E.decompress p).isSome)
    (hd : (E.decompress pf.delta).isSome) (hb : (E.decompress pf.beta).isSome) (tr : Tr F P) :
    Safe (softDotLog E pf (2 ^ k) gens tr a Cx Cy) fun _ => True := by
  obtain ⟨x, ex⟩ := unpack_some hx
  obtain ⟨y, ey⟩ := unpack_some hy
  obtain ⟨d, ed⟩ := unpack_some hd
  obtain ⟨b, eb⟩ := unpack_some hb
  unfold softDotLog
  simp only [Env.challenge]
  rw [check_true hg.n, ok_bind, check_true ha, ok_bind, hg.g1, scale_single, ok_bind, ex, ok_bind, ey, ok_bind]
  refine Safe.bind (bullet_safe hu ha hg.glen.ge hLR hL hR _ _) ?_
  rintro ⟨gh, Gh, ah, t⟩ -
  simp only
  rw [eb, ok_bind, ed, ok_bind]
  exact Safe.ite (fun _ => Safe.pure trivial) (fun _ => Safe.err)

theorem polyEval_safe {E : Env F G P} (hE : E.Lawful) (hu : ∀ t, E.hash (t ++ [.chal "u"]) ≠ 0)
    {pf : DotProductProofLog F P} {gens : DotGens G} {g0 h : G} {r : List F}
    (hg : gens.WF (r.length - r.length / 2) g0 h) {Czr : P} {comm : List P}
    (hc : 2 ^ (r.length / 2) ≤ comm.length) (hcp : ∀ p ∈ comm, (E.decompress p).isSome)
    (hy : (E.decompress Czr).isSome)
    (hLR : pf.bullet.L.length ≤ pf.bullet.R.length)
    (hL : ∀ p ∈ pf.bullet.L, (E.decompress p).isSome) (hR : ∀ p ∈ pf.bullet.R, (E.decompress p).isSome)
    (hd : (E.decompress pf.delta).isSome) (hb : (E.decompress pf.beta).isSome) (tr : Tr F P) :
    Safe (softPolyEval E pf gens tr r Czr comm) fun _ => True := by
  obtain ⟨l1, l2, -⟩ := factoredEvals_correct r
  obtain ⟨C, eC, lC⟩ := mapM_decompressU_some hcp
  unfold softPolyEval
  simp only
  rw [eC, ok_bind, msm_eq (by rw [l1, lC]; exact hc), ok_bind, l2]
  exact dotLog_safe hu hg l2 (compress_some hE _) hy hLR hL hR hd hb _

theorem r1cs_safe {E : Env F G P} (hE : E.Lawful) (hu : ∀ t, E.hash (t ++ [.chal "u"]) ≠ 0) {k j : Nat}
    (hk : 1 ≤ k) {gens : R1CSGens G} {g0 h : G} (hg : gens.WF j g0 h) {pf : NIZK F P}
    (hs : NizkShape E pf k j) (input : List F) (evals : F × F × F) (tr : Tr F P) :
    Safe (softR1CS E pf.sat (2 ^ j) (2 ^ k) input evals gens tr) fun r => r.1.length = k ∧ r.2.1.length = j + 1 := by
  have hp := hs.points
  simp only [nizkPts, List.mem_append] at hp
  have h1 : ∀ p ∈ scPts pf.sat.sc1, (E.decompress p).isSome := fun p m => hp p (by tauto)
  have h2 : ∀ p ∈ scPts pf.sat.sc2, (E.decompress p).isSome := fun p m => hp p (by tauto)
  have h0 : ∀ p ∈ pf.sat.commVars, (E.decompress p).isSome := fun p m => hp p (by tauto)
  have hL : ∀ p ∈ pf.sat.evalVars.bullet.L, (E.decompress p).isSome := fun p m => hp p (by tauto)
  have hR : ∀ p ∈ pf.sat.evalVars.bullet.R, (E.decompress p).isSome := fun p m => hp p (by tauto)
  have hq : ∀ p ∈ [pf.sat.commAz, pf.sat.commBz, pf.sat.commCz, pf.sat.commProd, pf.sat.commVarsAtRy,
      pf.sat.pokCz.alpha, pf.sat.proofProd.alpha, pf.sat.proofProd.beta, pf.sat.proofProd.delta,
      pf.sat.eq1.alpha, pf.sat.eq2.alpha, pf.sat.evalVars.delta, pf.sat.evalVars.beta],
      (E.decompress p).isSome := fun p m => hp p (by tauto)
  clear hp
  simp only [List.mem_cons, List.not_mem_nil, or_false, forall_eq_or_imp, forall_eq] at hq
  obtain ⟨qA, qB, qC, qP, qV, q1, q2, q3, q4, q5, q6, q7, q8⟩ := hq
  obtain ⟨A, eA⟩ := decompressU_some qA
  obtain ⟨B, eB⟩ := decompressU_some qB
  obtain ⟨C, eC⟩ := decompressU_some qC
  obtain ⟨Q, eQ⟩ := decompressU_some qP
  obtain ⟨V, eV⟩ := decompressU_some qV
  unfold softR1CS
  simp only [Env.challenge]
  rw [log2_pow, ok_bind, show 2 * 2 ^ j = 2 ^ (j + 1) by rw [pow_succ, mul_comm], log2_pow, ok_bind, hg.g1,
    commit1_single, ok_bind]
  refine Safe.bind (zkVerify_safe hE hg.g4.1 hg.g4.2 hs.sc1 hk h1 (compress_some hE _) _) ?_
  rintro ⟨cp1, rx, t1⟩ ⟨c1, l1⟩
  simp only at c1 l1 ⊢
  refine Safe.bind (knowledge_safe qC q1 _) fun t2 _ => ?_
  refine Safe.bind (product_safe qA qB qP q2 q3 q4 _) fun t3 _ => ?_
  rw [tausBound_eq (by rw [challengeVec_length, l1]), ok_bind, eQ, ok_bind, eC, ok_bind]
  refine Safe.bind (equality_safe (compress_some hE _) c1 q5 _) fun t4 _ => ?_
  simp only [eA, eB, ok_bind, msm3]
  refine Safe.bind (zkVerify_safe hE hg.g3.1 hg.g3.2 hs.sc2 (by omega) h2 (compress_some hE _) _) ?_
  rintro ⟨cp2, ry, t5⟩ ⟨c2, l2⟩
  simp only at c2 l2 ⊢
  have l3 : (ry.drop 1).length = j := by rw [List.length_drop, l2]; omega
  rw [check_true (by rw [l2]; omega), ok_bind]
  refine Safe.bind (polyEval_safe hE hu (by rw [l3]; exact hg.pc) (by rw [l3]; exact hs.comm) h0 qV hs.bullet
    hL hR q7 q8 _) fun t6 _ => ?_
  have es := sparseEvaluate_eq (inputEntries input) (ry.drop 1)
  rw [l3] at es
  rw [log2_pow, ok_bind, es, ok_bind, eV, ok_bind, hg.pc.g1, commit1_single, ok_bind, msm2, ok_bind]
  refine Safe.bind (equality_safe (compress_some hE _) c2 q6 _) fun t7 _ => ?_
  exact Safe.pure ⟨l1, l2⟩

/-- The first call panics where the second returns `Err(InternalError)`; otherwise they agree. -/
def Soft {α : Type} (o o' : Out α) : Prop :=
  o = o' ∨ (o = .error .panic ∧ o' = .error (.err .internalError))

theorem Soft.same0 {α : Type} {o : Out α} : Soft o o := .inl (Eq.refl _)

end Spartan
