import Verif.Spec.SoftSnark
import Verif.Props.Graceful
import Verif.Props.SNARKSound
import Verif.Lemmas.SnarkSize

/-!
# C104: which proofs make the SNARK verifier panic

As for C94: a proof that `SNARK::verify` accepts has the expected shape, and a proof of the expected shape can
make it panic only at assertions on values, those that `Spec/SoftSnark.lean` turns into errors.
-/

set_option linter.unusedSectionVars false

namespace Spartan
open Spec
variable {F G P : Type} [Field F] [AddCommGroup G] [Module F G]
  [DecidableEq F] [DecidableEq P] [DecidableEq G]

/-! ### the verifier and its variant with errors -/

theorem Soft.mapM {α β : Type} {f f' : α → Out β} (hf : ∀ a, Soft (f a) (f' a)) :
    ∀ l : List α, Soft (l.mapM f) (l.mapM f')
  | [] => by rw [List.mapM_nil, List.mapM_nil]; exact Soft.same0
  | a :: l => by
    rw [List.mapM_cons, List.mapM_cons]
    exact Soft.bind (hf a) fun _ => Soft.bind (Soft.mapM hf l) fun _ => Soft.same0

theorem scRound_soft (E : Env F G P) (deg : Nat) (cp : CompressedUniPoly F) (e : F) (tr : Tr F P) :
    Soft (scVerifyRound E deg cp e tr) (softScRound E deg cp e tr) := by
  unfold scVerifyRound softScRound
  exact Soft.same fun _ => Soft.same fun _ => Soft.same fun _ => Soft.same fun _ =>
    Soft.bind (Soft.check _) fun _ => Soft.same0

theorem scLoop_soft (E : Env F G P) (deg : Nat) : ∀ (cps : List (CompressedUniPoly F)) (e : F) (tr : Tr F P),
    Soft (scVerifyLoop E deg cps e tr) (softScLoop E deg cps e tr)
  | [], _, _ => Soft.same0
  | cp :: cps, e, tr => by
    unfold scVerifyLoop softScLoop
    exact Soft.bind (scRound_soft _ _ _ _ _) fun _ => Soft.bind (scLoop_soft E deg cps _ _) fun _ => Soft.same0

theorem sc_soft (E : Env F G P) (cps : List (CompressedUniPoly F)) (e : F) (n deg : Nat) (tr : Tr F P) :
    Soft (scVerify E cps e n deg tr) (softSc E cps e n deg tr) := by
  unfold scVerify softSc
  exact Soft.same fun _ => scLoop_soft _ _ _ _ _

theorem prodLoop_soft (E : Env F G P) (m : Nat) (cd : List F) (pf : ProdProofBatched F) :
    ∀ (lps : List (LayerProofBatched F)) (k : Nat) (claims dclaims rand : List F) (tr : Tr F P),
    Soft (prodBVerifyLoop E m cd pf lps k claims dclaims rand tr)
      (softProdLoop E m cd pf lps k claims dclaims rand tr)
  | [], _, _, _, _, _ => Soft.same0
  | lp :: lps, k, claims, dclaims, rand, tr => by
    unfold prodBVerifyLoop softProdLoop
    refine Soft.bind (sc_soft _ _ _ _ _ _) fun _ => Soft.same fun _ => Soft.same fun _ => Soft.same fun _ =>
      Soft.same fun _ => ?_
    cases lps with
    | nil =>
      simp only [List.isEmpty_nil, if_true]
      exact Soft.same fun _ => Soft.same fun _ => Soft.bind (Soft.check _) fun _ => Soft.same fun _ => Soft.same
        fun _ => prodLoop_soft E m cd pf _ _ _ _ _ _
    | cons lp' lps =>
      simp only [List.isEmpty_cons, Bool.false_eq_true, if_false]
      exact Soft.same fun _ => Soft.bind (Soft.check _) fun _ => Soft.same
        fun _ => prodLoop_soft E m cd pf _ _ _ _ _ _

theorem prod_soft (E : Env F G P) (pf : ProdProofBatched F) (cp cd : List F) (len : Nat) (tr : Tr F P) :
    Soft (prodBVerify E pf cp cd len tr) (softProd E pf cp cd len tr) := by
  unfold prodBVerify softProd
  exact Soft.same fun _ => Soft.same fun _ => prodLoop_soft _ _ _ _ _ _ _ _ _ _

theorem memEvals_soft (n : Nat) (e : MemEvals F) : Soft (memEvalsCheck n e) (softMemEvals n e) := by
  unfold memEvalsCheck softMemEvals
  exact Soft.same fun _ => Soft.same fun _ => Soft.check _

theorem dotpLoop_soft : ∀ (es ls rs : List F) (tr : Tr F P),
    Soft (dotpCheckLoop es ls rs tr) (softDotpLoop es ls rs tr)
  | [], _, _, _ => Soft.same0
  | _ :: _, [], _, _ => Soft.same0
  | _ :: _, _ :: _, [], _ => Soft.same0
  | e :: es, l :: ls, r :: rs, tr => by
    unfold dotpCheckLoop softDotpLoop
    exact Soft.bind (Soft.check _) fun _ => Soft.bind (dotpLoop_soft es ls rs _) fun _ => Soft.same0

theorem prodLayer_soft (E : Env F G P) (pf : ProdLayerProof F) (a b : Nat) (eval : List F) (tr : Tr F P) :
    Soft (prodLayerVerify E pf a b eval tr) (softProdLayer E pf a b eval tr) := by
  unfold prodLayerVerify softProdLayer
  exact Soft.bind (memEvals_soft _ _) fun _ => Soft.bind (memEvals_soft _ _) fun _ => Soft.same fun _ =>
    Soft.bind (dotpLoop_soft _ _ _ _) fun _ => Soft.bind (prod_soft _ _ _ _ _ _) fun _ =>
    Soft.bind (prod_soft _ _ _ _ _ _) fun _ => Soft.same0

theorem polyEvalPlain_soft (E : Env F G P) (pf : DotProductProofLog F P) (gens : DotGens G) (tr : Tr F P)
    (r : List F) (Zr : F) (comm : List P) :
    Soft (polyEvalVerifyPlain E pf gens tr r Zr comm) (softPolyEvalPlain E pf gens tr r Zr comm) := by
  unfold polyEvalVerifyPlain softPolyEvalPlain
  exact Soft.same fun _ => polyEval_soft _ _ _ _ _ _ _

theorem derefs_soft (E : Env F G P) (pf : DotProductProofLog F P) (r er ec : List F) (gens : DotGens G)
    (comm : List P) (tr : Tr F P) :
    Soft (derefsVerify E pf r er ec gens comm tr) (softDerefs E pf r er ec gens comm tr) := by
  unfold derefsVerify softDerefs
  exact Soft.same fun _ => polyEvalPlain_soft _ _ _ _ _ _ _

theorem hashOps_soft (rh g : F) (ops addr ts cr cw : List F) :
    Soft (hashOpsCheck rh g ops addr ts cr cw) (softHashOps rh g ops addr ts cr cw) := by
  unfold hashOpsCheck softHashOps
  refine Soft.bind (Soft.mapM (fun _ => ?_) _) fun _ => Soft.bind (Soft.mapM (fun _ => ?_) _) fun _ => Soft.same0
  · exact Soft.same fun _ => Soft.same fun _ => Soft.same fun _ => Soft.same fun _ => Soft.check _
  · exact Soft.same fun _ => Soft.same fun _ => Soft.same fun _ => Soft.same fun _ => Soft.check _

theorem hashHelper_soft (rm : List F) (cl : MemClaims F) (ops : List F) (e : AddrEvals F) (r : List F) (rh g : F) :
    Soft (hashLayerVerifyHelper rm cl ops e r rh g) (softHashHelper rm cl ops e r rh g) := by
  unfold hashLayerVerifyHelper softHashHelper
  exact Soft.same fun _ => Soft.same fun _ => Soft.bind (Soft.check _) fun _ =>
    Soft.bind (hashOps_soft _ _ _ _ _ _ _) fun _ => Soft.check _

theorem dotpClaims_soft (cl row col val : List F) :
    Soft (dotpClaimsCheck cl row col val) (softDotpClaims cl row col val) := by
  unfold dotpClaimsCheck softDotpClaims
  refine Soft.same fun _ => Soft.bind (Soft.mapM (fun _ => ?_) _) fun _ => Soft.same0
  exact Soft.same fun _ => Soft.same fun _ => Soft.same fun _ => Soft.same fun _ => Soft.bind (Soft.check _) fun _ =>
    Soft.same fun _ => Soft.bind (Soft.check _) fun _ => Soft.same fun _ => Soft.check _

theorem hashLayer_soft (E : Env F G P) (pf : HashLayerProof F P) (rm ro : List F) (c1 c2 : MemClaims F)
    (cd : List F) (comm : SparseComm P) (gens : SparseGens G) (cDer : List P) (rx ry : List F) (rh g : F)
    (tr : Tr F P) :
    Soft (hashLayerVerify E pf rm ro c1 c2 cd comm gens cDer rx ry rh g tr)
      (softHashLayer E pf rm ro c1 c2 cd comm gens cDer rx ry rh g tr) := by
  unfold hashLayerVerify softHashLayer
  exact Soft.same fun _ => Soft.bind (derefs_soft _ _ _ _ _ _ _ _) fun _ => Soft.bind (dotpClaims_soft _ _ _ _)
    fun _ => Soft.same fun _ => Soft.bind (polyEvalPlain_soft _ _ _ _ _ _ _) fun _ => Soft.same fun _ =>
    Soft.bind (polyEvalPlain_soft _ _ _ _ _ _ _) fun _ => Soft.bind (hashHelper_soft _ _ _ _ _ _ _) fun _ =>
    Soft.bind (hashHelper_soft _ _ _ _ _ _ _) fun _ => Soft.same0

theorem sparse_soft (E : Env F G P) (pf : SparseEvalProof F P) (comm : SparseComm P) (rx ry evals : List F)
    (gens : SparseGens G) (tr : Tr F P) :
    Soft (sparseVerify E pf comm rx ry evals gens tr) (softSparse E pf comm rx ry evals gens tr) := by
  unfold sparseVerify softSparse
  refine Soft.same fun _ => ?_
  unfold netVerify softNet
  exact Soft.same fun _ => Soft.bind (prodLayer_soft _ _ _ _ _ _) fun _ => Soft.same fun _ => Soft.same fun _ =>
    Soft.same fun _ => hashLayer_soft _ _ _ _ _ _ _ _ _ _ _ _ _ _ _

/-- C104: on every proof object, commitment, input and transcript, `SNARK::verify` does what the variant does that
reports its assertions on values as errors, except that it panics where the variant returns
`Err(InternalError)`. -/
theorem snark_soft (E : Env F G P) (pf : SNARK F P) (comm : R1CSComm P) (input : List F) (gens : SNARKGens G)
    (tr : Tr F P) :
    SNARK.verify E pf comm input gens tr = softSNARK E pf comm input gens tr ∨
      (SNARK.verify E pf comm input gens tr = .error .panic ∧
        softSNARK E pf comm input gens tr = .error (.err .internalError)) := by
  show Soft _ _
  unfold SNARK.verify softSNARK
  exact Soft.same fun _ => Soft.bind (r1cs_soft _ _ _ _ _ _ _ _) fun _ => sparse_soft _ _ _ _ _ _ _ _

/-! ### proofs of the expected shape -/

theorem ensure_safe (b : Prop) [Decidable b] : Safe (ensure b) fun _ => True := by
  unfold ensure
  exact Safe.ite (fun _ => Safe.ok trivial) (fun _ => Safe.err)

theorem Safe.mapM {α β : Type} {f : α → Out β} : ∀ {l : List α}, (∀ a ∈ l, Safe (f a) fun _ => True) →
    Safe (l.mapM f) fun _ => True
  | [], _ => by rw [List.mapM_nil]; exact Safe.pure trivial
  | a :: l, h => by
    rw [List.mapM_cons]
    exact Safe.bind (h a (by simp)) fun _ _ => Safe.bind (Safe.mapM fun b hb => h b (by simp [hb])) fun _ _ =>
      Safe.pure trivial

theorem scRound_safe (E : Env F G P) {cp : CompressedUniPoly F} (h : cp.coeffs.length = 3) (e : F) (tr : Tr F P) :
    Safe (softScRound E 3 cp e tr) fun _ => True := by
  obtain ⟨⟨_ | ⟨c0, cs⟩⟩⟩ := cp
  · simp at h
  simp only [List.length_cons] at h
  unfold softScRound CompressedUniPoly.decompress
  simp only
  rw [ok_bind]
  unfold UniPoly.degree UniPoly.evalAtZero UniPoly.evaluate
  simp only [List.length_cons]
  rw [check_true (by omega), ok_bind, pure_ok, ok_bind, check_true (by omega), ok_bind, ok_bind]
  refine Safe.bind (ensure_safe _) fun _ _ => ?_
  rw [ok_bind]
  exact Safe.pure trivial

theorem scLoop_safe (E : Env F G P) : ∀ {cps : List (CompressedUniPoly F)}, (∀ q ∈ cps, q.coeffs.length = 3) →
    ∀ (e : F) (tr : Tr F P), Safe (softScLoop E 3 cps e tr) fun r => r.2.1.length = cps.length
  | [], _, _, _ => rfl
  | cp :: cps, h, e, tr => by
    unfold softScLoop
    refine Safe.bind (scRound_safe E (h cp (by simp)) _ _) fun _ _ => ?_
    refine Safe.bind (scLoop_safe E (fun q hq => h q (by simp [hq])) _ _) fun r hr => ?_
    exact Safe.pure (by simp [hr])

theorem sc_safe (E : Env F G P) {cps : List (CompressedUniPoly F)} (h : ∀ q ∈ cps, q.coeffs.length = 3) {n : Nat}
    (hn : cps.length = n) (e : F) (tr : Tr F P) : Safe (softSc E cps e n 3 tr) fun r => r.2.1.length = n := by
  unfold softSc
  rw [check_true hn, ok_bind, ← hn]
  exact scLoop_safe E h e tr

theorem nextClaims_len (rl : F) {l r : List F} {m : Nat} (hl : l.length = m) (hr : r.length = m) :
    (nextClaims rl l r).length = m := by
  simp [nextClaims, hl, hr]

theorem dotpNext_len (rl : F) (k : Nat) (L R W : List F) : (dotpNext rl k L R W).length = 3 * k := by
  unfold dotpNext
  simp [List.length_flatMap, Nat.mul_comm]

theorem prodLoop_safe (E : Env F G P) {m d : Nat} {cd : List F} (hcd : cd.length = 2 * d) {pf : ProdProofBatched F}
    (hL : pf.dotpL.length = 2 * d) (hR : 2 * d ≤ pf.dotpR.length) (hW : 2 * d ≤ pf.dotpW.length) :
    ∀ (lps : List (LayerProofBatched F)) (k : Nat) (claims dclaims rand : List F) (tr : Tr F P),
    claims.length = m → rand.length = k →
    (∀ (i : Nat) (lp : LayerProofBatched F), lps[i]? = some lp → lp.proof.length = k + i ∧
      (∀ q ∈ lp.proof, q.coeffs.length = 3) ∧ lp.left.length = m ∧ lp.right.length = m) →
    Safe (softProdLoop E m cd pf lps k claims dclaims rand tr) fun r =>
      r.1.length = m ∧ (r.2.1.length = 3 * d ∨ lps = []) ∧ r.2.2.1.length = k + lps.length
  | [], k, claims, dclaims, rand, tr, h1, h2, _ => Safe.ok ⟨h1, .inr rfl, h2⟩
  | lp :: lps, k, claims, dclaims, rand, tr, h1, h2, h3 => by
    obtain ⟨a1, a2, a3, a4⟩ := h3 0 lp rfl
    unfold softProdLoop
    simp only [Env.challenge]
    refine Safe.bind (sc_safe E a2 (by simpa using a1) _ _) ?_
    rintro ⟨cl, rp, t1⟩ l1
    simp only at l1 ⊢
    unfold eqEvaluate
    rw [check_true a3, ok_bind, check_true a4, ok_bind, check_true (h2.trans l1.symm), ok_bind, pure_ok, ok_bind]
    have hd : cd.length / 2 = d := by omega
    cases lps with
    | nil =>
      simp only [List.isEmpty_nil, if_true]
      rw [challengeVec_length, check_true (by rw [List.length_append]; omega), ok_bind,
        check_true (by rw [List.length_append]; omega), ok_bind, pure_ok, ok_bind]
      refine Safe.bind (ensure_safe _) fun _ _ => ?_
      rw [check_true (by omega), ok_bind, pure_ok, ok_bind]
      unfold softProdLoop
      exact Safe.ok ⟨nextClaims_len _ a3 a4, .inl (by rw [dotpNext_len, hd]), by simp [l1]⟩
    | cons lp' lps =>
      simp only [List.isEmpty_cons, Bool.false_eq_true, if_false]
      rw [challengeVec_length, check_true (by omega), ok_bind, pure_ok, ok_bind]
      refine Safe.bind (ensure_safe _) fun _ _ => ?_
      rw [pure_ok, ok_bind]
      refine (prodLoop_safe E hcd hL hR hW (lp' :: lps) (k + 1) _ _ _ _ (nextClaims_len _ a3 a4) (by simp [l1])
        (fun i q hq => ?_)).mono ?_
      · obtain ⟨c1, c2⟩ := h3 (i + 1) q (by simpa using hq)
        exact ⟨by omega, c2⟩
      · rintro r ⟨b1, b2, b3⟩
        refine ⟨b1, ?_, by rw [b3]; simp; omega⟩
        rcases b2 with b2 | b2
        · exact .inl b2
        · cases b2

theorem prod_safe (E : Env F G P) {n m d : Nat} {cp cd : List F} (hn : 1 ≤ n) (hcp : cp.length = m)
    (hcd : cd.length = 2 * d) {pf : ProdProofBatched F} (hs : ProdShape pf n m (2 * d)) (tr : Tr F P) :
    Safe (softProd E pf cp cd (2 ^ n) tr) fun r =>
      r.1.length = m ∧ r.2.1.length = 3 * d ∧ r.2.2.1.length = n := by
  unfold softProd
  rw [log2_pow, ok_bind, check_true hs.layers, ok_bind, hcp]
  refine (prodLoop_safe E hcd hs.dotpL hs.dotpR hs.dotpW pf.proof 0 cp [] [] tr hcp rfl (fun i lp h => ?_)).mono ?_
  · rw [Nat.zero_add]; exact hs.layer i lp h
  · rintro r ⟨b1, b2, b3⟩
    refine ⟨b1, ?_, by rw [b3, hs.layers, Nat.zero_add]⟩
    rcases b2 with b2 | b2
    · exact b2
    · have := hs.layers; rw [b2] at this; simp at this; omega

theorem memEvals_safe {n : Nat} {e : MemEvals F} (h1 : e.read.length = n) (h2 : e.write.length = n) :
    Safe (softMemEvals n e) fun _ => True := by
  unfold softMemEvals
  rw [check_true h2, ok_bind, check_true h1, ok_bind]
  exact ensure_safe _

theorem dotpLoop_safe : ∀ {es ls rs : List F} (_ : es.length ≤ ls.length) (_ : es.length ≤ rs.length) (tr : Tr F P),
    Safe (softDotpLoop es ls rs tr) fun r => r.1.length = 2 * es.length
  | [], _, _, _, _, _ => rfl
  | _ :: _, [], _, h, _, _ => by simp at h
  | _ :: _, _ :: _, [], _, h, _ => by simp at h
  | e :: es, l :: ls, r :: rs, h1, h2, tr => by
    unfold softDotpLoop
    refine Safe.bind (ensure_safe _) fun _ _ => ?_
    refine Safe.bind (dotpLoop_safe (by simpa using h1) (by simpa using h2) _) fun q hq => ?_
    exact Safe.pure (by simp [hq]; omega)

theorem prodLayer_safe (E : Env F G P) {pf : ProdLayerProof F} {m n : Nat} (hm : 1 ≤ m) (hn : 1 ≤ n)
    (h1 : pf.row.read.length = 3 ∧ pf.row.write.length = 3) (h2 : pf.col.read.length = 3 ∧ pf.col.write.length = 3)
    (h3 : pf.dotpL.length = 3 ∧ 3 ≤ pf.dotpR.length) (ho : ProdShape pf.ops n 12 6) (hme : ProdShape pf.mem m 4 0)
    {eval : List F} (he : eval.length = 3) (tr : Tr F P) :
    Safe (softProdLayer E pf (2 ^ n) (2 ^ m) eval tr) fun r => r.1.length = 4 ∧ r.2.1.length = m ∧
      r.2.2.1.length = 12 ∧ r.2.2.2.1.length = 9 ∧ r.2.2.2.2.1.length = n := by
  unfold softProdLayer
  refine Safe.bind (memEvals_safe (h1.1.trans he.symm) (h1.2.trans he.symm)) fun _ _ => ?_
  refine Safe.bind (memEvals_safe (h2.1.trans he.symm) (h2.2.trans he.symm)) fun _ _ => ?_
  rw [check_true (h3.1.trans he.symm), ok_bind]
  refine Safe.bind (dotpLoop_safe (by rw [he, h3.1]) (by rw [he]; exact h3.2) _) ?_
  rintro ⟨cd, t⟩ hcd
  simp only at hcd ⊢
  rw [he] at hcd
  refine Safe.bind (prod_safe E (d := 3) hn (by simp [h1, h2]) hcd ho _) ?_
  rintro ⟨c1, d1, r1, t1⟩ ⟨a1, a2, a3⟩
  simp only at a1 a2 a3 ⊢
  refine Safe.bind (prod_safe E (m := 4) (d := 0) hm rfl rfl hme _) ?_
  rintro ⟨c2, d2, r2, t2⟩ ⟨b1, b2, b3⟩
  exact Safe.pure ⟨b1, b3, a1, a2, a3⟩

theorem polyEvalPlain_safe {E : Env F G P} (hE : E.Lawful) (hu : ∀ t, E.hash (t ++ [.chal "u"]) ≠ 0)
    {pf : DotProductProofLog F P} {gens : DotGens G} {g0 h : G} {r : List F}
    (hg : gens.WF (r.length - r.length / 2) g0 h) {comm : List P}
    (hc : 2 ^ (r.length / 2) ≤ comm.length) (hcp : ∀ p ∈ comm, (E.decompress p).isSome) (hs : OpenShape E pf)
    (v : F) (tr : Tr F P) : Safe (softPolyEvalPlain E pf gens tr r v comm) fun _ => True := by
  unfold softPolyEvalPlain
  rw [hg.g1, commit1_single, ok_bind]
  have hp := hs.points
  exact polyEval_safe hE hu hg hc hcp (compress_some hE _) hs.bullet (fun p m => hp p (by simp [m]))
    (fun p m => hp p (by simp [m])) (hp _ (by simp)) (hp _ (by simp)) _

theorem combine_safe (E : Env F G P) (l : String) {v : List F} {c : Nat} (h : v.length = 2 ^ c)
    (tr : Tr F P) : Safe (combineEvals E l v tr) fun r => r.1.length = c := by
  rw [combineEvals_eq E l h tr]
  exact Safe.ok (challengeVec_length _ _ _ _)

theorem padPow2_pow (v : List F) : (padPow2 v).length = 2 ^ Nat.clog 2 v.length := padPow2_length

theorem derefs_safe {E : Env F G P} (hE : E.Lawful) (hu : ∀ t, E.hash (t ++ [.chal "u"]) ≠ 0)
    {pf : DotProductProofLog F P} {n : Nat} {r er ec : List F} (hr : r.length = n) (h1 : er.length = 3)
    (h2 : ec.length = 3) {gens : DotGens G} {g0 h : G} (hg : gens.WF ((3 + n) - (3 + n) / 2) g0 h) {comm : List P}
    (hc : 2 ^ ((3 + n) / 2) ≤ comm.length) (hcp : ∀ p ∈ comm, (E.decompress p).isSome) (hs : OpenShape E pf)
    (tr : Tr F P) : Safe (softDerefs E pf r er ec gens comm tr) fun _ => True := by
  unfold softDerefs
  have c8 : Nat.clog 2 6 = 3 := by decide +kernel
  refine Safe.bind (combine_safe E _ (c := 3) (by rw [padPow2_pow, List.length_append, h1, h2, c8]) _) ?_
  rintro ⟨cs, v, t⟩ hl
  simp only at hl ⊢
  have : (cs ++ r).length = 3 + n := by rw [List.length_append, hl, hr]
  exact polyEvalPlain_safe hE hu (by rw [this]; exact hg) (by rw [this]; exact hc) hcp hs _ _

theorem hashOps_safe (rh g : F) {ops addr ts cr cw : List F} (h1 : addr.length ≤ ops.length)
    (h2 : addr.length ≤ ts.length) (h3 : addr.length ≤ cr.length) (h4 : addr.length ≤ cw.length) :
    Safe (softHashOps rh g ops addr ts cr cw) fun _ => True := by
  unfold softHashOps
  refine Safe.bind (Safe.mapM fun i hi => ?_) fun _ _ => Safe.bind (Safe.mapM fun i hi => ?_) fun _ _ =>
    Safe.pure trivial
  all_goals
    rw [List.mem_range] at hi
    rw [idx_ok (by omega) 0, ok_bind, idx_ok (by omega) 0, ok_bind, idx_ok (by omega) 0, ok_bind,
      idx_ok (by omega) 0, ok_bind]
    exact ensure_safe _

theorem hashHelper_safe {rm : List F} {cl : MemClaims F} {ops : List F} {e : AddrEvals F} {r : List F} (rh g : F)
    (hr : r.length = rm.length) (ho : ops.length = 3) (hcl : cl.read.length = 3 ∧ cl.write.length = 3)
    (he : AddrShape e) : Safe (softHashHelper rm cl ops e r rh g) fun _ => True := by
  have := he.addr
  have := he.ts
  unfold softHashHelper identityEvaluate eqEvaluate
  rw [check_true rfl, ok_bind, pure_ok, ok_bind, check_true hr, ok_bind, pure_ok, ok_bind]
  refine Safe.bind (ensure_safe _) fun _ _ => ?_
  refine Safe.bind (hashOps_safe rh g (by omega) (by omega) (by omega) (by omega)) fun _ _ => ensure_safe _

theorem dotpClaims_safe {cl row col val : List F} (h1 : cl.length = 9) (h2 : row.length = 3) (h3 : col.length = 3)
    (h4 : 3 ≤ val.length) : Safe (softDotpClaims cl row col val) fun _ => True := by
  unfold softDotpClaims
  rw [check_true (by omega), ok_bind]
  refine Safe.bind (Safe.mapM fun i hi => ?_) fun _ _ => Safe.pure trivial
  rw [List.mem_range] at hi
  rw [idx_ok (by omega) 0, ok_bind, idx_ok (by omega) 0, ok_bind, idx_ok (by omega) 0, ok_bind,
    idx_ok (by omega) 0, ok_bind]
  refine Safe.bind (ensure_safe _) fun _ _ => ?_
  rw [idx_ok (by omega) 0, ok_bind]
  refine Safe.bind (ensure_safe _) fun _ _ => ?_
  rw [idx_ok (by omega) 0, ok_bind]
  exact ensure_safe _

/-- What the verifier relies on about a commitment. -/
structure CommShape (E : Env F G P) (c : SparseComm P) (m n : Nat) : Prop where
  numOps : c.numOps = 2 ^ n
  numCells : c.numCells = 2 ^ m
  ops : c.ops.length = 2 ^ ((4 + n) / 2)
  mem : c.mem.length = 2 ^ ((m + 1) / 2)
  opsPts : ∀ p ∈ c.ops, (E.decompress p).isSome
  memPts : ∀ p ∈ c.mem, (E.decompress p).isSome

theorem evalsOps_clog (h : HashLayerProof F P) :
    (evalsOps h.row h.col h.val).length = 2 ^ Nat.clog 2 (opened h) := by
  unfold evalsOps
  rw [padPow2_pow]
  congr 2
  simp only [List.length_append, opened]

theorem clog_between {a c : Nat} (h1 : 2 ^ c < a) (h2 : a ≤ 2 ^ (c + 1)) : Nat.clog 2 a = c + 1 :=
  le_antisymm (Nat.clog_le_of_le_pow h2) (Nat.lt_of_not_le fun h =>
    absurd ((Nat.le_pow_clog (by norm_num) a).trans (Nat.pow_le_pow_right (by norm_num) h)) (by omega))

theorem hashLayer_safe {E : Env F G P} (hE : E.Lawful) (hu : ∀ t, E.hash (t ++ [.chal "u"]) ≠ 0) {m n : Nat}
    {pf : HashLayerProof F P} {rm ro : List F} (hrm : rm.length = m) (hro : ro.length = n) {c1 c2 : MemClaims F}
    (hc1 : c1.read.length = 3 ∧ c1.write.length = 3) (hc2 : c2.read.length = 3 ∧ c2.write.length = 3)
    {cd : List F} (hcd : cd.length = 9) {comm : SparseComm P} (hcm : CommShape E comm m n) {gens : SparseGens G}
    {a0 a1 a2 a3 a4 a5 : G} (hg : gens.WF m n a0 a1 a2 a3 a4 a5) {cDer : List P}
    (hd : 2 ^ ((3 + n) / 2) ≤ cDer.length) (hdp : ∀ p ∈ cDer, (E.decompress p).isSome)
    (hv : pf.derefRow.length = 3 ∧ pf.derefCol.length = 3) (hrow : AddrShape pf.row) (hcol : AddrShape pf.col)
    (hval : 3 ≤ pf.val.length)
    (ht : (8 < opened pf ∧ opened pf ≤ 16) ∨ (n % 2 = 0 ∧ 4 < opened pf ∧ opened pf ≤ 8))
    (ho : OpenShape E pf.ops) (hm : OpenShape E pf.mem) (hde : OpenShape E pf.derefs) {rx ry : List F}
    (hrx : rx.length = m) (hry : ry.length = m) (rh g : F) (tr : Tr F P) :
    Safe (softHashLayer E pf rm ro c1 c2 cd comm gens cDer rx ry rh g tr) fun _ => True := by
  unfold softHashLayer
  rw [check_true (hv.1.trans hv.2.symm), ok_bind]
  refine Safe.bind (derefs_safe hE hu hro hv.1 hv.2 hg.derefs hd hdp hde _) fun _ _ => ?_
  refine Safe.bind (dotpClaims_safe hcd hv.1 hv.2 hval) fun _ _ => ?_
  refine Safe.bind (combine_safe E _ (evalsOps_clog pf) _) ?_
  rintro ⟨cs, v, t⟩ hl
  simp only at hl ⊢
  have hlen : (cs ++ ro).length = Nat.clog 2 (opened pf) + n := by rw [List.length_append, hl, hro]
  have hcl : (Nat.clog 2 (opened pf) + n) - (Nat.clog 2 (opened pf) + n) / 2 = (4 + n) - (4 + n) / 2 ∧
      (Nat.clog 2 (opened pf) + n) / 2 ≤ (4 + n) / 2 := by
    rcases ht with ⟨b1, b2⟩ | ⟨b0, b1, b2⟩
    · rw [clog_between (c := 3) b1 b2]; omega
    · rw [clog_between (c := 2) b1 b2]; omega
  refine Safe.bind (polyEvalPlain_safe hE hu (by rw [hlen, hcl.1]; exact hg.ops)
    (by rw [hlen, hcm.ops]; exact Nat.pow_le_pow_right (by norm_num) hcl.2) hcm.opsPts ho _ _) fun _ _ => ?_
  refine Safe.bind (combine_safe E _ (c := 1) (by simp) _) ?_
  rintro ⟨cs', v', t'⟩ hl'
  simp only at hl' ⊢
  have hlen' : (cs' ++ rm).length = m + 1 := by rw [List.length_append, hl', hrm]; omega
  refine Safe.bind (polyEvalPlain_safe hE hu (by rw [hlen']; exact hg.mem)
    (by rw [hlen', hcm.mem]) hcm.memPts hm _ _) fun _ _ => ?_
  refine Safe.bind (hashHelper_safe rh g (hrx.trans hrm.symm) hv.1 hc1 hrow) fun _ _ => ?_
  refine Safe.bind (hashHelper_safe rh g (hry.trans hrm.symm) hv.2 hc2 hcol) fun _ _ => ?_
  exact Safe.pure trivial

theorem sat_nizk {E : Env F G P} {pf : R1CSProof F P} {k j : Nat} (h : SatShape E pf k j) :
    NizkShape E ⟨pf, List.replicate k 0, List.replicate (j + 1) 0⟩ k j :=
  ⟨by simp, by simp, h.sc1, h.sc2, h.comm, h.bullet, h.points⟩

theorem softSNARK_safe {E : Env F G P} (hE : E.Lawful) (hu : ∀ t, E.hash (t ++ [.chal "u"]) ≠ 0) {k j n : Nat}
    (hk : 1 ≤ k) {comm : R1CSComm P} (hnc : comm.numCons = 2 ^ k) (hnv : comm.numVars = 2 ^ j)
    (hcm : CommShape E comm.comm (max k (j + 1)) n) {gens : SNARKGens G} {g0 h a0 a1 a2 a3 a4 a5 : G}
    (hg : gens.sat.WF j g0 h) (hge : gens.eval.WF (max k (j + 1)) n a0 a1 a2 a3 a4 a5) {pf : SNARK F P}
    (hs : SnarkShape E pf k j n) {input : List F} (hi : input.length = comm.numInputs) (tr : Tr F P) :
    softSNARK E pf comm input gens tr ≠ .error .panic := by
  apply Safe.ne (Q := fun _ => True)
  unfold softSNARK
  rw [check_true hi, ok_bind, hnc, hnv]
  refine Safe.bind (r1cs_safe hE hu hk hg (sat_nizk hs.sat) _ _ _) ?_
  rintro ⟨rx, ry, t⟩ ⟨l1, l2⟩
  simp only at l1 l2 ⊢
  obtain ⟨q1, q2, -, -⟩ := equalize_ok l1 l2
  unfold softSparse
  simp only
  rw [check_true (by rw [q1, hcm.numCells]), ok_bind]
  unfold softNet
  simp only [List.length_cons, List.length_nil, Nat.zero_add]
  rw [check_true (q1.trans q2.symm), ok_bind, hcm.numOps, nextPow2_pow, q1]
  refine Safe.bind (prodLayer_safe E (by omega) hs.nz hs.memRow hs.memCol hs.dotp hs.ops hs.mem rfl _) ?_
  rintro ⟨cM, rM, cO, cD, rO, t'⟩ ⟨b1, b2, b3, b4, b5⟩
  simp only at b1 b2 b3 b4 b5 ⊢
  rw [check_true b1, ok_bind, check_true b3, ok_bind, check_true b4, ok_bind]
  refine hashLayer_safe hE hu b2 b5 ?_ ?_ b4 hcm hge hs.derefs hs.derefPts hs.derefVals hs.row hs.col hs.val
    hs.total hs.openOps hs.openMem hs.openDerefs q1 q2 _ _ _
  · simp [b3]
  · simp [b3]

theorem commit_points {E : Env F G P} (hE : E.Lawful) {d : Dense F} {gens : DotGens G} {c : List P} {b : List F}
    {t : Option (Tape F)} (h : d.commit E gens none = .ok (c, b, t)) :
    c.length = 2 ^ (d.numVars / 2) ∧ ∀ p ∈ c, (E.decompress p).isSome := by
  unfold Dense.commit at h
  simp only at h
  obtain ⟨_, -, h⟩ := bind_ok h
  obtain ⟨_, -, h⟩ := bind_ok h
  obtain ⟨C, hX, h⟩ := bind_ok h
  cases h
  unfold Dense.commitInner at hX
  simp only at hX
  obtain ⟨_, -, hX⟩ := bind_ok hX
  obtain ⟨_, -, hX⟩ := bind_ok hX
  refine ⟨?_, mapM_forall (fun x _ y hy => ?_) hX⟩
  · rw [mapM_length hX, List.length_zip, rowsOf_length]
    simp [factoredLens]
  · obtain ⟨_, -, hy⟩ := bind_ok hy
    cases hy
    exact compress_some hE _

/-- The commitments that `SNARK::encode` returns. -/
theorem encode_shape {E : Env F G P} (hE : E.Lawful) {I : Inst F} {k j n : Nat} (hI : I.inst.WF k j)
    (hn : n = nzVars I.inst.A I.inst.B I.inst.C) {gens : SNARKGens G} {a0 a1 a2 a3 a4 a5 : G}
    (hg : gens.eval.WF (max k (j + 1)) n a0 a1 a2 a3 a4 a5) :
    ∃ comm D, SNARK.encode E I gens = .ok (comm, D) ∧ comm.numCons = 2 ^ k ∧ comm.numVars = 2 ^ j ∧
      comm.numInputs = I.inst.numInputs ∧ CommShape E comm.comm (max k (j + 1)) n := by
  have rg : ∀ {x : SparseMat F}, x.InRange (2 ^ k) (2 ^ j + I.inst.numInputs + 1) → x.InRange (2 ^ k) (2 ^ (j + 1)) :=
    fun h => h.mono le_rfl hI.cols
  obtain ⟨comm, D, rss, css, audit, caudit, hcm, hD, hO⟩ := multiCommit_ok E (A := I.inst.A) (B := I.inst.B)
    (C := I.inst.C) ⟨hI.nA.1, hI.nB.1, hI.nC.1⟩ ⟨hI.nA.2, hI.nB.2, hI.nC.2⟩ (rg hI.A) (rg hI.B) (rg hI.C) hn hg
  obtain ⟨b, t, e1⟩ := hO.ops
  obtain ⟨b', t', e2⟩ := hO.mem
  obtain ⟨l1, p1⟩ := commit_points hE e1
  obtain ⟨l2, p2⟩ := commit_points hE e2
  refine ⟨⟨I.inst.numCons, I.inst.numVars, I.inst.numInputs, comm⟩, D, ?_, hI.cons, hI.vars, rfl,
    ⟨hO.numOps, hO.numCells, ?_, ?_, p1, p2⟩⟩
  · unfold SNARK.encode
    rw [hcm, ok_bind]
    rfl
  · rw [l1, hD.tabs.ops]; rfl
  · rw [l2, hD.tabs.mem]; rfl

/-- C104: for every instance built by `Instance::new` with at least one constraint, the generators and the
commitment derived for it, every public input of the right length, every transcript and every proof of the expected
shape, the variant of `SNARK::verify` that reports its assertions on values as errors does not panic.  With
`snark_soft`: on such proofs `SNARK::verify` panics at these assertions only. -/
theorem snark_graceful {E : Env F G P} (hE : E.Lawful) (hu : ∀ t, E.hash (t ++ [.chal "u"]) ≠ 0)
    {K : Codec F} {nc nv ni nz : Nat} {A B C : List (Nat × Nat × List UInt8)} {I : Inst F}
    (hnew : Inst.new K nc nv ni A B C = .ok (.ok I)) (hc : 1 ≤ nc)
    (hnz : nextPow2 nz = nextPow2 (max (max I.inst.A.M.length I.inst.B.M.length) I.inst.C.M.length))
    (hnz58 : nextPow2 nz ≤ 2 ^ 58) (hsc : I.inst.numCons ≤ 2 ^ 61) (hsv : I.inst.numVars ≤ 2 ^ 60)
    (S : GenSrc G) (ls le : List UInt8) {input : List F} (hi : input.length = I.inst.numInputs) {k j n : Nat}
    (hk : I.inst.numCons = 2 ^ k) (hj : I.inst.numVars = 2 ^ j) (hn : nextPow2 nz = 2 ^ n) {pf : SNARK F P}
    (hs : SnarkShape E pf k j n) (tr : Tr F P) :
    ∃ gens comm decomm, SNARKGens.new S ls le nc nv ni nz = .ok gens ∧ SNARK.encode E I gens = .ok (comm, decomm) ∧
      softSNARK E pf comm input gens tr ≠ .error .panic := by
  obtain ⟨hA, hB, hC, rfl⟩ := new_ok_entries hnew
  obtain ⟨k', j', hwf, hkc, hk1, hj'⟩ := builtR1CS_wf hA hB hC
  have inj := Nat.pow_right_injective (le_refl 2)
  obtain rfl : k' = k := inj (hwf.cons.symm.trans hk)
  obtain rfl : j' = j := inj (hwf.vars.symm.trans hj)
  have hj60 : j' ≤ 60 := (Nat.pow_le_pow_iff_right (a := 2) (by norm_num)).1 (by rw [← hj']; exact hsv)
  have hk61 : k' ≤ 61 := (Nat.pow_le_pow_iff_right (a := 2) (by norm_num)).1 (by rw [← hkc]; exact hsc)
  have hn58 : n ≤ 58 := (Nat.pow_le_pow_iff_right (a := 2) (by norm_num)).1 (by rw [← hn]; exact hnz58)
  rw [nextPow2_max3, hn] at hnz
  obtain ⟨gens, g0, h, a0, a1, a2, a3, a4, a5, hg, hgs, hge⟩ := snarkGens_wf S ls le hc hkc hj' hn hn58 (by omega)
  obtain ⟨comm, D, e1, e2, e3, e4, e5⟩ := encode_shape hE (I := ⟨builtR1CS K nc nv ni A B C, _⟩) hwf (inj hnz) hge
  exact ⟨gens, comm, D, hg, e1, softSNARK_safe hE hu (hk1 hc) e2 e3 e5 hgs hge hs (hi.trans e4.symm) tr⟩

/-! ### accepted proofs have the expected shape -/

theorem zkLoop_len {E : Env F G P} {d : Nat} {g1 gn : Gens G} : ∀ {cps ces : List P}
    {pfs : List (DotProductProof F P)} {claim : P} {tr : Tr F P} {r : List F × Tr F P},
    zkVerifyLoop E d g1 gn cps ces pfs claim tr = .ok r → r.1.length = cps.length
  | [], _, _, _, _, _, h => by cases h; rfl
  | cp :: cps, ces, pfs, _, _, _, h => by
    unfold zkVerifyLoop at h
    simp only at h
    obtain ⟨_, -, h⟩ := bind_ok h
    obtain ⟨_, -, h⟩ := bind_ok h
    obtain ⟨_, -, h⟩ := bind_ok h
    obtain ⟨_, -, h⟩ := bind_ok h
    obtain ⟨_, -, h⟩ := bind_ok h
    obtain ⟨_, h1, h⟩ := bind_ok h
    cases h
    simp [zkLoop_len h1]

theorem zkVerify_len {E : Env F G P} {d n : Nat} {g1 gn : Gens G} {pf : ZKSumcheck F P} {claim : P}
    {tr : Tr F P} {r : P × List F × Tr F P} (h : zkVerify E pf claim n d g1 gn tr = .ok r) :
    r.2.1.length = n := by
  unfold zkVerify at h
  obtain ⟨_, -, h⟩ := bind_ok h
  obtain ⟨_, h1, h⟩ := bind_ok h
  obtain ⟨_, -, h⟩ := bind_ok h
  obtain ⟨_, h3, h⟩ := bind_ok h
  obtain ⟨_, -, h⟩ := bind_ok h
  obtain ⟨_, -, h⟩ := bind_ok h
  cases h
  exact (zkLoop_len h3).trans (check_ok h1)

theorem idx_lt {α : Type} {v : List α} {i : Nat} {a : α} (h : idx v i = .ok a) : i < v.length := by
  unfold idx at h
  by_contra hn
  rw [List.getElem?_eq_none (not_lt.1 hn)] at h
  cases h

theorem r1cs_accepted_shape {E : Env F G P} {k j : Nat} {pf : R1CSProof F P} {input : List F} {evals : F × F × F}
    {gens : R1CSGens G} {tr : Tr F P} {r : List F × List F × Tr F P}
    (hv : pf.verify E (2 ^ j) (2 ^ k) input evals gens tr = .ok r) :
    SatShape E pf k j ∧ r.1.length = k ∧ r.2.1.length = j + 1 := by
  unfold R1CSProof.verify at hv
  simp only [Env.challenge] at hv
  rw [log2_pow, ok_bind, show 2 * 2 ^ j = 2 ^ (j + 1) by rw [pow_succ, mul_comm], log2_pow,
    ok_bind] at hv
  obtain ⟨_, -, hv⟩ := bind_ok hv
  obtain ⟨⟨c1, rx1, t1⟩, s1, hv⟩ := bind_ok hv
  obtain ⟨_, s2, hv⟩ := bind_ok hv
  obtain ⟨_, s3, hv⟩ := bind_ok hv
  obtain ⟨_, s0, hv⟩ := bind_ok hv
  obtain ⟨_, p1, hv⟩ := bind_ok hv
  obtain ⟨_, p2, hv⟩ := bind_ok hv
  obtain ⟨_, s4, hv⟩ := bind_ok hv
  obtain ⟨_, p3, hv⟩ := bind_ok hv
  obtain ⟨_, p4, hv⟩ := bind_ok hv
  obtain ⟨_, -, hv⟩ := bind_ok hv
  obtain ⟨_, -, hv⟩ := bind_ok hv
  obtain ⟨⟨c2, ry2, t2⟩, s5, hv⟩ := bind_ok hv
  obtain ⟨_, l1, hv⟩ := bind_ok hv
  obtain ⟨_, s6, hv⟩ := bind_ok hv
  obtain ⟨_, s7, hv⟩ := bind_ok hv
  obtain ⟨_, s8, hv⟩ := bind_ok hv
  obtain ⟨_, p5, hv⟩ := bind_ok hv
  obtain ⟨_, -, hv⟩ := bind_ok hv
  obtain ⟨_, -, hv⟩ := bind_ok hv
  obtain ⟨_, s9, hv⟩ := bind_ok hv
  cases hv
  rw [log2_pow] at s7
  cases s7
  unfold sparseEvaluate at s8
  obtain ⟨_, l2, -⟩ := bind_ok s8
  have l1 := check_ok l1
  have l2 := check_ok l2
  simp only [List.length_drop] at l1 l2
  have lry : ry2.length = j + 1 := by omega
  obtain ⟨d1, e1⟩ := zkVerify_points s1
  obtain ⟨d2, e2⟩ := zkVerify_points s5
  obtain ⟨f1, f2, f3⟩ := product_points s3
  obtain ⟨b1, b2, b3, b4, b5, b6, b7⟩ := polyEval_points s6
  rw [List.length_drop, lry, Nat.add_sub_cancel] at b1
  refine ⟨⟨d1, d2, b1, b3, ?_⟩, ?_, lry⟩
  · intro p hp
    unfold nizkPts at hp
    simp only [List.mem_append, or_assoc] at hp
    rcases hp with hp | hp | hp | hp | hp | hp
    · exact b2 p hp
    · exact e1 p hp
    · exact e2 p hp
    · revert p
      simp only [List.mem_cons, List.not_mem_nil, or_false, forall_eq_or_imp, forall_eq]
      exact ⟨some_of_decompressU p3, some_of_decompressU p4, some_of_decompressU p2, some_of_decompressU p1,
        some_of_decompressU p5, knowledge_points s2, f1, f2, f3, equality_points s4, equality_points s9, b6, b7⟩
    · exact b4 p hp
    · exact b5 p hp
  · exact zkVerify_len s1

/-! #### the evaluation proof -/

theorem scRound_shape {E : Env F G P} {cp : CompressedUniPoly F} {e : F} {tr : Tr F P} {r : F × F × Tr F P}
    (h : scVerifyRound E 3 cp e tr = .ok r) : cp.coeffs.length = 3 := by
  obtain ⟨⟨_ | ⟨c0, cs⟩⟩⟩ := cp
  · unfold scVerifyRound CompressedUniPoly.decompress at h
    obtain ⟨_, h1, h⟩ := bind_ok h
    cases h1
  · unfold scVerifyRound CompressedUniPoly.decompress at h
    obtain ⟨_, h1, h⟩ := bind_ok h
    cases h1
    obtain ⟨_, h1, h⟩ := bind_ok h
    obtain ⟨_, h2, h⟩ := bind_ok h
    have h2 := check_ok h2
    unfold UniPoly.degree at h1
    obtain ⟨_, -, h1⟩ := bind_ok h1
    cases h1
    simp only [List.length_cons] at h2 ⊢
    omega

theorem scLoop_shape {E : Env F G P} : ∀ {cps : List (CompressedUniPoly F)} {e : F} {tr : Tr F P}
    {r : F × List F × Tr F P}, scVerifyLoop E 3 cps e tr = .ok r →
    (∀ q ∈ cps, q.coeffs.length = 3) ∧ r.2.1.length = cps.length
  | [], _, _, _, h => by cases h; simp
  | cp :: cps, _, _, _, h => by
    unfold scVerifyLoop at h
    obtain ⟨_, h1, h⟩ := bind_ok h
    obtain ⟨_, h2, h⟩ := bind_ok h
    cases h
    obtain ⟨a1, a2⟩ := scLoop_shape h2
    exact ⟨by simpa using ⟨scRound_shape h1, a1⟩, by simp [a2]⟩

theorem prodLoop_shape {E : Env F G P} {m d : Nat} {cd : List F} (hcd : cd.length = 2 * d)
    {pf : ProdProofBatched F} : ∀ {lps : List (LayerProofBatched F)} {k : Nat} {claims dcl rand : List F}
    {tr tr' : Tr F P} {c' d' rand' : List F}, claims.length = m → rand.length = k →
    prodBVerifyLoop E m cd pf lps k claims dcl rand tr = .ok (c', d', rand', tr') →
    (∀ (i : Nat) (lp : LayerProofBatched F), lps[i]? = some lp → lp.proof.length = k + i ∧
      (∀ q ∈ lp.proof, q.coeffs.length = 3) ∧ lp.left.length = m ∧ lp.right.length = m) ∧
    c'.length = m ∧ rand'.length = k + lps.length ∧
    ((lps = [] ∧ d' = dcl) ∨
      (pf.dotpL.length = 2 * d ∧ 2 * d ≤ pf.dotpR.length ∧ 2 * d ≤ pf.dotpW.length))
  | [], k, _, _, _, _, _, _, _, _, hc, hr, h => by
    cases h
    exact ⟨by simp, hc, hr, .inl ⟨rfl, rfl⟩⟩
  | lp :: lps, k, claims, dcl, rand, tr, tr', c', d', rand', hc, hr, h => by
    obtain ⟨cl, coeffs, tr0, claimLast, rp, tr1, eq, tr2, e1, e2, e3, e4, e5, e6, e7, e8, e9, e10, e11, e12⟩ :=
      prodBLoop_cons_ok h
    obtain ⟨s1, s2⟩ := scLoop_shape e4
    simp only at s2
    obtain ⟨i1, i2, i3, i4⟩ := prodLoop_shape hcd (nextClaims_len _ e5 e6) (by simp [s2, e3]) e12
    refine ⟨fun i q hq => ?_, i2, by rw [i3]; simp; omega, .inr ?_⟩
    · cases i with
      | zero =>
        obtain rfl : lp = q := by simpa using hq
        exact ⟨e3, s1, e5, e6⟩
      | succ i =>
        obtain ⟨a1, a2⟩ := i1 i q (by simpa using hq)
        exact ⟨by omega, a2⟩
    · cases lps with
      | nil =>
        obtain ⟨b1, b2, b3, b4⟩ := e9 rfl
        have : coeffs.length = cl.length := by
          have := challengeVec_length E "rand_coeffs_next_layer" cl.length tr
          rw [e2] at this; exact this
        rw [this, e1] at b3
        simp only [List.isEmpty_nil, if_true, List.length_append] at b3
        omega
      | cons a b =>
        rcases i4 with ⟨h0, -⟩ | h0
        · cases h0
        · exact h0

theorem prod_shape {E : Env F G P} {n d : Nat} {cp cd : List F} (hcd : cd.length = 2 * d)
    {pf : ProdProofBatched F} {tr tr' : Tr F P} {c' d' rand' : List F}
    (h : prodBVerify E pf cp cd (2 ^ n) tr = .ok (c', d', rand', tr')) :
    rand'.length = n ∧ c'.length = cp.length ∧ (n = 0 → d' = []) ∧ (1 ≤ n → ProdShape pf n cp.length (2 * d)) := by
  obtain ⟨h1, h⟩ := prodBVerify_ok h
  obtain ⟨a1, a2, a3, a4⟩ := prodLoop_shape (k := 0) (rand := []) hcd rfl rfl h
  refine ⟨by omega, a2, fun h0 => ?_, fun h0 => ?_⟩
  · have : pf.proof = [] := List.length_eq_zero_iff.1 (by omega)
    rw [this] at h
    cases h
    rfl
  · rcases a4 with ⟨b, -⟩ | ⟨b1, b2, b3⟩
    · rw [b] at h1; simp at h1; omega
    · exact ⟨h1, fun i lp hl => by simpa using a1 i lp hl, b1, b2, b3⟩

theorem memEvals_shape {n : Nat} {e : MemEvals F} {u : Unit} (h : memEvalsCheck n e = .ok u) :
    e.read.length = n ∧ e.write.length = n := by
  unfold memEvalsCheck at h
  obtain ⟨_, h1, h⟩ := bind_ok h
  obtain ⟨_, h2, h⟩ := bind_ok h
  exact ⟨check_ok h2, check_ok h1⟩

theorem dotpLoop_shape : ∀ {es ls rs : List F} {tr : Tr F P} {r : List F × Tr F P},
    dotpCheckLoop es ls rs tr = .ok r → es.length ≤ rs.length ∧ r.1.length = 2 * es.length
  | [], _, _, _, _, h => by cases h; simp
  | _ :: _, [], _, _, _, h => by cases h
  | _ :: _, _ :: _, [], _, _, h => by cases h
  | e :: es, l :: ls, r :: rs, _, _, h => by
    unfold dotpCheckLoop at h
    obtain ⟨_, -, h⟩ := bind_ok h
    obtain ⟨_, h2, h⟩ := bind_ok h
    cases h
    obtain ⟨a1, a2⟩ := dotpLoop_shape h2
    exact ⟨by simpa using a1, by simp [a2]; omega⟩

theorem polyEvalPlain_shape {E : Env F G P} {pf : DotProductProofLog F P} {gens : DotGens G} {tr t : Tr F P}
    {r : List F} {v : F} {comm : List P} (h : polyEvalVerifyPlain E pf gens tr r v comm = .ok t) :
    gens.n = 2 ^ (r.length - r.length / 2) ∧ 2 ^ (r.length / 2) ≤ comm.length ∧
      (∀ p ∈ comm, (E.decompress p).isSome) ∧ OpenShape E pf := by
  unfold polyEvalVerifyPlain at h
  obtain ⟨_, -, h⟩ := bind_ok h
  obtain ⟨b1, b2, b3, b4, b5, b6, b7⟩ := polyEval_points h
  refine ⟨?_, b1, b2, b3, fun p hp => ?_⟩
  · unfold polyEvalVerify DotProductProofLog.verify at h
    simp only at h
    obtain ⟨_, -, h⟩ := bind_ok h
    obtain ⟨_, -, h⟩ := bind_ok h
    obtain ⟨_, h1, h⟩ := bind_ok h
    rw [check_ok h1, (factoredEvals_correct r).2.1]
  · simp only [List.mem_append, List.mem_cons, List.not_mem_nil, or_false] at hp
    rcases hp with (hp | hp) | rfl | rfl
    · exact b4 p hp
    · exact b5 p hp
    · exact b6
    · exact b7

theorem hashOps_shape {rh g : F} {ops addr ts cr cw : List F} {u : Unit}
    (h : hashOpsCheck rh g ops addr ts cr cw = .ok u) : addr.length ≤ ops.length ∧ addr.length ≤ ts.length := by
  unfold hashOpsCheck at h
  obtain ⟨_, h1, h⟩ := bind_ok h
  have key : ∀ i < addr.length, i < ops.length ∧ i < ts.length := by
    intro i hi
    obtain ⟨y, hy⟩ := mapM_all_ok h1 i (by simpa using hi)
    obtain ⟨_, -, hy⟩ := bind_ok hy
    obtain ⟨_, q1, hy⟩ := bind_ok hy
    obtain ⟨_, q2, hy⟩ := bind_ok hy
    exact ⟨idx_lt q1, idx_lt q2⟩
  constructor
  · by_contra hn
    have := (key ops.length (by omega)).1; omega
  · by_contra hn
    have := (key ts.length (by omega)).2; omega

theorem hashHelper_shape {rm : List F} {cl : MemClaims F} {ops : List F} {e : AddrEvals F} {r : List F} {rh g : F}
    {u : Unit} (h : hashLayerVerifyHelper rm cl ops e r rh g = .ok u) (ho : ops.length = 3) : AddrShape e := by
  unfold hashLayerVerifyHelper at h
  obtain ⟨_, -, h⟩ := bind_ok h
  obtain ⟨_, -, h⟩ := bind_ok h
  obtain ⟨_, -, h⟩ := bind_ok h
  obtain ⟨_, h1, h⟩ := bind_ok h
  obtain ⟨a1, a2⟩ := hashOps_shape h1
  exact ⟨by omega, a2⟩

theorem dotpClaims_shape {cl row col val : List F} {u : Unit} (h : dotpClaimsCheck cl row col val = .ok u)
    (hc : cl.length = 9) : row.length = 3 ∧ 3 ≤ val.length := by
  unfold dotpClaimsCheck at h
  obtain ⟨_, h1, h⟩ := bind_ok h
  have h1 := check_ok h1
  obtain ⟨_, h2, h⟩ := bind_ok h
  refine ⟨by omega, ?_⟩
  obtain ⟨y, hy⟩ := mapM_all_ok h2 2 (by simp [hc])
  obtain ⟨_, -, hy⟩ := bind_ok hy
  obtain ⟨_, -, hy⟩ := bind_ok hy
  obtain ⟨_, -, hy⟩ := bind_ok hy
  obtain ⟨_, -, hy⟩ := bind_ok hy
  obtain ⟨_, -, hy⟩ := bind_ok hy
  obtain ⟨_, -, hy⟩ := bind_ok hy
  obtain ⟨_, -, hy⟩ := bind_ok hy
  obtain ⟨_, q, hy⟩ := bind_ok hy
  exact idx_lt q

/-- Which numbers of opened values make the opening of the first commitment go through. -/
theorem total_of {c n : Nat} (h1 : (c + n) - (c + n) / 2 = (4 + n) - (4 + n) / 2) (h2 : (c + n) / 2 ≤ (4 + n) / 2) :
    c = 4 ∨ (c = 3 ∧ n % 2 = 0) := by omega

theorem between_of_clog {a c : Nat} (h : Nat.clog 2 a = c + 1) : 2 ^ c < a ∧ a ≤ 2 ^ (c + 1) := by
  constructor
  · by_contra hn
    have := Nat.clog_le_of_le_pow (b := 2) (not_lt.1 hn)
    omega
  · rw [← h]; exact Nat.le_pow_clog (by norm_num) a

/-- C104: a proof that `SNARK::verify` accepts for an honest commitment has the expected shape. -/
theorem snark_accepted_wf {E : Env F G P} {k j n : Nat}
    {comm : R1CSComm P} (hnc : comm.numCons = 2 ^ k) (hnv : comm.numVars = 2 ^ j)
    (hcm : CommShape E comm.comm (max k (j + 1)) n) {gens : SNARKGens G} {a0 a1 a2 a3 a4 a5 : G}
    (hge : gens.eval.WF (max k (j + 1)) n a0 a1 a2 a3 a4 a5) {pf : SNARK F P}
    {input : List F} {tr t : Tr F P} (h : SNARK.verify E pf comm input gens tr = .ok t) :
    SnarkShape E pf k j n := by
  unfold SNARK.verify at h
  obtain ⟨_, -, h⟩ := bind_ok h
  rw [hnc, hnv] at h
  obtain ⟨⟨rx, ry, t1⟩, hsat, h⟩ := bind_ok h
  obtain ⟨ss, l1, l2⟩ := r1cs_accepted_shape hsat
  simp only at l1 l2 h
  obtain ⟨q1, q2, -, -⟩ := equalize_ok l1 l2
  unfold sparseVerify at h
  simp only at h
  obtain ⟨_, -, h⟩ := bind_ok h
  unfold netVerify at h
  simp only [List.length_cons, List.length_nil, Nat.zero_add] at h
  obtain ⟨_, -, h⟩ := bind_ok h
  rw [hcm.numOps, nextPow2_pow, q1] at h
  obtain ⟨⟨cM, rM, cO, cD, rO, t2⟩, hp, h⟩ := bind_ok h
  simp only at h
  obtain ⟨_, h1, h⟩ := bind_ok h
  obtain ⟨_, h2, h⟩ := bind_ok h
  obtain ⟨_, h3, h⟩ := bind_ok h
  have h1 := check_ok h1
  have h2 := check_ok h2
  have hD9 : cD.length = 9 := check_ok h3
  unfold prodLayerVerify at hp
  obtain ⟨_, m1, hp⟩ := bind_ok hp
  obtain ⟨_, m2, hp⟩ := bind_ok hp
  obtain ⟨_, m3, hp⟩ := bind_ok hp
  obtain ⟨⟨cd, t3⟩, m4, hp⟩ := bind_ok hp
  obtain ⟨⟨x1, x2, x3, x4⟩, m5, hp⟩ := bind_ok hp
  obtain ⟨⟨y1, y2, y3, y4⟩, m6, hp⟩ := bind_ok hp
  simp only [pure_ok, Except.ok.injEq, Prod.mk.injEq] at hp
  obtain ⟨rfl, rfl, rfl, rfl, rfl, rfl⟩ := hp
  have m1 := memEvals_shape m1
  have m2 := memEvals_shape m2
  have m3 := check_ok m3
  obtain ⟨m4, m4'⟩ := dotpLoop_shape m4
  simp only [List.length_cons, List.length_nil, Nat.zero_add] at m1 m2 m3 m4 m4'
  obtain ⟨z1, z2, z3, z4⟩ := prod_shape (d := 3) m4' m5
  obtain ⟨w1, w2, w3, w4⟩ := prod_shape (d := 0) rfl m6
  have hn : 1 ≤ n := by
    rcases Nat.eq_zero_or_pos n with h0 | h0
    · rw [z3 h0] at hD9; simp at hD9
    · exact h0
  have z4 := z4 hn
  have w4 := w4 (by omega)
  rw [show (pf.eval.net.prod.row.read ++ pf.eval.net.prod.row.write ++ pf.eval.net.prod.col.read ++
    pf.eval.net.prod.col.write).length = 12 by simp [m1, m2]] at z4
  unfold hashLayerVerify at h
  obtain ⟨_, d1, h⟩ := bind_ok h
  have d1 := check_ok d1
  obtain ⟨_, d2, h⟩ := bind_ok h
  obtain ⟨_, d3, h⟩ := bind_ok h
  obtain ⟨d3, d3'⟩ := dotpClaims_shape d3 hD9
  obtain ⟨⟨cs, v, t4⟩, d4, h⟩ := bind_ok h
  obtain ⟨_, d5, h⟩ := bind_ok h
  obtain ⟨⟨cs', v', t5⟩, d6, h⟩ := bind_ok h
  obtain ⟨_, d7, h⟩ := bind_ok h
  obtain ⟨_, d8, h⟩ := bind_ok h
  obtain ⟨_, d9, h⟩ := bind_ok h
  unfold derefsVerify at d2
  obtain ⟨⟨cs'', v'', t6⟩, d10, d11⟩ := bind_ok d2
  have hl1 := combineEvals_len d4
  have hl3 := combineEvals_len d10
  have c8 : Nat.clog 2 6 = 3 := by decide +kernel
  rw [padPow2_clog, List.length_append, ← d1, d3, c8] at hl3
  rw [evalsOps_clog, Nat.clog_pow 2 _ (by norm_num)] at hl1
  simp only at hl1 hl3 d11 d5 d7
  obtain ⟨o1, o2, o3, o4⟩ := polyEvalPlain_shape d11
  obtain ⟨p1, p2, p3, p4⟩ := polyEvalPlain_shape d5
  obtain ⟨r1, r2, r3, r4⟩ := polyEvalPlain_shape d7
  rw [List.length_append, hl3, z1] at o2
  rw [List.length_append, hl1, z1, hge.ops.n] at p1
  rw [List.length_append, hl1, z1, hcm.ops] at p2
  have p1 := (Nat.pow_right_injective (le_refl 2) p1).symm
  have p2 := (Nat.pow_le_pow_iff_right (a := 2) (by norm_num)).1 p2
  have ht : (8 < opened pf.eval.net.hash ∧ opened pf.eval.net.hash ≤ 16) ∨
      (n % 2 = 0 ∧ 4 < opened pf.eval.net.hash ∧ opened pf.eval.net.hash ≤ 8) := by
    rcases total_of p1 p2 with h4 | ⟨h4, h5⟩
    · exact .inl (between_of_clog (c := 3) h4)
    · exact .inr ⟨h5, between_of_clog (c := 2) h4⟩
  exact ⟨hn, ss, m1, m2, ⟨m3, m4⟩, z4, w4, o2, o3, ⟨d3, d1 ▸ d3⟩, hashHelper_shape d8 d3,
    hashHelper_shape d9 (d1 ▸ d3), d3', ht, p4, r4, o4⟩

/-- C104: a proof that `SNARK::verify` accepts, for the generators and the commitment of an instance built by
`Instance::new`, has the expected shape. -/
theorem snark_accepted_shape {E : Env F G P} (hE : E.Lawful)
    {K : Codec F} {nc nv ni nz : Nat} {A B C : List (Nat × Nat × List UInt8)} {I : Inst F}
    (hnew : Inst.new K nc nv ni A B C = .ok (.ok I)) (hc : 1 ≤ nc)
    (hnz : nextPow2 nz = nextPow2 (max (max I.inst.A.M.length I.inst.B.M.length) I.inst.C.M.length))
    (hnz58 : nextPow2 nz ≤ 2 ^ 58) (hsc : I.inst.numCons ≤ 2 ^ 61) (hsv : I.inst.numVars ≤ 2 ^ 60)
    {S : GenSrc G} {ls le : List UInt8} {gens : SNARKGens G} (hgens : SNARKGens.new S ls le nc nv ni nz = .ok gens)
    {comm : R1CSComm P} {decomm : MultiDense F} (henc : SNARK.encode E I gens = .ok (comm, decomm))
    {pf : SNARK F P} {input : List F} {tr t : Tr F P} (h : SNARK.verify E pf comm input gens tr = .ok t) :
    ∃ k j n, I.inst.numCons = 2 ^ k ∧ I.inst.numVars = 2 ^ j ∧ nextPow2 nz = 2 ^ n ∧ SnarkShape E pf k j n := by
  obtain ⟨hA, hB, hC, rfl⟩ := new_ok_entries hnew
  obtain ⟨k, j, hwf, hkc, hk1, hj⟩ := builtR1CS_wf hA hB hC
  have inj := Nat.pow_right_injective (le_refl 2)
  have hj60 : j ≤ 60 := (Nat.pow_le_pow_iff_right (a := 2) (by norm_num)).1 (by rw [← hj]; exact hsv)
  have hk61 : k ≤ 61 := (Nat.pow_le_pow_iff_right (a := 2) (by norm_num)).1 (by rw [← hkc]; exact hsc)
  rw [nextPow2_max3] at hnz
  have hn58 := (Nat.pow_le_pow_iff_right (a := 2) (by norm_num)).1 (hnz ▸ hnz58)
  obtain ⟨gens', g0, h0, a0, a1, a2, a3, a4, a5, hg, hgs, hge⟩ := snarkGens_wf S ls le hc hkc hj hnz hn58 (by omega)
  rw [hgens] at hg
  cases hg
  obtain ⟨comm', D, e1, e2, e3, e4, e5⟩ := encode_shape hE (I := ⟨builtR1CS K nc nv ni A B C, _⟩) hwf rfl hge
  rw [henc] at e1
  cases e1
  exact ⟨k, j, _, hwf.cons, hwf.vars, hnz, snark_accepted_wf e2 e3 e5 hge h⟩

/-- C104: the proofs that `SNARK::prove` returns have the expected shape. -/
theorem snark_honest_shape (h2 : (2 : F) ≠ 0) (h3 : (3 : F) ≠ 0) {E : Env F G P} (hE : E.Lawful)
    (hu : ∀ t, E.hash (t ++ [.chal "u"]) ≠ 0)
    {K : Codec F} {nc nv ni nz : Nat} {A B C : List (Nat × Nat × List UInt8)} {I : Inst F}
    (hnew : Inst.new K nc nv ni A B C = .ok (.ok I)) (hc : 1 ≤ nc)
    (hnz : nextPow2 nz = nextPow2 (max (max I.inst.A.M.length I.inst.B.M.length) I.inst.C.M.length))
    (hnz2 : 2 ≤ nextPow2 nz) (hnz58 : nextPow2 nz ≤ 2 ^ 58) (hsc : I.inst.numCons ≤ 2 ^ 61)
    (hsv : I.inst.numVars ≤ 2 ^ 60) (S : GenSrc G) (ls le : List UInt8) {vars inputs : List F}
    (hsat : I.isSat vars inputs = .ok (.ok true)) (tr : Tr F P) (tape : Tape F) :
    ∃ gens comm decomm pf tr' k j n, SNARKGens.new S ls le nc nv ni nz = .ok gens ∧
      SNARK.encode E I gens = .ok (comm, decomm) ∧
      SNARK.prove E I comm decomm vars inputs gens tr tape = .ok (pf, tr') ∧ I.inst.numCons = 2 ^ k ∧
      I.inst.numVars = 2 ^ j ∧ nextPow2 nz = 2 ^ n ∧ SnarkShape E pf k j n := by
  obtain ⟨gens, comm, decomm, pf, tr', e1, e2, e3, e4⟩ :=
    snark_complete_partial h2 h3 hE hu hnew hc hnz hnz2 hnz58 hsc hsv S ls le hsat tr tape
  obtain ⟨k, j, n, f1, f2, f3, f4⟩ := snark_accepted_shape hE hnew hc hnz hnz58 hsc hsv e1 e2 e4
  exact ⟨gens, comm, decomm, pf, tr', k, j, n, e1, e2, e3, f1, f2, f3, f4⟩

/-- C104, C45: with generators for at most one entry per matrix `SNARK::verify` accepts nothing at all. -/
theorem snark_one_entry_rejects {E : Env F G P} (hE : E.Lawful)
    {K : Codec F} {nc nv ni nz : Nat} {A B C : List (Nat × Nat × List UInt8)} {I : Inst F}
    (hnew : Inst.new K nc nv ni A B C = .ok (.ok I)) (hc : 1 ≤ nc)
    (hA : I.inst.A.M.length ≤ 1) (hB : I.inst.B.M.length ≤ 1) (hC : I.inst.C.M.length ≤ 1) (hnz : nz ≤ 1)
    (hsc : I.inst.numCons ≤ 2 ^ 61) (hsv : I.inst.numVars ≤ 2 ^ 60)
    {S : GenSrc G} {ls le : List UInt8} {gens : SNARKGens G} (hgens : SNARKGens.new S ls le nc nv ni nz = .ok gens)
    {comm : R1CSComm P} {decomm : MultiDense F} (henc : SNARK.encode E I gens = .ok (comm, decomm))
    (pf : SNARK F P) (input : List F) (tr t : Tr F P) : SNARK.verify E pf comm input gens tr ≠ .ok t := by
  intro h
  have one : ∀ {x : Nat}, x ≤ 1 → nextPow2 x = 1 := by
    intro x hx
    unfold nextPow2
    rw [Nat.clog_of_right_le_one hx, pow_zero]
  obtain ⟨k, j, n, -, -, e, hs⟩ := snark_accepted_shape hE hnew hc
    (by rw [one hnz, one (max_le (max_le hA hB) hC)]) (by rw [one hnz]; exact Nat.one_le_two_pow) hsc hsv hgens henc h
  rw [one hnz] at e
  have := hs.nz
  have : n = 0 := by
    by_contra h0
    have := Nat.one_lt_two_pow h0
    omega
  omega

/-- C104: wrong values do panic.  If a proof is accepted, then every proof with the same satisfiability part and
the same claimed evaluations, and with three reads and three writes of the row memory that fail the subset check,
makes `SNARK::verify` panic instead of returning an error. -/
theorem snark_panics_on_values {E : Env F G P} {pf pf' : SNARK F P} {comm : R1CSComm P} {input : List F}
    {gens : SNARKGens G} {tr t : Tr F P} (h : SNARK.verify E pf comm input gens tr = .ok t)
    (hs : pf'.sat = pf.sat) (he : pf'.evals = pf.evals) (hr : pf'.eval.net.prod.row.read.length = 3)
    (hw : pf'.eval.net.prod.row.write.length = 3)
    (hne : pf'.eval.net.prod.row.init * pf'.eval.net.prod.row.write.prod ≠
      pf'.eval.net.prod.row.read.prod * pf'.eval.net.prod.row.audit) :
    SNARK.verify E pf' comm input gens tr = .error .panic := by
  unfold SNARK.verify at h ⊢
  rw [hs, he]
  obtain ⟨_, h1, h⟩ := bind_ok h
  obtain ⟨⟨rx, ry, t1⟩, h2, h⟩ := bind_ok h
  rw [h1, ok_bind, h2, ok_bind]
  unfold sparseVerify at h ⊢
  simp only at h ⊢
  obtain ⟨_, h3, h⟩ := bind_ok h
  rw [h3, ok_bind]
  unfold netVerify at h ⊢
  simp only [List.length_cons, List.length_nil, Nat.zero_add] at h ⊢
  obtain ⟨_, h4, h⟩ := bind_ok h
  rw [h4, ok_bind]
  unfold prodLayerVerify memEvalsCheck
  simp only [List.length_cons, List.length_nil, Nat.zero_add]
  rw [check_true hw, ok_bind, check_true hr, ok_bind, check_false hne]
  rfl

/-- The instance `v0 * v1 = x` over ℚ with `v = (2, 3)`, `x = 6`, and its honest proof, meet the hypotheses of
`snark_graceful`, `snark_accepted_shape` and `snark_honest_shape`. -/
example : ∃ (I : Inst ℚ) (gens : SNARKGens ℚ) (comm : R1CSComm ℚ) (pf : SNARK ℚ ℚ) (k j n : Nat),
    Inst.new toyCodec 1 2 1 [(0, 0, [1])] [(0, 1, [1])] [(0, 3, [1])] = .ok (.ok I) ∧
    I.inst.numCons = 2 ^ k ∧ I.inst.numVars = 2 ^ j ∧
    SnarkShape (⟨id, some, fun _ => 5⟩ : Env ℚ ℚ ℚ) pf k j n ∧
    softSNARK (⟨id, some, fun _ => 5⟩ : Env ℚ ℚ ℚ) pf comm [6] gens [] ≠ .error .panic := by
  obtain ⟨I, hI⟩ := (instance_new_ok_iff toyCodec 1 2 1 [(0, 0, [1])] [(0, 1, [1])] [(0, 3, [1])]).2
    (by decide)
  have hn : I.inst.numVars = 2 := by
    obtain ⟨-, -, -, rfl⟩ := new_ok_entries hI
    show varsPadded 2 1 = 2
    rw [varsPadded_eq]
    exact nextPow2_pow 1
  have hni : I.inst.numInputs = 1 := by
    obtain ⟨-, -, -, rfl⟩ := new_ok_entries hI
    rfl
  have hl : I.inst.A.M.length = 2 ∧ I.inst.B.M.length = 2 ∧ I.inst.C.M.length = 2 ∧ I.inst.numCons = 2 := by
    obtain ⟨-, -, -, rfl⟩ := new_ok_entries hI
    exact ⟨built_one_length _ _ _ (by simp), built_one_length _ _ _ (by simp), built_one_length _ _ _ (by simp), rfl⟩
  obtain ⟨b, hb, hiff⟩ := padding_preserves_sat hI (vars := [2, 3]) (inputs := [6]) (by rw [hn]; simp) rfl
  have hbt : b = true := hiff.2 (by
    intro i hi
    interval_cases i
    norm_num [rowDot, parsed, toyCodec, matEntry, zvec, fit, Finset.sum_range_succ,
      show UInt8.toNat 1 = 1 from rfl])
  subst hbt
  obtain ⟨-, -, -, pf, -, k, j, n, -, -, -, f1, f2, f3, f4⟩ := snark_honest_shape
    (E := (⟨id, some, fun _ => 5⟩ : Env ℚ ℚ ℚ))
    (by norm_num) (by norm_num) (fun _ => rfl) (fun _ => by norm_num) hI le_rfl (nz := 2)
    (by rw [hl.1, hl.2.1, hl.2.2.1]; rfl) (by rw [nextPow2_two]) (by rw [nextPow2_two]; norm_num)
    (by rw [hl.2.2.2]; norm_num) (by rw [hn]; norm_num)
    (⟨fun _ i => UInt8.ofNat i, fun b => (b.getD 0 0).toNat⟩ : GenSrc ℚ) [1] [2] hb [] (fun i => i)
  obtain ⟨gens, comm, -, -, -, h6⟩ := snark_graceful (E := (⟨id, some, fun _ => 5⟩ : Env ℚ ℚ ℚ)) (fun _ => rfl)
    (fun _ => by norm_num) hI le_rfl (nz := 2) (by rw [hl.1, hl.2.1, hl.2.2.1]; rfl)
    (by rw [nextPow2_two]; norm_num) (by rw [hl.2.2.2]; norm_num) (by rw [hn]; norm_num)
    (⟨fun _ i => UInt8.ofNat i, fun b => (b.getD 0 0).toNat⟩ : GenSrc ℚ) [1] [2] (input := [6]) (by rw [hni]; rfl)
    f1 f2 f3 f4 []
  exact ⟨I, gens, comm, pf, k, j, n, hI, f1, f2, f4, h6⟩

/-- Every accepted proof has a variant that meets the hypotheses of `snark_panics_on_values`. -/
example {E : Env F G P} {pf : SNARK F P} {comm : R1CSComm P} {input : List F} {gens : SNARKGens G} {tr t : Tr F P}
    (h : SNARK.verify E pf comm input gens tr = .ok t) :
    SNARK.verify E { pf with eval := { pf.eval with net := { pf.eval.net with prod := { pf.eval.net.prod with
      row := ⟨1, [0, 0, 0], [1, 1, 1], 0⟩ } } } } comm input gens tr = .error .panic :=
  snark_panics_on_values h rfl rfl rfl rfl (by simp)

end Spartan
