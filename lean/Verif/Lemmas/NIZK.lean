import Verif.Lemmas.R1CSComplete
import Verif.Props.SumcheckSound
import Verif.Props.Bullet

/-! Lemmas about `NIZK::prove`/`verify`: generators, forged proofs, transcripts. -/

set_option linter.unusedSectionVars false

namespace Spartan
open Spec
variable {F G P : Type} [Field F] [AddCommGroup G] [Module F G]
  [DecidableEq F] [DecidableEq P] [DecidableEq G]

theorem r1csGens_wf (S : GenSrc G) {j : Nat} (hj : j ≤ 62) (label : List UInt8) :
    ∃ gens g0 h, R1CSGens.new S label (2 ^ j) = .ok gens ∧ gens.WF j g0 h := by
  obtain ⟨dg, g0, h0, e1, e2, -, -⟩ := polyCommitGens_wf S (ell := j) (by omega) label
  refine ⟨⟨dg.gens1, Gens.new S 3 label, Gens.new S 4 label, dg⟩, g0, h0, ?_, ?_⟩
  · unfold R1CSGens.new
    rw [log2_pow, ok_bind, e1, ok_bind]; rfl
  · have w := fun n => gens_new_shape S n label
    exact ⟨e2.g1, ⟨by unfold Gens.WF; rw [(w 3).1, (w 3).2.1], (w 3).1⟩,
      ⟨by unfold Gens.WF; rw [(w 4).1, (w 4).2.1], (w 4).1⟩, e2⟩

theorem builtR1CS_wf {K : Codec F} {nc nv ni : Nat} {A B C : List (Nat × Nat × List UInt8)}
    (hA : ∀ e ∈ A, EntryOk K nc nv ni e) (hB : ∀ e ∈ B, EntryOk K nc nv ni e)
    (hC : ∀ e ∈ C, EntryOk K nc nv ni e) :
    ∃ k j, (builtR1CS K nc nv ni A B C).WF k j ∧ consPadded nc = 2 ^ k ∧ (1 ≤ nc → 1 ≤ k) ∧
      varsPadded nv ni = 2 ^ j := by
  obtain ⟨k, hk, h1⟩ := consPadded_pow nc
  have hj := varsPadded_pow nv ni
  have hlt := (le_varsPadded nv ni).2
  refine ⟨k, _, ?_, hk, h1, hj⟩
  have rg : ∀ M, (∀ e ∈ M, EntryOk K nc nv ni e) → ∀ nx ny, (⟨nx, ny, entriesOf (convMat K nc nv ni M)⟩ :
      SparseMat F).InRange (consPadded nc) (varsPadded nv ni + ni + 1) := by
    intro M hM nx ny e he
    simp only [entriesOf, List.mem_map] at he
    obtain ⟨a, ha, rfl⟩ := he
    exact convMat_range hM a ha
  have l1 : Nat.log2 (consPadded nc) = k := by rw [hk, Nat.log2_two_pow]
  have l2 : Nat.log2 (varsPadded nv ni) = Nat.clog 2 (max nv (ni + 1)) := by rw [hj, Nat.log2_two_pow]
  constructor
  · exact hk
  · exact hj
  · rw [← hj]; exact hlt
  · rw [← hj, ← hk]; exact rg A hA _ _
  · rw [← hj, ← hk]; exact rg B hB _ _
  · rw [← hj, ← hk]; exact rg C hC _ _
  · exact ⟨l1, by simp only [builtR1CS, l2]⟩
  · exact ⟨l1, by simp only [builtR1CS, l2]⟩
  · exact ⟨l1, by simp only [builtR1CS, l2]⟩

/-! ### the all-zero proof -/

/-- Zero-knowledge sum-check proof of identity points and zero responses. -/
def zeroSC (E : Env F G P) (n d : Nat) : ZKSumcheck F P :=
  ⟨List.replicate n (E.compress 0), List.replicate n (E.compress 0),
    List.replicate n ⟨E.compress 0, E.compress 0, List.replicate (d + 1) 0, 0, 0⟩⟩

theorem zeroSC_loop {E : Env F G P} (hE : E.Lawful) {g0 h : G} {gensn : Gens G} {d : Nat}
    (hg : gensn.WF) (hn : gensn.n = d + 1) : ∀ (n : Nat) (tr : Tr F P),
    ∃ rs tr', zkVerifyLoop E d (Gens.single g0 h) gensn (List.replicate n (E.compress 0))
      (List.replicate n (E.compress 0))
      (List.replicate n ⟨E.compress 0, E.compress 0, List.replicate (d + 1) 0, 0, 0⟩)
      (E.compress 0) tr = .ok (rs, tr') ∧ rs.length = n ∧
      ∀ r ∈ rs, ∃ t, r = E.hash (t ++ [.chal "challenge_nextround"])
  | 0, tr => ⟨[], tr, rfl, rfl, by simp⟩
  | n + 1, tr => by
    obtain ⟨t1, ht1⟩ : ∃ t : Tr F P, t = ((tr.point "comm_poly" (E.compress 0)) ++
      [Msg.chal "challenge_nextround"] : Tr F P) := ⟨_, rfl⟩
    obtain ⟨w0, w1, t2, hw⟩ : ∃ w0 w1 t2, E.challengeVec ((t1.point "comm_claim_per_round"
      (E.compress 0)).point "comm_eval" (E.compress 0)) "combine_two_claims_to_one" 2
      = ([w0, w1], t2) := ⟨_, _, _, rfl⟩
    obtain ⟨rs, t', h1, h2, h3⟩ := zeroSC_loop hE (g0 := g0) (h := h) hg hn n (dotTr t2 (E.compress 0)
      (E.compress 0) (zkWeights w0 w1 (E.hash t1) (d + 1)) (E.compress 0) (E.compress 0))
    refine ⟨E.hash t1 :: rs, t', ?_, by simp [h2], ?_⟩
    · rw [List.replicate_succ, List.replicate_succ (n := n)]
      unfold zkVerifyLoop
      simp only [Env.challenge, ← ht1]
      rw [idx_ok (by simp) (E.compress 0), ok_bind]
      simp only [List.getD_cons_zero, hw]
      rw [show ([E.compress 0, E.compress 0] : List P) = ([0, 0] : List G).map E.compress from rfl,
        mapM_decompressU hE, ok_bind, msm2, ok_bind]
      simp only [smul_zero, add_zero]
      rw [idx_ok (by simp) ⟨E.compress 0, E.compress 0, List.replicate (d + 1) 0, 0, 0⟩, ok_bind]
      simp only [List.getD_cons_zero, List.getD_cons_succ, List.tail_cons]
      rw [(DotProductProof.verify_ok_iff hg).2 ⟨by rw [hn, zkWeights_length], by
        rw [zkWeights_length]; simp, rfl, 0, 0, 0, 0, hE _, hE _, hE _, hE _, by
          simp [lc_zeros], by simp [dot, lc_zeros]⟩, ok_bind]
      simp only
      rw [h1, ok_bind]
      rfl
    · intro r hr
      rcases List.mem_cons.1 hr with rfl | hr
      · exact ⟨_, by rw [ht1]⟩
      · exact h3 r hr

theorem zeroSC_verify {E : Env F G P} (hE : E.Lawful) {g0 h : G} {gensn : Gens G} {d : Nat}
    (hg : gensn.WF) (hn : gensn.n = d + 1) {n : Nat} (h1 : 1 ≤ n) (tr : Tr F P) :
    ∃ rs tr', zkVerify E (zeroSC E n d) (E.compress 0) n d (Gens.single g0 h) gensn tr =
      .ok (E.compress 0, rs, tr') ∧ rs.length = n ∧
      ∀ r ∈ rs, ∃ t, r = E.hash (t ++ [.chal "challenge_nextround"]) := by
  obtain ⟨rs, tr', e1, e2, e3⟩ := zeroSC_loop hE (g0 := g0) (h := h) hg hn n tr
  refine ⟨rs, tr', ?_, e2, e3⟩
  unfold zkVerify zeroSC
  simp only [List.length_replicate]
  rw [check_true hn, ok_bind, check_true trivial, ok_bind]
  simp only [ok_bind]
  rw [e1, ok_bind]
  simp only
  rw [check_true h1, ok_bind, idx_ok (by simp; omega) (E.compress 0), ok_bind]
  simp [List.getD_eq_getElem?_getD, show n - 1 < n by omega, pure_ok]

theorem zero_knowledge {E : Env F G P} (hE : E.Lawful) (g0 h : G) (tr : Tr F P) :
    ∃ t, (⟨E.compress 0, 0, 0⟩ : KnowledgeProof F P).verify E (Gens.single g0 h) tr (E.compress 0) = .ok t :=
  ⟨_, (KnowledgeProof.verify_ok_iff hE).2 ⟨rfl, 0, 0, hE _, hE _, by simp⟩⟩

theorem zero_product {E : Env F G P} (hE : E.Lawful) (g0 h : G) (tr : Tr F P) :
    ∃ t, (⟨E.compress 0, E.compress 0, E.compress 0, 0, 0, 0, 0, 0⟩ : ProductProof F P).verify E
      (Gens.single g0 h) tr (E.compress 0) (E.compress 0) (E.compress 0) = .ok t :=
  ⟨_, (ProductProof.verify_ok_iff hE).2 ⟨rfl, 0, 0, 0, 0, 0, 0, hE _, hE _, hE _, hE _, hE _, hE _,
    by simp, by simp, by simp⟩⟩

theorem zero_equality {E : Env F G P} (hE : E.Lawful) (g : Gens G) (tr : Tr F P) :
    ∃ t, (⟨E.compress 0, 0⟩ : EqualityProof F P).verify E g tr (E.compress 0) (E.compress 0) = .ok t :=
  ⟨_, (EqualityProof.verify_ok_iff hE).2 ⟨rfl, 0, 0, 0, hE _, hE _, hE _, by simp⟩⟩

/-- The universal forgery for the polynomial evaluation proof. -/
theorem zero_polyEval {E : Env F G P} (hE : E.Lawful) (hu : ∀ t, E.hash (t ++ [.chal "u"]) ≠ 0)
    {gens : DotGens G} {g0 h : G} {r : List F} (hg : gens.WF (r.length - r.length / 2) g0 h)
    (hk : r.length ≤ 62) (tr : Tr F P) (Y : G) :
    ∃ t, polyEvalVerify E ⟨⟨List.replicate (r.length - r.length / 2) (E.compress 0),
        List.replicate (r.length - r.length / 2 + 1) (E.compress 0)⟩, E.compress 0, E.compress 0, 0, 0⟩
      gens tr r (E.compress Y) (List.replicate (2 ^ (r.length / 2)) (E.compress 0)) = .ok t := by
  obtain ⟨hL, hR, -⟩ := factoredEvals_correct r
  unfold polyEvalVerify
  simp only
  rw [show List.replicate (2 ^ (r.length / 2)) (E.compress 0) =
      (List.replicate (2 ^ (r.length / 2)) (0 : G)).map E.compress by simp, mapM_decompressU hE, ok_bind,
    msm_eq (by rw [hL]; simp), ok_bind]
  obtain ⟨t, ht⟩ := dotproductlog_universal_forgery hE hu hg (by omega)
    (tr.protocol "polynomial evaluation proof") (a := (factoredEvals r).2) hR
    (lc (factoredEvals r).1 (List.replicate (2 ^ (r.length / 2)) (0 : G))) Y
  rw [hR]
  exact ⟨t, ht⟩

end Spartan
