import Verif.Lemmas.Sumcheck

/-! Completeness lemmas for the zero-knowledge sum-check. -/

set_option linter.unusedSectionVars false
namespace Spartan
open Spec
variable {F G P : Type} [Field F] [AddCommGroup G] [Module F G]
  [DecidableEq F] [DecidableEq P] [DecidableEq G]

@[simp] theorem evalPowers_length (r : F) : ∀ n x, (evalPowers r n x).length = n
  | 0, _ => rfl
  | n + 1, x => by simp [evalPowers, evalPowers_length r n]

theorem dot_evalPowers (r : F) : ∀ (cs : List F) (x : F),
    dot cs (evalPowers r cs.length x) = x * polyEval cs r
  | [], x => by simp [dot]
  | c :: cs, x => by
    have := dot_evalPowers r cs (x * r)
    simp only [dot] at this
    simp only [dot, List.length_cons, evalPowers, lc_cons, this, polyEval_cons, smul_eq_mul]; ring

theorem dot_replicate_one (cs : List F) : dot cs (List.replicate cs.length 1) = polyEval cs 1 := by
  induction cs with
  | nil => simp [dot]
  | cons c cs ih =>
    simp only [dot] at ih
    simp [dot, List.replicate_succ, ih, polyEval_cons]

theorem zkWeights_length (w0 w1 r : F) (n : Nat) : (zkWeights w0 w1 r n).length = n := by
  simp [zkWeights]

theorem dot_zkWeights {cs : List F} {n : Nat} (hl : cs.length = n + 1) (w0 w1 r : F) :
    dot cs (zkWeights w0 w1 r (n + 1)) =
      w0 * (polyEval cs 0 + polyEval cs 1) + w1 * polyEval cs r := by
  unfold zkWeights
  simp only
  rw [dot_comm, dot, lc_zipWith_left (c := w0) (d := w1) (fun _ _ => rfl) _ (by simp)]
  have e1 : lc ((List.replicate (n + 1) (1 : F)).modify 0 (· + 1)) cs = polyEval cs 0 + polyEval cs 1 := by
    match cs, hl with
    | c :: cs, hl =>
      have h := dot_replicate_one cs
      rw [dot_comm, dot] at h
      have hl' : cs.length = n := by simpa using hl
      rw [hl'] at h
      simp [List.replicate_succ, h, polyEval_cons]; ring
  have e2 : lc (evalPowers r (n + 1) 1) cs = polyEval cs r := by
    have := dot_evalPowers r cs 1
    rw [dot_comm, dot, hl] at this; simpa using this
  rw [e1, e2]; simp

theorem dotProof_prefix {E : Env F G P} {pf : DotProductProof F P}
    {g0 h : G} {gensn : Gens G} (hg : gensn.WF) {tr tr' : Tr F P} {a : List F} {Cx Cy : P}
    (hv : pf.verify E (Gens.single g0 h) gensn tr a Cx Cy = .ok tr') : tr <+: tr' := by
  obtain ⟨-, -, rfl, -⟩ := (DotProductProof.verify_ok_iff hg).1 hv
  simp [dotTr, Tr.protocol, Tr.point, Tr.scalars, List.append_assoc]

theorem challengeVec_two (E : Env F G P) (tr : Tr F P) (l : String) :
    E.challengeVec tr l 2 = ([E.hash (tr ++ [.chal l]), E.hash (tr ++ [.chal l] ++ [.chal l])],
      tr ++ [.chal l] ++ [.chal l]) := rfl

theorem zkProve_complete {S : Type} {d : Nat} {E : Env F G P} (hE : E.Lawful) {g0 h : G}
    {gensn : Gens G} (hg : gensn.WF) (hn : gensn.n = d + 1)
    {points : S → Out (List F)} {bind : F → S → Out S} {pts : List F → List F}
    {inv : Nat → S → Prop} {total : S → F} (R : Rounds points bind pts d inv total)
    (hfe : ∀ cs : List F, cs.length = d + 1 → ∃ rest, pts cs = polyEval cs 0 :: rest ∧
      UniPoly.fromEvals (polyEval cs 0 :: polyEval cs 1 :: rest) = .ok ⟨cs⟩) :
    ∀ (blinds : List (F × F)) (s : S) (bclaim : F) (tr : Tr F P) (tape : Tape F),
      inv blinds.length s →
    ∃ zk rs s' tr' tape',
      zkProveLoop E points bind (Gens.single g0 h) gensn blinds bclaim (total s)
        (E.compress (total s • g0 + bclaim • h)) s tr tape = .ok (zk, rs, s', tr', tape') ∧
      inv 0 s' ∧ zk.commPolys.length = blinds.length ∧ zk.commEvals.length = blinds.length ∧
      rs.length = blinds.length ∧ rs.foldlM (fun s r => bind r s) s = .ok s' ∧
      zkVerifyLoop E d (Gens.single g0 h) gensn zk.commPolys zk.commEvals zk.proofs
        (E.compress (total s • g0 + bclaim • h)) tr = .ok (rs, tr') ∧
      zk.commEvals.getLastD (E.compress (total s • g0 + bclaim • h)) =
        E.compress (total s' • g0 + (blinds.map (·.2)).getLastD bclaim • h) ∧ tr <+: tr'
  | [], s, bclaim, tr, tape, hi =>
    ⟨⟨[], [], []⟩, [], s, tr, tape, rfl, hi, rfl, rfl, rfl, rfl, rfl, rfl, List.prefix_refl _⟩
  | (bp, be) :: blinds, s, bclaim, tr, tape, hi => by
    obtain ⟨cs, hl, hsum, hpts, hb⟩ := R.step blinds.length s hi
    obtain ⟨rest, hp1, hp2⟩ := hfe cs hl
    have hne : cs ≠ [] := by rintro rfl; simp at hl
    set CP := E.compress (lc cs gensn.G + bp • gensn.h) with hCP
    set CC := E.compress (total s • g0 + bclaim • h) with hCC
    set t1 := tr.point "comm_poly" CP ++ [.chal "challenge_nextround"] with ht1
    set r := E.hash t1 with hr
    obtain ⟨s1, hb1, hinv1, htot1⟩ := hb r
    set CE := E.compress (total s1 • g0 + be • h) with hCE
    set t2 := (t1.point "comm_claim_per_round" CC).point "comm_eval" CE with ht2
    set l := "combine_two_claims_to_one" with hlbl
    set w0 := E.hash (t2 ++ [.chal l]) with hw0
    set w1 := E.hash (t2 ++ [.chal l] ++ [.chal l]) with hw1
    set t3 := t2 ++ [.chal l] ++ [.chal l] with ht3
    have htarget : w0 • (total s • g0 + bclaim • h) + w1 • (total s1 • g0 + be • h) =
        (w0 * total s + w1 * total s1) • g0 + (w0 * bclaim + w1 * be) • h := by module
    have hdot : dot cs (zkWeights w0 w1 r (d + 1)) = w0 * total s + w1 * total s1 := by
      rw [dot_zkWeights hl, hsum, htot1]
    obtain ⟨pf, Cx, Cy, t4, tape4, hpf, hCx, hCy, hver⟩ := dotproduct_complete hE g0 h hg t3 tape cs
      (zkWeights w0 w1 r (d + 1)) bp (w0 * bclaim + w1 * be) (by rw [hl, zkWeights_length])
      (by rw [hn, zkWeights_length])
    rw [hdot] at hpf hCy
    rw [hCx, hCy, ← hCP] at hver
    obtain ⟨zk, rs, s', tr', tape', hq, hi', hc1, hc2, hc3, hf, hv, hlast, hpre⟩ :=
      zkProve_complete hE hg hn R hfe blinds s1 be t4 tape4 hinv1
    have hmsm : msm [w0, w1] [total s • g0 + bclaim • h, total s1 • g0 + be • h] =
        .ok ((w0 * total s + w1 * total s1) • g0 + (w0 * bclaim + w1 * be) • h) := by
      rw [msm_eq (by simp), ← htarget]; simp
    have hdec : [CC, CE].mapM E.decompressU =
        .ok [total s • g0 + bclaim • h, total s1 • g0 + be • h] := by
      simp [hCC, hCE, decompressU_compress hE, pure_ok]
    refine ⟨⟨CP :: zk.commPolys, CE :: zk.commEvals, pf :: zk.proofs⟩, r :: rs, s', tr', tape',
      ?_, hi', by simp [hc1], by simp [hc2], by simp [hc3], ?_, ?_, ?_, ?_⟩
    · unfold zkProveLoop
      rw [hpts, ok_bind, hp1]
      simp only [idx, List.getElem?_cons_zero, List.tail_cons]
      rw [ok_bind]
      have e1 : total s - polyEval cs 0 = polyEval cs 1 := by rw [← hsum]; ring
      rw [e1, hp2, ok_bind]
      simp only
      rw [commitV_eq hg (by rw [hn, hl]), ok_bind]
      simp only [Env.challenge, ← hCP, ← ht1, ← hr]
      rw [hb1, ok_bind, uniEvaluate_correct _ hne, ok_bind]
      simp only
      rw [← htot1, commit1_single, ok_bind]
      simp only [← hCE, ← ht2, challengeVec_two, ← hlbl, ← hw0, ← hw1, ← ht3, List.getD_cons_zero,
        List.getD_cons_succ]
      rw [hdec, ok_bind, hmsm, ok_bind, commit1_single, ok_bind]
      rw [check_true rfl, ok_bind]
      unfold UniPoly.degree
      simp only [hl]
      rw [check_true (by omega), ok_bind, pure_bind]
      simp only [Nat.add_sub_cancel]
      rw [hpf, ok_bind]
      simp only
      rw [hq, ok_bind]; rfl
    · rw [List.foldlM_cons, hb1, ok_bind, hf]
    · unfold zkVerifyLoop
      simp only [Env.challenge, ← ht1, ← hr, idx, List.getElem?_cons_zero, List.tail_cons]
      rw [ok_bind]
      simp only [← ht2, challengeVec_two, ← hlbl, ← hw0, ← hw1, ← ht3, List.getD_cons_zero,
        List.getD_cons_succ]
      rw [hdec, ok_bind, hmsm, ok_bind, ok_bind, hver, ok_bind, hv, ok_bind]; rfl
    · simpa only [List.getLastD_cons, List.map_cons] using hlast
    · refine List.IsPrefix.trans ?_ hpre
      refine List.IsPrefix.trans ?_ (dotProof_prefix hg hver)
      rw [ht3, ht2, ht1]
      simp [Tr.point, List.append_assoc]

end Spartan
