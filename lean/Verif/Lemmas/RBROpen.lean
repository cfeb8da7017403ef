import Verif.Lemmas.RBRProd
import Verif.Lemmas.RBRLog
import Verif.Lemmas.SparseProof
import Verif.Spec.SnarkRels

/-! Joint openings of committed tables. -/

set_option linter.unusedSectionVars false

namespace Spartan
open Spec
variable {F G P M : Type} [Field F] [AddCommGroup G] [Module F G] [AddCommGroup M] [Module F M]
  [DecidableEq F] [DecidableEq P] [DecidableEq G]

/-! ### sets that depend on the first message -/

/-- A table of sets that depends on the first message of a part. -/
def headB (B : List (Msg F M) → Bads F M) : Bads F M := fun hist ms =>
  B ((hist ++ [(ms, 0)]).headD ([], 0)).1 hist ms

theorem headB_small {d : Nat} {B : List (Msg F M) → Bads F M} (h : ∀ m, Small d (B m)) : Small d (headB B) :=
  fun hist ms => h _ hist ms

theorem Spec.Hit.head {B : List (Msg F M) → Bads F M} {m : List (Msg F M)} {Rs : List (Round F M)}
    (h : Hit (B m) Rs) (hm : (Rs.headD ([], 0)).1 = m) : Hit (headB B) Rs := by
  obtain ⟨hist, ms, x, rest, rfl, hx⟩ := h
  refine ⟨hist, ms, x, rest, rfl, ?_⟩
  have : ((hist ++ [(ms, (0 : F))]).headD ([], 0)).1 = m := by
    rw [← hm]
    cases hist <;> rfl
  unfold headB
  rw [this]
  exact hx

/-! ### openings -/

/-- Unfavourable challenges of a joint opening: the claimed values are the last `2^a` scalars of the
first message, the values of the committed table at `cs ++ r` are the extension of `vals` at `cs`. -/
def openBad {n : Nat} (a : Nat) (vals : List F) (v : M →ₗ[F] F) (x : M →ₗ[F] (Fin n → F)) (r : List F) :
    Bads F M :=
  headB fun m0 => seqB a
    (fun hist _ => tauSet a (fun l => mle (lastS (2 ^ a) m0) l - mle vals l) (chs hist)) fun h =>
    logBad v x (factoredEvals ((chs h).take a ++ List.replicate (a - h.length) 0 ++ r)).2
      (a + r.length - (a + r.length) / 2)

theorem openBad_small {n a : Nat} (vals : List F) (v : M →ₗ[F] F) (x : M →ₗ[F] (Fin n → F)) {r : List F}
    (hn : n = 2 ^ (a + r.length - (a + r.length) / 2)) : Small 6 (openBad a vals v x r : Bads F M) := by
  refine headB_small fun m0 => Small.seq (fun hist ms => ?_) fun h => ?_
  · exact (tauSet_small (indiv_sub le_rfl (mle_indiv a _) (mle_indiv a _)) _).mono (by omega) le_rfl
  · refine logBad_small v x ?_ hn
    rw [(factoredEvals_correct _).2.1, hn]
    have : ((chs h).take a ++ List.replicate (a - h.length) 0 ++ r).length = a + r.length := by
      simp [chs]; omega
    rw [this]

/-- Rounds of a joint opening. -/
def openRounds (a ell : Nat) : Nat := a + (ell - ell / 2 + 2)

theorem open_rbr {E : Env F G P} (hE : E.Lawful) {rep : P → M} {π : M →ₗ[F] G} (hrep : IsRep E rep π)
    {n : Nat} {v : M →ₗ[F] F} {x : M →ₗ[F] (Fin n → F)} {b : PcBasis M}
    (hr : ReadsPc v x b.g0 b.h b.G) {r : List F} {a ell : Nat} (hell : a + r.length = ell) (ha : 1 ≤ a)
    (hn : n = 2 ^ (ell - ell / 2)) {gens : DotGens G} (hg : gens.WF (ell - ell / 2) (π b.g0) (π b.h))
    (hG : gens.gensn.G = b.G.map π) {pf : DotProductProofLog F P}
    (hlen : pf.bullet.L.length = pf.bullet.R.length) {tr tr' : Tr F P} {comm : List P}
    {l0 l1 l2 : String} {evals cs : List F} {w : F} {tr1 : Tr F P} (hev : evals.length = 2 ^ a)
    (hc : combineEvals E l1 evals (tr.scalars l0 evals) = .ok (cs, w, tr1))
    (hok : polyEvalVerifyPlain E pf gens (tr1.scalar l2 w) (cs ++ r) w comm = .ok tr')
    (hF : Free π (plainRels E rep π b pf (tr1.scalar l2 w) (cs ++ r) w comm))
    (cur : List (Msg F M)) :
    2 ^ (ell / 2) ≤ comm.length ∧ ∃ Rs, Seg E rep tr cur Rs tr' [] ∧ Rs.length = openRounds a ell ∧
      ∀ vals : List F, vals.length = 2 ^ a → (∀ cs, cs.length = a →
          mle (extractVars x (2 ^ (ell / 2)) (comm.map rep)) (cs ++ r) = mle vals cs) →
        evals ≠ vals → Hit (openBad a vals v x r) Rs := by
  rw [combineEvals_eq E l1 hev] at hc
  obtain ⟨R1, S1, hl1, hch, hhd⟩ := challengeVec_seg E rep l1 a (tr.scalars l0 evals)
    (cur ++ [.bytes l0 "begin_append_vector"] ++ evals.map (.scalar l0) ++ [.bytes l0 "end_append_vector"])
  obtain ⟨c', t', hct⟩ : ∃ c' t', E.challengeVec (tr.scalars l0 evals) l1 a = (c', t') := ⟨_, _, rfl⟩
  rw [hct] at hc S1 hch
  simp only [Except.ok.injEq, Prod.mk.injEq] at hc
  obtain ⟨rfl, rfl, rfl⟩ := hc
  rw [if_neg (by omega)] at S1
  simp only at S1 hch
  have hcs : c'.length = a := by rw [← hch, chs_length, hl1]
  have hl : (c' ++ r).length = ell := by rw [List.length_append, hcs, hell]
  have S0 := (((Seg.refl E rep tr cur).scalars l0 evals).trans S1).scalar l2 (mle evals c')
  rw [List.nil_append, List.nil_append] at S0
  unfold polyEvalVerifyPlain at hok
  rw [hg.g1, commit1_single, ok_bind, zero_smul, add_zero] at hok
  obtain ⟨f1, f2⟩ := free_cons.1 hF
  have hcz : π (rep (E.compress (π (mle evals c' • b.g0)))) = π (mle evals c' • b.g0) := hrep _ _ (hE _)
  have hz := Free.eq f1 hcz
  rw [← map_smul] at hok
  obtain ⟨hcl, R2, S2, hl2, himp⟩ := poly_rbr hE hrep hr (r := c' ++ r) (by rw [hl]; exact hn)
    (by rw [hl]; exact hg) hG hlen hok f2 [.scalar l2 (mle evals c')]
  rw [hl] at hcl hl2 himp
  refine ⟨hcl, R1 ++ R2, S0.trans S2, by simp [hl1, hl2, openRounds], fun vals hvl hv hne => ?_⟩
  have hlast : lastS (2 ^ a) (cur ++ [.bytes l0 "begin_append_vector"] ++ evals.map (.scalar l0) ++
      [.bytes l0 "end_append_vector"] : List (Msg F M)) = evals := by
    unfold lastS
    simp only [scs_append, scs_bytes, scs_scalars, List.append_nil, List.length_append, hev, Nat.add_sub_cancel]
    rw [List.drop_left]
  refine Hit.head (m := cur ++ [.bytes l0 "begin_append_vector"] ++ evals.map (.scalar l0) ++
      [.bytes l0 "end_append_vector"]) ?_ ?_
  swap
  · rw [← hhd ha]
    cases R1 with
    | nil => simp at hl1; omega
    | cons => rfl
  rw [hlast]
  by_cases hb : mle evals c' = mle vals c'
  · refine Hit.left hl1 ?_
    have hex : ∃ y : List F, ([] : List F).length + y.length = a ∧ mle evals ([] ++ y) - mle vals ([] ++ y) ≠ 0 := by
      by_contra hall
      push Not at hall
      apply hne
      apply ext_getD (by rw [hev, hvl])
      intro i hi
      rw [hev] at hi
      have := hall (boolPoint a i) (by simp [boolPoint_length])
      simp only [List.nil_append, mle_at_bool _ hi] at this
      exact sub_eq_zero.1 this
    obtain ⟨hist, ms, y, rest, h1, h2⟩ := tau_hit (n := a) (f := fun l => mle evals l - mle vals l) R1 []
      (by simpa using hl1) hex (by simp only [List.nil_append, hch]; rw [hb, sub_self])
    exact ⟨hist, ms, y, rest, h1, by simpa using h2⟩
  · refine Hit.right hl1 ?_
    have e : (chs R1).take a ++ List.replicate (a - R1.length) 0 = c' := by
      rw [hch, hl1, Nat.sub_self, List.replicate_zero, List.append_nil, ← hcs, List.take_length]
    rw [e, hell]
    refine himp ?_
    rw [hz, map_smul, hr.vg, smul_eq_mul, mul_one, hv c' hcs]
    exact hb

/-- Two padded lists of equal lengths. -/
theorem padPow2_inj {a b : List F} (hl : a.length = b.length) (h : padPow2 a = padPow2 b) : a = b := by
  unfold padPow2 at h
  exact (List.append_inj h hl).1

end Spartan
