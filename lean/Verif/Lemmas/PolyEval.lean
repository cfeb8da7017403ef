import Verif.Props.Poly
import Mathlib.Algebra.Module.BigOperators
import Verif.Lemmas.DotLog

/-! Polynomial commitments and evaluation proofs. -/

set_option linter.unusedSectionVars false
namespace Spartan
open Spec
variable {F G P : Type} [Field F] [AddCommGroup G] [Module F G]
  [DecidableEq F] [DecidableEq P] [DecidableEq G]

theorem rowsOf_length (w : Nat) : ∀ n (Z : List F), (rowsOf w n Z).length = n
  | 0, _ => rfl
  | n + 1, Z => by simp [rowsOf, rowsOf_length w n]

theorem rowsOf_getD (w : Nat) : ∀ n (Z : List F) j, j < n →
    (rowsOf w n Z).getD j [] = (Z.drop (j * w)).take w
  | 0, _, j, h => by simp at h
  | n + 1, Z, 0, _ => by simp [rowsOf]
  | n + 1, Z, j + 1, h => by
    rw [rowsOf, List.getD_cons_succ, rowsOf_getD w n _ j (by omega), List.drop_drop]
    congr 2; ring

/-- Commitments to the rows of a table. -/
def rowComms (Gv : List G) (h : G) (rows : List (List F)) (blinds : List F) : List G :=
  List.zipWith (fun row b => lc row Gv + b • h) rows blinds

theorem commitInner_eq (E : Env F G P) {d : Dense F} {blinds : List F} {g : Gens G} {w : Nat}
    (hb : blinds ≠ []) (hZ : blinds.length * w = d.Z.length) (hg : g.WF) (hn : g.n = w) :
    d.commitInner E blinds g =
      .ok ((rowComms g.G g.h (rowsOf w blinds.length d.Z) blinds).map E.compress) := by
  have hl : blinds.length ≠ 0 := by simpa using hb
  have hw : d.Z.length / blinds.length = w := by
    rw [← hZ]; exact Nat.mul_div_cancel_left _ (by omega)
  unfold Dense.commitInner
  simp only
  rw [check_true hl, ok_bind, hw, check_true hZ, ok_bind,
    mapM_ok _ (fun rb => E.compress (lc rb.1 g.G + rb.2 • g.h))]
  · congr 1
    unfold rowComms
    rw [List.map_zipWith, List.zip, List.map_zipWith]
  · rintro ⟨row, b⟩ hm
    have hrow := (List.of_mem_zip hm).1
    have hlen : row.length = w := by
      obtain ⟨j, hj, rfl⟩ := List.mem_iff_getElem.1 hrow
      rw [rowsOf_length] at hj
      have := rowsOf_getD w blinds.length d.Z j hj
      rw [List.getD_eq_getElem?_getD, List.getElem?_eq_getElem (by rw [rowsOf_length]; exact hj)] at this
      simp only [Option.getD_some] at this
      rw [this, List.length_take, List.length_drop, ← hZ]
      have : (j + 1) * w ≤ blinds.length * w := Nat.mul_le_mul_right _ hj
      rw [add_mul, one_mul] at this; omega
    simp only [commitV_eq hg (hn.trans hlen.symm), ok_bind, pure_ok]

/-- The commitment to the `L`-combination of the rows. -/
theorem lc_rowComms {Gv : List G} {h : G} {Z blinds L : List F} {w : Nat}
    (hL : L.length = blinds.length) (hZ : blinds.length * w = Z.length) (hG : Gv.length = w)
    {LZ : List F} (hLZ : LZ.length = w)
    (hget : ∀ i < w, LZ.getD i 0 = ∑ j ∈ Finset.range blinds.length, L.getD j 0 * Z.getD (j * w + i) 0) :
    lc L (rowComms Gv h (rowsOf w blinds.length Z) blinds) = lc LZ Gv + dot blinds L • h := by
  have hlen : (rowComms Gv h (rowsOf w blinds.length Z) blinds).length = blinds.length := by
    simp [rowComms, rowsOf_length]
  rw [lc_sum_range _ _ (by rw [hlen, hL]), lc_sum_range _ _ (by rw [hLZ, hG]),
    dot_sum_range hL.symm, hLZ, hL]
  have e : ∀ j ∈ Finset.range blinds.length,
      L.getD j 0 • (rowComms Gv h (rowsOf w blinds.length Z) blinds).getD j 0 =
      (∑ i ∈ Finset.range w, (L.getD j 0 * Z.getD (j * w + i) 0) • Gv.getD i 0) +
        (blinds.getD j 0 * L.getD j 0) • h := by
    intro j hj
    have hj := Finset.mem_range.1 hj
    have hr : (rowComms Gv h (rowsOf w blinds.length Z) blinds).getD j 0 =
        lc ((Z.drop (j * w)).take w) Gv + blinds.getD j 0 • h := by
      rw [← rowsOf_getD w blinds.length Z j hj]
      simp [rowComms, List.getD_eq_getElem?_getD, List.getElem?_zipWith, rowsOf_length, hj]
    have hjw : (j + 1) * w ≤ blinds.length * w := Nat.mul_le_mul_right _ hj
    have hlr : ((Z.drop (j * w)).take w).length = w := by
      rw [List.length_take, List.length_drop, ← hZ]
      rw [add_mul, one_mul] at hjw; omega
    rw [hr, lc_sum_range _ _ (by rw [hlr, hG]), hlr, smul_add, Finset.smul_sum, smul_smul,
      mul_comm (L.getD j 0) (blinds.getD j 0)]
    congr 1
    apply Finset.sum_congr rfl
    intro i hi
    have hi := Finset.mem_range.1 hi
    rw [smul_smul]
    congr 2
    simp [List.getD_eq_getElem?_getD, List.getElem?_take, List.getElem?_drop, hi]
  rw [Finset.sum_congr rfl e, Finset.sum_add_distrib, Finset.sum_smul, Finset.sum_comm]
  congr 1
  apply Finset.sum_congr rfl
  intro i hi
  rw [hget i (Finset.mem_range.1 hi), Finset.sum_smul]

/-- Blinds used by `commit`. -/
def commitBlinds (n : Nat) (tape : Option (Tape F)) : List F × Option (Tape F) :=
  match tape with
  | some t => ((t.nextVec n).1, some (t.nextVec n).2)
  | none => (List.replicate n 0, none)

theorem commitBlinds_length (n : Nat) (tape : Option (Tape F)) :
    (commitBlinds n tape).1.length = n := by cases tape <;> simp [commitBlinds]

theorem two_pow_split (n : Nat) : 2 ^ (n / 2) * 2 ^ (n - n / 2) = 2 ^ n := by
  rw [← pow_add]; congr 1; omega

theorem commit_eq (E : Env F G P) {Z : List F} {ell : Nat} (hZ : Z.length = 2 ^ ell)
    {gens : DotGens G} {g0 h : G} (hg : gens.WF (ell - ell / 2) g0 h) (tape : Option (Tape F)) :
    Dense.commit E ⟨ell, Z.length, Z⟩ gens tape =
      .ok ((rowComms gens.gensn.G h (rowsOf (2 ^ (ell - ell / 2)) (2 ^ (ell / 2)) Z)
          (commitBlinds (2 ^ (ell / 2)) tape).1).map E.compress,
        (commitBlinds (2 ^ (ell / 2)) tape).1, (commitBlinds (2 ^ (ell / 2)) tape).2) := by
  have hwf : gens.gensn.WF := by unfold Gens.WF; rw [hg.gn, hg.glen]
  unfold Dense.commit factoredLens
  simp only
  rw [check_true hZ, ok_bind, check_true (by rw [two_pow_split, hZ]), ok_bind]
  have key : ∀ (bs : List F) (t : Option (Tape F)), bs.length = 2 ^ (ell / 2) →
      (do
        let C ← (⟨ell, Z.length, Z⟩ : Dense F).commitInner E bs gens.gensn
        pure (C, bs, t) : Out (List P × List F × Option (Tape F))) =
      .ok ((rowComms gens.gensn.G h (rowsOf (2 ^ (ell - ell / 2)) (2 ^ (ell / 2)) Z) bs).map
        E.compress, bs, t) := by
    intro bs t hbs
    have hne : bs ≠ [] := by
      intro h0; rw [h0] at hbs; have := Nat.two_pow_pos (ell / 2); simp at hbs; omega
    rw [commitInner_eq E (w := 2 ^ (ell - ell / 2)) hne (by rw [hbs, two_pow_split, hZ]) hwf hg.gn,
      ok_bind, hbs, hg.gh]; rfl
  cases tape with
  | some t =>
    exact key _ _ (by simp)
  | none =>
    exact key _ _ (by simp)

/-- Completeness of the evaluation proof, for the blinds of any commitment. -/
theorem polyEval_complete {E : Env F G P} (hE : E.Lawful) {Z r : List F}
    (hZ : Z.length = 2 ^ r.length) {gens : DotGens G} {g0 h : G}
    (hg : gens.WF (r.length - r.length / 2) g0 h) (hk : r.length - r.length / 2 < 32)
    (blinds : List F) (hb : blinds.length = 2 ^ (r.length / 2)) (bO : Option (List F))
    (hbO : bO.getD (List.replicate (2 ^ (r.length / 2)) 0) = blinds)
    (bz : Option F) (tr : Tr F P) (tape : Tape F) :
    let comm := (rowComms gens.gensn.G h (rowsOf (2 ^ (r.length - r.length / 2)) (2 ^ (r.length / 2)) Z)
      blinds).map E.compress
    (∃ pf Czr tr' tape',
      polyEvalProve E ⟨r.length, Z.length, Z⟩ bO r (mle Z r) bz gens tr tape
        = .ok (pf, Czr, tr', tape') ∧
      Czr = E.compress (mle Z r • g0 + bz.getD 0 • h) ∧
      polyEvalVerify E pf gens tr r Czr comm = .ok tr' ∧ tr <+: tr') ∨
    (polyEvalProve E ⟨r.length, Z.length, Z⟩ bO r (mle Z r) bz gens tr tape = .error .panic ∧
      ZeroU E tr) := by
  intro comm
  obtain ⟨hL, hR, -⟩ := factoredEvals_correct r
  obtain ⟨LZ, hb1, hb2, hb3, hb4⟩ := bound_eval hZ
  have hpre : tr <+: tr.protocol "polynomial evaluation proof" := by simp [Tr.protocol]
  unfold polyEvalProve polyEvalVerify
  simp only [factoredLens, hbO]
  rw [check_true trivial, ok_bind, check_true hb, ok_bind]
  simp only [hL, hR]
  rw [check_true trivial, ok_bind, ok_bind, hb1, ok_bind, ← hb4]
  have hmsm : msm (factoredEvals r).1 (rowComms gens.gensn.G h
      (rowsOf (2 ^ (r.length - r.length / 2)) (2 ^ (r.length / 2)) Z) blinds) =
      .ok (lc LZ gens.gensn.G + dot blinds (factoredEvals r).1 • h) := by
    rw [msm_eq (by simp [rowComms, rowsOf_length, hL, hb])]
    rw [← hb]
    rw [lc_rowComms (w := 2 ^ (r.length - r.length / 2)) (by rw [hL, hb])
      (by rw [hb, two_pow_split, hZ]) hg.glen hb2 (by rw [hb]; exact hb3)]
  rcases dotlog_prove_complete hE hg hk (tr.protocol "polynomial evaluation proof") tape
    (dot blinds (factoredEvals r).1) (bz.getD 0) hb2 hR with
    ⟨pf, Cx, Cy, tr', tape', h1, h2, h3, h4, h5⟩ | ⟨h1, hz⟩
  · left
    rw [h1, ok_bind]
    refine ⟨pf, Cy, tr', tape', rfl, h3, ?_, hpre.trans h5⟩
    rw [mapM_decompressU hE, ok_bind, hmsm, ok_bind, ← h2]
    exact h4
  · right
    rw [h1]; exact ⟨rfl, hz.mono hpre⟩

end Spartan
