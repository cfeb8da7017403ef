import Verif.Lemmas.RBRLog
import Verif.Props.NIZK

/-! Round-by-round soundness of the R1CS proof. -/

set_option linter.unusedSectionVars false

namespace Spartan
open Spec Polynomial
variable {F G P M : Type} [Field F] [AddCommGroup G] [Module F G] [AddCommGroup M] [Module F M]
  [DecidableEq F] [DecidableEq P] [DecidableEq G]

/-! ### multilinear extensions as polynomials -/

theorem mle_indiv (n : Nat) (Z : List F) : IndivDegree n 1 (mle Z) := by
  intro pre post hl
  refine ⟨C (mle Z (pre ++ 0 :: post)) + C (mle Z (pre ++ 1 :: post) - mle Z (pre ++ 0 :: post)) * X,
    ?_, fun x => ?_⟩
  · refine (natDegree_add_le _ _).trans (max_le (by simp) ?_)
    exact (natDegree_C_mul_le _ _).trans natDegree_X_le
  · have := mle_affine Z (pre ++ x :: post) pre.length (by simp) x
    simp only [List.set_append_right _ _ le_rfl, Nat.sub_self, List.set_cons_zero] at this
    rw [this]
    simp; ring

theorem indiv_mul {n d e : Nat} {f g : List F → F} (hf : IndivDegree n d f) (hg : IndivDegree n e g) :
    IndivDegree n (d + e) fun l => f l * g l := by
  intro pre post hl
  obtain ⟨p, hp, hpe⟩ := hf pre post hl
  obtain ⟨q, hq, hqe⟩ := hg pre post hl
  exact ⟨p * q, natDegree_mul_le.trans (by omega), fun x => by simp [hpe, hqe]⟩

theorem indiv_sub {n d e : Nat} (he : e ≤ d) {f g : List F → F} (hf : IndivDegree n d f)
    (hg : IndivDegree n e g) : IndivDegree n d fun l => f l - g l := by
  intro pre post hl
  obtain ⟨p, hp, hpe⟩ := hf pre post hl
  obtain ⟨q, hq, hqe⟩ := hg pre post hl
  exact ⟨p - q, (natDegree_sub_le _ _).trans (by omega), fun x => by simp [hpe, hqe]⟩

theorem mle_at_bool {n i : Nat} (Z : List F) (hi : i < 2 ^ n) : mle Z (boolPoint n i) = Z.getD i 0 := by
  unfold mle
  rw [boolPoint_length, Finset.sum_eq_single i]
  · rw [chi_boolPoint hi hi, if_pos rfl, mul_one]
  · intro b hb hne
    rw [chi_boolPoint hi (Finset.mem_range.1 hb), if_neg hne, mul_zero]
  · intro h; exact absurd (Finset.mem_range.2 hi) h

/-! ### tau -/

/-- Unfavourable values of the next coordinate of the point at which the nonzero multi-affine function
`f` of `n` arguments is evaluated, the first ones being `pre`. -/
def tauSet (n : Nat) (f : List F → F) (pre : List F) : Set F :=
  {r | pre.length < n ∧ (∃ y, pre.length + y.length = n ∧ f (pre ++ y) ≠ 0) ∧
    ∀ y, pre.length + 1 + y.length = n → f (pre ++ r :: y) = 0}

theorem tauSet_small {n : Nat} {f : List F → F} (hf : IndivDegree n 1 f) (pre : List F) :
    AtMost 1 (tauSet n f pre) := by
  by_cases h : pre.length < n ∧ ∃ y, pre.length + y.length = n ∧ f (pre ++ y) ≠ 0
  swap
  · exact (AtMost.empty 1).mono le_rfl fun r hr => absurd ⟨hr.1, hr.2.1⟩ h
  obtain ⟨hlt, y, hy, hne⟩ := h
  cases y with
  | nil => simp at hy; omega
  | cons a y =>
    have hl : pre.length + 1 + y.length = n := by rw [List.length_cons] at hy; omega
    obtain ⟨q, hq, hqe⟩ := hf pre y hl
    have hq0 : q ≠ 0 := by
      rintro rfl
      exact hne (by rw [hqe]; simp)
    exact AtMost.roots hq0 hq fun r hr => by rw [← hqe]; exact hr.2.2 y hl

theorem tau_hit {n : Nat} {f : List F → F} : ∀ (Rs : List (Round F M)) (pre : List F),
    pre.length + Rs.length = n → (∃ y, pre.length + y.length = n ∧ f (pre ++ y) ≠ 0) →
    f (pre ++ chs Rs) = 0 →
    ∃ hist ms x rest, Rs = hist ++ (ms, x) :: rest ∧ x ∈ tauSet n f (pre ++ chs hist)
  | [], pre, hl, ⟨y, hy, hne⟩, h0 => by
    exfalso
    obtain rfl : y = [] := by
      rw [← List.length_eq_zero_iff]; simp at hl; omega
    exact hne (by simpa [chs] using h0)
  | (m, x) :: Rs, pre, hl, hy, h0 => by
    have hl' : pre.length + 1 + Rs.length = n := by simpa [add_assoc, add_comm] using hl
    by_cases hx : ∃ y, pre.length + 1 + y.length = n ∧ f (pre ++ x :: y) ≠ 0
    · obtain ⟨y, h1, h2⟩ := hx
      obtain ⟨hist, ms, x', rest, rfl, hm⟩ := tau_hit Rs (pre ++ [x]) (by simpa using hl')
        ⟨y, by simpa using h1, by simpa using h2⟩ (by simpa [chs] using h0)
      exact ⟨(m, x) :: hist, ms, x', rest, rfl, by simpa [chs] using hm⟩
    · push Not at hx
      exact ⟨[], m, x, Rs, rfl, by simp only [chs, List.map_nil, List.append_nil]; exact ⟨by omega, hy, hx⟩⟩

theorem challengeVec_seg (E : Env F G P) (rep : P → M) (l : String) : ∀ (n : Nat) (tr : Tr F P)
    (cur : List (Msg F M)), ∃ Rs, Seg E rep tr cur Rs (E.challengeVec tr l n).2 (if n = 0 then cur else []) ∧
      Rs.length = n ∧ chs Rs = (E.challengeVec tr l n).1 ∧ (1 ≤ n → (Rs.headD ([], 0)).1 = cur)
  | 0, tr, cur => ⟨[], Seg.refl E rep tr cur, rfl, rfl, by omega⟩
  | n + 1, tr, cur => by
    obtain ⟨Rs, h1, h2, h3, -⟩ := challengeVec_seg E rep l n (tr ++ [.chal l]) []
    have := ((Seg.refl E rep tr cur).chal l).trans h1
    refine ⟨(cur, E.hash (tr ++ [.chal l])) :: Rs, ?_, by simp [h2], ?_, fun _ => rfl⟩
    · simpa [Env.challengeVec, Env.challenge] using this
    · simp [Env.challengeVec, Env.challenge, chs] at h3 ⊢
      exact h3

/-! ### linear combination of three claims -/

/-- Unfavourable coefficients of a combination of errors `a`, `b`, `c`, not all zero. -/
def linBad (a b c : F) : Bads F M
  | [], _ => {r | c = 0 ∧ b = 0 ∧ a ≠ 0 ∧ r * a = 0}
  | [(_, rA)], _ => {r | c = 0 ∧ b ≠ 0 ∧ rA * a + r * b = 0}
  | [(_, rA), (_, rB)], _ => {r | c ≠ 0 ∧ rA * a + rB * b + r * c = 0}
  | _, _ => ∅

theorem linBad_small (a b c : F) : Small 1 (linBad a b c : Bads F M) := by
  intro hist ms
  match hist with
  | [] =>
    by_cases h : a = 0
    · exact (AtMost.empty 1).mono le_rfl fun r hr => absurd h hr.2.2.1
    · exact AtMost.linear (b := 0) h fun r hr => by rw [add_zero]; exact hr.2.2.2
  | [(_, rA)] =>
    by_cases h : b = 0
    · exact (AtMost.empty 1).mono le_rfl fun r hr => absurd h hr.2.1
    · exact AtMost.linear (b := rA * a) h fun r hr => by rw [← hr.2.2]; ring
  | [(_, rA), (_, rB)] =>
    by_cases h : c = 0
    · exact (AtMost.empty 1).mono le_rfl fun r hr => absurd h hr.1
    · exact AtMost.linear (b := rA * a + rB * b) h fun r hr => by rw [← hr.2]; ring
  | _ :: _ :: _ :: _ => exact AtMost.empty 1

theorem lin_hit {a b c : F} {m1 m2 m3 : List (Msg F M)} {rA rB rC : F}
    (hne : ¬ (a = 0 ∧ b = 0 ∧ c = 0)) (h : rA * a + rB * b + rC * c = 0) :
    Hit (linBad a b c) [(m1, rA), (m2, rB), (m3, rC)] := by
  by_cases hc : c = 0
  · by_cases hb : b = 0
    · refine ⟨[], m1, rA, _, rfl, hc, hb, fun ha => hne ⟨ha, hb, hc⟩, ?_⟩
      rw [← h, hb, hc]; ring
    · refine ⟨[(m1, rA)], m2, rB, _, rfl, hc, hb, ?_⟩
      rw [← h, hc]; ring
  · exact ⟨[(m1, rA), (m2, rB)], m3, rC, _, rfl, hc, h⟩

/-! ### the R1CS proof -/

/-- The assignment read off the first message: committed variables, one, public inputs.  The first `np`
points of the message were absorbed before the proof. -/
def zOf {n : Nat} (x : M →ₗ[F] (Fin n → F)) (j np : Nat) (m0 : List (Msg F M)) : List F :=
  zpad (extractVars x (2 ^ (j / 2)) ((pts m0).drop np)) (scs m0)

/-- Errors of the constraints. -/
def consErr (I : R1CS F) (k : Nat) (z : List F) : List F :=
  (List.range (2 ^ k)).map fun i =>
    rowDot I.A.triples z i * rowDot I.B.triples z i - rowDot I.C.triples z i

/-- The polynomial of the first sum-check. -/
def f1 (I : R1CS F) (k : Nat) (z tau rs : List F) : F :=
  mle (eqEvals tau) rs * (mle (rowsVec I.A.triples z (2 ^ k)) rs * mle (rowsVec I.B.triples z (2 ^ k)) rs -
    mle (rowsVec I.C.triples z (2 ^ k)) rs)

/-- The table of the second sum-check. -/
def abc (I : R1CS F) (j : Nat) (rx : List F) (rA rB rC : F) : List F :=
  (List.range (2 ^ (j + 1))).map fun i => rA * (colsVec I.A.triples rx (2 ^ (j + 1))).getD i 0
    + rB * (colsVec I.B.triples rx (2 ^ (j + 1))).getD i 0
    + rC * (colsVec I.C.triples rx (2 ^ (j + 1))).getD i 0

theorem f1_indiv (I : R1CS F) (k : Nat) (z tau : List F) : IndivDegree k 3 (f1 I k z tau) :=
  indiv_mul (d := 1) (e := 2) (mle_indiv k _)
    (indiv_sub (by omega) (indiv_mul (d := 1) (e := 1) (mle_indiv k _) (mle_indiv k _)) (mle_indiv k _))

/-- The unfavourable challenges of the whole protocol. -/
def r1csBad {n : Nat} (I : R1CS F) (k j np : Nat) (v : M →ₗ[F] F) (x : M →ₗ[F] (Fin n → F))
    (x3 : M →ₗ[F] (Fin 3 → F)) (x4 : M →ₗ[F] (Fin 4 → F)) : Bads F M :=
  seqB k (fun hist ms => tauSet k (mle (consErr I k (zOf x j np ((hist ++ [(ms, 0)]).headD ([], 0)).1))) (chs hist))
  fun h1 =>
  let z := zOf x j np (h1.headD ([], 0)).1
  seqB (4 * k) (zkBad v x4 k (f1 I k z (chs h1))) fun h2 =>
  seqB 1 noneB fun _ =>
  seqB 1 (oneB (prodBad v)) fun _ =>
  seqB 1 (oneB (eqBad v)) fun h5 =>
  let ms := (h5.headD ([], 0)).1
  seqB 3 (linBad (v (ptR ms 6) - mle (rowsVec I.A.triples z (2 ^ k)) (zkPt (chs h2)))
    (v (ptR ms 5) - mle (rowsVec I.B.triples z (2 ^ k)) (zkPt (chs h2)))
    (v (ptR ms 4) - mle (rowsVec I.C.triples z (2 ^ k)) (zkPt (chs h2)))) fun h6 =>
  seqB (4 * (j + 1)) (zkBad v x3 (j + 1) fun y => mle z y *
    mle (abc I j (zkPt (chs h2)) ((chs h6).getD 0 0) ((chs h6).getD 1 0) ((chs h6).getD 2 0)) y) fun h7 =>
  seqB (j - j / 2 + 2) (if ((zkPt (chs h7)).drop 1).length = j then
    logBad v x (factoredEvals ((zkPt (chs h7)).drop 1)).2 (j - j / 2) else noneB) fun _ =>
  oneB (eqBad v)

theorem r1csBad_small {n : Nat} (I : R1CS F) (k j np : Nat) (v : M →ₗ[F] F) (x : M →ₗ[F] (Fin n → F))
    (x3 : M →ₗ[F] (Fin 3 → F)) (x4 : M →ₗ[F] (Fin 4 → F)) (hn : n = 2 ^ (j - j / 2)) :
    Small 6 (r1csBad I k j np v x x3 x4) := by
  have one : ∀ {B : Bads F M}, Small 1 B → Small 6 B := fun h => h.mono (by omega)
  refine Small.seq (one fun hist ms => tauSet_small (mle_indiv k _) _) fun h1 => ?_
  refine Small.seq ((zkBad_small rfl (by omega) v x4 k _ (f1_indiv I k _ _)).mono (by omega)) fun h2 => ?_
  refine Small.seq (noneB_small 6) fun _ => ?_
  refine Small.seq (one fun _ ms => prodBad_small v ms) fun _ => ?_
  refine Small.seq (one fun _ ms => eqBad_small v ms) fun h5 => ?_
  refine Small.seq (one (linBad_small _ _ _)) fun h6 => ?_
  refine Small.seq ((zkBad_small rfl (by omega) v x3 (j + 1) _
    (indiv_mul (d := 1) (e := 1) (mle_indiv _ _) (mle_indiv _ _))).mono (by omega)) fun h7 => ?_
  refine Small.seq ?_ fun _ => one fun _ ms => eqBad_small v ms
  split
  · next hl => exact logBad_small v x (by rw [(factoredEvals_correct _).2.1, hl, hn]) hn
  · exact noneB_small 6

theorem know_seg {E : Env F G P} (hE : E.Lawful) (rep : P → M) {g0 h : G} {pf : KnowledgeProof F P}
    {tr tr' : Tr F P} {C : P} (hok : pf.verify E (Gens.single g0 h) tr C = .ok tr')
    (cur : List (Msg F M)) : ∃ ms, Seg E rep tr cur [(ms, E.hash tr')] tr' [] := by
  obtain ⟨ht, -⟩ := (KnowledgeProof.verify_ok_iff hE).1 hok
  have hs := ((((Seg.refl E rep tr cur).protocol "knowledge proof").point "C" C).point
    "alpha" pf.alpha).chal "c"
  change Seg E rep tr cur [(_, E.hash (knowTr tr C pf.alpha))] (knowTr tr C pf.alpha) [] at hs
  rw [← ht] at hs
  exact ⟨_, hs⟩

theorem consErr_mle {I : R1CS F} {k : Nat} {z tau : List F} (ht : tau.length = k) :
    mle (consErr I k z) tau = cubeSum k (f1 I k z tau) [] := by
  unfold cubeSum
  rw [mle, ht]
  refine Finset.sum_congr rfl fun i hi => ?_
  have hi := Finset.mem_range.1 hi
  simp only [List.nil_append, f1]
  rw [mle_at_bool _ hi, mle_at_bool _ hi, mle_at_bool _ hi, mle_at_bool _ hi, rowsVec_getD hi,
    rowsVec_getD hi, rowsVec_getD hi, consErr, map_range_getD hi, (eqEvals_correct tau).2 i (by rw [ht]; exact hi)]
  ring

theorem consErr_ne {I : R1CS F} {k : Nat} {z : List F}
    (h : ¬ Sat I.A.triples I.B.triples I.C.triples (2 ^ k) z) :
    ∃ y : List F, y.length = k ∧ mle (consErr I k z) y ≠ 0 := by
  unfold Sat at h
  push Not at h
  obtain ⟨i, hi, hne⟩ := h
  refine ⟨boolPoint k i, boolPoint_length _ _, ?_⟩
  rw [mle_at_bool _ hi, consErr, map_range_getD hi]
  exact sub_ne_zero.2 hne

theorem abc_sum {I : R1CS F} {j k : Nat} {z rx : List F} (hz : z.length = 2 ^ (j + 1)) (hrx : rx.length = k)
    (rA rB rC : F) :
    cubeSum (j + 1) (fun y => mle z y * mle (abc I j rx rA rB rC) y) [] =
      rA * mle (rowsVec I.A.triples z (2 ^ k)) rx + rB * mle (rowsVec I.B.triples z (2 ^ k)) rx +
        rC * mle (rowsVec I.C.triples z (2 ^ k)) rx := by
  have hr := fun M => rows_mle (F := F) M z rx
  rw [hrx, hz] at hr
  rw [hr, hr, hr]
  simp only [Finset.mul_sum, ← Finset.sum_add_distrib]
  unfold cubeSum
  refine Finset.sum_congr rfl fun i hi => ?_
  have hi := Finset.mem_range.1 hi
  simp only [List.nil_append]
  rw [mle_at_bool _ hi, mle_at_bool _ hi, abc, map_range_getD hi]
  ring

theorem abc_mle {I : R1CS F} {j : Nat} {rx ry : List F} (hry : ry.length = j + 1) (rA rB rC : F) :
    mle (abc I j rx rA rB rC) ry = rA * matMLE I.A.triples rx ry + rB * matMLE I.B.triples rx ry
      + rC * matMLE I.C.triples rx ry := by
  have := mle_lin3 rA rB rC (colsVec I.A.triples rx (2 ^ (j + 1))) (colsVec I.B.triples rx (2 ^ (j + 1)))
    (colsVec I.C.triples rx (2 ^ (j + 1))) ry
  have hc := fun M => cols_mle (F := F) M rx ry
  rw [hry] at this hc
  rw [abc, this, hc, hc, hc]

end Spartan
