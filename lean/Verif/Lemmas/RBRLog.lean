import Verif.Props.PolyMerge
import Verif.Lemmas.RBRSigma
import Verif.Lemmas.PolyEval
import Mathlib.LinearAlgebra.Pi

/-! Round-by-round soundness of the logarithmic dot-product proof and of polynomial evaluation. -/

set_option linter.unusedSectionVars false

namespace Spartan
open Spec
variable {F G P M : Type} [Field F] [AddCommGroup G] [Module F G] [AddCommGroup M] [Module F M]
  [DecidableEq F] [DecidableEq P] [DecidableEq G]

/-- The public vector after one round of the reduction. -/
def foldA (u : F) (a : List F) : List F :=
  List.zipWith (fun l r => u⁻¹ • l + u • r) (a.take (a.length / 2)) (a.drop (a.length / 2))

/-- The functional that vanishes on the honest statements. -/
def lam {n : Nat} (v : M →ₗ[F] F) (x : M →ₗ[F] (Fin n → F)) (a : List F) (r : F) : M →ₗ[F] F :=
  v - r • ∑ i : Fin n, a.getD i 0 • (LinearMap.proj i ∘ₗ x)

theorem lam_apply {n : Nat} (v : M →ₗ[F] F) (x : M →ₗ[F] (Fin n → F)) {a : List F} (ha : a.length = n)
    (r : F) (m : M) : lam v x a r m = v m - r * dot (co x m) a := by
  simp only [lam, LinearMap.sub_apply, LinearMap.smul_apply, LinearMap.sum_apply, LinearMap.comp_apply,
    LinearMap.proj_apply, smul_eq_mul]
  congr 2
  unfold dot co
  rw [lc_ofFn _ ha]
  refine Finset.sum_congr rfl fun i _ => ?_
  rw [smul_eq_mul, mul_comm]
  congr 1
  simp [List.getD_eq_getElem?_getD, ha]

/-- Bad challenges of the reduction and of the final proof: `y` is the value of the functional on the
current statement, `a` the current public vector. -/
def bulBad (l : M → F) : Nat → F → List F → Bads F M
  | 0, y, a => oneB fun ms =>
    {c | y ≠ 0 ∧ a.getD 0 0 ≠ 0 ∧ a.getD 0 0 * (c * y + l (ptR ms 0)) + l (ptR ms 1) = 0}
  | k + 1, y, a => seqB 1
    (oneB fun ms => {u | u ≠ 0 ∧ ((y ≠ 0 ∧ y + u * u * l (ptR ms 1) + u⁻¹ * u⁻¹ * l (ptR ms 0) = 0) ∨
      ((∃ i < 2 ^ (k + 1), a.getD i 0 ≠ 0) ∧ ∀ i < 2 ^ k, (foldA u a).getD i 0 = 0))})
    fun h =>
      let ms := (h.map Prod.fst).getD 0 []
      let u := (chs h).getD 0 0
      bulBad l k (y + u * u * l (ptR ms 1) + u⁻¹ * u⁻¹ * l (ptR ms 0)) (foldA u a)

theorem foldA_getD {k : Nat} {a : List F} (ha : a.length = 2 ^ (k + 1)) (u : F) {i : Nat} (hi : i < 2 ^ k) :
    (foldA u a).getD i 0 = u⁻¹ * a.getD i 0 + u * a.getD (2 ^ k + i) 0 := by
  have h2 : a.length / 2 = 2 ^ k := by rw [ha, pow_succ]; omega
  have h3 : 2 ^ (k + 1) = 2 ^ k + 2 ^ k := by rw [pow_succ]; omega
  simp only [foldA, h2]
  rw [List.getD_eq_getElem?_getD, List.getElem?_zipWith, List.getElem?_take, if_pos hi,
    List.getElem?_drop, List.getElem?_eq_getElem (by omega), List.getElem?_eq_getElem (by omega)]
  simp [List.getD_eq_getElem?_getD, show i < a.length by omega, show 2 ^ k + i < a.length by omega]

theorem foldA_length {k : Nat} {a : List F} (ha : a.length = 2 ^ (k + 1)) (u : F) :
    (foldA u a).length = 2 ^ k := by
  have h3 : 2 ^ (k + 1) = 2 ^ k + 2 ^ k := by rw [pow_succ]; omega
  simp [foldA, ha, h3]
  omega

theorem bulBad_small (l : M → F) : ∀ (k : Nat) (y : F) (a : List F), a.length = 2 ^ k →
    Small 6 (bulBad l k y a)
  | 0, y, a, _ => by
    intro hist ms
    refine AtMost.mono (d := 1) ?_ (by omega) le_rfl
    by_cases hy : y = 0
    · exact (AtMost.empty 1).mono le_rfl (fun c hc => absurd hy hc.1)
    by_cases ha : a.getD 0 0 = 0
    · exact (AtMost.empty 1).mono le_rfl (fun c hc => absurd ha hc.2.1)
    · refine AtMost.linear (a := a.getD 0 0 * y) (b := a.getD 0 0 * l (ptR ms 0) + l (ptR ms 1))
        (mul_ne_zero ha hy) fun c hc => ?_
      linear_combination hc.2.2
  | k + 1, y, a, ha => by
    refine Small.seq (fun hist ms => ?_) fun h => bulBad_small l k _ _ (foldA_length ha _)
    have s1 : AtMost 4 {u : F | u ≠ 0 ∧ y ≠ 0 ∧
        y + u * u * l (ptR ms 1) + u⁻¹ * u⁻¹ * l (ptR ms 0) = 0} := by
      by_cases hy : y = 0
      · exact (AtMost.empty 4).mono le_rfl (fun c hc => absurd hy hc.2.1)
      refine AtMost.roots (q := Polynomial.C (l (ptR ms 1)) * Polynomial.X ^ 4 + Polynomial.C y *
        Polynomial.X ^ 2 + Polynomial.C (l (ptR ms 0))) ?_ ?_ ?_
      · intro h0
        have := congrArg (fun q => Polynomial.coeff q 2) h0
        simp [Polynomial.coeff_X_pow, Polynomial.coeff_C] at this
        exact hy this
      · compute_degree
      · rintro u ⟨hu, -, he⟩
        have : u * u * (y + u * u * l (ptR ms 1) + u⁻¹ * u⁻¹ * l (ptR ms 0)) = 0 := by rw [he, mul_zero]
        simp only [Polynomial.eval_add, Polynomial.eval_mul, Polynomial.eval_C, Polynomial.eval_pow,
          Polynomial.eval_X]
        rw [← this]
        field_simp
        ring
    have s2 : AtMost 2 {u : F | u ≠ 0 ∧ (∃ i < 2 ^ (k + 1), a.getD i 0 ≠ 0) ∧
        ∀ i < 2 ^ k, (foldA u a).getD i 0 = 0} := by
      by_cases hex : ∃ i < 2 ^ k, a.getD i 0 ≠ 0 ∨ a.getD (2 ^ k + i) 0 ≠ 0
      · obtain ⟨i, hi, hne⟩ := hex
        refine AtMost.roots (q := Polynomial.C (a.getD (2 ^ k + i) 0) * Polynomial.X ^ 2 +
          Polynomial.C (a.getD i 0)) ?_ ?_ ?_
        · intro h0
          have c2 := congrArg (fun q => Polynomial.coeff q 2) h0
          have c0 := congrArg (fun q => Polynomial.coeff q 0) h0
          simp [Polynomial.coeff_X_pow, Polynomial.coeff_C] at c2 c0
          rcases hne with h | h
          · exact h c0
          · exact h c2
        · compute_degree
        · rintro u ⟨hu, -, hz⟩
          have := hz i hi
          rw [foldA_getD ha u hi] at this
          have h' : u * (u⁻¹ * a.getD i 0 + u * a.getD (2 ^ k + i) 0) = 0 := by rw [this, mul_zero]
          simp only [Polynomial.eval_add, Polynomial.eval_mul, Polynomial.eval_C, Polynomial.eval_pow,
            Polynomial.eval_X]
          have e : a.getD (2 ^ k + i) 0 * u ^ 2 + a.getD i 0 =
              u * (u⁻¹ * a.getD i 0 + u * a.getD (2 ^ k + i) 0) := by
            generalize a.getD i 0 = p, a.getD (2 ^ k + i) 0 = q
            field_simp
            ring
          rw [e, h']
      · refine (AtMost.empty 2).mono le_rfl ?_
        rintro u ⟨-, ⟨i, hi, hne⟩, -⟩
        exfalso
        apply hex
        by_cases hlt : i < 2 ^ k
        · exact ⟨i, hlt, .inl hne⟩
        · refine ⟨i - 2 ^ k, by rw [pow_succ] at hi; omega, .inr ?_⟩
          rwa [show 2 ^ k + (i - 2 ^ k) = i by omega]
    refine (s1.union s2).mono le_rfl ?_
    rintro u ⟨hu, h | h⟩
    · exact .inl ⟨hu, h⟩
    · exact .inr ⟨hu, h⟩

theorem dot_sVec_fold {k : Nat} {a : List F} (ha : a.length = 2 ^ (k + 1)) (u : F) {us : List F}
    (hus : us.length = k) : dot a (sVec (u :: us)) = dot (foldA u a) (sVec us) := by
  have h2 : a.length / 2 = 2 ^ k := by rw [ha, pow_succ]; omega
  have h3 : 2 ^ (k + 1) = 2 ^ k + 2 ^ k := by rw [pow_succ]; omega
  rw [dot_comm, dot_comm (foldA u a)]
  unfold dot foldA
  rw [h2, ← lc_sVec_cons u us (by simp [hus, ha]; omega) (by simp [hus, ha]; omega),
    List.take_append_drop]

theorem bullet_rbr {E : Env F G P} {rep : P → M} (l : M →ₗ[F] F) : ∀ (L R : List P) (tr t1 : Tr F P)
    (us : List F) (y : F) (a : List F), L.length = R.length → bulletChallenges E L R tr = (us, t1) →
    (0 : F) ∉ us → a.length = 2 ^ L.length →
    ∃ Rs, Seg E rep tr [] Rs t1 [] ∧ Rs.length = L.length ∧
      (y ≠ 0 → (∃ i < 2 ^ L.length, a.getD i 0 ≠ 0) → ∀ ms c,
        dot a (sVec us) * (c * (y + l (lc (us.map fun u => u * u) (L.map rep) +
          lc (us.map fun u => u⁻¹ * u⁻¹) (R.map rep))) + l (ptR ms 0)) + l (ptR ms 1) = 0 →
        Hit (bulBad l L.length y a) (Rs ++ [(ms, c)]))
  | [], [], tr, t1, us, y, a, _, hch, _, ha => by
    simp only [bulletChallenges, Prod.mk.injEq] at hch
    obtain ⟨rfl, rfl⟩ := hch
    refine ⟨[], Seg.refl _ _ _ _, rfl, fun hy ⟨i, hi, hne⟩ ms c he => ?_⟩
    refine Hit.one (x := c) ?_
    obtain ⟨a0, rfl⟩ : ∃ a0, a = [a0] := List.length_eq_one_iff.1 (by simpa using ha)
    have hi0 : i = 0 := by simpa using hi
    subst hi0
    refine ⟨hy, hne, ?_⟩
    simpa [sVec, dot, lc] using he
  | L0 :: L, R0 :: R, tr, t1, us, y, a, hl, hch, h0, ha => by
    simp only [bulletChallenges, Env.challenge] at hch
    set tu := (tr.point "L" L0).point "R" R0 ++ [.chal "u"] with htu
    obtain ⟨us', t1', hch'⟩ : ∃ us' t1', bulletChallenges E L R tu = (us', t1') := ⟨_, _, rfl⟩
    rw [hch'] at hch
    simp only [Prod.mk.injEq] at hch
    obtain ⟨rfl, rfl⟩ := hch
    set u := E.hash tu with hu
    have hu0 : u ≠ 0 := fun h => h0 (by simp [h])
    have hl' : L.length = R.length := by simpa using hl
    have hus : us'.length = L.length := by
      have := bulletChallenges_length E L R tu
      rw [hch'] at this; simp at this; omega
    have ha' : a.length = 2 ^ (L.length + 1) := by simpa using ha
    obtain ⟨Rs, hS, hRl, himp⟩ := bullet_rbr (rep := rep) l L R tu t1' us'
      (y + u * u * l (rep L0) + u⁻¹ * u⁻¹ * l (rep R0)) (foldA u a) hl' hch'
      (fun h => h0 (by simp [h])) (foldA_length ha' u)
    have s1 := (((Seg.refl E rep tr []).point "L" L0).point "R" R0).chal "u"
    rw [← htu, ← hu] at s1
    have s2 := s1.trans hS
    simp only [List.nil_append, List.cons_append] at s2
    refine ⟨_, s2, by simp [hRl], fun hy hane ms c he => ?_⟩
    rw [List.length_cons, bulBad]
    by_cases hb : (y + u * u * l (rep L0) + u⁻¹ * u⁻¹ * l (rep R0) = 0) ∨
      ∀ i < 2 ^ L.length, (foldA u a).getD i 0 = 0
    · refine Hit.left (Rs := [_]) rfl (Hit.one ⟨hu0, ?_⟩)
      rcases hb with hb | hb
      · exact .inl ⟨hy, hb⟩
      · exact .inr ⟨hane, hb⟩
    · push Not at hb
      refine Hit.right (Rs := [_]) (Rs' := Rs ++ [(ms, c)]) rfl ?_
      refine himp hb.1 hb.2 ms c ?_
      rw [dot_sVec_fold ha' u hus] at he
      rw [← he]
      simp only [List.map_cons, lc_cons, map_add, map_smul, smul_eq_mul]
      ring
  | [], _ :: _, _, _, _, _, _, hl, _, _, _ => by simp at hl
  | _ :: _, [], _, _, _, _, _, hl, _, _, _ => by simp at hl

theorem map_lc (π : M →ₗ[F] G) (z : List F) (l : List M) : π (lc z l) = lc z (l.map π) := by
  induction z generalizing l with
  | nil => simp
  | cons s z ih => cases l <;> simp [ih]

theorem mapM_decompressU_rep {E : Env F G P} {rep : P → M} {π : M →ₗ[F] G} (hrep : IsRep E rep π) :
    ∀ {ps : List P} {gs : List G}, ps.mapM E.decompressU = .ok gs → gs = (ps.map rep).map π
  | [], gs, h => by
    simp only [List.mapM_nil, pure_ok, Except.ok.injEq] at h
    rw [← h]; rfl
  | p :: ps, gs, h => by
    simp only [List.mapM_cons, bind_ok_iff, decompressU_ok_iff, pure_ok, Except.ok.injEq] at h
    obtain ⟨g, hg, gs', hgs, rfl⟩ := h
    rw [List.map_cons, List.map_cons, hrep _ _ hg, mapM_decompressU_rep hrep hgs]

/-- `BulletReductionProof::verify` when it returns, for lists of equal length. -/
theorem bulletVerify_ok {E : Env F G P} {rep : P → M} {π : M →ₗ[F] G} (hrep : IsRep E rep π)
    {pf : BulletProof P} {k : Nat} {a : List F} {tr t1 : Tr F P} {Gam gh Gamh : G} {ah : F} {Gv : List G}
    (hok : pf.verify E (2 ^ k) a tr Gam Gv = .ok (gh, Gamh, ah, t1)) (hlen : pf.L.length = pf.R.length) :
    ∃ us, pf.L.length = k ∧ bulletChallenges E pf.L pf.R tr = (us, t1) ∧ (0 : F) ∉ us ∧
      gh = lc (sVec us) Gv ∧ ah = dot a (sVec us) ∧
      Gamh = π (lc (us.map fun u => u * u) (pf.L.map rep) + lc (us.map fun u => u⁻¹ * u⁻¹) (pf.R.map rep))
        + Gam := by
  unfold BulletProof.verify at hok
  obtain ⟨⟨usq, uinv, s, t⟩, hsc, hok⟩ := bind_ok hok
  have hsc' := hsc
  unfold BulletProof.scalars at hsc'
  simp only at hsc'
  by_cases h32 : pf.L.length ≥ 32
  · rw [if_pos h32] at hsc'; cases hsc'
  rw [if_neg h32] at hsc'
  by_cases hn : 2 ^ k = 2 ^ pf.L.length
  swap
  · rw [if_pos hn] at hsc'; cases hsc'
  have hk : k = pf.L.length := Nat.pow_right_injective (le_refl 2) hn
  rw [if_neg (by simpa using hn)] at hsc'
  obtain ⟨us, tu, hch⟩ : ∃ us tu, bulletChallenges E pf.L pf.R tr = (us, tu) := ⟨_, _, rfl⟩
  have h0 : (0 : F) ∉ us := by
    intro h0
    rw [hch] at hsc'
    simp only [batchInvert_panic h0] at hsc'
    cases hsc'
  rw [hk, scalars_eq rfl (by omega) (by omega) hch h0] at hsc
  cases hsc
  have hus : us.length = pf.L.length := by
    have := bulletChallenges_length E pf.L pf.R tr
    rw [hch] at this; simp at this; omega
  simp only at hok
  obtain ⟨Ls, hL, hok⟩ := bind_ok hok
  obtain ⟨Rs, hR, hok⟩ := bind_ok hok
  obtain ⟨g, hg, hok⟩ := bind_ok hok
  obtain ⟨ip, hip, hok⟩ := bind_ok hok
  obtain ⟨gam, hgam, hok⟩ := bind_ok hok
  simp only [pure_ok, Except.ok.injEq, Prod.mk.injEq] at hok
  obtain ⟨rfl, rfl, rfl, rfl⟩ := hok
  have eL := mapM_decompressU_rep hrep hL
  have eR := mapM_decompressU_rep hrep hR
  refine ⟨us, hk.symm, hch, h0, (msm_ok_iff.1 hg).2, ?_, ?_⟩
  · unfold innerProduct at hip
    obtain ⟨_, -, h2⟩ := bind_ok hip
    simp only [pure_ok, Except.ok.injEq] at h2
    exact h2.symm
  · rw [(msm_ok_iff.1 hgam).2, lc_append (by simp [eL, eR, hus]; omega), lc_append (by simp [eL, hus]),
      map_add, map_lc, map_lc, eL, eR]
    simp

/-- Bad challenges of `DotProductProofLog::verify`; last points of the first message: `Cx`, `Cy`. -/
def logBad {n : Nat} (v : M →ₗ[F] F) (x : M →ₗ[F] (Fin n → F)) (a : List F) (k : Nat) : Bads F M :=
  seqB 1 (oneB fun ms => {r | v (ptR ms 0) ≠ dot (co x (ptR ms 1)) a ∧
      lam v x a r (ptR ms 1 + r • ptR ms 0) = 0}) fun h =>
    let ms := (h.map Prod.fst).getD 0 []
    let r := (chs h).getD 0 0
    bulBad (lam v x a r) k (lam v x a r (ptR ms 1 + r • ptR ms 0)) a

theorem logBad_small {n k : Nat} (v : M →ₗ[F] F) (x : M →ₗ[F] (Fin n → F)) {a : List F}
    (ha : a.length = n) (hn : n = 2 ^ k) : Small 6 (logBad v x a k) := by
  refine Small.seq (fun hist ms => ?_) fun h => bulBad_small _ k _ _ (ha.trans hn)
  refine AtMost.mono (d := 2) ?_ (by omega) le_rfl
  by_cases h : v (ptR ms 0) = dot (co x (ptR ms 1)) a
  · exact (AtMost.empty 2).mono le_rfl (fun c hc => absurd h hc.1)
  refine AtMost.roots (q := Polynomial.C (- dot (co x (ptR ms 0)) a) * Polynomial.X ^ 2 +
    Polynomial.C (v (ptR ms 0) - dot (co x (ptR ms 1)) a) * Polynomial.X + Polynomial.C (v (ptR ms 1)))
    ?_ ?_ ?_
  · intro h0
    have := congrArg (fun q => Polynomial.coeff q 1) h0
    simp [Polynomial.coeff_X_pow, Polynomial.coeff_C, Polynomial.coeff_X] at this
    exact h (sub_eq_zero.1 this)
  · compute_degree
  · rintro r ⟨-, hr⟩
    rw [map_add, map_smul, lam_apply v x ha, lam_apply v x ha, smul_eq_mul] at hr
    simp only [Polynomial.eval_add, Polynomial.eval_mul, Polynomial.eval_C, Polynomial.eval_pow,
      Polynomial.eval_X]
    linear_combination hr

/-- `v` and `x` read the coefficient of `g0` and the coefficients of `Gv`. -/
structure ReadsPc {n : Nat} (v : M →ₗ[F] F) (x : M →ₗ[F] (Fin n → F)) (g0 h : M) (Gv : List M) : Prop where
  vg : v g0 = 1
  vh : v h = 0
  vG : ∀ z : List F, v (lc z Gv) = 0
  xg : x g0 = 0
  xh : x h = 0
  xG : ∀ z : List F, z.length = n → co x (lc z Gv) = z

theorem co_zero {n : Nat} {x : M →ₗ[F] (Fin n → F)} {m : M} (h : x m = 0) {a : List F} (ha : a.length = n) :
    dot (co x m) a = 0 := by
  unfold co dot
  rw [h, lc_ofFn _ ha]; simp

theorem log_rbr {E : Env F G P} (hE : E.Lawful) {rep : P → M} {π : M →ₗ[F] G} (hrep : IsRep E rep π)
    {k n : Nat} (hn : n = 2 ^ k) {v : M →ₗ[F] F} {x : M →ₗ[F] (Fin n → F)} {g0 h : M} {Gm : List M}
    (hr : ReadsPc v x g0 h Gm) {gens : DotGens G} (hg : gens.WF k (π g0) (π h))
    (hG : gens.gensn.G = Gm.map π) {pf : DotProductProofLog F P}
    (hlen : pf.bullet.L.length = pf.bullet.R.length) {tr tr' : Tr F P} {a : List F} {Cx Cy : P}
    (hok : pf.verify E (2 ^ k) gens tr a Cx Cy = .ok tr')
    (hF : Free π (logRels rep g0 h Gm pf (E.hash (dotLogTr0 tr Cx Cy a))
      (bulletChallenges E pf.bullet.L pf.bullet.R (dotLogTr0 tr Cx Cy a)).1 (E.hash
        ((((bulletChallenges E pf.bullet.L pf.bullet.R (dotLogTr0 tr Cx Cy a)).2.point "delta"
          pf.delta).point "beta" pf.beta) ++ [.chal "c"])) a Cx Cy)) (cur : List (Msg F M)) :
    ∃ Rs, Seg E rep tr cur Rs tr' [] ∧ Rs.length = k + 2 ∧ (v (rep Cy) ≠ dot (co x (rep Cx)) a →
      (∃ i < 2 ^ k, a.getD i 0 ≠ 0) → Hit (logBad v x a k) Rs) := by
  -- the two inputs decode
  have hdec : ∃ Cx' Cy', E.decompress Cx = some Cx' ∧ E.decompress Cy = some Cy' ∧ a.length = 2 ^ k := by
    have h' := hok
    unfold DotProductProofLog.verify at h'
    simp only [bind_ok_iff, check_ok_iff, unpack_ok_iff, Env.challenge] at h'
    obtain ⟨-, -, -, hal, -, -, Cx', hCx, Cy', hCy, -⟩ := h'
    exact ⟨Cx', Cy', hCx, hCy, hal⟩
  obtain ⟨Cx', Cy', hCx, hCy, ha⟩ := hdec
  rw [dotlog_verify_eq hg tr ha hCx hCy] at hok
  simp only at hok
  set t0 := dotLogTr0 tr Cx Cy a with ht0
  set r := E.hash t0 with hrd
  obtain ⟨⟨gh, Gamh, ah, t1⟩, hbul, hok⟩ := bind_ok hok
  obtain ⟨us, hLk, hch, h0, rfl, rfl, rfl⟩ := bulletVerify_ok hrep hbul hlen
  simp only [bind_ok_iff, unpack_ok_iff, check_ok_iff, pure_ok, Except.ok.injEq,
    compress_eq_iff hE] at hok
  obtain ⟨b', hb', d', hd', -, heq, rfl⟩ := hok
  rw [hch] at hF
  simp only at hF
  set t2 := (t1.point "delta" pf.delta).point "beta" pf.beta ++ [.chal "c"] with ht2
  set c := E.hash t2 with hc
  set Gam := lc (us.map fun u => u * u) (pf.bullet.L.map rep) +
    lc (us.map fun u => u⁻¹ * u⁻¹) (pf.bullet.R.map rep) with hGam
  set ah := dot a (sVec us) with hah
  have hcx := hrep _ _ hCx
  have hcy := hrep _ _ hCy
  have q := Free.eq (free_cons.1 hF).1 (by
    simp only [map_add, map_smul, map_lc π (sVec us), hcx, hcy, hrep _ _ hb', hrep _ _ hd', ← hG]
    rw [← heq]
    simp only [hGam, map_add, map_lc, hah])
  -- apply the functional
  have ha' : a.length = n := ha.trans hn.symm
  have hus : us.length = k := by
    have := bulletChallenges_length E pf.bullet.L pf.bullet.R t0
    rw [hch] at this; simp at this; omega
  have q := congrArg (lam v x a r) q
  have l0 : lam v x a r g0 = 1 := by rw [lam_apply v x ha', co_zero hr.xg ha', hr.vg]; ring
  have lh : lam v x a r h = 0 := by rw [lam_apply v x ha', co_zero hr.xh ha', hr.vh]; ring
  have lG : lam v x a r (lc (sVec us) Gm) = - (r * ah) := by
    rw [lam_apply v x ha', hr.vG, hr.xG _ (by simp [hus, hn]), dot_comm, ← hah]; ring
  simp only [map_add, map_smul, l0, lh, lG, smul_eq_mul, mul_one, mul_zero, add_zero] at q
  -- the rounds
  have s1 := ((((Seg.refl E rep tr cur).protocol "dot product proof (log)").point "Cx" Cx).point "Cy"
    Cy).scalars "a" a |>.chal "r"
  change Seg E rep tr cur [(_, E.hash t0)] t0 [] at s1
  rw [← hrd] at s1
  obtain ⟨Rs, hS, hRl, himp⟩ := bullet_rbr (rep := rep) (lam v x a r) pf.bullet.L pf.bullet.R t0 t1 us
    (lam v x a r (rep Cx + r • rep Cy)) a hlen hch h0 (by rw [hLk]; exact ha)
  have s2 := (((Seg.refl E rep t1 ([] : List (Msg F M))).point "delta" pf.delta).point "beta" pf.beta).chal
    "c"
  rw [← ht2, ← hc] at s2
  have s3 := s1.trans (hS.trans s2)
  refine ⟨_, s3, by simp only [List.length_append, List.length_cons, List.length_nil, hRl, hLk]; omega, fun hne hane => ?_⟩
  have hm1 : ∀ (m : List (Msg F M)), ptR (m ++ [.bytes "protocol-name" "dot product proof (log)"] ++
      [.point "Cx" (rep Cx)] ++ [.point "Cy" (rep Cy)] ++ [.bytes "a" "begin_append_vector"] ++
      a.map (.scalar "a") ++ [.bytes "a" "end_append_vector"]) 0 = rep Cy ∧
      ptR (m ++ [.bytes "protocol-name" "dot product proof (log)"] ++
      [.point "Cx" (rep Cx)] ++ [.point "Cy" (rep Cy)] ++ [.bytes "a" "begin_append_vector"] ++
      a.map (.scalar "a") ++ [.bytes "a" "end_append_vector"]) 1 = rep Cx := by
    intro m; simp [ptR]
  by_cases hl0 : lam v x a r (rep Cx + r • rep Cy) = 0
  · refine Hit.left (Rs := [_]) rfl (Hit.one ?_)
    simp only [Set.mem_setOf_eq, (hm1 cur).1, (hm1 cur).2]
    exact ⟨hne, hl0⟩
  · refine Hit.right (Rs := [_]) rfl ?_
    simp only [List.map_cons, List.map_nil, List.getD_cons_zero, (hm1 cur).1, (hm1 cur).2, chs]
    rw [← hLk]
    refine himp hl0 (by rw [hLk]; exact hane) _ c ?_
    have e0 : ptR ([] ++ [Msg.point "delta" (rep pf.delta)] ++ [Msg.point "beta" (rep pf.beta)] :
      List (Msg F M)) 0 = rep pf.beta := by simp [ptR]
    have e1 : ptR ([] ++ [Msg.point "delta" (rep pf.delta)] ++ [Msg.point "beta" (rep pf.beta)] :
      List (Msg F M)) 1 = rep pf.delta := by simp [ptR]
    rw [e0, e1, map_add, map_add, map_smul, smul_eq_mul]
    linear_combination q

/-- The assignment committed to by the first `rows` row commitments. -/
def extractVars {n : Nat} (x : M →ₗ[F] (Fin n → F)) (rows : Nat) (comm : List M) : List F :=
  (comm.take rows).flatMap (co x)

theorem flatMap_co_length {n : Nat} (x : M →ₗ[F] (Fin n → F)) : ∀ l : List M,
    (l.flatMap (co x)).length = l.length * n
  | [] => by simp
  | m :: l => by simp [flatMap_co_length x l]; ring

theorem extractVars_length {n rows : Nat} (x : M →ₗ[F] (Fin n → F)) {comm : List M}
    (h : rows ≤ comm.length) : (extractVars x rows comm).length = rows * n := by
  rw [extractVars, flatMap_co_length, List.length_take, min_eq_left h]

theorem flatMap_co_getD {n : Nat} (x : M →ₗ[F] (Fin n → F)) (i : Fin n) : ∀ (l : List M) (j : Nat),
    j < l.length → (l.flatMap (co x)).getD (j * n + i) 0 = x (l.getD j 0) i
  | [], j, h => by simp at h
  | m :: l, 0, _ => by
    rw [List.flatMap_cons, List.getD_append _ _ _ _ (by simp)]
    simp [co, List.getD_eq_getElem?_getD]
  | m :: l, j + 1, h => by
    have hl : (co x m).length ≤ (j + 1) * n + i := by
      rw [co_length]; nlinarith [i.2]
    rw [List.flatMap_cons, List.getD_append_right _ _ _ _ hl, co_length,
      show (j + 1) * n + (i : ℕ) - n = j * n + i by rw [Nat.add_mul]; omega,
      flatMap_co_getD x i l j (by simpa using h), List.getD_cons_succ]

theorem lc_take {a : List F} {p : List M} : lc a p = lc a (p.take a.length) := by
  induction a generalizing p with
  | nil => simp
  | cons s a ih => cases p with
    | nil => simp
    | cons q p => simp only [List.length_cons, List.take_succ_cons, lc_cons]; rw [← ih]

theorem dot_co_lc {n : Nat} (x : M →ₗ[F] (Fin n → F)) {r : List F} {comm : List M}
    (hn : n = 2 ^ (r.length - r.length / 2)) (hc : 2 ^ (r.length / 2) ≤ comm.length) :
    dot (co x (lc (factoredEvals r).1 comm)) (factoredEvals r).2 =
      mle (extractVars x (2 ^ (r.length / 2)) comm) r := by
  obtain ⟨hL, hR, -⟩ := factoredEvals_correct r
  have hlen : (extractVars x (2 ^ (r.length / 2)) comm).length = 2 ^ r.length := by
    rw [extractVars_length x hc, hn, ← pow_add]; congr 1; omega
  obtain ⟨LZ, -, hLZ, hget, hdot⟩ := bound_eval hlen
  rw [← hdot]
  congr 1
  apply ext_getD (by rw [co_length, hLZ, hn])
  intro i
  intro hi
  rw [co_length] at hi
  rw [hget i (by omega)]
  have e1 : (co x (lc (factoredEvals r).1 comm)).getD i 0 = x (lc (factoredEvals r).1 comm) ⟨i, hi⟩ := by
    simp [co, List.getD_eq_getElem?_getD, hi]
  rw [e1, lc_take, hL, lc_sum_range _ _ (by simp [hL, hc]), hL, map_sum, Finset.sum_apply]
  refine Finset.sum_congr rfl fun j hj => ?_
  have hj := Finset.mem_range.1 hj
  have := flatMap_co_getD x ⟨i, hi⟩ (comm.take (2 ^ (r.length / 2))) j (by simp; omega)
  rw [extractVars, ← hn, this, map_smul]
  rfl

theorem factored_right_ne (r : List F) : ∃ i < 2 ^ (r.length - r.length / 2),
    (factoredEvals r).2.getD i 0 ≠ 0 := by
  by_contra hall
  push Not at hall
  have hlen : (List.replicate (2 ^ r.length) (1 : F)).length = 2 ^ r.length := by simp
  have hone : mle (List.replicate (2 ^ r.length) 1) r = (1 : F) := by
    refine Eq.trans ?_ (sum_chi r)
    rw [mle]
    refine Finset.sum_congr rfl fun i hi => ?_
    have hi := Finset.mem_range.1 hi
    simp [List.getD_eq_getElem?_getD, hi]
  obtain ⟨LZ, -, hLZ, -, hdot⟩ := bound_eval hlen
  obtain ⟨-, hR, -⟩ := factoredEvals_correct r
  rw [hone, dot_comm, dot, lc_sum_range _ _ (by rw [hR, hLZ])] at hdot
  rw [hR, Finset.sum_eq_zero] at hdot
  · exact zero_ne_one hdot
  · intro i hi
    rw [hall i (Finset.mem_range.1 hi), zero_smul]

/-- `PolyEvalProof::verify`. -/
theorem poly_rbr {E : Env F G P} (hE : E.Lawful) {rep : P → M} {π : M →ₗ[F] G} (hrep : IsRep E rep π)
    {n : Nat} {v : M →ₗ[F] F} {x : M →ₗ[F] (Fin n → F)} {g0 h : M} {Gm : List M}
    (hr : ReadsPc v x g0 h Gm) {r : List F} (hn : n = 2 ^ (r.length - r.length / 2)) {gens : DotGens G}
    (hg : gens.WF (r.length - r.length / 2) (π g0) (π h))
    (hG : gens.gensn.G = Gm.map π) {pf : DotProductProofLog F P}
    (hlen : pf.bullet.L.length = pf.bullet.R.length) {tr tr' : Tr F P} {Czr : P} {comm : List P}
    (hok : polyEvalVerify E pf gens tr r Czr comm = .ok tr')
    (hF : Free π (polyRels E rep π g0 h Gm pf tr r Czr comm)) (cur : List (Msg F M)) :
    2 ^ (r.length / 2) ≤ comm.length ∧ ∃ Rs, Seg E rep tr cur Rs tr' [] ∧
      Rs.length = r.length - r.length / 2 + 2 ∧
      (v (rep Czr) ≠ mle (extractVars x (2 ^ (r.length / 2)) (comm.map rep)) r →
        Hit (logBad v x (factoredEvals r).2 (r.length - r.length / 2)) Rs) := by
  obtain ⟨hL, hR, -⟩ := factoredEvals_correct r
  unfold polyEvalVerify at hok
  obtain ⟨L, R, hLR⟩ : ∃ L R, factoredEvals r = (L, R) := ⟨_, _, rfl⟩
  unfold polyRels at hF
  have hdl := dot_co_lc x (r := r) (comm := comm.map rep) hn
  have hne0 := factored_right_ne r
  simp only [hLR] at hok hF hL hR hdl hne0 ⊢
  obtain ⟨C, hC, hok⟩ := bind_ok hok
  obtain ⟨m, hm, hok⟩ := bind_ok hok
  obtain ⟨hcl, rfl⟩ := msm_ok_iff.1 hm
  have eC := mapM_decompressU_rep hrep hC
  subst eC
  rw [← map_lc] at hok
  rw [hR] at hok
  obtain ⟨f1, f2⟩ := free_cons.1 hF
  have hrepC := Free.eq f1 (hrep _ _ (hE _))
  obtain ⟨Rs, hS, hl, himp⟩ := log_rbr hE hrep hn hr hg hG hlen hok f2
    (cur ++ [.bytes "protocol-name" "polynomial evaluation proof"])
  have hS' := ((Seg.refl E rep tr cur).protocol "polynomial evaluation proof").trans hS
  have hcl' : 2 ^ (r.length / 2) ≤ comm.length := by simpa [hL] using hcl
  refine ⟨hcl', Rs, by simpa using hS', hl, fun hne => himp ?_ hne0⟩
  rw [hrepC, hdl (by simpa using hcl')]
  exact hne

end Spartan
