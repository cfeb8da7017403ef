import Verif.Model.ProductTree
import Verif.Props.Sumcheck
import Verif.Props.PolyMerge

/-! Tables of a product circuit. -/

namespace Spartan
open Spec
variable {F G P : Type} [Field F] [AddCommGroup G] [Module F G]
  [DecidableEq F] [DecidableEq P] [DecidableEq G]

/-- Entry-wise product of the two halves of a table. -/
def halfMul (T : List F) : List F :=
  List.zipWith (· * ·) (T.take (T.length / 2)) (T.drop (T.length / 2))

/-- The table of layer `k`. -/
def tab (T : List F) (k : Nat) : List F := halfMul^[k] T

theorem halfMul_length {T : List F} {n : Nat} (h : T.length = 2 ^ (n + 1)) :
    (halfMul T).length = 2 ^ n := by
  have : T.length = 2 ^ n + 2 ^ n := by rw [h, pow_succ]; ring
  simp only [halfMul, List.length_zipWith, List.length_take, List.length_drop]; omega

theorem tab_length {T : List F} {n : Nat} (h : T.length = 2 ^ n) :
    ∀ k ≤ n, (tab T k).length = 2 ^ (n - k) := by
  intro k
  induction k with
  | zero => intro _; simpa [tab] using h
  | succ k ih =>
    intro hk
    have := ih (by omega)
    unfold tab at this ⊢
    rw [Function.iterate_succ_apply']
    apply halfMul_length
    rw [this]; congr 1; omega

theorem prod_zipWith_mul : ∀ (a b : List F), a.length = b.length →
    (List.zipWith (· * ·) a b).prod = a.prod * b.prod
  | [], [], _ => by simp
  | x :: a, y :: b, h => by
    simp only [List.zipWith_cons_cons, List.prod_cons]
    rw [prod_zipWith_mul a b (by simpa using h)]; ring
  | [], _ :: _, h => by simp at h
  | _ :: _, [], h => by simp at h

theorem halfMul_prod {T : List F} {n : Nat} (h : T.length = 2 ^ (n + 1)) :
    (halfMul T).prod = T.prod := by
  have : T.length = 2 ^ n + 2 ^ n := by rw [h, pow_succ]; ring
  unfold halfMul
  rw [prod_zipWith_mul _ _ (by simp only [List.length_take, List.length_drop]; omega),
    ← List.prod_append, List.take_append_drop]

theorem tab_prod {T : List F} {n : Nat} (h : T.length = 2 ^ n) :
    ∀ k ≤ n, (tab T k).prod = T.prod := by
  intro k
  induction k with
  | zero => intro _; rfl
  | succ k ih =>
    intro hk
    rw [← ih (by omega)]
    unfold tab
    rw [Function.iterate_succ_apply']
    apply halfMul_prod (n := n - (k + 1))
    have := tab_length h k (by omega)
    unfold tab at this
    rw [this]; congr 1; omega

/-- Left and right tables of layer `k` of a circuit of depth `n`. -/
def tabL (n : Nat) (T : List F) (k : Nat) : List F := (tab T k).take (2 ^ (n - 1 - k))
def tabR (n : Nat) (T : List F) (k : Nat) : List F := (tab T k).drop (2 ^ (n - 1 - k))

theorem tabLR {n : Nat} {T : List F} (h : T.length = 2 ^ n) {k : Nat} (hk : k < n) :
    (tabL n T k).length = 2 ^ (n - 1 - k) ∧ (tabR n T k).length = 2 ^ (n - 1 - k) ∧
    tab T k = tabL n T k ++ tabR n T k ∧
    tab T (k + 1) = List.zipWith (· * ·) (tabL n T k) (tabR n T k) := by
  have hl := tab_length h k (by omega)
  have h2 : (tab T k).length = 2 ^ (n - 1 - k) + 2 ^ (n - 1 - k) := by
    rw [hl, ← two_mul, ← pow_succ']; congr 1; omega
  refine ⟨by simp [tabL, h2], by simp [tabR, h2], by simp [tabL, tabR], ?_⟩
  unfold tab
  rw [Function.iterate_succ_apply']
  show halfMul (tab T k) = _
  unfold halfMul tabL tabR
  rw [show (tab T k).length / 2 = 2 ^ (n - 1 - k) by omega]

/-- The circuit `ProductCircuit::new` builds. -/
def circ (n : Nat) (T : List F) : ProductCircuit F :=
  ⟨(List.range n).map fun k => dn (n - 1 - k) (tabL n T k),
   (List.range n).map fun k => dn (n - 1 - k) (tabR n T k)⟩

theorem computeLayer_eq {m : Nat} {A B : List F} (hA : A.length = 2 ^ (m + 1))
    (hB : B.length = 2 ^ (m + 1)) :
    computeLayer (dn (m + 1) A) (dn (m + 1) B) =
      .ok (dn m ((List.zipWith (· * ·) A B).take (2 ^ m)), dn m ((List.zipWith (· * ·) A B).drop (2 ^ m))) := by
  have e : 2 ^ (m + 1) = 2 ^ m + 2 ^ m := by rw [pow_succ]; ring
  have hz : (List.range (2 ^ (m + 1))).map (fun i => A.getD i 0 * B.getD i 0) =
      List.zipWith (· * ·) A B := by
    apply List.ext_getElem
    · simp [hA, hB]
    · intro i h1 h2
      simp only [List.length_map, List.length_range] at h1
      simp [List.getElem?_eq_getElem (show i < A.length by omega),
        List.getElem?_eq_getElem (show i < B.length by omega)]
  unfold computeLayer
  simp only [dn, hA, hB]
  have h2 : (2 ^ (m + 1) + 2 ^ (m + 1)) / 2 = 2 ^ (m + 1) := by omega
  have h4 : (2 ^ (m + 1) + 2 ^ (m + 1)) / 4 = 2 ^ m := by omega
  rw [h2, h4, check_true ⟨le_refl _, le_refl _⟩, ok_bind, hz]
  rw [Dense.new_eq (k := m) (by simp [hA, hB, e]), ok_bind, Dense.new_eq (k := m) (by simp [hA, hB, e]),
    ok_bind, pure_ok]

theorem layersLoop_eq : ∀ (m : Nat) (T : List F), T.length = 2 ^ (m + 1) →
    layersLoop m (dn m (T.take (2 ^ m))) (dn m (T.drop (2 ^ m))) =
      .ok ((List.range (m + 1)).map fun k =>
        (dn (m + 1 - 1 - k) (tabL (m + 1) T k), dn (m + 1 - 1 - k) (tabR (m + 1) T k)))
  | 0, T, h => by simp [layersLoop, tabL, tabR, tab]
  | m + 1, T, h => by
    have e : 2 ^ (m + 1 + 1) = 2 ^ (m + 1) + 2 ^ (m + 1) := by rw [pow_succ]; ring
    unfold layersLoop
    rw [computeLayer_eq (by simp [h, e]) (by simp [h, e]), ok_bind]
    have hh : List.zipWith (· * ·) (T.take (2 ^ (m + 1))) (T.drop (2 ^ (m + 1))) = halfMul T := by
      unfold halfMul; rw [show T.length / 2 = 2 ^ (m + 1) by omega]
    simp only
    rw [hh, layersLoop_eq m (halfMul T) (halfMul_length h), ok_bind, pure_ok,
      List.range_succ_eq_map (n := m + 1), List.map_cons, List.map_map]
    congr 1
    refine List.cons_eq_cons.2 ⟨by simp [tabL, tabR, tab], ?_⟩
    apply List.map_congr_left
    intro k hk
    have hk' : m + 1 + 1 - 1 - (k + 1) = m + 1 - 1 - k := by omega
    simp only [Function.comp_apply, tabL, tabR, tab, hk', Function.iterate_succ_apply,
      Nat.succ_eq_add_one]

theorem dn_len (n : Nat) (T : List F) : (dn n T).len = T.length := rfl

theorem log2_eq_of_pow {N n : Nat} (h : N = 2 ^ n) : log2 N = .ok n := by
  unfold log2 log2ceil
  rw [check_true (by rw [h]; positivity), ok_bind, h, pure_ok, Nat.clog_pow _ _ (by norm_num)]

/-- Splitting a table in the middle. -/
theorem split_dn {m : Nat} {T : List F} (h : T.length = 2 ^ (m + 1)) :
    (dn (m + 1) T).split (2 ^ m) = .ok (dn m (T.take (2 ^ m)), dn m (T.drop (2 ^ m))) := by
  have e : T.length = 2 ^ m + 2 ^ m := by rw [h, pow_succ]; ring
  have hp : 0 < 2 ^ m := Nat.two_pow_pos m
  unfold Dense.split
  rw [check_true (show 2 ^ m < (dn (m + 1) T).len by rw [dn_len]; omega), ok_bind,
    check_true (show 2 * 2 ^ m ≤ (dn (m + 1) T).Z.length by simp only [dn]; omega), ok_bind]
  simp only [dn]
  rw [Dense.new_eq (k := m) (by simp; omega), ok_bind,
    List.take_of_length_le (by simp; omega), Dense.new_eq (k := m) (by simp; omega), ok_bind, pure_ok]

/-- The circuit built from a table of length `2^n`, `n ≥ 1`. -/
theorem circ_new {n : Nat} (hn : 1 ≤ n) {T : List F} (h : T.length = 2 ^ n) :
    ProductCircuit.new (dn n T) = .ok (circ n T) := by
  obtain ⟨m, rfl⟩ : ∃ m, n = m + 1 := ⟨n - 1, by omega⟩
  have e : T.length = 2 ^ m + 2 ^ m := by rw [h, pow_succ]; ring
  unfold ProductCircuit.new
  rw [dn_len, log2_eq_of_pow h, ok_bind, show T.length / 2 = 2 ^ m by omega, split_dn h, ok_bind]
  simp only
  rw [check_true (by omega), ok_bind, Nat.add_sub_cancel, layersLoop_eq m T h, ok_bind, pure_ok]
  simp [circ, List.map_map]

theorem list_eq_of_length_one {l : List F} (h : l.length = 1) : l = [l.getD 0 0] := by
  match l, h with
  | [a], _ => rfl

theorem circ_evaluate {n : Nat} (hn : 1 ≤ n) {T : List F} (h : T.length = 2 ^ n) :
    (circ n T).evaluate = .ok T.prod := by
  obtain ⟨h1, h2, h3, h4⟩ := tabLR h (show n - 1 < n by omega)
  rw [Nat.sub_self, pow_zero] at h1 h2
  unfold ProductCircuit.evaluate
  have e1 : idx (circ n T).left ((circ n T).left.length - 1) = .ok (dn 0 (tabL n T (n - 1))) := by
    rw [idx_ok (by simp [circ]; omega) (dn 0 [])]
    simp [circ, List.getD_eq_getElem?_getD, List.getElem?_range (show n - 1 < n by omega)]
  have e2 : idx (circ n T).right ((circ n T).left.length - 1) = .ok (dn 0 (tabR n T (n - 1))) := by
    rw [idx_ok (by simp [circ]; omega) (dn 0 [])]
    simp [circ, List.getD_eq_getElem?_getD, List.getElem?_range (show n - 1 < n by omega)]
  rw [check_true (by simp [circ]; omega), ok_bind, e1, ok_bind, e2, ok_bind]
  rw [check_true (show (dn 0 (tabL n T (n - 1))).numVars = 0 from rfl), ok_bind,
    check_true (show (dn 0 (tabR n T (n - 1))).numVars = 0 from rfl), ok_bind]
  simp only [dn]
  rw [idx_ok (by omega) 0, ok_bind,
    idx_ok (by omega) 0, ok_bind, pure_ok, ← tab_prod h (n - 1) (by omega), h3, List.prod_append]
  generalize tabL n T (n - 1) = a at *
  generalize tabR n T (n - 1) = b at *
  rw [list_eq_of_length_one h1, list_eq_of_length_one h2]
  simp

/-! ### One layer -/

/-- The layer identity: the extension of the next layer is the sum over the cube. -/
theorem layer_sum {n : Nat} {T : List F} (h : T.length = 2 ^ n) {k : Nat} (hk : k < n) {rand : List F}
    (hr : rand.length = n - 1 - k) :
    ∑ i ∈ Finset.range (2 ^ (n - 1 - k)),
      combProd ((tabL n T k).getD i 0) ((tabR n T k).getD i 0) ((eqEvals rand).getD i 0) =
      mle (tab T (k + 1)) rand := by
  obtain ⟨h1, h2, -, h4⟩ := tabLR h hk
  unfold mle
  rw [hr]
  apply Finset.sum_congr rfl
  intro i hi
  have hi := Finset.mem_range.1 hi
  rw [h4, (eqEvals_correct rand).2 i (by rw [hr]; exact hi)]
  simp only [combProd]
  congr 1
  rw [List.getD_eq_getElem _ _ (by omega), List.getD_eq_getElem _ _ (by omega),
    List.getD_eq_getElem _ _ (by simp; omega), List.getElem_zipWith]

/-- Combining the two halves. -/
theorem layer_next {n : Nat} {T : List F} (h : T.length = 2 ^ n) {k : Nat} (hk : k < n) {rp : List F}
    (hr : rp.length = n - 1 - k) (rl : F) :
    mle (tabL n T k) rp + rl * (mle (tabR n T k) rp - mle (tabL n T k) rp) = mle (tab T k) (rl :: rp) := by
  obtain ⟨h1, h2, h3, -⟩ := tabLR h hk
  rw [h3, mle_append (by rw [h1, hr]) (by rw [h2, hr])]; ring

theorem eqEvaluate_mle (rand rp : List F) (h : rand.length = rp.length) :
    eqEvaluate rand rp = .ok (mle (eqEvals rand) rp) := by
  rw [eqEvaluate_correct _ _ h]
  congr 1
  unfold mle
  rw [h]
  apply Finset.sum_congr rfl
  intro i hi
  rw [(eqEvals_correct rand).2 i (by rw [h]; exact Finset.mem_range.1 hi)]

theorem new_eqEvals (rand : List F) : Dense.new (eqEvals rand) = .ok (dn rand.length (eqEvals rand)) :=
  Dense.new_eq (eqEvals_length rand)

theorem mle_nil_of_one {T : List F} (h : T.length = 1) : mle T [] = T.prod := by
  rw [list_eq_of_length_one h]; simp [mle, chi_nil]

/-- Layers `0..k-1`, last first. -/
def layersDown (n : Nat) (T : List F) (k : Nat) : List (Dense F × Dense F) :=
  ((List.range k).map fun k => (dn (n - 1 - k) (tabL n T k), dn (n - 1 - k) (tabR n T k))).reverse

theorem prodLoop_complete (h2 : (2 : F) ≠ 0) (h3 : (3 : F) ≠ 0) (E : Env F G P) {n : Nat} {T : List F}
    (h : T.length = 2 ^ n) : ∀ (k : Nat), k ≤ n → ∀ (rand : List F) (tr : Tr F P), rand.length = n - k →
    ∃ lps rand' tr',
      prodProveLoop E (layersDown n T k) (mle (tab T k) rand) rand tr = .ok (lps, mle T rand', rand', tr') ∧
      lps.length = k ∧ rand'.length = n ∧ tr <+: tr' ∧
      prodVerifyLoop E lps (n - k) (mle (tab T k) rand) rand tr = .ok (mle T rand', rand', tr')
  | 0, _, rand, tr, hr => ⟨[], rand, tr, by simp [layersDown, prodProveLoop, tab], rfl, by simpa using hr,
      List.prefix_rfl, by simp [prodVerifyLoop, tab]⟩
  | k + 1, hk, rand, tr, hr => by
    have hk' : k < n := by omega
    have hr' : rand.length = n - 1 - k := by omega
    obtain ⟨l1, l2, -, -⟩ := tabLR h hk'
    have hC : (eqEvals rand).length = 2 ^ (n - 1 - k) := by rw [eqEvals_length, hr']
    obtain ⟨polys, rp, tr1, hp, hv, hrp, hpre⟩ := proveCubic_complete h2 h3 E l1 l2 hC
      (comb := combProd) cubic3_product tr
    rw [layer_sum h hk' hr'] at hp hv
    generalize ht2 : (tr1.scalar "claim_prod_left" (mle (tabL n T k) rp)).scalar "claim_prod_right"
      (mle (tabR n T k) rp) = tr2
    generalize hrl : E.challenge tr2 "challenge_r_layer" = ch
    obtain ⟨rl, tr3⟩ := ch
    have hpre2 : tr1 <+: tr3 := by
      have : tr3 = tr2 ++ [.chal "challenge_r_layer"] := by
        have := congrArg Prod.snd hrl; simpa [Env.challenge] using this.symm
      rw [this, ← ht2]
      simp [Tr.scalar]
    obtain ⟨lps, rand', tr', hP, hL, hR, hpre3, hV⟩ := prodLoop_complete h2 h3 E h k (by omega)
      (rl :: rp) tr3 (by simp [hrp]; omega)
    refine ⟨⟨polys, [mle (tabL n T k) rp, mle (tabR n T k) rp]⟩ :: lps, rand', tr', ?_, by simp [hL], hR,
      (hpre.trans hpre2).trans hpre3, ?_⟩
    · have e : layersDown n T (k + 1) = (dn (n - 1 - k) (tabL n T k), dn (n - 1 - k) (tabR n T k)) ::
          layersDown n T k := by simp [layersDown, List.range_succ]
      rw [e]
      unfold prodProveLoop
      rw [new_eqEvals, ok_bind, check_true (by simp only [dn_len]; omega), ok_bind,
        log2_eq_of_pow (n := n - 1 - k) (by rw [dn_len, hC]), ok_bind, hr', hp, ok_bind]
      simp only
      rw [idx_ok (by simp) 0, ok_bind, idx_ok (by simp) 0, ok_bind]
      simp only [List.getD_cons_zero, List.getD_cons_succ]
      rw [ht2, hrl]
      simp only
      rw [layer_next h hk' hrp, hP, ok_bind]
      rfl
    · unfold prodVerifyLoop
      rw [show n - (k + 1) = n - 1 - k by omega, hv, ok_bind]
      simp only
      rw [idx_ok (by simp) 0, ok_bind, idx_ok (by simp) 0, ok_bind]
      simp only [List.getD_cons_zero, List.getD_cons_succ]
      rw [eqEvaluate_mle rand rp (by rw [hr', hrp]), ok_bind, combProd, check_true rfl, ok_bind, ht2, hrl]
      simp only
      rw [show n - 1 - k + 1 = n - k by omega,
        show (1 - rl) * mle (tabL n T k) rp + rl * mle (tabR n T k) rp = mle (tab T k) (rl :: rp) by
          rw [← layer_next h hk' hrp]; ring]
      exact hV

/-! ### Batched -/

theorem sum_zipWith_append (f : F → F → F) : ∀ (A B c : List F),
    (List.zipWith f (A ++ B) c).sum = (List.zipWith f A c).sum + (List.zipWith f B (c.drop A.length)).sum
  | [], B, c => by simp
  | _ :: _, B, [] => by simp
  | a :: A, B, x :: c => by
    simp only [List.cons_append, List.zipWith_cons_cons, List.sum_cons, List.length_cons,
      List.drop_succ_cons, sum_zipWith_append f A B c]
    ring

theorem challengeVec_shape (E : Env F G P) (l : String) : ∀ (n : Nat) (tr : Tr F P),
    (E.challengeVec tr l n).1.length = n ∧ tr <+: (E.challengeVec tr l n).2
  | 0, tr => by simp [Env.challengeVec]
  | n + 1, tr => by
    obtain ⟨h1, h2⟩ := challengeVec_shape E l n (E.challenge tr l).2
    simp only [Env.challengeVec]
    exact ⟨by simp [h1], List.IsPrefix.trans (by simp [Env.challenge]) h2⟩

theorem appendPairs_prefix : ∀ (a b : List F) (tr : Tr F P), tr <+: appendPairs tr a b
  | [], _, tr => by simp [appendPairs]
  | _ :: _, [], tr => by simp [appendPairs]
  | x :: a, y :: b, tr => by
    simp only [appendPairs]
    exact List.IsPrefix.trans (by simp [Tr.scalar]) (appendPairs_prefix a b _)

theorem appendTriples_prefix : ∀ (a b c : List F) (tr : Tr F P), tr <+: appendTriples tr a b c
  | [], _, _, tr => by simp [appendTriples]
  | _ :: _, [], _, tr => by simp [appendTriples]
  | _ :: _, _ :: _, [], tr => by simp [appendTriples]
  | x :: a, y :: b, z :: c, tr => by
    simp only [appendTriples]
    exact List.IsPrefix.trans (by simp [Tr.scalar]) (appendTriples_prefix a b c _)

/-- The weighted inner product of three tables. -/
def triSum (m : Nat) (d : List F × List F × List F) : F :=
  ∑ i ∈ Finset.range (2 ^ m), d.1.getD i 0 * d.2.1.getD i 0 * d.2.2.getD i 0

/-- The circuit of three tables. -/
def dcirc (m : Nat) (d : List F × List F × List F) : DotProductCircuit F :=
  ⟨dn m d.1, dn m d.2.1, dn m d.2.2⟩

/-- Evaluations of consecutive pairs of dot-product instances at a point: instances `2i` and `2i+1`
are the two halves of one. -/
def dotAt (ds : List (List F × List F × List F)) (r : List F) : List F :=
  (List.range (ds.length / 2)).flatMap fun i =>
    let a := ds.getD (2 * i) ([], [], [])
    let b := ds.getD (2 * i + 1) ([], [], [])
    [mle (a.1 ++ b.1) r, mle (a.2.1 ++ b.2.1) r, mle (a.2.2 ++ b.2.2) r]

theorem dcirc_evaluate {m : Nat} {d : List F × List F × List F} (h1 : d.1.length = 2 ^ m)
    (h2 : d.2.1.length = 2 ^ m) (h3 : d.2.2.length = 2 ^ m) :
    (dcirc m d).evaluate = .ok (triSum m d) := by
  unfold DotProductCircuit.evaluate
  rw [check_true (by simp [dcirc, dn, h1, h2, h3]), ok_bind, pure_ok]
  simp only [dcirc, dn, h1, triSum]
  rw [range_sum_eq]

theorem mapM_idx_circ {n : Nat} (Ts : List (List F)) {k : Nat} (hk : k < n) :
    ((Ts.map (circ n)).mapM fun c => idx c.left k) = .ok (Ts.map fun T => dn (n - 1 - k) (tabL n T k)) ∧
    ((Ts.map (circ n)).mapM fun c => idx c.right k) = .ok (Ts.map fun T => dn (n - 1 - k) (tabR n T k)) := by
  induction Ts with
  | nil => exact ⟨rfl, rfl⟩
  | cons T Ts ih =>
    have e1 : idx (circ n T).left k = .ok (dn (n - 1 - k) (tabL n T k)) := by
      rw [idx_ok (by simp [circ]; omega) (dn 0 [])]
      simp [circ, List.getD_eq_getElem?_getD, List.getElem?_range hk]
    have e2 : idx (circ n T).right k = .ok (dn (n - 1 - k) (tabR n T k)) := by
      rw [idx_ok (by simp [circ]; omega) (dn 0 [])]
      simp [circ, List.getD_eq_getElem?_getD, List.getElem?_range hk]
    constructor
    · rw [List.map_cons, List.mapM_cons, e1, ok_bind, ih.1, ok_bind]; rfl
    · rw [List.map_cons, List.mapM_cons, e2, ok_bind, ih.2, ok_bind]; rfl

theorem dotpNext_eq {m : Nat} {ds : List (List F × List F × List F)}
    (hd : ∀ d ∈ ds, d.1.length = 2 ^ m ∧ d.2.1.length = 2 ^ m ∧ d.2.2.length = 2 ^ m) {rp : List F}
    (hr : rp.length = m) (rl : F) :
    dotpNext rl (ds.length / 2) (ds.map fun d => mle d.1 rp) (ds.map fun d => mle d.2.1 rp)
      (ds.map fun d => mle d.2.2 rp) = dotAt ds (rl :: rp) := by
  unfold dotpNext dotAt
  apply List.flatMap_congr
  intro i hi
  have hi := List.mem_range.1 hi
  have g : ∀ (f : List F × List F × List F → F) j, j < ds.length →
      (ds.map f).getD j 0 = f (ds.getD j ([], [], [])) := by
    intro f j hj
    rw [List.getD_eq_getElem _ _ (by simpa using hj), List.getD_eq_getElem _ _ hj, List.getElem_map]
  have m' : ∀ j, j < ds.length → ds.getD j ([], [], []) ∈ ds := by
    intro j hj
    rw [List.getD_eq_getElem _ _ hj]; exact List.getElem_mem _
  have ha := hd _ (m' (2 * i) (by omega))
  have hb := hd _ (m' (2 * i + 1) (by omega))
  simp only
  rw [g _ _ (by omega), g _ _ (by omega), g _ _ (by omega), g _ _ (by omega), g _ _ (by omega),
    g _ _ (by omega)]
  generalize ds.getD (2 * i) ([], [], []) = a at *
  generalize ds.getD (2 * i + 1) ([], [], []) = b at *
  subst hr
  rw [mle_append ha.1 hb.1, mle_append ha.2.1 hb.2.1, mle_append ha.2.2 hb.2.2]
  congr 1
  · ring
  congr 1
  · ring
  congr 1
  · ring

theorem mapM_dcirc {m : Nat} {len : Nat} (hlen : len / 2 = 2 ^ m) (ds : List (List F × List F × List F))
    (hd : ∀ d ∈ ds, d.1.length = 2 ^ m ∧ d.2.1.length = 2 ^ m ∧ d.2.2.length = 2 ^ m) :
    ((ds.map (dcirc m)).mapM fun d => do
      let v ← d.evaluate
      check (len / 2 = d.left.len)
      check (len / 2 = d.right.len)
      check (len / 2 = d.weight.len)
      pure v) = (.ok (ds.map (triSum m)) : Out (List F)) := by
  induction ds with
  | nil => rfl
  | cons d ds ih =>
    obtain ⟨a, b, c⟩ := hd d (by simp)
    rw [List.map_cons, List.mapM_cons, dcirc_evaluate a b c, ok_bind,
      check_true (show len / 2 = (dcirc m d).left.len by rw [hlen]; exact a.symm), ok_bind,
      check_true (show len / 2 = (dcirc m d).right.len by rw [hlen]; exact b.symm), ok_bind,
      check_true (show len / 2 = (dcirc m d).weight.len by rw [hlen]; exact c.symm), ok_bind, pure_ok,
      ok_bind, ih fun x hx => hd x (by simp [hx]), ok_bind]
    rfl

theorem batchAt_split (rp : List F) (par : List (List F × List F)) (C : List F)
    (seq : List (List F × List F × List F)) (coeffs : List F) :
    (List.zipWith (fun c (lr : F × F) => c * (lr.1 * lr.2 * mle C rp)) coeffs
      (List.zip (par.map fun p => mle p.1 rp) (par.map fun p => mle p.2 rp))).sum +
    (List.zipWith (fun c (x : F × F × F) => c * x.1 * x.2.1 * x.2.2) (coeffs.drop par.length)
      (List.zip (seq.map fun p => mle p.1 rp)
        (List.zip (seq.map fun p => mle p.2.1 rp) (seq.map fun p => mle p.2.2 rp)))).sum =
    batchAt combProd rp par C seq coeffs := by
  unfold batchAt
  rw [sum_zipWith_append, List.length_map]
  simp only [List.zip_map', List.zipWith_map_left, List.zipWith_map_right]
  congr 1
  · rw [List.zipWith_comm]
    congr 1
    simp only [combProd]
    congr 1
    funext a b; ring
  · rw [List.zipWith_comm]
    congr 1
    simp only [combProd]
    congr 1
    funext a b; ring

theorem prodBLoop_complete (h2 : (2 : F) ≠ 0) (h3 : (3 : F) ≠ 0) (E : Env F G P) {n : Nat}
    {Ts : List (List F)} (hne : Ts ≠ []) (hT : ∀ T ∈ Ts, T.length = 2 ^ n)
    {ds : List (List F × List F × List F)}
    (hd : ∀ d ∈ ds, d.1.length = 2 ^ (n - 1) ∧ d.2.1.length = 2 ^ (n - 1) ∧ d.2.2.length = 2 ^ (n - 1)) :
    ∀ (k : Nat), k ≤ n → ∀ (rand : List F) (tr : Tr F P), rand.length = n - k →
    ∃ lps dL dR dW rand' tr',
      prodBProveLoop E (Ts.map (circ n)) (ds.map (dcirc (n - 1))) k (Ts.map fun T => mle (tab T k) rand)
        rand tr = .ok (lps, (dL, dR, dW), rand', tr') ∧
      lps.length = k ∧ rand'.length = n ∧ tr <+: tr' ∧
      (1 ≤ k → dL.length = ds.length ∧ dR.length = ds.length ∧ dW.length = ds.length) ∧
      ∀ pf dcl, (1 ≤ k → pf.dotpL = dL ∧ pf.dotpR = dR ∧ pf.dotpW = dW) →
        prodBVerifyLoop E Ts.length (ds.map (triSum (n - 1))) pf lps (n - k)
          (Ts.map fun T => mle (tab T k) rand) dcl rand tr =
        .ok (Ts.map fun T => mle T rand', if k = 0 then dcl else dotAt ds rand', rand', tr')
  | 0, _, rand, tr, hr => ⟨[], [], [], [], rand, tr, by simp [prodBProveLoop], rfl, by simpa using hr,
      List.prefix_rfl, by simp, by simp [prodBVerifyLoop, tab]⟩
  | k + 1, hk, rand, tr, hr => by
    have hk' : k < n := by omega
    have hr' : rand.length = n - 1 - k := by omega
    have hC : (eqEvals rand).length = 2 ^ (n - 1 - k) := by rw [eqEvals_length, hr']
    -- the two kinds of instances of this layer
    let par : List (List F × List F) := Ts.map fun T => (tabL n T k, tabR n T k)
    let seq : List (List F × List F × List F) := if k = 0 then ds else []
    have hseq : ∀ p ∈ seq, p.1.length = 2 ^ (n - 1 - k) ∧ p.2.1.length = 2 ^ (n - 1 - k) ∧
        p.2.2.length = 2 ^ (n - 1 - k) := by
      intro p hp
      by_cases h0 : k = 0
      · subst h0; simpa [seq] using hd p (by simpa [seq] using hp)
      · simp [seq, h0] at hp
    have hpar : ∀ p ∈ par, p.1.length = 2 ^ (n - 1 - k) ∧ p.2.length = 2 ^ (n - 1 - k) := by
      intro p hp
      obtain ⟨T, hT', rfl⟩ := List.mem_map.1 hp
      obtain ⟨a, b, -, -⟩ := tabLR (hT T hT') hk'
      exact ⟨a, b⟩
    have hparlen : par.length = Ts.length := by simp [par]
    let claims : List F := (Ts.map fun T => mle (tab T (k + 1)) rand) ++ seq.map (triSum (n - 1 - k))
    have hclen : claims.length = par.length + seq.length := by simp [claims, par]
    generalize hcv : E.challengeVec tr "rand_coeffs_next_layer" claims.length = cv
    obtain ⟨coeffs, tr0⟩ := cv
    have hco : coeffs.length = claims.length := by
      have := (challengeVec_shape E "rand_coeffs_next_layer" claims.length tr).1
      rwa [hcv] at this
    have hpre0 : tr <+: tr0 := by
      have := (challengeVec_shape E "rand_coeffs_next_layer" claims.length tr).2
      rwa [hcv] at this
    have hsum : (List.zipWith (fun a b => a * b) claims coeffs).sum =
        batchSum combProd (n - 1 - k) par (eqEvals rand) seq coeffs := by
      unfold batchSum
      congr 2
      simp only [claims, par, List.map_map]
      congr 1
      apply List.map_congr_left
      intro T hT'
      exact (layer_sum (hT T hT') hk' hr').symm
    obtain ⟨polys, rp, tr1, hp, hv, hrp, hpre1⟩ := proveCubicBatched_complete h2 h3 E hpar hC hseq
      (coeffs := coeffs) (by omega) (comb := combProd) cubic3_product tr0
    rw [← hsum] at hp hv
    generalize ht2 : appendPairs tr1 (par.map fun p => mle p.1 rp) (par.map fun p => mle p.2 rp) = tr2
    generalize ht3 : appendTriples tr2 (seq.map fun p => mle p.1 rp) (seq.map fun p => mle p.2.1 rp)
      (seq.map fun p => mle p.2.2 rp) = tr3
    have hpre2 : tr1 <+: tr2 := by rw [← ht2]; exact appendPairs_prefix _ _ _
    have hpre3 : tr2 <+: tr3 := by rw [← ht3]; exact appendTriples_prefix _ _ _ _
    generalize hrl : E.challenge tr3 "challenge_r_layer" = ch
    obtain ⟨rl, tr4⟩ := ch
    have hpre4 : tr3 <+: tr4 := by
      have : tr4 = tr3 ++ [.chal "challenge_r_layer"] := by
        have := congrArg Prod.snd hrl; simpa [Env.challenge] using this.symm
      rw [this]; simp
    have hnext : nextClaims rl (par.map fun p => mle p.1 rp) (par.map fun p => mle p.2 rp) =
        Ts.map fun T => mle (tab T k) (rl :: rp) := by
      simp only [nextClaims, par, List.map_map, List.zipWith_map_left, List.zipWith_map_right,
        List.zipWith_self, Function.comp]
      apply List.map_congr_left
      intro T hT'
      exact layer_next (hT T hT') hk' hrp rl
    obtain ⟨lps, dL, dR, dW, rand', tr', hP, hL, hR, hpre5, hdl, hV⟩ := prodBLoop_complete h2 h3 E hne hT hd
      k (by omega) (rl :: rp) tr4 (by simp [hrp]; omega)
    obtain ⟨T0, Ts', hTs⟩ : ∃ a b, Ts = a :: b := by
      cases Ts with
      | nil => exact absurd rfl hne
      | cons a b => exact ⟨a, b, rfl⟩
    have hT0 := tabLR (hT T0 (by simp [hTs])) hk'
    have hm := mapM_idx_circ Ts hk'
    refine ⟨⟨polys, par.map fun p => mle p.1 rp, par.map fun p => mle p.2 rp⟩ :: lps,
      if k = 0 then seq.map (fun p => mle p.1 rp) else dL,
      if k = 0 then seq.map (fun p => mle p.2.1 rp) else dR,
      if k = 0 then seq.map (fun p => mle p.2.2 rp) else dW, rand', tr', ?_, by simp [hL], hR, ?_, ?_, ?_⟩
    · unfold prodBProveLoop
      rw [hm.1, ok_bind, hm.2, ok_bind]
      have i0 : idx (Ts.map fun T => dn (n - 1 - k) (tabL n T k)) 0 = .ok (dn (n - 1 - k) (tabL n T0 k)) := by
        rw [hTs, idx_ok (by simp) (dn 0 [])]; rfl
      have i1 : idx (Ts.map fun T => dn (n - 1 - k) (tabR n T k)) 0 = .ok (dn (n - 1 - k) (tabR n T0 k)) := by
        rw [hTs, idx_ok (by simp) (dn 0 [])]; rfl
      rw [i0, ok_bind, i1, ok_bind, new_eqEvals, ok_bind]
      have hlen : ((dn (n - 1 - k) (tabL n T0 k)).len + (dn (n - 1 - k) (tabR n T0 k)).len) / 2 =
          2 ^ (n - 1 - k) := by simp only [dn_len, hT0.1, hT0.2.1]; omega
      simp only
      rw [check_true (by rw [hlen, dn_len, hC]), ok_bind,
        log2_eq_of_pow (n := n - 1 - k) (by rw [dn_len, hC]), ok_bind]
      have hsq : (if k = 0 then ds.map (dcirc (n - 1)) else []) = seq.map (dcirc (n - 1 - k)) := by
        by_cases h0 : k = 0
        · subst h0; simp [seq]
        · simp [seq, h0]
      rw [hsq, mapM_dcirc hlen seq hseq, ok_bind]
      show (match E.challengeVec tr "rand_coeffs_next_layer" claims.length with
        | (coeffs, tr) => _) = _
      rw [hcv]
      simp only
      have hb : (⟨Ts.map fun T => dn (n - 1 - k) (tabL n T k), Ts.map fun T => dn (n - 1 - k) (tabR n T k),
          dn rand.length (eqEvals rand), (seq.map (dcirc (n - 1 - k))).map (·.left),
          (seq.map (dcirc (n - 1 - k))).map (·.right), (seq.map (dcirc (n - 1 - k))).map (·.weight)⟩ : Batch F) =
          batchOf (n - 1 - k) par (eqEvals rand) seq := by
        simp only [batchOf, par, List.map_map, hr']
        rfl
      rw [hb]
      rw [hp, ok_bind]
      simp only
      rw [check_true (by simp [par]), ok_bind, ht2, ht3, hrl]
      simp only
      rw [hnext, hP, ok_bind, pure_ok]
      congr 2
      by_cases h0 : k = 0
      · simp [h0]
      · simp [h0]
    · exact ((((hpre0.trans hpre1).trans hpre2).trans hpre3).trans hpre4).trans hpre5
    · intro _
      by_cases h0 : k = 0
      · simp [h0, seq]
      · simpa [h0] using hdl (by omega)
    · intro pf dcl hpf
      obtain ⟨pL, pR, pW⟩ := hpf (by omega)
      have hlast : lps.isEmpty = decide (k = 0) := by
        cases lps with
        | nil => simp at hL; simp [← hL]
        | cons a b => simp at hL; simp; omega
      have hcl : (if lps.isEmpty then (Ts.map fun T => mle (tab T (k + 1)) rand) ++ ds.map (triSum (n - 1))
          else Ts.map fun T => mle (tab T (k + 1)) rand) = claims := by
        by_cases h0 : k = 0
        · subst h0; simp [hlast, claims, seq]
        · simp [hlast, h0, claims, seq]
      unfold prodBVerifyLoop
      simp only
      rw [hcl, hcv]
      simp only
      rw [show n - (k + 1) = n - 1 - k by omega, hv, ok_bind]
      simp only
      rw [check_true (by simp [par]), ok_bind, check_true (by simp [par]), ok_bind, ht2,
        eqEvaluate_mle rand rp (by rw [hr', hrp]), ok_bind, check_true (by omega), ok_bind]
      have hsplit := batchAt_split rp par (eqEvals rand) seq coeffs
      rw [hparlen] at hsplit
      by_cases h0 : k = 0
      · have hle : lps.isEmpty = true := by simp [hlast, h0]
        rw [hle, if_pos rfl, pL, pR, pW, if_pos h0, if_pos h0, if_pos h0]
        have e1 : (seq.map fun p => mle p.1 rp).length = seq.length := by simp
        have hsd : seq = ds := by simp [seq, h0]
        rw [check_true (by simp only [List.length_map, le_refl, true_and]; omega), ok_bind, pure_ok, ok_bind]
        simp only
        rw [hsplit, check_true rfl, ok_bind, ht3, hrl]
        simp only [if_true]
        rw [check_true (by simp only [List.length_map, hsd]; omega), ok_bind, pure_ok, ok_bind]
        have hdn : dotpNext rl ((ds.map (triSum (n - 1))).length / 2) (seq.map fun p => mle p.1 rp)
            (seq.map fun p => mle p.2.1 rp) (seq.map fun p => mle p.2.2 rp) = dotAt ds (rl :: rp) := by
          rw [List.length_map, hsd]
          exact dotpNext_eq hd (by rw [hrp, h0]; rfl) rl
        rw [hdn, show n - 1 - k + 1 = n - k by omega]
        show prodBVerifyLoop E Ts.length _ pf lps (n - k) (nextClaims rl _ _) _ _ _ = _
        rw [hnext, hV pf _ (by omega), if_pos h0, if_neg (by omega)]
        have : lps = [] := by simpa using hle
        subst this
        subst h0
        simp only [prodBProveLoop] at hP
        cases hP
        rfl
      · have hle : lps.isEmpty = false := by simp [hlast, h0]
        have hs0 : seq = [] := by simp [seq, h0]
        rw [hle, if_neg (by simp), pure_ok, ok_bind]
        simp only
        rw [hs0] at hsplit
        simp only [List.map_nil, List.zip_nil_left, List.zipWith_nil_right, List.sum_nil] at hsplit
        rw [hs0] at hv ⊢
        rw [hsplit, check_true rfl, ok_bind]
        have ht3' : tr3 = tr2 := by rw [← ht3, hs0]; rfl
        rw [← ht3', hrl]
        simp only [Bool.false_eq_true, if_false]
        rw [pure_ok, ok_bind, show n - 1 - k + 1 = n - k by omega]
        show prodBVerifyLoop E Ts.length _ pf lps (n - k) (nextClaims rl _ _) _ _ _ = _
        rw [hnext, hV pf _ (fun _ => by rw [pL, pR, pW]; simp [h0]), if_neg h0, if_neg (by omega)]

end Spartan
