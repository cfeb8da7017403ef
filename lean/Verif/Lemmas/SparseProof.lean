import Verif.Lemmas.Memory
import Verif.Lemmas.PolyEval
import Verif.Props.PolyEval
import Verif.Props.PolyMerge
import Verif.Props.ProductTree

/-! Lemmas about the evaluation proof of sparse polynomials: joint openings, the product layer and the
hash layer, for arbitrary tables. -/

set_option linter.unusedSectionVars false

namespace Spartan
open Spec
variable {F G P : Type} [Field F] [AddCommGroup G] [Module F G]
  [DecidableEq F] [DecidableEq P] [DecidableEq G]

/-! ### Joint claims -/

theorem mle_boundBotLoop {Z rs : List F} (r : F) (h : 2 ^ (rs.length + 1) ≤ Z.length) :
    mle (boundBotLoop r (2 ^ rs.length) 0 Z) rs = mle Z (rs ++ [r]) := by
  have hZ : 2 * 2 ^ rs.length ≤ Z.length := by rw [pow_succ] at h; omega
  unfold mle
  rw [List.length_append, List.length_singleton, pow_succ, mul_comm _ 2, sum_range_two_mul]
  apply Finset.sum_congr rfl
  intro i hi
  have hi := Finset.mem_range.1 hi
  rw [chi_snoc, chi_snoc, show (2 * i) / 2 = i by omega, show (2 * i + 1) / 2 = i by omega,
    if_neg (by omega), if_pos (by omega)]
  rw [boundBotLoop_get r _ 0 Z (by omega) i, if_pos (by omega)]
  ring

theorem bindBot_ok : ∀ (cs : List F) (d : Dense F), d.len = 2 ^ cs.length → d.numVars = cs.length →
    2 ^ cs.length ≤ d.Z.length → ∃ d', bindBot cs d = .ok d' ∧ d'.len = 1 ∧ 1 ≤ d'.Z.length ∧
      d'.Z.getD 0 0 = mle d.Z cs.reverse
  | [], d, h1, _, h3 => ⟨d, rfl, by simpa using h1, by simpa using h3, by simp [mle, chi_nil]⟩
  | c :: cs, d, h1, h2, h3 => by
    rw [List.length_cons, pow_succ] at h1 h3
    rw [List.length_cons] at h2
    have hd : d.len / 2 = 2 ^ cs.length := by omega
    obtain ⟨d', e1, e2, e3, e4⟩ := bindBot_ok cs ⟨d.numVars - 1, d.len / 2, boundBotLoop c (d.len / 2) 0 d.Z⟩
      hd (by simp [h2]) (by rw [boundBotLoop_length]; omega)
    refine ⟨d', ?_, e2, e3, ?_⟩
    · unfold bindBot Dense.boundBot
      simp only
      rw [check_true (by omega), ok_bind, check_true (by omega), ok_bind, pure_ok, ok_bind, e1]
    · rw [e4, List.reverse_cons]
      simp only
      have hl : cs.reverse.length = cs.length := List.length_reverse
      rw [hd, ← hl, mle_boundBotLoop c (by rw [hl, pow_succ]; omega)]

theorem padPow2_length {v : List F} : (padPow2 v).length = nextPow2 v.length := by
  have := le_nextPow2 v.length
  simp [padPow2]; omega

/-- The n-to-1 reduction evaluates the extension of the claimed values. -/
theorem combineEvals_eq (E : Env F G P) (l : String) {evals : List F} {k : Nat}
    (h : evals.length = 2 ^ k) (tr : Tr F P) :
    combineEvals E l evals tr = .ok ((E.challengeVec tr l k).1, mle evals (E.challengeVec tr l k).1,
      (E.challengeVec tr l k).2) := by
  have hc : (E.challengeVec tr l k).1.length = k := challengeVec_length E l k tr
  unfold combineEvals
  rw [log2_eq_of_pow h, ok_bind]
  simp only
  rw [dn_new h, ok_bind]
  obtain ⟨d', e1, e2, e3, e4⟩ := bindBot_ok (E.challengeVec tr l k).1.reverse (dn k evals)
    (by rw [List.length_reverse, hc]; exact h) (by rw [List.length_reverse, hc]; rfl)
    (by rw [List.length_reverse, hc]; exact h.ge)
  rw [e1, ok_bind, check_true e2, ok_bind, idx_ok e3 0, ok_bind, e4, List.reverse_reverse]
  rfl

/-- The padded concatenation of tables. -/
def mergeT (tabs : List (List F)) : List F :=
  tabs.flatten ++ List.replicate (nextPow2 tabs.flatten.length - tabs.flatten.length) 0

theorem flatten_length_eq {w : Nat} : ∀ (tabs : List (List F)), (∀ t ∈ tabs, t.length = w) →
    tabs.flatten.length = tabs.length * w
  | [], _ => by simp
  | t :: ts, h => by
    rw [List.flatten_cons, List.length_append, h t (by simp),
      flatten_length_eq ts (fun x hx => h x (by simp [hx])), List.length_cons]; ring

theorem mergeT_length {tabs : List (List F)} {n k : Nat} (h0 : tabs ≠ [])
    (htab : ∀ t ∈ tabs, t.length = 2 ^ n) (hk : nextPow2 tabs.length = 2 ^ k) :
    (mergeT tabs).length = 2 ^ (k + n) := by
  have hl := flatten_length_eq tabs htab
  have hnp : nextPow2 tabs.flatten.length = 2 ^ (k + n) := by
    rw [hl]
    unfold nextPow2 at hk ⊢
    have hc : Nat.clog 2 tabs.length = k := Nat.pow_right_injective le_rfl hk
    rw [clog_mul_pow (List.length_pos_iff.mpr h0), hc]
  have := le_nextPow2 tabs.flatten.length
  unfold mergeT
  rw [List.length_append, List.length_replicate]
  omega

theorem merge_dn {tabs : List (List F)} {n k : Nat} (h0 : tabs ≠ [])
    (htab : ∀ t ∈ tabs, t.length = 2 ^ n) (hk : nextPow2 tabs.length = 2 ^ k) :
    Dense.merge (tabs.map (dn n)) = .ok (dn (k + n) (mergeT tabs)) := by
  unfold Dense.merge
  have : (tabs.map (dn n)).map (·.Z) = tabs := by
    rw [List.map_map]; conv_rhs => rw [← List.map_id tabs]
    rfl
  rw [this]
  exact dn_new (mergeT_length h0 htab hk)

/-- The merged table at a concatenated point is the extension of the values of the parts. -/
theorem mergeT_mle {tabs : List (List F)} {s r : List F} (h0 : tabs ≠ [])
    (htab : ∀ t ∈ tabs, t.length = 2 ^ r.length) (hk : nextPow2 tabs.length = 2 ^ s.length) :
    mle (mergeT tabs) (s ++ r) = mle (padPow2 (tabs.map fun t => mle t r)) s := by
  have h := merge_evaluate h0 htab hk
  have hm : tabs.mapM Dense.new = (.ok (tabs.map (dn r.length)) : Out (List (Dense F))) := by
    clear hk h0 h
    induction tabs with
    | nil => rfl
    | cons t ts ih =>
      rw [List.mapM_cons, dn_new (htab t (by simp)), ok_bind,
        ih (fun x hx => htab x (by simp [hx])), ok_bind]
      rfl
  rw [hm, ok_bind, merge_dn h0 htab hk, ok_bind] at h
  have hl : (mergeT tabs).length = 2 ^ (s ++ r).length := by
    rw [mergeT_length h0 htab hk, List.length_append]
  have h' := dense_evaluate_correct hl
  rw [dn_new hl, ok_bind, List.length_append, h] at h'
  rw [← Except.ok.inj h']
  have hle : tabs.length ≤ 2 ^ s.length := by rw [← hk]; exact le_nextPow2 _
  unfold mle padPow2
  rw [← Finset.sum_subset (Finset.range_subset_range.mpr hle)]
  · apply Finset.sum_congr rfl
    intro j hj
    have hj := Finset.mem_range.1 hj
    rw [List.getD_append _ _ _ _ (by simpa using hj), mul_comm]
    congr 1
    simp [List.getD_eq_getElem?_getD, hj]
  · intro j _ hj
    have hj : tabs.length ≤ j := by simpa using hj
    rw [List.getD_append_right _ _ _ _ (by simpa using hj)]
    simp only [List.getD_eq_getElem?_getD, List.getElem?_replicate]
    split <;> simp

/-- Opening a committed table at a point, for oracles without zero folding challenges. -/
theorem open_plain {E : Env F G P} (hE : E.Lawful) (hu : ∀ t, E.hash (t ++ [.chal "u"]) ≠ 0)
    {Z r : List F} {ell : Nat} (hl : r.length = ell) (hZ : Z.length = 2 ^ ell) (hr : ell ≤ 62)
    {gens : DotGens G} {g0 h : G} (hg : gens.WF (ell - ell / 2) g0 h) {comm : List P} {b : List F}
    {ct : Option (Tape F)} (hc : (dn ell Z).commit E gens none = .ok (comm, b, ct)) (tr : Tr F P)
    (tape : Tape F) :
    ∃ pf Czr tr' tape', polyEvalProve E (dn ell Z) none r (mle Z r) none gens tr tape =
        .ok (pf, Czr, tr', tape') ∧
      polyEvalVerifyPlain E pf gens tr r (mle Z r) comm = .ok tr' := by
  subst hl
  obtain ⟨poly, comm', blinds, ct', e1, e2, e3⟩ := polyeval_complete hE hZ hr hg none none tr tape
  rw [dn_new hZ] at e1
  cases e1
  rw [hc] at e2
  cases e2
  rcases e3 with ⟨pf, Czr, tr', tape', h1, -, -, h3⟩ | ⟨-, t, -, ht⟩
  · exact ⟨pf, Czr, tr', tape', h1, h3 rfl⟩
  · exact absurd ht (hu t)

/-- Opening a commitment to merged tables for the joint claim. -/
theorem open_merged {E : Env F G P} (hE : E.Lawful) (hu : ∀ t, E.hash (t ++ [.chal "u"]) ≠ 0)
    {tabs : List (List F)} {r cs : List F} {n k : Nat} (hn : r.length = n) (hcs : cs.length = k)
    (h0 : tabs ≠ []) (htab : ∀ t ∈ tabs, t.length = 2 ^ n) (hk : nextPow2 tabs.length = 2 ^ k)
    (hr : k + n ≤ 62) {gens : DotGens G} {g0 h : G} (hg : gens.WF ((k + n) - (k + n) / 2) g0 h)
    {comm : List P} {b : List F} {ct : Option (Tape F)}
    (hc : (dn (k + n) (mergeT tabs)).commit E gens none = .ok (comm, b, ct)) (tr : Tr F P)
    (tape : Tape F) :
    ∃ pf Czr tr' tape', polyEvalProve E (dn (k + n) (mergeT tabs)) none (cs ++ r)
        (mle (padPow2 (tabs.map fun t => mle t r)) cs) none gens tr tape = .ok (pf, Czr, tr', tape') ∧
      polyEvalVerifyPlain E pf gens tr (cs ++ r) (mle (padPow2 (tabs.map fun t => mle t r)) cs) comm
        = .ok tr' := by
  subst hn hcs
  rw [← mergeT_mle h0 htab hk]
  exact open_plain hE hu (by simp) (mergeT_length h0 htab hk) hr hg hc tr tape

theorem mapM_evaluate {n : Nat} {r : List F} (hr : r.length = n) : ∀ (Ts : List (List F)),
    (∀ T ∈ Ts, T.length = 2 ^ n) →
    ((Ts.map (dn n)).mapM fun d => d.evaluate r) = .ok (Ts.map fun T => mle T r)
  | [], _ => rfl
  | T :: Ts, h => by
    subst hr
    have := dense_evaluate_correct (h T (by simp))
    rw [dn_new (h T (by simp)), ok_bind] at this
    rw [List.map_cons, List.mapM_cons, this, ok_bind,
      mapM_evaluate rfl Ts fun x hx => h x (by simp [hx]), ok_bind]
    rfl

/-! ### Product layer -/

/-- The values of the dot-product tables at a point, in the order of the claims. -/
def dotClaims (dr dc vs : List (List F)) (r : List F) : List F :=
  (List.zip dr (List.zip dc vs)).flatMap fun d => [mle d.1 r, mle d.2.1 r, mle d.2.2 r]

/-- Weighted inner products of the tables. -/
def dotVals (n : Nat) (dr dc vs : List (List F)) : List F :=
  (List.zip dr (List.zip dc vs)).map (triSum n)

/-- The two halves of three tables. -/
def loT (n : Nat) (d : List F × List F × List F) : List F × List F × List F :=
  (d.1.take (2 ^ (n - 1)), d.2.1.take (2 ^ (n - 1)), d.2.2.take (2 ^ (n - 1)))
def hiT (n : Nat) (d : List F × List F × List F) : List F × List F × List F :=
  (d.1.drop (2 ^ (n - 1)), d.2.1.drop (2 ^ (n - 1)), d.2.2.drop (2 ^ (n - 1)))

theorem dotpLoop_eq {n : Nat} (hn : 1 ≤ n) : ∀ (D : List (List F × List F × List F)),
    (∀ d ∈ D, d.1.length = 2 ^ n ∧ d.2.1.length = 2 ^ n ∧ d.2.2.length = 2 ^ n) → ∀ (tr : Tr F P),
    ∃ tr', dotpLoop (D.map fun d => (dn n d.1, dn n d.2.1, dn n d.2.2)) (D.map (triSum n)) tr =
        .ok (D.map fun d => (dcirc (n - 1) (loT n d), dcirc (n - 1) (hiT n d)),
          D.map fun d => (triSum (n - 1) (loT n d), triSum (n - 1) (hiT n d)), tr') ∧
      dotpCheckLoop (D.map (triSum n)) (D.map fun d => triSum (n - 1) (loT n d))
        (D.map fun d => triSum (n - 1) (hiT n d)) tr =
        .ok (D.flatMap fun d => [triSum (n - 1) (loT n d), triSum (n - 1) (hiT n d)], tr')
  | [], _, tr => ⟨tr, rfl, rfl⟩
  | d :: D, h, tr => by
    obtain ⟨m, rfl⟩ : ∃ m, n = m + 1 := ⟨n - 1, by omega⟩
    obtain ⟨h1, h2, h3⟩ := h d (by simp)
    have e : 2 ^ (m + 1) = 2 ^ m + 2 ^ m := by rw [pow_succ]; ring
    obtain ⟨tr', hp, hv⟩ := dotpLoop_eq hn D (fun x hx => h x (by simp [hx]))
      ((tr.scalar "claim_eval_dotp_left" (triSum m (loT (m + 1) d))).scalar "claim_eval_dotp_right"
        (triSum m (hiT (m + 1) d)))
    have hs : triSum m (loT (m + 1) d) + triSum m (hiT (m + 1) d) = triSum (m + 1) d :=
      sum_take_drop h1 h2 h3
    refine ⟨tr', ?_, ?_⟩
    · rw [List.map_cons, List.map_cons]
      unfold dotpLoop DotProductCircuit.new
      rw [check_true (by simp only [dn_len]; omega), ok_bind, check_true (by simp only [dn_len]; omega),
        ok_bind, pure_ok, ok_bind]
      have hsp := dcirc_split h1 h2 h3
      unfold dcirc at hsp
      simp only at hsp ⊢
      rw [hsp, ok_bind]
      simp only
      have ev1 := dcirc_evaluate (m := m) (d := loT (m + 1) d) (by simp [loT, h1, e]) (by simp [loT, h2, e])
        (by simp [loT, h3, e])
      have ev2 := dcirc_evaluate (m := m) (d := hiT (m + 1) d) (by simp [hiT, h1, e]) (by simp [hiT, h2, e])
        (by simp [hiT, h3, e])
      have ev1' : (⟨dn m (d.1.take (2 ^ m)), dn m (d.2.1.take (2 ^ m)), dn m (d.2.2.take (2 ^ m))⟩ :
        DotProductCircuit F).evaluate = .ok (triSum m (loT (m + 1) d)) := ev1
      have ev2' : (⟨dn m (d.1.drop (2 ^ m)), dn m (d.2.1.drop (2 ^ m)), dn m (d.2.2.drop (2 ^ m))⟩ :
        DotProductCircuit F).evaluate = .ok (triSum m (hiT (m + 1) d)) := ev2
      rw [ev1', ok_bind, ev2', ok_bind, check_true hs, ok_bind, hp, ok_bind]
      rfl
    · simp only [List.map_cons, List.flatMap_cons]
      unfold dotpCheckLoop
      rw [show m + 1 - 1 = m from rfl] at hv ⊢
      rw [check_true hs, ok_bind]
      simp only
      rw [hv, ok_bind]
      rfl

theorem mapM_new_circ {n : Nat} (hn : 1 ≤ n) : ∀ (Ts : List (List F)), (∀ T ∈ Ts, T.length = 2 ^ n) →
    (Ts.mapM fun T => do let d ← Dense.new T; ProductCircuit.new d) = .ok (Ts.map (circ n))
  | [], _ => rfl
  | T :: Ts, h => by
    rw [List.mapM_cons, dn_new (h T (by simp)), ok_bind, circ_new hn (h T (by simp)), ok_bind,
      mapM_new_circ hn Ts fun x hx => h x (by simp [hx]), ok_bind]
    rfl

theorem dotAt_halves {n : Nat} (D : List (List F × List F × List F)) (r : List F) :
    dotAt (D.flatMap fun d => [loT n d, hiT n d]) r =
      D.flatMap fun d => [mle d.1 r, mle d.2.1 r, mle d.2.2 r] := by
  unfold dotAt
  have hl : ∀ D : List (List F × List F × List F),
      (D.flatMap fun d => [loT n d, hiT n d]).length = 2 * D.length := by
    intro D; induction D with
    | nil => rfl
    | cons d D ih => rw [List.flatMap_cons, List.length_append, ih]; simp; omega
  rw [hl, Nat.mul_div_cancel_left _ (by norm_num)]
  induction D with
  | nil => rfl
  | cons d D ih =>
    rw [List.length_cons, List.range_succ_eq_map, List.flatMap_cons, List.flatMap_cons, List.flatMap_map]
    congr 1
    simp [loT, hiT]

/-- The product layer for arbitrary tables satisfying the product equations. -/
theorem prodLayer_complete (h2 : (2 : F) ≠ 0) (h3 : (3 : F) ≠ 0) (E : Env F G P) {m n : Nat}
    (hm : 1 ≤ m) (hn : 1 ≤ n) {Ir Ar Ic Ac : List F} {Rr Wr Rc Wc dr dc vs : List (List F)}
    (hIr : Ir.length = 2 ^ m) (hAr : Ar.length = 2 ^ m) (hIc : Ic.length = 2 ^ m)
    (hAc : Ac.length = 2 ^ m) (hRr : ∀ T ∈ Rr, T.length = 2 ^ n) (hWr : ∀ T ∈ Wr, T.length = 2 ^ n)
    (hRc : ∀ T ∈ Rc, T.length = 2 ^ n) (hWc : ∀ T ∈ Wc, T.length = 2 ^ n)
    (hdr : ∀ T ∈ dr, T.length = 2 ^ n) (hdc : ∀ T ∈ dc, T.length = 2 ^ n)
    (hvs : ∀ T ∈ vs, T.length = 2 ^ n)
    (hlen : Rr.length = 3 ∧ Wr.length = 3 ∧ Rc.length = 3 ∧ Wc.length = 3 ∧ dr.length = 3 ∧
      dc.length = 3 ∧ vs.length = 3)
    (hpr : Ir.prod * (Wr.map List.prod).prod = (Rr.map List.prod).prod * Ar.prod)
    (hpc : Ic.prod * (Wc.map List.prod).prod = (Rc.map List.prod).prod * Ac.prod)
    (comb : Dense F) (tr : Tr F P) :
    ∃ pf randMem randOps tr', randMem.length = m ∧ randOps.length = n ∧
      prodLayerProve E (layerOf m n Ir Rr Wr Ar) (layerOf m n Ic Rc Wc Ac) (vs.map (dn n))
        ⟨dr.map (dn n), dc.map (dn n), comb⟩ (dotVals n dr dc vs) tr = .ok (pf, randMem, randOps, tr') ∧
      prodLayerVerify E pf (2 ^ n) (2 ^ m) (dotVals n dr dc vs) tr =
        .ok ([mle Ir randMem, mle Ar randMem, mle Ic randMem, mle Ac randMem], randMem,
          (Rr ++ Wr ++ Rc ++ Wc).map (fun T => mle T randOps), dotClaims dr dc vs randOps, randOps, tr') := by
  obtain ⟨l1, l2, l3, l4, l5, l6, l7⟩ := hlen
  set D := List.zip dr (List.zip dc vs) with hD
  have hDl : D.length = 3 := by simp [hD, l5, l6, l7]
  have hDh : ∀ d ∈ D, d.1.length = 2 ^ n ∧ d.2.1.length = 2 ^ n ∧ d.2.2.length = 2 ^ n := by
    intro d hd
    have a := List.of_mem_zip hd
    have b := List.of_mem_zip a.2
    exact ⟨hdr _ a.1, hdc _ b.1, hvs _ b.2⟩
  set e : MemEvals F := ⟨Ir.prod, Rr.map List.prod, Wr.map List.prod, Ar.prod⟩ with he
  set e' : MemEvals F := ⟨Ic.prod, Rc.map List.prod, Wc.map List.prod, Ac.prod⟩ with he'
  obtain ⟨tr1, hp1, hv1⟩ := dotpLoop_eq hn D hDh
    (((tr.protocol "Sparse polynomial product layer proof").memEvals "row" e).memEvals "col" e')
  have hTs : ∀ T ∈ Rr ++ Wr ++ Rc ++ Wc, T.length = 2 ^ n := by
    intro T hT
    simp only [List.mem_append] at hT
    rcases hT with ((hT | hT) | hT) | hT
    exacts [hRr T hT, hWr T hT, hRc T hT, hWc T hT]
  have hne : Rr ++ Wr ++ Rc ++ Wc ≠ [] := by
    intro h0
    have := congrArg List.length h0
    simp [l1] at this
  have e2 : 2 ^ n = 2 ^ (n - 1) + 2 ^ (n - 1) := by
    obtain ⟨q, rfl⟩ : ∃ q, n = q + 1 := ⟨n - 1, by omega⟩
    rw [pow_succ]; simp; ring
  obtain ⟨cs, pOps, randOps, tr2, a1, a2, a3, -, a4⟩ := product_proof_batched_complete h2 h3 E hn hne hTs
    (ds := D.flatMap fun d => [loT n d, hiT n d]) (by
      intro d hd
      obtain ⟨x, hx, hd⟩ := List.mem_flatMap.1 hd
      obtain ⟨b1, b2, b3⟩ := hDh x hx
      simp only [List.mem_cons, List.not_mem_nil, or_false] at hd
      rcases hd with rfl | rfl
      · simp only [loT, List.length_take]; omega
      · simp only [hiT, List.length_drop]; omega) tr1
  rw [mapM_new_circ hn _ hTs] at a1
  cases a1
  obtain ⟨cs, pMem, randMem, tr3, c1, c2, c3, -, c4⟩ := product_proof_batched_complete h2 h3 E hm
    (Ts := [Ir, Ar, Ic, Ac]) (by simp) (by simp [hIr, hAr, hIc, hAc]) (ds := []) (by simp) tr2
  rw [mapM_new_circ hm _ (by simp [hIr, hAr, hIc, hAc])] at c1
  cases c1
  refine ⟨⟨e, e', D.map fun d => triSum (n - 1) (loT n d), D.map fun d => triSum (n - 1) (hiT n d), pMem,
    pOps⟩, randMem, randOps, tr3, c3, a3, ?_, ?_⟩
  · have hz : List.zip (dr.map (dn n)) (List.zip (dc.map (dn n)) (vs.map (dn n))) =
        D.map fun d => (dn n d.1, dn n d.2.1, dn n d.2.2) := by
      rw [hD, List.zip_map, List.zip_map]
      apply List.map_congr_left
      intro d _
      rfl
    unfold prodLayerProve
    simp only
    rw [layerOf_evals hm hn hIr hAr hRr hWr hpr, ok_bind, layerOf_evals hm hn hIc hAc hRc hWc hpc, ok_bind,
      check_true (by simp [dotVals, ← hD, hDl, l5]), ok_bind,
      check_true (by simp [dotVals, ← hD, hDl, l6]), ok_bind,
      check_true (by simp [dotVals, ← hD, hDl, l7]), ok_bind, hz]
    unfold dotVals
    rw [← hD, hp1, ok_bind]
    simp only
    rw [check_true (by simp [layerOf, l1]), ok_bind, check_true (by simp [layerOf, l2, l3, l4, hDl]), ok_bind]
    have ec : ((layerOf m n Ir Rr Wr Ar).read ++ (layerOf m n Ir Rr Wr Ar).write ++
        (layerOf m n Ic Rc Wc Ac).read ++ (layerOf m n Ic Rc Wc Ac).write) =
        (Rr ++ Wr ++ Rc ++ Wc).map (circ n) := by simp [layerOf]
    have ed : ((D.map fun d => (dcirc (n - 1) (loT n d), dcirc (n - 1) (hiT n d))).flatMap fun c => [c.1, c.2]) =
        (D.flatMap fun d => [loT n d, hiT n d]).map fun d =>
          ⟨dn (n - 1) d.1, dn (n - 1) d.2.1, dn (n - 1) d.2.2⟩ := by
      rw [List.flatMap_map, List.map_flatMap]
      rfl
    rw [ec, ed, a2, ok_bind]
    simp only
    have em : [(layerOf m n Ir Rr Wr Ar).init, (layerOf m n Ir Rr Wr Ar).audit,
        (layerOf m n Ic Rc Wc Ac).init, (layerOf m n Ic Rc Wc Ac).audit] = [Ir, Ar, Ic, Ac].map (circ m) := rfl
    have := c2
    rw [List.map_nil] at this
    rw [em, this, ok_bind]
    simp only [List.map_map, Function.comp_def, pure_ok]
    rfl
  · have hm1 : memEvalsCheck (dotVals n dr dc vs).length e = .ok () := by
      unfold memEvalsCheck
      rw [check_true (by simp [he, dotVals, ← hD, hDl, l2]), ok_bind,
        check_true (by simp [he, dotVals, ← hD, hDl, l1]), ok_bind, check_true hpr]
    have hm2 : memEvalsCheck (dotVals n dr dc vs).length e' = .ok () := by
      unfold memEvalsCheck
      rw [check_true (by simp [he', dotVals, ← hD, hDl, l4]), ok_bind,
        check_true (by simp [he', dotVals, ← hD, hDl, l3]), ok_bind, check_true hpc]
    unfold prodLayerVerify
    simp only
    rw [hm1, ok_bind, hm2, ok_bind, check_true (by simp [dotVals, ← hD]), ok_bind]
    unfold dotVals
    rw [← hD, hv1, ok_bind]
    simp only
    have er : e.read ++ e.write ++ e'.read ++ e'.write = (Rr ++ Wr ++ Rc ++ Wc).map List.prod := by
      simp [he, he']
    have ed : (D.flatMap fun d => [triSum (n - 1) (loT n d), triSum (n - 1) (hiT n d)]) =
        (D.flatMap fun d => [loT n d, hiT n d]).map fun d =>
          ∑ i ∈ Finset.range (2 ^ (n - 1)), d.1.getD i 0 * d.2.1.getD i 0 * d.2.2.getD i 0 := by
      rw [List.map_flatMap]
      rfl
    rw [er, ed, a4, ok_bind]
    simp only
    have c4' := c4
    simp only [List.map_nil, List.map_cons] at c4'
    rw [c4', ok_bind]
    simp only
    rw [dotAt_halves, pure_ok]
    rfl

/-! ### Hash layer -/

theorem dotpClaimsCheck_ok {dr dc vs : List (List F)} (r : List F)
    (h : dr.length = 3 ∧ dc.length = 3 ∧ vs.length = 3) :
    dotpClaimsCheck (dotClaims dr dc vs r) (dr.map fun T => mle T r) (dc.map fun T => mle T r)
      (vs.map fun T => mle T r) = .ok () := by
  obtain ⟨h1, h2, h3⟩ := h
  obtain ⟨a0, a1, a2, rfl⟩ := List.length_eq_three.1 h1
  obtain ⟨b0, b1, b2, rfl⟩ := List.length_eq_three.1 h2
  obtain ⟨c0, c1, c2, rfl⟩ := List.length_eq_three.1 h3
  simp [dotpClaimsCheck, dotClaims, check, idx, pure_ok, List.range_succ]

/-- The dense representation given by tables. -/
structure MultiDense.Tabs (D : MultiDense F) (m n : Nat) (ra rt ca ct vs : List (List F)) (ru cu : List F) :
    Prop where
  batch : D.batch = 3
  rowAddr : D.row.addr = ra.map (dn n)
  rowTs : D.row.readTs = rt.map (dn n)
  rowAud : D.row.auditTs = dn m ru
  colAddr : D.col.addr = ca.map (dn n)
  colTs : D.col.readTs = ct.map (dn n)
  colAud : D.col.auditTs = dn m cu
  val : D.val = vs.map (dn n)
  ops : D.combOps = dn (4 + n) (mergeT (ra ++ rt ++ ca ++ ct ++ vs))
  mem : D.combMem = dn (m + 1) (ru ++ cu)
  lens : ra.length = 3 ∧ rt.length = 3 ∧ ca.length = 3 ∧ ct.length = 3 ∧ vs.length = 3
  tabs : ∀ T ∈ ra ++ rt ++ ca ++ ct ++ vs, T.length = 2 ^ n
  ru : ru.length = 2 ^ m
  cu : cu.length = 2 ^ m

/-- Generators of the right sizes. -/
structure SparseGens.WF (gens : SparseGens G) (m n : Nat) (g0 h0 g1 h1 g2 h2 : G) : Prop where
  ops : gens.ops.WF ((4 + n) - (4 + n) / 2) g0 h0
  mem : gens.mem.WF ((m + 1) - (m + 1) / 2) g1 h1
  derefs : gens.derefs.WF ((3 + n) - (3 + n) / 2) g2 h2

/-- A commitment to the tables. -/
structure SparseComm.Of (comm : SparseComm P) (E : Env F G P) (D : MultiDense F) (gens : SparseGens G)
    (m n : Nat) : Prop where
  numOps : comm.numOps = 2 ^ n
  numCells : comm.numCells = 2 ^ m
  ops : ∃ b t, D.combOps.commit E gens.ops none = .ok (comm.ops, b, t)
  mem : ∃ b t, D.combMem.commit E gens.mem none = .ok (comm.mem, b, t)

/-- The openings of the hash layer, for arbitrary `derefs` tables: the honest openings are accepted
whatever way the opened values are split, provided their concatenation is unchanged. -/
theorem hashLayer_open {E : Env F G P} (hE : E.Lawful) (hu : ∀ t, E.hash (t ++ [.chal "u"]) ≠ 0)
    {m n : Nat} (hm : m ≤ 61) (hn : n ≤ 58) {D : MultiDense F} {ra rt ca ct vs : List (List F)}
    {ru cu : List F} (hD : D.Tabs m n ra rt ca ct vs ru cu) {gens : SparseGens G}
    {g0 h0 g1 h1 g2 h2 : G} (hg : gens.WF m n g0 h0 g1 h1 g2 h2) {comm : SparseComm P}
    (hC : comm.Of E D gens m n) {dr dc : List (List F)} (hdr : dr.length = 3) (hdc : dc.length = 3)
    (hdT : ∀ T ∈ dr ++ dc, T.length = 2 ^ n) {cD : List P} {b : List F} {t : Option (Tape F)}
    (hcD : (dn (3 + n) (mergeT (dr ++ dc))).commit E gens.derefs none = .ok (cD, b, t))
    {randMem randOps : List F} (hrm : randMem.length = m) (hro : randOps.length = n) (tr : Tr F P)
    (tape : Tape F) :
    ∃ pf tr' tape', hashLayerProve E randMem randOps D
        ⟨dr.map (dn n), dc.map (dn n), dn (3 + n) (mergeT (dr ++ dc))⟩ gens tr tape = .ok (pf, tr', tape') ∧
      pf.row = ⟨ra.map (fun T => mle T randOps), rt.map (fun T => mle T randOps), mle ru randMem⟩ ∧
      pf.col = ⟨ca.map (fun T => mle T randOps), ct.map (fun T => mle T randOps), mle cu randMem⟩ ∧
      pf.derefRow = dr.map (fun T => mle T randOps) ∧ pf.derefCol = dc.map (fun T => mle T randOps) ∧
      ∀ row' col' : AddrEvals F, row'.addr ++ row'.readTs = pf.row.addr ++ pf.row.readTs →
        col'.addr ++ col'.readTs = pf.col.addr ++ pf.col.readTs → row'.auditTs = pf.row.auditTs →
        col'.auditTs = pf.col.auditTs → ∀ clRow clCol rx ry rh g,
        hashLayerVerify E { pf with row := row', col := col' } randMem randOps clRow clCol
          (dotClaims dr dc vs randOps) comm gens cD rx ry rh g tr =
          (do hashLayerVerifyHelper randMem clRow pf.derefRow row' rx rh g
              hashLayerVerifyHelper randMem clCol pf.derefCol col' ry rh g
              pure tr') := by
  obtain ⟨l1, l2, l3, l4, l5⟩ := hD.lens
  obtain ⟨bo, t1, hco⟩ := hC.ops
  obtain ⟨bm, t2, hcm⟩ := hC.mem
  rw [hD.ops] at hco
  rw [hD.mem] at hcm
  have hT := hD.tabs
  have hra : ∀ T ∈ ra, T.length = 2 ^ n := fun T h => hT T (by simp [h])
  have hrt : ∀ T ∈ rt, T.length = 2 ^ n := fun T h => hT T (by simp [h])
  have hca : ∀ T ∈ ca, T.length = 2 ^ n := fun T h => hT T (by simp [h])
  have hct : ∀ T ∈ ct, T.length = 2 ^ n := fun T h => hT T (by simp [h])
  have hvs : ∀ T ∈ vs, T.length = 2 ^ n := fun T h => hT T (by simp [h])
  have c8 : Nat.clog 2 6 = 3 := by decide +kernel
  have c16 : Nat.clog 2 15 = 4 := by decide +kernel
  have np8 : nextPow2 (dr ++ dc).length = 2 ^ 3 := by simp [hdr, hdc, nextPow2, c8]
  have np16 : nextPow2 (ra ++ rt ++ ca ++ ct ++ vs).length = 2 ^ 4 := by
    simp [l1, l2, l3, l4, l5, nextPow2, c16]
  have nd0 : dr ++ dc ≠ [] := fun h => by have := congrArg List.length h; simp [hdr] at this
  have no0 : ra ++ rt ++ ca ++ ct ++ vs ≠ [] := fun h => by
    have := congrArg List.length h; simp [l1] at this
  -- the openings
  set ev1 := padPow2 (dr.map (fun T => mle T randOps) ++ dc.map (fun T => mle T randOps)) with hev1
  have ev1e : ev1 = padPow2 ((dr ++ dc).map fun T => mle T randOps) := by rw [hev1, List.map_append]
  have ev1l : ev1.length = 2 ^ 3 := by rw [ev1e, padPow2_length, List.length_map, np8]
  set tr1 := ((tr.protocol "Sparse polynomial hash layer proof").protocol "Derefs evaluation proof").scalars
    "evals_ops_val" ev1 with htr1
  set q1 := E.challengeVec tr1 "challenge_combine_n_to_one" 3 with hq1
  have q1l : q1.1.length = 3 := challengeVec_length E _ _ _
  obtain ⟨pD, x1, tr2, tape2, p1, v1⟩ := open_merged hE hu hro q1l nd0 hdT np8 (by omega) hg.derefs hcD
    (q1.2.scalar "joint_claim_eval" (mle ev1 q1.1)) tape
  rw [← ev1e] at p1 v1
  set ev2 := evalsOps ⟨ra.map (fun T => mle T randOps), rt.map (fun T => mle T randOps), mle ru randMem⟩
    ⟨ca.map (fun T => mle T randOps), ct.map (fun T => mle T randOps), mle cu randMem⟩
    (vs.map (fun T => mle T randOps)) with hev2
  have ev2e : ev2 = padPow2 ((ra ++ rt ++ ca ++ ct ++ vs).map fun T => mle T randOps) := by
    rw [hev2, evalsOps]; simp
  have ev2l : ev2.length = 2 ^ 4 := by rw [ev2e, padPow2_length, List.length_map, np16]
  set q2 := E.challengeVec (tr2.scalars "claim_evals_ops" ev2) "challenge_combine_n_to_one" 4 with hq2
  have q2l : q2.1.length = 4 := challengeVec_length E _ _ _
  obtain ⟨pO, x2, tr3, tape3, p2, v2⟩ := open_merged hE hu hro q2l no0 hT np16 (by omega) hg.ops hco
    (q2.2.scalar "joint_claim_eval_ops" (mle ev2 q2.1)) tape2
  rw [← ev2e] at p2 v2
  set ev3 := [mle ru randMem, mle cu randMem] with hev3
  have ev3l : ev3.length = 2 ^ 1 := rfl
  set q3 := E.challengeVec (tr3.scalars "claim_evals_mem" ev3) "challenge_combine_two_to_one" 1 with hq3
  have q3l : q3.1.length = 1 := challengeVec_length E _ _ _
  have hml : (ru ++ cu).length = 2 ^ (m + 1) := by
    rw [List.length_append, hD.ru, hD.cu, pow_succ]; ring
  have hmv : mle (ru ++ cu) (q3.1 ++ randMem) = mle ev3 q3.1 := by
    obtain ⟨c, hc⟩ := List.length_eq_one_iff.1 q3l
    rw [hc, List.singleton_append, mle_append (by rw [hD.ru, hrm]) (by rw [hD.cu, hrm]), hev3]
    have := mle_append (a := [mle ru randMem]) (b := [mle cu randMem]) (r := c) (rs := []) rfl rfl
    rw [List.singleton_append] at this
    rw [this]
    simp [mle, chi_nil]
  obtain ⟨pM, x3, tr4, tape4, p3, v3⟩ := open_plain hE hu (Z := ru ++ cu) (r := q3.1 ++ randMem)
    (ell := m + 1) (by rw [List.length_append, q3l, hrm]; ring) hml (by omega) hg.mem hcm
    (q3.2.scalar "joint_claim_eval_mem" (mle ev3 q3.1)) tape3
  rw [hmv] at p3 v3
  refine ⟨⟨⟨ra.map (fun T => mle T randOps), rt.map (fun T => mle T randOps), mle ru randMem⟩,
    ⟨ca.map (fun T => mle T randOps), ct.map (fun T => mle T randOps), mle cu randMem⟩,
    vs.map (fun T => mle T randOps), dr.map (fun T => mle T randOps), dc.map (fun T => mle T randOps), pO, pM,
    pD⟩, tr4, tape4, ?_, rfl, rfl, rfl, rfl, ?_⟩
  · have hev : ∀ {T : List F}, T.length = 2 ^ m → (dn m T).evaluate randMem = .ok (mle T randMem) := by
      intro T hT
      subst hrm
      have := dense_evaluate_correct hT
      rwa [dn_new hT, ok_bind] at this
    have hh1 : hashLayerHelper randMem randOps D.row =
        .ok ⟨ra.map (fun T => mle T randOps), rt.map (fun T => mle T randOps), mle ru randMem⟩ := by
      unfold hashLayerHelper
      rw [hD.rowAddr, hD.rowTs, hD.rowAud, mapM_evaluate hro ra hra, ok_bind, mapM_evaluate hro rt hrt,
        ok_bind, hev hD.ru, ok_bind]
      rfl
    have hh2 : hashLayerHelper randMem randOps D.col =
        .ok ⟨ca.map (fun T => mle T randOps), ct.map (fun T => mle T randOps), mle cu randMem⟩ := by
      unfold hashLayerHelper
      rw [hD.colAddr, hD.colTs, hD.colAud, mapM_evaluate hro ca hca, ok_bind, mapM_evaluate hro ct hct,
        ok_bind, hev hD.cu, ok_bind]
      rfl
    unfold hashLayerProve
    simp only
    rw [mapM_evaluate hro dr (fun T h => hdT T (by simp [h])), ok_bind,
      mapM_evaluate hro dc (fun T h => hdT T (by simp [h])), ok_bind]
    have hdp : derefsProve E ⟨dr.map (dn n), dc.map (dn n), dn (3 + n) (mergeT (dr ++ dc))⟩
        (dr.map fun T => mle T randOps) (dc.map fun T => mle T randOps) randOps gens.derefs
        (tr.protocol "Sparse polynomial hash layer proof") tape = .ok (pD, tr2, tape2) := by
      unfold derefsProve
      simp only
      rw [← hev1, log2_eq_of_pow ev1l, ok_bind, check_true (by simp only [dn, hro]; omega), ok_bind, ← htr1,
        combineEvals_eq E _ ev1l, ok_bind]
      simp only
      rw [← hq1, p1, ok_bind]
      rfl
    rw [hdp, ok_bind]
    simp only
    rw [hh1, ok_bind, hh2, ok_bind, hD.val, mapM_evaluate hro vs hvs, ok_bind]
    rw [← hev2, combineEvals_eq E _ ev2l, ok_bind]
    simp only
    rw [← hq2, hD.ops, p2, ok_bind]
    simp only
    rw [← hev3, combineEvals_eq E _ ev3l, ok_bind]
    simp only
    rw [← hq3, hD.mem, p3, ok_bind]
    rfl
  · intro row' col' hr hc hru hcu clRow clCol rx ry rh g
    simp only at hr hc hru hcu
    have hdv : derefsVerify E pD randOps (dr.map fun T => mle T randOps) (dc.map fun T => mle T randOps)
        gens.derefs cD (tr.protocol "Sparse polynomial hash layer proof") = .ok tr2 := by
      unfold derefsVerify
      simp only
      rw [← hev1, ← htr1, combineEvals_eq E _ ev1l, ok_bind]
      simp only
      rw [← hq1, v1]
    have heo : evalsOps row' col' (vs.map fun T => mle T randOps) = ev2 := by
      rw [hev2]
      unfold evalsOps
      simp only
      rw [hr, List.append_assoc, List.append_assoc _ col'.addr, ← List.append_assoc col'.addr, hc]
      simp [List.append_assoc]
    unfold hashLayerVerify
    simp only
    rw [check_true (by simp [hdr, hdc]), ok_bind, hdv, ok_bind, dotpClaimsCheck_ok randOps ⟨hdr, hdc, l5⟩,
      ok_bind, heo, combineEvals_eq E _ ev2l, ok_bind]
    simp only
    rw [← hq2, v2, ok_bind, hru, hcu, ← hev3, combineEvals_eq E _ ev3l, ok_bind]
    simp only
    rw [← hq3, v3, ok_bind]

/-! ### Extensions of the hashed tables -/

theorem mle_cellT {table ts rm : List F} (rh g : F) (h : table.length = 2 ^ rm.length) :
    mle (cellT rh g table ts) rm =
      memHash rh (∑ i ∈ Finset.range (2 ^ rm.length), (i : F) * chi rm i) (mle table rm) (mle ts rm) - g := by
  have hg : g = ∑ i ∈ Finset.range (2 ^ rm.length), g * chi rm i := by
    rw [← Finset.mul_sum, sum_chi, mul_one]
  conv_rhs => rw [hg]
  unfold mle memHash
  rw [Finset.sum_mul, Finset.sum_mul, ← Finset.sum_add_distrib, ← Finset.sum_add_distrib,
    ← Finset.sum_sub_distrib]
  apply Finset.sum_congr rfl
  intro i hi
  have hi := Finset.mem_range.1 hi
  unfold cellT
  rw [map_range_getD (by rw [h]; exact hi)]
  unfold memHash
  ring

theorem mle_opsT {a v t r : List F} (rh g : F) (h : a.length = 2 ^ r.length) :
    mle (opsT rh g a v t) r = memHash rh (mle a r) (mle v r) (mle t r) - g := by
  have hg : g = ∑ i ∈ Finset.range (2 ^ r.length), g * chi r i := by
    rw [← Finset.mul_sum, sum_chi, mul_one]
  conv_rhs => rw [hg]
  unfold mle memHash
  rw [Finset.sum_mul, Finset.sum_mul, ← Finset.sum_add_distrib, ← Finset.sum_add_distrib,
    ← Finset.sum_sub_distrib]
  apply Finset.sum_congr rfl
  intro i hi
  have hi := Finset.mem_range.1 hi
  unfold opsT
  rw [map_range_getD (by rw [h]; exact hi)]
  unfold memHash
  ring

theorem mle_shift {t r : List F} (s : F) (h : t.length = 2 ^ r.length) :
    mle (t.map (· + s)) r = mle t r + s := by
  have hs : s = ∑ i ∈ Finset.range (2 ^ r.length), s * chi r i := by
    rw [← Finset.mul_sum, sum_chi, mul_one]
  conv_rhs => rw [hs]
  unfold mle
  rw [← Finset.sum_add_distrib]
  apply Finset.sum_congr rfl
  intro i hi
  have hi := Finset.mem_range.1 hi
  have : (t.map (· + s)).getD i 0 = t.getD i 0 + s := by
    simp [List.getD_eq_getElem?_getD, h, hi]
  rw [this]; ring

theorem mle_replicate_zero (k : Nat) (r : List F) : mle (List.replicate k (0 : F)) r = 0 :=
  mle_zeros fun _ hx => List.eq_of_mem_replicate hx

/-- The checks of reads and writes hold for the honest tables. -/
theorem hashOpsCheck_honest {n : Nat} {ra dr rt : List (List F)} {r : List F} (hr : r.length = n) (rh g : F)
    (hl : ra.length = 3 ∧ dr.length = 3 ∧ rt.length = 3) (ha : ∀ T ∈ ra, T.length = 2 ^ n)
    (ht : ∀ T ∈ rt, T.length = 2 ^ n) :
    hashOpsCheck rh g (dr.map fun T => mle T r) (ra.map fun T => mle T r) (rt.map fun T => mle T r)
      ((rwTabs rh g 0 ra dr rt).map fun T => mle T r) ((rwTabs rh g 1 ra dr rt).map fun T => mle T r) =
      .ok () := by
  subst hr
  obtain ⟨l1, l2, l3⟩ := hl
  obtain ⟨a0, a1, a2, rfl⟩ := List.length_eq_three.1 l1
  obtain ⟨b0, b1, b2, rfl⟩ := List.length_eq_three.1 l2
  obtain ⟨c0, c1, c2, rfl⟩ := List.length_eq_three.1 l3
  have h0 := ha a0 (by simp)
  have h1 := ha a1 (by simp)
  have h2 := ha a2 (by simp)
  have k0 := ht c0 (by simp)
  have k1 := ht c1 (by simp)
  have k2 := ht c2 (by simp)
  simp [hashOpsCheck, rwTabs, check, idx, pure_ok, List.range_succ, mle_opsT, h0, h1, h2, mle_shift, k0, k1,
    k2]

/-- The checks on the cells hold; those on reads and writes remain. -/
theorem verifyHelper_eq {m : Nat} {randMem rx u : List F} (hrm : randMem.length = m) (hrx : rx.length = m)
    (hu : u.length = 2 ^ m) (rh g : F) (cr cw ops : List F) (e : AddrEvals F) (he : e.auditTs = mle u randMem) :
    hashLayerVerifyHelper randMem
      ⟨mle (cellT rh g (eqEvals rx) (List.replicate (2 ^ m) 0)) randMem, cr, cw,
        mle (cellT rh g (eqEvals rx) u) randMem⟩ ops e rx rh g =
      hashOpsCheck rh g ops e.addr e.readTs cr cw := by
  subst hrm
  have hl : (eqEvals rx).length = 2 ^ randMem.length := by rw [(eqEvals_correct rx).1, hrx]
  unfold hashLayerVerifyHelper
  rw [identity_evaluate, ok_bind, eqEvaluate_mle _ _ hrx, ok_bind, mle_cellT rh g hl, mle_cellT rh g hl,
    mle_replicate_zero, check_true rfl, ok_bind, he]
  cases hashOpsCheck rh g ops e.addr e.readTs cr cw with
  | error x => rfl
  | ok _ => rw [ok_bind, check_true rfl]

/-! ### The network -/

/-- The network proof for arbitrary `derefs` tables and arbitrary tables of reads and writes
satisfying the product equations. -/
theorem net_generic (h2 : (2 : F) ≠ 0) (h3 : (3 : F) ≠ 0) {E : Env F G P} (hE : E.Lawful)
    (hu : ∀ t, E.hash (t ++ [.chal "u"]) ≠ 0)
    {m n : Nat} (hm1 : 1 ≤ m) (hm : m ≤ 61) (hn1 : 1 ≤ n) (hn : n ≤ 58) {D : MultiDense F}
    {ra rt ca ct vs : List (List F)} {ru cu : List F} (hD : D.Tabs m n ra rt ca ct vs ru cu)
    {gens : SparseGens G} {a0 a1 a2 a3 a4 a5 : G} (hg : gens.WF m n a0 a1 a2 a3 a4 a5) {comm : SparseComm P}
    (hC : comm.Of E D gens m n) {dr dc Rr Wr Rc Wc : List (List F)}
    (hlen : Rr.length = 3 ∧ Wr.length = 3 ∧ Rc.length = 3 ∧ Wc.length = 3 ∧ dr.length = 3 ∧ dc.length = 3)
    (hdT : ∀ T ∈ dr ++ dc, T.length = 2 ^ n) (hRr : ∀ T ∈ Rr, T.length = 2 ^ n)
    (hWr : ∀ T ∈ Wr, T.length = 2 ^ n) (hRc : ∀ T ∈ Rc, T.length = 2 ^ n) (hWc : ∀ T ∈ Wc, T.length = 2 ^ n)
    {cD : List P} {b : List F} {t : Option (Tape F)}
    (hcD : (dn (3 + n) (mergeT (dr ++ dc))).commit E gens.derefs none = .ok (cD, b, t))
    {rx ry : List F} (hrx : rx.length = m) (hry : ry.length = m) (rh g : F)
    (hpr : (cellT rh g (eqEvals rx) (List.replicate (2 ^ m) 0)).prod * (Wr.map List.prod).prod =
      (Rr.map List.prod).prod * (cellT rh g (eqEvals rx) ru).prod)
    (hpc : (cellT rh g (eqEvals ry) (List.replicate (2 ^ m) 0)).prod * (Wc.map List.prod).prod =
      (Rc.map List.prod).prod * (cellT rh g (eqEvals ry) cu).prod)
    (tr : Tr F P) (tape : Tape F) :
    ∃ pp ph randOps tr' tape', randOps.length = n ∧
      netProve E (layerOf m n (cellT rh g (eqEvals rx) (List.replicate (2 ^ m) 0)) Rr Wr
          (cellT rh g (eqEvals rx) ru))
        (layerOf m n (cellT rh g (eqEvals ry) (List.replicate (2 ^ m) 0)) Rc Wc (cellT rh g (eqEvals ry) cu))
        D ⟨dr.map (dn n), dc.map (dn n), dn (3 + n) (mergeT (dr ++ dc))⟩ (dotVals n dr dc vs) gens tr tape =
        .ok (⟨pp, ph⟩, tr', tape') ∧
      ph.row.addr = ra.map (fun T => mle T randOps) ∧ ph.row.readTs = rt.map (fun T => mle T randOps) ∧
      ph.col.addr = ca.map (fun T => mle T randOps) ∧ ph.col.readTs = ct.map (fun T => mle T randOps) ∧
      ∀ row' col' : AddrEvals F, row'.addr ++ row'.readTs = ph.row.addr ++ ph.row.readTs →
        col'.addr ++ col'.readTs = ph.col.addr ++ ph.col.readTs → row'.auditTs = ph.row.auditTs →
        col'.auditTs = ph.col.auditTs →
        hashOpsCheck rh g (dr.map fun T => mle T randOps) row'.addr row'.readTs
          (Rr.map fun T => mle T randOps) (Wr.map fun T => mle T randOps) = .ok () →
        hashOpsCheck rh g (dc.map fun T => mle T randOps) col'.addr col'.readTs
          (Rc.map fun T => mle T randOps) (Wc.map fun T => mle T randOps) = .ok () →
        netVerify E ⟨pp, { ph with row := row', col := col' }⟩ comm cD (dotVals n dr dc vs) gens rx ry rh g
          comm.numOps tr = .ok tr' := by
  obtain ⟨l1, l2, l3, l4, l5, l6⟩ := hlen
  have l7 := hD.lens.2.2.2.2
  have hxl : (eqEvals rx).length = 2 ^ m := by rw [(eqEvals_correct rx).1, hrx]
  have hyl : (eqEvals ry).length = 2 ^ m := by rw [(eqEvals_correct ry).1, hry]
  obtain ⟨pp, randMem, randOps, tr1, hrm, hro, hp, hv⟩ := prodLayer_complete h2 h3 E hm1 hn1
    (Ir := cellT rh g (eqEvals rx) (List.replicate (2 ^ m) 0)) (Ar := cellT rh g (eqEvals rx) ru)
    (Ic := cellT rh g (eqEvals ry) (List.replicate (2 ^ m) 0)) (Ac := cellT rh g (eqEvals ry) cu)
    (by rw [cellT_length, hxl]) (by rw [cellT_length, hxl]) (by rw [cellT_length, hyl])
    (by rw [cellT_length, hyl]) hRr hWr hRc hWc (fun T h => hdT T (by simp [h]))
    (fun T h => hdT T (by simp [h])) (fun T h => hD.tabs T (by simp [h]))
    ⟨l1, l2, l3, l4, l5, l6, l7⟩ hpr hpc (dn (3 + n) (mergeT (dr ++ dc)))
    (tr.protocol "Sparse polynomial evaluation proof")
  obtain ⟨ph, tr2, tape2, hp2, e1, e2, e3, e4, hv2⟩ := hashLayer_open hE hu hm hn hD hg hC l5 l6 hdT hcD hrm hro
    tr1 tape
  refine ⟨pp, ph, randOps, tr2, tape2, hro, ?_, by rw [e1], by rw [e1], by rw [e2], by rw [e2], ?_⟩
  · unfold netProve
    simp only
    rw [hD.val, hp, ok_bind]
    simp only
    rw [hp2, ok_bind]
    rfl
  · intro row' col' q1 q2 q3 q4 o1 o2
    unfold netVerify
    simp only
    rw [check_true (by rw [hrx, hry]), ok_bind, hC.numOps, nextPow2_pow, hrx, hv, ok_bind]
    simp only
    have hev : (dotVals n dr dc vs).length = 3 := by simp [dotVals, l5, l6, l7]
    have hop : ((Rr ++ Wr ++ Rc ++ Wc).map fun T => mle T randOps).length = 12 := by simp [l1, l2, l3, l4]
    rw [check_true (by simp), ok_bind, hev, check_true hop, ok_bind, check_true (by
      simp only [dotClaims, List.length_flatMap, List.length_cons, List.length_nil]
      simp [l5, l6, l7]), ok_bind]
    have s1 : List.take 3 (List.take (2 * 3) ((Rr ++ Wr ++ Rc ++ Wc).map fun T => mle T randOps)) =
        Rr.map fun T => mle T randOps := by
      simp [List.take_take, List.take_append, List.take_of_length_le, l1]
    have s2 : List.drop 3 (List.take (2 * 3) ((Rr ++ Wr ++ Rc ++ Wc).map fun T => mle T randOps)) =
        Wr.map fun T => mle T randOps := by
      simp [List.take_append, List.drop_append, List.take_of_length_le, l1, l2]
    have s3 : List.take 3 (List.drop (2 * 3) ((Rr ++ Wr ++ Rc ++ Wc).map fun T => mle T randOps)) =
        Rc.map fun T => mle T randOps := by
      simp [List.take_append, List.drop_append, List.take_of_length_le, List.drop_eq_nil_of_le, l1, l2, l3]
    have s4 : List.drop 3 (List.drop (2 * 3) ((Rr ++ Wr ++ Rc ++ Wc).map fun T => mle T randOps)) =
        Wc.map fun T => mle T randOps := by
      simp [List.drop_append, List.drop_eq_nil_of_le, l1, l2, l3]
    rw [s1, s2, s3, s4, hv2 row' col' q1 q2 q3 q4]
    simp only [List.getD_cons_zero, List.getD_cons_succ]
    rw [verifyHelper_eq hrm hrx hD.ru rh g _ _ _ row' (by rw [q3, e1]),
      verifyHelper_eq hrm hry hD.cu rh g _ _ _ col' (by rw [q4, e2]), e3, e4, o1, ok_bind, o2, ok_bind]
    rfl

end Spartan
