import Verif.Lemmas.RBRHonest
import Verif.Lemmas.ProofSize

/-! C70, C86: what acceptance by `SNARK::verify` proves about the prover. -/

set_option linter.unusedSectionVars false

namespace Spartan
open Spec
variable {F G P : Type} [Field F] [AddCommGroup G] [Module F G]
  [DecidableEq F] [DecidableEq P] [DecidableEq G]

/-- The parts of the generators. -/
theorem snarkGens_parts {S : GenSrc G} {ls le : List UInt8} {nc nv ni nz k j n : Nat} (hc : 1 ≤ nc)
    (hk : consPadded nc = 2 ^ k) (hj : varsPadded nv ni = 2 ^ j) (hz : nextPow2 nz = 2 ^ n) {gens : SNARKGens G}
    (h : SNARKGens.new S ls le nc nv ni nz = .ok gens) :
    R1CSGens.new S ls (2 ^ j) = .ok gens.sat ∧ polyCommitGens S (4 + n) le = .ok gens.eval.ops ∧
      polyCommitGens S (1 + max k (j + 1)) le = .ok gens.eval.mem ∧
      polyCommitGens S (3 + n) le = .ok gens.eval.derefs := by
  have c16 : Nat.clog 2 (3 * 5) = 4 := by decide +kernel
  have c8 : Nat.clog 2 (3 * 2) = 3 := by decide +kernel
  have hmem : (if Nat.clog 2 nc > j + 1 then Nat.clog 2 nc else j + 1) = max k (j + 1) := by
    rw [consPadded_eq, if_neg (by omega)] at hk
    by_cases h1 : nc = 1
    · rw [if_pos h1] at hk
      have : k = 1 := Nat.pow_right_injective (le_refl 2) (by simpa using hk.symm)
      subst h1 this
      simp
    · rw [if_neg h1] at hk
      have : Nat.clog 2 nc = k := Nat.pow_right_injective (le_refl 2) hk
      rw [this]
      split <;> omega
  unfold SNARKGens.new at h
  rw [hj] at h
  obtain ⟨sat, e1, h⟩ := bind_ok h
  obtain ⟨ev, e2, h⟩ := bind_ok h
  cases h
  refine ⟨e1, ?_⟩
  unfold R1CSCommGens.new at e2
  obtain ⟨_, -, e2⟩ := bind_ok e2
  have l1 : log2 nc = .ok (Nat.clog 2 nc) := by
    unfold log2
    rw [check_true (by omega), ok_bind]; rfl
  rw [l1, ok_bind, log2_eq_of_pow (show 2 * 2 ^ j = 2 ^ (j + 1) by rw [pow_succ]; ring), ok_bind] at e2
  unfold SparseGens.new at e2
  rw [hz, log2_eq_of_pow rfl, ok_bind, log2_eq_of_pow (show nextPow2 (3 * 5) = 2 ^ 4 by unfold nextPow2; rw [c16]),
    ok_bind, log2_eq_of_pow (show nextPow2 (3 * 2) = 2 ^ 3 by unfold nextPow2; rw [c8]), ok_bind] at e2
  simp only at e2
  rw [hmem] at e2
  obtain ⟨po, p1, e2⟩ := bind_ok e2
  obtain ⟨pm, p2, e2⟩ := bind_ok e2
  obtain ⟨pd, p3, e2⟩ := bind_ok e2
  cases e2
  exact ⟨by rw [Nat.add_comm]; exact p1, by rw [Nat.add_comm]; exact p2, by rw [Nat.add_comm]; exact p3⟩

/-- The tables behind an honest commitment. -/
def snarkTabs (I : R1CS F) (m n : Nat) (rss css : List (List Nat)) (audit caudit : List Nat) : SpTabs F :=
  ⟨m, n, [I.A, I.B, I.C].map (padRowsOf (2 ^ n)), [I.A, I.B, I.C].map (padColsOf (2 ^ n)),
    castT rss, castT css, [I.A, I.B, I.C].map (padValsOf (2 ^ n)), audit.map fun (x : Nat) => (x : F),
    caudit.map fun (x : Nat) => (x : F)⟩

theorem le_tab1 (m n : Nat) : 4 + n ≤ tabSize m n := le_max_left _ _
theorem le_tab2 (m n : Nat) : 1 + m ≤ tabSize m n := le_max_right _ _
theorem le_tab3 (m n : Nat) : 3 + n ≤ tabSize m n := le_trans (by omega) (le_tab1 m n)

/-- Unfavourable challenges of the SNARK. -/
def snarkBad (I : R1CS F) (k j m n : Nat) (t : SpTabs F) : Bads F (Comb2 F j (tabSize m n)) :=
  seqB (r1csRounds k j)
    (r1csBad I k j (2 ^ ((4 + n) / 2) + 2 ^ ((1 + m) / 2)) (valCo j ∘ₗ LinearMap.fst F _ _)
      (firstCo j (width j) (by have := width_lt j; omega) ∘ₗ LinearMap.fst F _ _)
      (firstCo j 3 (by have := five_le j; omega) ∘ₗ LinearMap.fst F _ _)
      (firstCo j 4 (by have := five_le j; omega) ∘ₗ LinearMap.fst F _ _)) fun h =>
  sparseBad t (tabV F j _ (4 + n) (le_tab1 m n)) (tabX F j _ (4 + n) (le_tab1 m n))
    (tabV F j _ (1 + m) (le_tab2 m n)) (tabX F j _ (1 + m) (le_tab2 m n))
    (tabV F j _ (3 + n) (le_tab3 m n)) (tabX F j _ (3 + n) (le_tab3 m n))
    (fitP m (equalize (r1csRx k (chs h)) (r1csRy k j (chs h))).1)
    (fitP m (equalize (r1csRx k (chs h)) (r1csRy k j (chs h))).2)

theorem snarkTabs_wf {I : R1CS F} {k j n : Nat} (hI : I.WF k j) (hn : n = nzVars I.A I.B I.C) {D : MultiDense F}
    {rss css : List (List Nat)} {audit caudit : List Nat}
    (hD : DenseOf I.A I.B I.C (max k (j + 1)) n D rss css audit caudit) :
    (snarkTabs I (max k (j + 1)) n rss css audit caudit).WF := by
  have hT := hD.tabs
  have hmem : ∀ {x : SparseMat F}, x ∈ [I.A, I.B, I.C] → x.InRange (2 ^ k) (2 ^ (j + 1)) := by
    intro x hx
    simp only [List.mem_cons, List.not_mem_nil, or_false] at hx
    rcases hx with rfl | rfl | rfl
    · exact hI.A.mono le_rfl hI.cols
    · exact hI.B.mono le_rfl hI.cols
    · exact hI.C.mono le_rfl hI.cols
  have hkm : 2 ^ k ≤ 2 ^ max k (j + 1) := Nat.pow_le_pow_right (by norm_num) (le_max_left _ _)
  have hlm : 2 ^ (j + 1) ≤ 2 ^ max k (j + 1) := Nat.pow_le_pow_right (by norm_num) (le_max_right _ _)
  have hall : ∀ T ∈ castT ([I.A, I.B, I.C].map (padRowsOf (2 ^ n))) ++ castT rss ++
      castT ([I.A, I.B, I.C].map (padColsOf (2 ^ n))) ++ castT css ++ [I.A, I.B, I.C].map (padValsOf (2 ^ n)),
      T.length = 2 ^ n := hT.tabs
  have hcast : ∀ {o : List (List Nat)}, (∀ T ∈ castT (F := F) o, T.length = 2 ^ n) → ∀ x ∈ o, x.length = 2 ^ n := by
    intro o h x hx
    have := h _ (List.mem_map.2 ⟨x, hx, rfl⟩)
    simpa using this
  exact {
    ro := rfl
    co := rfl
    rt := by simp [snarkTabs, castT, hD.hrss.1]
    ct := by simp [snarkTabs, castT, hD.hcss.1]
    vs := rfl
    rol := hcast fun T hT => hall T (by simp only [List.mem_append]; tauto)
    col := hcast fun T hT => hall T (by simp only [List.mem_append]; tauto)
    rob := by
      intro o ho a ha
      obtain ⟨x, hx, rfl⟩ := List.mem_map.1 ho
      rw [padRowsOf, List.mem_append] at ha
      rcases ha with ha | ha
      · obtain ⟨e, he, rfl⟩ := List.mem_map.1 ha
        exact lt_of_lt_of_le (hmem hx e he).1 hkm
      · rw [List.eq_of_mem_replicate ha]; exact Nat.two_pow_pos _
    cob := by
      intro o ho a ha
      obtain ⟨x, hx, rfl⟩ := List.mem_map.1 ho
      rw [padColsOf, List.mem_append] at ha
      rcases ha with ha | ha
      · obtain ⟨e, he, rfl⟩ := List.mem_map.1 ha
        exact lt_of_lt_of_le (hmem hx e he).2 hlm
      · rw [List.eq_of_mem_replicate ha]; exact Nat.two_pow_pos _
    rtl := fun T hT => hall T (by simp only [List.mem_append]; tauto)
    ctl := fun T hT => hall T (by simp only [List.mem_append]; tauto)
    vsl := fun T hT => hall T (by simp only [List.mem_append]; tauto)
    ru := hT.ru
    cu := hT.cu }

theorem snarkBad_small {I : R1CS F} {k j m n : Nat} {t : SpTabs F} (ht : t.WF) (hm : t.m = m) (hn : t.n = n) :
    Small (4 * (3 * 2 ^ n + 2 ^ m)) (snarkBad I k j m n t) := by
  have p1 : 1 ≤ 2 ^ n := Nat.one_le_two_pow
  have p2 : 1 ≤ 2 ^ m := Nat.one_le_two_pow
  subst hm hn
  refine Small.seq ((r1csBad_small I k j _ _ _ _ _ rfl).mono (by omega)) fun h => ?_
  exact sparseBad_small ht _ _ _ _ _ _ (by simp) (by simp) rfl rfl rfl

/-- C70/C86 for well-formed instances. -/
theorem snark_rbr {I : Inst F} {k j n m : Nat} (hI : I.inst.WF k j) (hn : n = nzVars I.inst.A I.inst.B I.inst.C)
    (hm : m = max k (j + 1)) (hn58 : n ≤ 58) (hm61 : m ≤ 61)
    (hchar : ∀ i : Nat, 0 < i → i ≤ 3 * 2 ^ n + 2 ^ m → (i : F) ≠ 0) {D : MultiDense F}
    {rss css : List (List Nat)} {audit caudit : List Nat}
    (hMD : multiDense [I.inst.A, I.inst.B, I.inst.C] = .ok D)
    (hD : DenseOf I.inst.A I.inst.B I.inst.C m n D rss css audit caudit) {E : Env F G P} (hE : E.Lawful)
    {S : GenSrc G} {ls le : List UInt8} {gens : SNARKGens G}
    (hg1 : R1CSGens.new S ls (2 ^ j) = .ok gens.sat) (hg2 : polyCommitGens S (4 + n) le = .ok gens.eval.ops)
    (hg3 : polyCommitGens S (1 + m) le = .ok gens.eval.mem)
    (hg4 : polyCommitGens S (3 + n) le = .ok gens.eval.derefs) {comm : R1CSComm P} {decomm : MultiDense F}
    (henc : SNARK.encode E I gens = .ok (comm, decomm)) {rep : P → Comb2 F j (tabSize m n)}
    (hrep : IsRep E rep (evalComb2 j (tabSize m n) (stream S ls) (stream S le))) {pf : SNARK F P}
    (hsh : SNARK.Shaped pf) {input : List F} {tr tr' : Tr F P}
    (hok : SNARK.verify E pf comm input gens tr = .ok tr') :
    ∃ es, snarkRels E rep (evalComb2 j (tabSize m n) (stream S ls) (stream S le)) gens (satGens F j (tabSize m n))
        (unit F j (width j), 0) (unit F j (width j + 1), 0) (evalBasis F j (tabSize m n) n m) pf comm decomm input tr =
        .ok es ∧
      ((∃ e ∈ es, e ≠ 0 ∧ evalComb2 j (tabSize m n) (stream S ls) (stream S le) e = 0) ∨
        I.isSat (extracted j (fun p => (rep p).1) pf.sat.commVars) input = .ok (.ok true) ∨
        ∃ ms, tr' = tr ++ ms ∧ (rounds E.hash rep tr [] ms).1.length = r1csRounds k j + sparseRounds m n ∧
          Hit (snarkBad I.inst k j m n (snarkTabs I.inst m n rss css audit caudit)) (rounds E.hash rep tr [] ms).1) := by
  obtain ⟨J, hJ⟩ : ∃ J, J = tabSize m n := ⟨_, rfl⟩
  obtain ⟨π, hπ⟩ : ∃ π, π = evalComb2 (F := F) j (tabSize m n) (stream S ls) (stream S le) := ⟨_, rfl⟩
  have e1 : ∀ x : Comb F j, π (x, 0) = evalComb j (stream S ls) x := by
    intro x; simp [hπ, evalComb2]
  obtain ⟨gO, GO⟩ := table_formal (F := F) j (ls := ls) (by omega) (le_tab1 m n) hg2
  obtain ⟨gM, GM⟩ := table_formal (F := F) j (ls := ls) (by omega) (le_tab2 m n) hg3
  obtain ⟨gD, GD⟩ := table_formal (F := F) j (ls := ls) (by omega) (le_tab3 m n) hg4
  obtain ⟨w1, w3, w4, wp⟩ := r1csGens_formal (F := F) (by omega) hg1
  obtain ⟨q3, q3'⟩ := gens_new_map (F := F) S ls j 3 (by have := five_le j; omega)
  obtain ⟨q4, q4'⟩ := gens_new_map (F := F) S ls j 4 (by have := five_le j; omega)
  rw [← w3] at q3 q3'
  rw [← w4] at q4 q4'
  rw [← hπ] at gO GO gM GM gD GD hrep ⊢
  -- the commitment
  have rg : ∀ {x : SparseMat F}, x.InRange (2 ^ k) (2 ^ j + I.inst.numInputs + 1) → x.InRange (2 ^ k) (2 ^ (j + 1)) :=
    fun h => h.mono le_rfl hI.cols
  have hcomm : comm.numCons = 2 ^ k ∧ comm.numVars = 2 ^ j ∧ comm.numInputs = I.inst.numInputs ∧ decomm = D ∧
      comm.comm.Of E D gens.eval m n := by
    obtain ⟨_, _, _, _, _, _, gw⟩ : ∃ a0 a1 a2 a3 a4 a5, gens.eval.WF m n a0 a1 a2 a3 a4 a5 :=
      ⟨_, _, _, _, _, _, gO, by rw [Nat.add_comm m]; exact gM, gD⟩
    rw [hm] at gw
    obtain ⟨comm', D', _, _, _, _, hcm, -, hO⟩ := multiCommit_ok E (A := I.inst.A) (B := I.inst.B) (C := I.inst.C)
      ⟨hI.nA.1, hI.nB.1, hI.nC.1⟩ ⟨hI.nA.2, hI.nB.2, hI.nC.2⟩ (rg hI.A) (rg hI.B) (rg hI.C) hn gw
    have hDD : D' = D := by
      unfold multiCommit at hcm
      rw [hMD, ok_bind] at hcm
      obtain ⟨_, -, hcm⟩ := bind_ok hcm
      obtain ⟨_, -, hcm⟩ := bind_ok hcm
      obtain ⟨_, -, hcm⟩ := bind_ok hcm
      cases hcm
      rfl
    unfold SNARK.encode at henc
    simp only at henc
    rw [hcm, ok_bind] at henc
    cases henc
    rw [← hDD, hm]
    exact ⟨hI.cons, hI.vars, rfl, rfl, hO⟩
  obtain ⟨c1, c2, c3, rfl, hO⟩ := hcomm
  -- the verifier
  unfold SNARK.verify at hok
  unfold snarkRels
  simp only at hok ⊢
  rw [c1, c2, c3] at hok
  rw [c1, c2]
  obtain ⟨_, hi, hok⟩ := bind_ok hok
  have hi := check_ok hi
  obtain ⟨⟨rx, ry, tr1⟩, hv, hok⟩ := bind_ok hok
  simp only at hok
  obtain ⟨es1, hes1⟩ := r1csRels_ok (rep := rep) (π := π) (gm := satGens F j (tabSize m n))
    (g0 := (unit F j (width j), 0)) (h := (unit F j (width j + 1), 0)) hv
  obtain ⟨es2, hes2⟩ := sparseRels_ok (rep := rep) (π := π) (b := evalBasis F j (tabSize m n) n m) hok
  rw [hes1, ok_bind, hv, ok_bind]
  simp only
  rw [hes2, ok_bind]
  refine ⟨_, rfl, ?_⟩
  by_cases hF : Free π (rowRels rep (evalBasis F j (tabSize m n) n m).ops.G decomm.combOps.Z comm.comm.ops ++
      rowRels rep (evalBasis F j (tabSize m n) n m).mem.G decomm.combMem.Z comm.comm.mem ++ es1 ++ es2)
  swap
  · left
    unfold Free at hF
    push Not at hF
    obtain ⟨e, he, h0, hne⟩ := hF
    exact ⟨e, he, hne, h0⟩
  right
  have F1 : Free π (rowRels rep (evalBasis F j (tabSize m n) n m).ops.G decomm.combOps.Z comm.comm.ops) :=
    fun e he => hF e (by simp [he])
  have F2 : Free π (rowRels rep (evalBasis F j (tabSize m n) n m).mem.G decomm.combMem.Z comm.comm.mem) :=
    fun e he => hF e (by simp [he])
  have F3 : Free π es1 := fun e he => hF e (by simp [he])
  have F4 : Free π es2 := fun e he => hF e (by simp [he])
  -- the tables
  have ht := snarkTabs_wf hI hn (hm ▸ hD)
  rw [← hm] at ht
  obtain ⟨t, htt⟩ : ∃ t, t = snarkTabs I.inst m n rss css audit caudit := ⟨_, rfl⟩
  have tm : t.m = m := by rw [htt]; rfl
  have tn : t.n = n := by rw [htt]; rfl
  rw [← htt] at ht ⊢
  have hT := hD.tabs
  obtain ⟨b1, t1, hco⟩ := hO.ops
  obtain ⟨b2, t2, hcm⟩ := hO.mem
  have lo : decomm.combOps = dn (4 + n) (mergeT (castT t.ro ++ t.rt ++ castT t.co ++ t.ct ++ t.vs)) := by
    rw [hT.ops, htt]; rfl
  have lm : decomm.combMem = dn (1 + m) (t.ru ++ t.cu) := by
    rw [hT.mem, htt, Nat.add_comm]; rfl
  have c16 : Nat.clog 2 15 = 4 := by decide +kernel
  have zo : (mergeT (castT t.ro ++ t.rt ++ castT t.co ++ t.ct ++ t.vs)).length = 2 ^ (4 + n) := by
    apply mergeT_length
    · intro h0
      have := congrArg List.length h0
      simp [ht.vs] at this
    · rw [htt]; exact hT.tabs
    · simp only [List.length_append, ht.ro, ht.rt, ht.co, ht.ct, ht.vs, castT, List.length_map, nextPow2, c16]
  have zm : (t.ru ++ t.cu).length = 2 ^ (1 + m) := by
    rw [List.length_append, ht.ru, ht.cu, tm, pow_add]; ring
  rw [lo] at hco F1
  rw [lm] at hcm F2
  obtain ⟨lc1, xo⟩ := honest_rows hE hrep (ell := 4 + n) rfl (tab_reads j (le_tab1 m n)) zo gO GO hco F1
  obtain ⟨lc2, xm⟩ := honest_rows hE hrep (ell := 1 + m) rfl (tab_reads j (le_tab2 m n)) zm gM GM hcm F2
  -- the rounds before the first challenge
  have S0 : ∃ c0, Seg E rep tr [] [] ((tr.protocol "Spartan SNARK proof").r1csComm comm) c0 ∧
      (pts c0).length = 2 ^ ((4 + n) / 2) + 2 ^ ((1 + m) / 2) ∧ scs c0 = [] := by
    unfold Tr.r1csComm Tr.sparseComm Tr.polyComm
    have a1 := (((Seg.refl E rep tr ([] : List (Msg F (Comb2 F j (tabSize m n))))).protocol "Spartan SNARK proof").u64
      "num_cons" comm.numCons).u64 "num_vars" comm.numVars |>.u64 "num_inputs" comm.numInputs |>.u64 "batch_size"
      comm.comm.batch |>.u64 "num_ops" comm.comm.numOps |>.u64 "num_mem_cells" comm.comm.numCells
    have a2 := Seg.bytes (Seg.pointList "poly_commitment_share" comm.comm.ops (a1.bytes "comm_comb_ops"
      "poly_commitment_begin")) "comm_comb_ops" "poly_commitment_end"
    have a3 := Seg.bytes (Seg.pointList "poly_commitment_share" comm.comm.mem (a2.bytes "comm_comb_mem"
      "poly_commitment_begin")) "comm_comb_mem" "poly_commitment_end"
    simp only [List.append_assoc, List.cons_append, List.nil_append] at a3 ⊢
    exact ⟨_, a3, by simp [lc1, lc2], by simp⟩
  obtain ⟨c0, S0, p0, s0⟩ := S0
  have hin : ∀ x : Comb F j, LinearMap.fst F (Comb F j) (Comb F (tabSize m n)) (LinearMap.inl F _ _ x) = x :=
    fun x => rfl
  have mapE : ∀ L : List (Comb F j), (L.map fun x => ((x, 0) : Comb2 F j (tabSize m n))).map π =
      L.map (evalComb j (stream S ls)) := by
    intro L
    rw [List.map_map]
    apply List.map_congr_left
    intro x _
    exact e1 x
  obtain ⟨hcl, Rs, S1, hl, hrx, hry, lx, ly, hH⟩ := r1cs_rbr hE hrep hI (n := width j) rfl
    (g0 := (unit F j (width j), 0)) (h := (unit F j (width j + 1), 0)) (gm := satGens F j (tabSize m n))
    ((readsPc j).lift hin) ((reads_basis j 3 (by omega)).lift hin rfl rfl)
    ((reads_basis j 4 (by omega)).lift hin rfl rfl) (by rw [e1, e1]; exact w1)
    (q3.trans (mapE _).symm) (q3'.trans (e1 _).symm) (q4.trans (mapE _).symm) (q4'.trans (e1 _).symm)
    (wp.trans (mapE _).symm) hsh.sat hi hv hes1 F3 p0 s0
  have S2 : ∃ c2, Seg E rep tr1 [] [] (tr1.evalClaims pf.evals) c2 ∧ pts c2 = [] :=
    ⟨_, (((Seg.refl E rep tr1 []).scalar _ _).scalar _ _).scalar _ _, by simp⟩
  obtain ⟨c2', S2, p2⟩ := S2
  obtain ⟨x1, x2, x3, x4⟩ := equalize_ok lx ly
  rw [← hm] at x1 x2
  obtain ⟨Rs', S3, hl', hH'⟩ := sparse_rbr hE hrep ht (by rw [tm]; omega) (by rw [tm, tn]; exact hchar)
    (b := evalBasis F j (tabSize m n) n m) (tab_reads j (le_tab1 m n)) (tab_reads j (le_tab2 m n))
    (tab_reads j (le_tab3 m n)) (by rw [tn]; rfl) (by rw [tm]; rfl) (by rw [tn]; rfl)
    (by rw [tn]; exact gO) (by rw [tm]; exact gM) (by rw [tn]; exact gD) GO GM GD hsh.ops hsh.mem hsh.derefs
    ⟨hsh.rowAddr, hsh.rowTs, hsh.colAddr, hsh.colTs, hsh.val⟩ (by rw [tn]; exact hO.numOps) (by rw [tn]; exact xo)
    (by rw [tm]; exact xm) (rxe := (equalize rx ry).1) (rye := (equalize rx ry).2) rfl (x1.trans tm.symm)
    (x2.trans tm.symm) rfl hok hes2 F4 p2
  rw [tm, tn] at hl'
  have Sall := (S0.trans S1).trans (S2.trans S3)
  rw [List.nil_append, List.nil_append] at Sall
  have hxl := extractVars_length (firstCo (F := F) j (width j) (by have := width_lt j; omega))
    (rows := 2 ^ (j / 2)) (comm := pf.sat.commVars.map fun p => (rep p).1) (by simpa using hcl)
  have hxe : extractVars (firstCo (F := F) j (width j) (by have := width_lt j; omega) ∘ₗ
      LinearMap.fst F (Comb F j) (Comb F (tabSize m n))) (2 ^ (j / 2)) (pf.sat.commVars.map rep) =
      extracted j (fun p => (rep p).1) pf.sat.commVars := by
    rw [extracted_eq]
    unfold extractVars
    rw [← List.map_take, ← List.map_take, List.flatMap_map, List.flatMap_map]
    rfl
  rw [← extracted_eq] at hxl
  have hxl : (extracted j (fun p => (rep p).1) pf.sat.commVars).length = 2 ^ j := by
    rw [hxl, width, ← pow_add]; congr 1; omega
  rw [hxe] at hH
  by_cases hs : Sat I.inst.A.triples I.inst.B.triples I.inst.C.triples (2 ^ k)
      (zpad (extracted j (fun p => (rep p).1) pf.sat.commVars) input)
  · exact .inl (inst_isSat_of_sat hI hxl hi hs)
  · right
    obtain ⟨ms, hms, hr⟩ := Sall
    refine ⟨ms, hms, by rw [hr, List.length_append, hl, hl'], ?_⟩
    rw [hr]
    by_cases hsp : Hit (sparseBad t (tabV F j _ (4 + n) (le_tab1 m n)) (tabX F j _ (4 + n) (le_tab1 m n))
        (tabV F j _ (1 + m) (le_tab2 m n)) (tabX F j _ (1 + m) (le_tab2 m n))
        (tabV F j _ (3 + n) (le_tab3 m n)) (tabX F j _ (3 + n) (le_tab3 m n)) (equalize rx ry).1 (equalize rx ry).2) Rs'
    · apply Hit.right hl
      rw [← hrx, ← hry, fitP_eq x1, fitP_eq x2]
      exact hsp
    · apply Hit.left hl
      apply hH _ hs
      have hev := hH' hsp
      have hnl : ∀ x ∈ [I.inst.A, I.inst.B, I.inst.C], x.M.length ≤ 2 ^ n := by
        intro x hx
        refine (le_nextPow2 _).trans ?_
        rw [hn]
        apply Nat.pow_le_pow_right (by norm_num)
        unfold nzVars
        simp only [List.mem_cons, List.not_mem_nil, or_false] at hx
        rcases hx with rfl | rfl | rfl <;> simp
      rw [hI.evaluate lx ly]
      rw [htt] at hev
      have q1 := triSum_mat (rg hI.A) lx ly (hnl I.inst.A (by simp)) x3 x4
      have q2 := triSum_mat (rg hI.B) lx ly (hnl I.inst.B (by simp)) x3 x4
      have q3 := triSum_mat (rg hI.C) lx ly (hnl I.inst.C (by simp)) x3 x4
      simp only [snarkTabs, lookT, List.map_cons, List.map_nil, List.zip_cons_cons, List.zip_nil_right, q1, q2, q3,
        List.cons.injEq, and_true] at hev
      rw [← hev.1, ← hev.2.1, ← hev.2.2]

theorem prodBRounds_eq (n m D : Nat) : ∀ kk, kk ≤ n →
    2 * prodBRounds n m D kk + kk * kk + 2 * (if kk = 0 then D else 0) * 0 =
      2 * kk * (m + n) + kk + 2 * (if kk = 0 then 0 else D)
  | 0, _ => by simp [prodBRounds]
  | kk + 1, h => by
    have ih := prodBRounds_eq n m D kk (by omega)
    obtain ⟨d, rfl⟩ : ∃ d, n = kk + 1 + d := ⟨n - (kk + 1), by omega⟩
    rw [prodBRounds, show kk + 1 + d - 1 - kk = d by omega]
    by_cases h0 : kk = 0
    · subst h0
      simp [prodBRounds] at ih ⊢
      ring
    · simp only [if_neg h0, Nat.add_one_ne_zero, if_false, mul_zero, add_zero] at ih ⊢
      nlinarith [ih]

theorem prodBRounds_closed (n m D : Nat) :
    prodBRounds n m D n = (m + 1) * n + n * (n - 1) / 2 + if n = 0 then 0 else D := by
  have h := prodBRounds_eq n m D n le_rfl
  have hev : 2 * (n * (n - 1) / 2) = n * (n - 1) := Nat.mul_div_cancel' (Nat.even_mul_pred_self n).two_dvd
  cases n with
  | zero => simp [prodBRounds]
  | succ n =>
    simp only [Nat.add_one_ne_zero, if_false, mul_zero, add_zero, Nat.add_sub_cancel] at h hev ⊢
    generalize (n + 1) * n / 2 = q at hev ⊢
    nlinarith [h, hev]

theorem snarkRounds_eq (k j m n : Nat) (hm : 1 ≤ m) : r1csRounds k j + sparseRounds m n = snarkRounds k j m n := by
  unfold sparseRounds snarkRounds openRounds
  rw [r1csRounds_eq, prodBRounds_closed, prodBRounds_closed, if_neg (show ¬ m = 0 by omega)]
  omega

/-- C70/C86, what remains true of knowledge soundness of the SNARK.  For every instance built by
`Instance::new` with at least one constraint, and generators made for its sizes, there is a table `bad`
of at most `4 (3 nz + cells)` challenges per round, fixed by the instance, such that: whenever
`SNARK::verify` accepts a proof of the shape that `SNARK::prove` produces against the commitment made by
`SNARK::encode`, then, for every representation `rep` of the points as combinations of the generators,
* one of the explicit combinations `snarkRels` is a nontrivial relation between the generators, or
* the assignment read off the commitment to the variables satisfies the instance, or
* in one of the rounds the hash produced a challenge listed in `bad` for what had been sent before it.

The characteristic must exceed the number of accesses to each memory.  Missing: proofs of another
shape, for which the property is false (`snark_unsound`). -/
theorem snark_knowledge_sound {K : Codec F} {nc nv ni nz : Nat}
    {A B C : List (Nat × Nat × List UInt8)} {I : Inst F}
    (hnew : Inst.new K nc nv ni A B C = .ok (.ok I)) (hc : 1 ≤ nc)
    (hnz : nextPow2 nz = nextPow2 (max (max I.inst.A.M.length I.inst.B.M.length) I.inst.C.M.length))
    (hnz58 : nextPow2 nz ≤ 2 ^ 58) (hsc : I.inst.numCons ≤ 2 ^ 61) (hsv : I.inst.numVars ≤ 2 ^ 60)
    (hchar : ∀ i : Nat, 0 < i → i ≤ 3 * nextPow2 nz + max I.inst.numCons (2 * I.inst.numVars) → (i : F) ≠ 0) :
    ∃ k j m n, I.inst.numCons = 2 ^ k ∧ I.inst.numVars = 2 ^ j ∧ m = max k (j + 1) ∧ nextPow2 nz = 2 ^ n ∧
    ∃ bad : Bads F (Comb2 F j (tabSize m n)), (∀ hist ms, AtMost (4 * (3 * 2 ^ n + 2 ^ m)) (bad hist ms)) ∧
    ∀ (G P : Type) [AddCommGroup G] [Module F G] [DecidableEq P] [DecidableEq G] (E : Env F G P)
      (S : GenSrc G) (ls le : List UInt8) (gens : SNARKGens G) (comm : R1CSComm P) (decomm : MultiDense F)
      (rep : P → Comb2 F j (tabSize m n)) (pf : SNARK F P) (input : List F) (tr tr' : Tr F P), E.Lawful →
      SNARKGens.new S ls le nc nv ni nz = .ok gens → SNARK.encode E I gens = .ok (comm, decomm) →
      IsRep E rep (evalComb2 j (tabSize m n) (stream S ls) (stream S le)) → SNARK.Shaped pf →
      SNARK.verify E pf comm input gens tr = .ok tr' →
      ∃ es, snarkRels E rep (evalComb2 j (tabSize m n) (stream S ls) (stream S le)) gens
          (satGens F j (tabSize m n)) (unit F j (width j), 0) (unit F j (width j + 1), 0)
          (evalBasis F j (tabSize m n) n m) pf comm decomm input tr = .ok es ∧
        ((∃ e ∈ es, e ≠ 0 ∧ evalComb2 j (tabSize m n) (stream S ls) (stream S le) e = 0) ∨
          I.isSat (extracted j (fun p => (rep p).1) pf.sat.commVars) input = .ok (.ok true) ∨
          ∃ ms, tr' = tr ++ ms ∧ (rounds E.hash rep tr [] ms).1.length = snarkRounds k j m n ∧
            Hit bad (rounds E.hash rep tr [] ms).1) := by
  obtain ⟨k, j, hwf, hkc, hj⟩ : ∃ k j, I.inst.WF k j ∧ consPadded nc = 2 ^ k ∧ varsPadded nv ni = 2 ^ j := by
    obtain ⟨hA, hB, hC, rfl⟩ := new_ok_entries hnew
    obtain ⟨k, j, hwf, hkc, -, hj⟩ := builtR1CS_wf hA hB hC
    exact ⟨k, j, hwf, hkc, hj⟩
  have hj60 : j ≤ 60 := (Nat.pow_le_pow_iff_right (a := 2) (by norm_num)).1 (by rw [← hwf.vars]; exact hsv)
  have hk61 : k ≤ 61 := (Nat.pow_le_pow_iff_right (a := 2) (by norm_num)).1 (by rw [← hwf.cons]; exact hsc)
  rw [nextPow2_max3] at hnz
  obtain ⟨n, hn⟩ : ∃ n, n = nzVars I.inst.A I.inst.B I.inst.C := ⟨_, rfl⟩
  have hnz : nextPow2 nz = 2 ^ n := by rw [hn]; exact hnz
  have hn58 : n ≤ 58 := (Nat.pow_le_pow_iff_right (a := 2) (by norm_num)).1 (hnz ▸ hnz58)
  have rg : ∀ {x : SparseMat F}, x.InRange (2 ^ k) (2 ^ j + I.inst.numInputs + 1) → x.InRange (2 ^ k) (2 ^ (j + 1)) :=
    fun h => h.mono le_rfl hwf.cols
  obtain ⟨D, rss, audit, css, caudit, hMD, f1, f2, f3, f4, hT⟩ := multiDense_ok
    ⟨hwf.nA.1, hwf.nB.1, hwf.nC.1⟩ ⟨hwf.nA.2, hwf.nB.2, hwf.nC.2⟩ (rg hwf.A) (rg hwf.B) (rg hwf.C) hn
  have hD : DenseOf I.inst.A I.inst.B I.inst.C (max k (j + 1)) n D rss css audit caudit := ⟨f1, f2, f3, f4, hT⟩
  have hmax : max I.inst.numCons (2 * I.inst.numVars) = 2 ^ max k (j + 1) := by
    rw [hwf.cons, hwf.vars, show 2 * 2 ^ j = 2 ^ (j + 1) by rw [pow_succ]; ring]
    rcases le_total k (j + 1) with h | h
    · rw [max_eq_right h, max_eq_right (Nat.pow_le_pow_right (by norm_num) h)]
    · rw [max_eq_left h, max_eq_left (Nat.pow_le_pow_right (by norm_num) h)]
  rw [hmax, hnz] at hchar
  refine ⟨k, j, max k (j + 1), n, hwf.cons, hwf.vars, rfl, hnz, snarkBad I.inst k j (max k (j + 1)) n
    (snarkTabs I.inst (max k (j + 1)) n rss css audit caudit), snarkBad_small (snarkTabs_wf hwf hn hD) rfl rfl, ?_⟩
  intro G P _ _ _ _ E S ls le gens comm decomm rep pf input tr tr' hE hg henc hrep hsh hok
  obtain ⟨g1, g2, g3, g4⟩ := snarkGens_parts hc hkc hj hnz hg
  rw [← snarkRounds_eq _ _ _ _ (by omega)]
  exact snark_rbr hwf hn rfl hn58 (by omega) hchar hMD hD hE g1 g2 g3 g4 henc hrep hsh hok

open Classical in
/-- C86, error bound.  Fix a prover strategy that sends formal combinations, and let the `N` challenges
vary over all values: in at most `4 (3 nz + cells) N |F|^(N-1)` of the `|F|^N` cases is there an accepted
proof of the right shape with this strategy's messages whose equations yield no relation between the
generators and whose extracted assignment is not satisfying. -/
theorem snark_knowledge_error [Fintype F] {K : Codec F} {nc nv ni nz : Nat}
    {A B C : List (Nat × Nat × List UInt8)} {I : Inst F}
    (hnew : Inst.new K nc nv ni A B C = .ok (.ok I)) (hc : 1 ≤ nc)
    (hnz : nextPow2 nz = nextPow2 (max (max I.inst.A.M.length I.inst.B.M.length) I.inst.C.M.length))
    (hnz58 : nextPow2 nz ≤ 2 ^ 58) (hsc : I.inst.numCons ≤ 2 ^ 61) (hsv : I.inst.numVars ≤ 2 ^ 60)
    (hchar : ∀ i : Nat, 0 < i → i ≤ 3 * nextPow2 nz + max I.inst.numCons (2 * I.inst.numVars) → (i : F) ≠ 0) :
    ∃ k j m n, I.inst.numCons = 2 ^ k ∧ I.inst.numVars = 2 ^ j ∧ m = max k (j + 1) ∧ nextPow2 nz = 2 ^ n ∧
    ∀ σ : List F → List (Msg F (Comb2 F j (tabSize m n))),
      Set.ncard {xs : Fin (snarkRounds k j m n) → F |
        ∃ (G P : Type) (_ : AddCommGroup G) (_ : Module F G) (_ : DecidableEq P) (_ : DecidableEq G)
          (E : Env F G P) (S : GenSrc G) (ls le : List UInt8) (gens : SNARKGens G) (comm : R1CSComm P)
          (decomm : MultiDense F) (rep : P → Comb2 F j (tabSize m n))
          (pf : SNARK F P) (input : List F) (tr ms : Tr F P), E.Lawful ∧
          SNARKGens.new S ls le nc nv ni nz = .ok gens ∧ SNARK.encode E I gens = .ok (comm, decomm) ∧
          IsRep E rep (evalComb2 j (tabSize m n) (stream S ls) (stream S le)) ∧ SNARK.Shaped pf ∧
          SNARK.verify E pf comm input gens tr = .ok (tr ++ ms) ∧
          (rounds E.hash rep tr [] ms).1 = play σ [] (List.ofFn xs) ∧
          (∀ es, snarkRels E rep (evalComb2 j (tabSize m n) (stream S ls) (stream S le)) gens
            (satGens F j (tabSize m n)) (unit F j (width j), 0) (unit F j (width j + 1), 0)
            (evalBasis F j (tabSize m n) n m) pf comm decomm input tr = .ok es → ∀ e ∈ es,
              evalComb2 j (tabSize m n) (stream S ls) (stream S le) e = 0 → e = 0) ∧
          I.isSat (extracted j (fun p => (rep p).1) pf.sat.commVars) input ≠ .ok (.ok true)} ≤
        snarkRounds k j m n * (4 * (3 * 2 ^ n + 2 ^ m)) * Fintype.card F ^ (snarkRounds k j m n - 1) := by
  obtain ⟨k, j, m, n, hk, hj, hm, hn, bad, hb, H⟩ := snark_knowledge_sound hnew hc hnz hnz58 hsc hsv hchar
  refine ⟨k, j, m, n, hk, hj, hm, hn, fun σ => ?_⟩
  refine le_trans (Set.ncard_le_ncard ?_ (Set.toFinite _)) (hit_count' bad hb σ _)
  rintro xs ⟨G, P, i1, i2, i3, i4, E, S, ls, le, gens, comm, decomm, rep, pf, input, tr, ms, hE, hg, henc, hrep, hsh,
    hv, hr, hno, hns⟩
  obtain ⟨es, hes, ⟨e, he, hne, h0⟩ | hs | ⟨ms', hms, -, hH⟩⟩ :=
    H G P E S ls le gens comm decomm rep pf input tr _ hE hg henc hrep hsh hv
  · exact absurd (hno es hes e he h0) hne
  · exact absurd hs hns
  · obtain rfl := List.append_cancel_left hms
    rw [hr] at hH
    exact hH

/-- C70/C86 when the generators are independent: an accepted proof of the right shape carries a
satisfying assignment, unless a challenge in `bad` came up. -/
theorem snark_sound_independent_partial {K : Codec F} {nc nv ni nz : Nat}
    {A B C : List (Nat × Nat × List UInt8)} {I : Inst F}
    (hnew : Inst.new K nc nv ni A B C = .ok (.ok I)) (hc : 1 ≤ nc)
    (hnz : nextPow2 nz = nextPow2 (max (max I.inst.A.M.length I.inst.B.M.length) I.inst.C.M.length))
    (hnz58 : nextPow2 nz ≤ 2 ^ 58) (hsc : I.inst.numCons ≤ 2 ^ 61) (hsv : I.inst.numVars ≤ 2 ^ 60)
    (hchar : ∀ i : Nat, 0 < i → i ≤ 3 * nextPow2 nz + max I.inst.numCons (2 * I.inst.numVars) → (i : F) ≠ 0) :
    ∃ k j m n, I.inst.numCons = 2 ^ k ∧ I.inst.numVars = 2 ^ j ∧ m = max k (j + 1) ∧ nextPow2 nz = 2 ^ n ∧
    ∃ bad : Bads F (Comb2 F j (tabSize m n)), (∀ hist ms, AtMost (4 * (3 * 2 ^ n + 2 ^ m)) (bad hist ms)) ∧
    ∀ (G P : Type) [AddCommGroup G] [Module F G] [DecidableEq P] [DecidableEq G] (E : Env F G P)
      (S : GenSrc G) (ls le : List UInt8) (gens : SNARKGens G) (comm : R1CSComm P) (decomm : MultiDense F)
      (rep : P → Comb2 F j (tabSize m n)) (pf : SNARK F P) (input : List F) (tr tr' : Tr F P), E.Lawful →
      SNARKGens.new S ls le nc nv ni nz = .ok gens → SNARK.encode E I gens = .ok (comm, decomm) →
      (∀ (a : Comb F j) (b : Comb F (tabSize m n)),
        ∑ i, a i • stream S ls i + ∑ i, b i • stream S le i = 0 → a = 0 ∧ b = 0) →
      IsRep E rep (evalComb2 j (tabSize m n) (stream S ls) (stream S le)) → SNARK.Shaped pf →
      SNARK.verify E pf comm input gens tr = .ok tr' →
      I.isSat (extracted j (fun p => (rep p).1) pf.sat.commVars) input = .ok (.ok true) ∨
        ∃ ms, tr' = tr ++ ms ∧ Hit bad (rounds E.hash rep tr [] ms).1 := by
  obtain ⟨k, j, m, n, hk, hj, hm, hn, bad, hb, H⟩ := snark_knowledge_sound hnew hc hnz hnz58 hsc hsv hchar
  refine ⟨k, j, m, n, hk, hj, hm, hn, bad, hb, ?_⟩
  intro G P _ _ _ _ E S ls le gens comm decomm rep pf input tr tr' hE hg henc hli hrep hsh hok
  obtain ⟨es, -, ⟨e, -, hne, h0⟩ | hs | ⟨ms, h1, -, h2⟩⟩ :=
    H G P E S ls le gens comm decomm rep pf input tr tr' hE hg henc hrep hsh hok
  · have := hli e.1 e.2 h0
    exact absurd (Prod.ext this.1 this.2) hne
  · exact .inl hs
  · exact .inr ⟨ms, h1, h2⟩

/-! ### the honest prover meets the shape condition -/

/-- C86: every proof that `SNARK::prove` returns for an instance built by `Instance::new` and its
decommitment has this shape, so a verifier that also checked the shape would accept the same honest
proofs. -/
theorem snark_prove_shape {E : Env F G P} {K : Codec F} {nc nv ni : Nat}
    {A B C : List (Nat × Nat × List UInt8)} {I : Inst F}
    (hnew : Inst.new K nc nv ni A B C = .ok (.ok I)) {gens : SNARKGens G} {comm comm' : R1CSComm P}
    {decomm : MultiDense F} (henc : SNARK.encode E I gens = .ok (comm, decomm)) {vars inputs : List F}
    {tr tr' : Tr F P} {tape : Tape F} {pf : SNARK F P}
    (h : SNARK.prove E I comm' decomm vars inputs gens tr tape = .ok (pf, tr')) : SNARK.Shaped pf := by
  obtain ⟨k, j, hwf⟩ : ∃ k j, I.inst.WF k j := by
    obtain ⟨hA, hB, hC, rfl⟩ := new_ok_entries hnew
    obtain ⟨k, j, hwf, -, -, -⟩ := builtR1CS_wf hA hB hC
    exact ⟨k, j, hwf⟩
  have rg : ∀ {x : SparseMat F}, x.InRange (2 ^ k) (2 ^ j + I.inst.numInputs + 1) → x.InRange (2 ^ k) (2 ^ (j + 1)) :=
    fun h => h.mono le_rfl hwf.cols
  obtain ⟨D, rss, audit, css, caudit, hMD, -, -, -, -, hT⟩ := multiDense_ok
    ⟨hwf.nA.1, hwf.nB.1, hwf.nC.1⟩ ⟨hwf.nA.2, hwf.nB.2, hwf.nC.2⟩ (rg hwf.A) (rg hwf.B) (rg hwf.C) rfl
  have hD : decomm = D := by
    unfold SNARK.encode multiCommit at henc
    simp only at henc
    rw [hMD, ok_bind] at henc
    obtain ⟨q, hq, henc⟩ := bind_ok henc
    obtain ⟨_, -, hq⟩ := bind_ok hq
    obtain ⟨_, -, hq⟩ := bind_ok hq
    obtain ⟨_, -, hq⟩ := bind_ok hq
    cases hq
    cases henc
    rfl
  subst hD
  unfold SNARK.prove at h
  simp only at h
  obtain ⟨_, -, h⟩ := bind_ok h
  obtain ⟨q1, s1, h⟩ := bind_ok h
  obtain ⟨_, -, h⟩ := bind_ok h
  obtain ⟨q2, s2, h⟩ := bind_ok h
  cases h
  unfold sparseProve at s2
  simp only at s2
  obtain ⟨_, -, s2⟩ := bind_ok s2
  obtain ⟨_, -, s2⟩ := bind_ok s2
  obtain ⟨_, -, s2⟩ := bind_ok s2
  obtain ⟨_, -, s2⟩ := bind_ok s2
  obtain ⟨_, -, s2⟩ := bind_ok s2
  obtain ⟨q3, s3, s2⟩ := bind_ok s2
  cases s2
  unfold netProve at s3
  simp only at s3
  obtain ⟨_, -, s3⟩ := bind_ok s3
  obtain ⟨q4, s4, s3⟩ := bind_ok s3
  cases s3
  unfold hashLayerProve at s4
  simp only at s4
  obtain ⟨_, -, s4⟩ := bind_ok s4
  obtain ⟨_, -, s4⟩ := bind_ok s4
  obtain ⟨q5, s5, s4⟩ := bind_ok s4
  obtain ⟨q6, s6, s4⟩ := bind_ok s4
  obtain ⟨q7, s7, s4⟩ := bind_ok s4
  obtain ⟨q8, s8, s4⟩ := bind_ok s4
  obtain ⟨_, -, s4⟩ := bind_ok s4
  obtain ⟨q9, s9, s4⟩ := bind_ok s4
  obtain ⟨_, -, s4⟩ := bind_ok s4
  obtain ⟨q10, s10, s4⟩ := bind_ok s4
  cases s4
  have hh : ∀ {rm ro : List F} {t : AddrTs F} {e : AddrEvals F}, hashLayerHelper rm ro t = .ok e →
      e.addr.length = t.addr.length ∧ e.readTs.length = t.readTs.length := by
    intro rm ro t e h
    unfold hashLayerHelper at h
    obtain ⟨_, a1, h⟩ := bind_ok h
    obtain ⟨_, a2, h⟩ := bind_ok h
    obtain ⟨_, -, h⟩ := bind_ok h
    cases h
    exact ⟨mapM_length a1, mapM_length a2⟩
  have hr := hh s6
  have hc := hh s7
  unfold derefsProve at s5
  simp only at s5
  obtain ⟨_, -, s5⟩ := bind_ok s5
  obtain ⟨_, -, s5⟩ := bind_ok s5
  obtain ⟨_, -, s5⟩ := bind_ok s5
  obtain ⟨q11, s11, s5⟩ := bind_ok s5
  cases s5
  exact {
    sat := r1csProve_shape s1
    ops := polyEvalProve_shape s9
    mem := polyEvalProve_shape s10
    derefs := polyEvalProve_shape s11
    rowAddr := by rw [hr.1, hT.rowAddr]; rfl
    rowTs := by rw [hr.2, hT.rowTs, List.length_map]; exact hT.lens.2.1
    colAddr := by rw [hc.1, hT.colAddr]; rfl
    colTs := by rw [hc.2, hT.colTs, List.length_map]; exact hT.lens.2.2.2.1
    val := by rw [mapM_length s8, hT.val]; rfl }

/-! ### the hypotheses are met -/

/-- A source with two streams of unit vectors: independent generators. -/
def unitSrc2 : GenSrc (Comb2 ℚ 1 5) :=
  ⟨fun l n => if l = [1] then UInt8.ofNat (n / 128) else UInt8.ofNat (n / 128 + 128), fun b =>
    if (b.getD 0 0).toNat < 128 then (unit ℚ 1 (b.getD 0 0).toNat, 0) else (0, unit ℚ 5 ((b.getD 0 0).toNat - 128))⟩

theorem unitSrc2_stream (i : Nat) (hi : i < 128) :
    stream unitSrc2 [1] i = (unit ℚ 1 i, 0) ∧ stream unitSrc2 [2] i = (0, unit ℚ 5 i) := by
  constructor
  · simp only [stream, unitSrc2, GenSrc.block, if_true]
    rw [show (List.map (fun j => UInt8.ofNat ((128 * i + j) / 128)) (List.range 128)).getD 0 0
      = UInt8.ofNat i by simp [List.getD]]
    have : (UInt8.ofNat i).toNat = i := by simp; omega
    rw [this, if_pos hi]
  · have hne : ¬ ([2] : List UInt8) = [1] := by decide
    simp only [stream, unitSrc2, GenSrc.block, if_neg hne]
    rw [show (List.map (fun j => UInt8.ofNat ((128 * i + j) / 128 + 128)) (List.range 128)).getD 0 0
      = UInt8.ofNat (i + 128) by simp [List.getD]]
    have : (UInt8.ofNat (i + 128)).toNat = i + 128 := by simp; omega
    rw [this, if_neg (by omega), Nat.add_sub_cancel]

theorem unitSrc2_eval (e : Comb2 ℚ 1 5) :
    evalComb2 1 5 (stream unitSrc2 [1]) (stream unitSrc2 [2]) e = e := by
  obtain ⟨a, b⟩ := e
  have key : ∀ (l : Nat) (c : Comb ℚ l), ∑ i, c i • unit ℚ l i = c := by
    intro l c
    funext t
    rw [Finset.sum_apply, Finset.sum_eq_single t]
    · simp [unit]
    · intro b _ hb
      simp [unit, Fin.val_inj, Ne.symm hb]
    · simp
  have h1 : evalComb 1 (stream unitSrc2 [1]) a = (a, 0) := by
    show ∑ i, a i • stream unitSrc2 [1] i = (a, 0)
    have : ∀ i : Fin (numGens 1), a i • stream unitSrc2 [1] i = LinearMap.inl ℚ (Comb ℚ 1) (Comb ℚ 5) (a i • unit ℚ 1 i) := by
      intro i
      rw [(unitSrc2_stream i (lt_of_lt_of_le i.2 (by decide))).1]
      simp
    rw [Finset.sum_congr rfl fun i _ => this i, ← map_sum, key]
    rfl
  have h2 : evalComb 5 (stream unitSrc2 [2]) b = (0, b) := by
    show ∑ i, b i • stream unitSrc2 [2] i = (0, b)
    have : ∀ i : Fin (numGens 5), b i • stream unitSrc2 [2] i = LinearMap.inr ℚ (Comb ℚ 1) (Comb ℚ 5) (b i • unit ℚ 5 i) := by
      intro i
      rw [(unitSrc2_stream i (lt_of_lt_of_le i.2 (by decide))).2]
      simp
    rw [Finset.sum_congr rfl fun i _ => this i, ← map_sum, key]
    rfl
  show evalComb 1 (stream unitSrc2 [1]) a + evalComb 5 (stream unitSrc2 [2]) b = (a, b)
  rw [h1, h2]
  simp

/-- The honest proof of `v0 * v1 = 6` over ℚ, with independent generators, meets every hypothesis of
`snark_knowledge_sound` and `snark_sound_independent_partial`. -/
example : ∃ I gens comm decomm pf tr',
    Inst.new toyCodec 1 2 1 [(0, 0, [1])] [(0, 1, [1])] [(0, 3, [1])] = .ok (.ok I) ∧
    I.inst.numCons = 2 ^ 1 ∧ I.inst.numVars = 2 ^ 1 ∧ nextPow2 2 = 2 ^ 1 ∧ tabSize (max 1 (1 + 1)) 1 = 5 ∧
    nextPow2 2 = nextPow2 (max (max I.inst.A.M.length I.inst.B.M.length) I.inst.C.M.length) ∧
    Env.Lawful (⟨id, some, fun _ => 5⟩ : Env ℚ (Comb2 ℚ 1 5) (Comb2 ℚ 1 5)) ∧
    SNARKGens.new unitSrc2 [1] [2] 1 2 1 2 = .ok gens ∧
    SNARK.encode (⟨id, some, fun _ => 5⟩ : Env ℚ (Comb2 ℚ 1 5) (Comb2 ℚ 1 5)) I gens = .ok (comm, decomm) ∧
    (∀ (a : Comb ℚ 1) (b : Comb ℚ 5),
      ∑ i, a i • stream unitSrc2 [1] i + ∑ i, b i • stream unitSrc2 [2] i = 0 → a = 0 ∧ b = 0) ∧
    IsRep (⟨id, some, fun _ => 5⟩ : Env ℚ (Comb2 ℚ 1 5) (Comb2 ℚ 1 5)) id
      (evalComb2 1 5 (stream unitSrc2 [1]) (stream unitSrc2 [2])) ∧
    SNARK.Shaped pf ∧
    SNARK.verify (⟨id, some, fun _ => 5⟩ : Env ℚ (Comb2 ℚ 1 5) (Comb2 ℚ 1 5)) pf comm [6] gens [] = .ok tr' := by
  obtain ⟨I, hI⟩ := (instance_new_ok_iff toyCodec 1 2 1 [(0, 0, [1])] [(0, 1, [1])] [(0, 3, [1])]).2
    (by decide)
  have hn : I.inst.numVars = 2 := by
    obtain ⟨-, -, -, rfl⟩ := new_ok_entries hI
    show varsPadded 2 1 = 2
    rw [varsPadded_eq]
    exact nextPow2_pow 1
  have hl : I.inst.A.M.length = 2 ∧ I.inst.B.M.length = 2 ∧ I.inst.C.M.length = 2 ∧ I.inst.numCons = 2 := by
    obtain ⟨-, -, -, rfl⟩ := new_ok_entries hI
    exact ⟨built_one_length _ _ _ (by simp), built_one_length _ _ _ (by simp), built_one_length _ _ _ (by simp), rfl⟩
  obtain ⟨b, hb, hiff⟩ := padding_preserves_sat hI (vars := [2, 3]) (inputs := [6]) (by rw [hn]; simp) rfl
  have hbt : b = true := hiff.2 (by
    intro i hi
    interval_cases i
    norm_num [rowDot, parsed, toyCodec, matEntry, zvec, fit, Finset.sum_range_succ,
      show UInt8.toNat 1 = 1 from rfl])
  subst hbt
  obtain ⟨gens, comm, decomm, pf, tr', h1, h2, h3, h4⟩ := snark_complete_partial
    (E := (⟨id, some, fun _ => 5⟩ : Env ℚ (Comb2 ℚ 1 5) (Comb2 ℚ 1 5)))
    (by norm_num) (by norm_num) (fun _ => rfl) (fun _ => by norm_num) hI le_rfl (nz := 2)
    (by rw [hl.1, hl.2.1, hl.2.2.1]; rfl) (by rw [nextPow2_two]) (by rw [nextPow2_two]; norm_num)
    (by rw [hl.2.2.2]; norm_num) (by rw [hn]; norm_num)
    unitSrc2 [1] [2] hb [] (fun i => i)
  refine ⟨I, gens, comm, decomm, pf, tr', hI, hl.2.2.2, hn, nextPow2_two, rfl,
    by rw [hl.1, hl.2.1, hl.2.2.1]; rfl, fun _ => rfl, h1, h2, ?_, ?_, snark_prove_shape hI h2 h3, h4⟩
  · intro a b hab
    have := (unitSrc2_eval (a, b)).symm.trans hab
    exact Prod.mk.inj this
  · intro p g h
    cases h
    exact unitSrc2_eval p

end Spartan
