import Verif.Lemmas.SNARK
import Verif.Props.NIZK
import Verif.Props.ProductTree

/-! The preprocessing SNARK: completeness (C45), its failure on tiny instances, and a forger
(C70). -/

set_option linter.unusedSectionVars false

namespace Spartan
open Spec
variable {F G P : Type} [Field F] [AddCommGroup G] [Module F G]
  [DecidableEq F] [DecidableEq P] [DecidableEq G]

/-! ### Generators -/

theorem nextPow2_max3 (A B C : SparseMat F) :
    nextPow2 (max (max A.M.length B.M.length) C.M.length) = 2 ^ nzVars A B C := by
  have hm : ∀ a b : Nat, Nat.clog 2 (max a b) = max (Nat.clog 2 a) (Nat.clog 2 b) := by
    intro a b
    rcases le_total a b with h | h
    · rw [max_eq_right h, max_eq_right (Nat.clog_mono_right 2 h)]
    · rw [max_eq_left h, max_eq_left (Nat.clog_mono_right 2 h)]
  show 2 ^ Nat.clog 2 _ = _
  rw [hm, hm]; rfl

/-- The generators for the sizes of an instance fit its matrices. -/
theorem snarkGens_wf (S : GenSrc G) (ls le : List UInt8) {nc nv ni nz k j n : Nat} (hc : 1 ≤ nc)
    (hk : consPadded nc = 2 ^ k) (hj : varsPadded nv ni = 2 ^ j) (hz : nextPow2 nz = 2 ^ n)
    (hn : n ≤ 58) (hm : max k (j + 1) ≤ 61) :
    ∃ gens g0 h a0 a1 a2 a3 a4 a5, SNARKGens.new S ls le nc nv ni nz = .ok gens ∧
      R1CSGens.WF gens.sat j g0 h ∧ SparseGens.WF gens.eval (max k (j + 1)) n a0 a1 a2 a3 a4 a5 := by
  obtain ⟨sat, g0, h, e1, w1⟩ := r1csGens_wf S (j := j) (by omega) ls
  obtain ⟨po, a0, a1, p1, q1, -, -⟩ := polyCommitGens_wf S (ell := n + 4) (by omega) le
  obtain ⟨pm, a2, a3, p2, q2, -, -⟩ := polyCommitGens_wf S (ell := max k (j + 1) + 1) (by omega) le
  obtain ⟨pd, a4, a5, p3, q3, -, -⟩ := polyCommitGens_wf S (ell := n + 3) (by omega) le
  have c16 : Nat.clog 2 (3 * 5) = 4 := by decide +kernel
  have c8 : Nat.clog 2 (3 * 2) = 3 := by decide +kernel
  have hmem : (if Nat.clog 2 nc > j + 1 then Nat.clog 2 nc else j + 1) = max k (j + 1) := by
    rw [consPadded_eq, if_neg (by omega)] at hk
    by_cases h1 : nc = 1
    · rw [if_pos h1] at hk
      have : k = 1 := Nat.pow_right_injective (le_refl 2) (by simpa using hk.symm)
      subst h1 this
      simp
    · rw [if_neg h1] at hk
      have : Nat.clog 2 nc = k := Nat.pow_right_injective (le_refl 2) hk
      rw [this]
      split <;> omega
  refine ⟨⟨sat, ⟨po, pm, pd⟩⟩, g0, h, a0, a1, a2, a3, a4, a5, ?_, w1, ⟨?_, q2, ?_⟩⟩
  · unfold SNARKGens.new
    rw [hj, e1, ok_bind]
    unfold R1CSCommGens.new
    rw [check_true (by rw [← hj]; exact (le_varsPadded nv ni).2), ok_bind]
    have l1 : log2 nc = .ok (Nat.clog 2 nc) := by
      unfold log2
      rw [check_true (by omega), ok_bind]; rfl
    rw [l1, ok_bind, log2_eq_of_pow (show 2 * 2 ^ j = 2 ^ (j + 1) by rw [pow_succ]; ring), ok_bind]
    unfold SparseGens.new
    rw [hz, log2_eq_of_pow rfl, ok_bind, log2_eq_of_pow (show nextPow2 (3 * 5) = 2 ^ 4 by unfold nextPow2; rw [c16]),
      ok_bind, log2_eq_of_pow (show nextPow2 (3 * 2) = 2 ^ 3 by unfold nextPow2; rw [c8]), ok_bind]
    simp only
    rw [hmem, p1, ok_bind, p2, ok_bind, p3, ok_bind]
    rfl
  · rw [Nat.add_comm]; exact q1
  · rw [Nat.add_comm]; exact q3

/-- Points at which the matrices can be evaluated have the right lengths. -/
theorem evaluate_lengths {I : R1CS F} {k j : Nat} (h : I.WF k j) {rx ry : List F} {e : F × F × F}
    (he : I.evaluate rx ry = .ok e) : rx.length = k ∧ ry.length = j + 1 := by
  unfold R1CS.evaluate SparseMat.evaluate SparseMat.evalTables at he
  rw [h.nA.1, h.nA.2, (eqEvals_correct rx).1, (eqEvals_correct ry).1] at he
  by_cases h1 : 2 ^ k = 2 ^ rx.length
  · rw [check_true h1, ok_bind] at he
    by_cases h2 : 2 ^ (j + 1) = 2 ^ ry.length
    · exact ⟨(Nat.pow_right_injective (le_refl 2) h1).symm, (Nat.pow_right_injective (le_refl 2) h2).symm⟩
    · rw [check_false h2] at he
      cases he
  · rw [check_false h1] at he
    cases he

/-! ### C45 -/

/-- C45 for every instance of well-formed shape, however it was made. -/
theorem snark_complete_wf (h2 : (2 : F) ≠ 0) (h3 : (3 : F) ≠ 0) {E : Env F G P} (hE : E.Lawful)
    (hu : ∀ t, E.hash (t ++ [.chal "u"]) ≠ 0)
    {nc nv ni nz k j : Nat} {I : Inst F} (hwf : I.inst.WF k j) (hc : 1 ≤ nc) (hk : 1 ≤ k)
    (hkc : consPadded nc = 2 ^ k) (hj : varsPadded nv ni = 2 ^ j)
    (hnz : nextPow2 nz = nextPow2 (max (max I.inst.A.M.length I.inst.B.M.length) I.inst.C.M.length))
    (hnz2 : 2 ≤ nextPow2 nz) (hnz58 : nextPow2 nz ≤ 2 ^ 58) (hk61 : k ≤ 61) (hj60 : j ≤ 60)
    (S : GenSrc G) (ls le : List UInt8) {vars inputs : List F}
    (hsat : I.isSat vars inputs = .ok (.ok true)) (tr : Tr F P) (tape : Tape F) :
    ∃ gens comm decomm pf tr', SNARKGens.new S ls le nc nv ni nz = .ok gens ∧
      SNARK.encode E I gens = .ok (comm, decomm) ∧
      SNARK.prove E I comm decomm vars inputs gens tr tape = .ok (pf, tr') ∧
      SNARK.verify E pf comm inputs gens tr = .ok tr' := by
  rw [nextPow2_max3] at hnz
  have hn58 := (Nat.pow_le_pow_iff_right (a := 2) (by norm_num)).1 (hnz ▸ hnz58)
  have hn1 : 1 ≤ nzVars I.inst.A I.inst.B I.inst.C :=
    (Nat.pow_le_pow_iff_right (a := 2) (by norm_num)).1 (hnz ▸ hnz2)
  obtain ⟨gens, g0, h, a0, a1, a2, a3, a4, a5, hg, hgs, hge⟩ := snarkGens_wf S ls le hc hkc hj hnz hn58 (by omega)
  obtain ⟨hvl, hil, hS⟩ := isSat_wf hwf hsat
  obtain ⟨R, dig⟩ := I
  simp only at *
  have hcols : 2 ^ j + R.numInputs + 1 ≤ 2 ^ (j + 1) := hwf.cols
  have rg : ∀ {m : SparseMat F}, m.InRange (2 ^ k) (2 ^ j + R.numInputs + 1) → m.InRange (2 ^ k) (2 ^ (j + 1)) :=
    fun h => h.mono le_rfl hcols
  obtain ⟨comm, D, rss, css, audit, caudit, hcm, hD, hO⟩ := multiCommit_ok E (A := R.A) (B := R.B) (C := R.C)
    ⟨hwf.nA.1, hwf.nB.1, hwf.nC.1⟩ ⟨hwf.nA.2, hwf.nB.2, hwf.nC.2⟩ (rg hwf.A) (rg hwf.B) (rg hwf.C) rfl hge
  have hvl' : (fit (2 ^ j) vars).length = 2 ^ j := fit_length _ _
  have hil' : inputs.length < 2 ^ j := by rw [hil]; exact hwf.inputs
  refine ⟨gens, ⟨R.numCons, R.numVars, R.numInputs, comm⟩, D, ?_⟩
  rcases r1csProof_complete h2 h3 hE hwf hk (by omega) hgs hvl' hil' hS
    ((tr.protocol "Spartan SNARK proof").r1csComm ⟨R.numCons, R.numVars, R.numInputs, comm⟩) tape with
    ⟨pf, rx, ry, tr1, tape1, evals, p, e, v⟩ | ⟨-, t, ht⟩
  · obtain ⟨hx, hy⟩ := evaluate_lengths hwf e
    have e' := hwf.evaluate hx hy
    rw [e] at e'
    cases e'
    obtain ⟨ps, tr2, tape2, p2, v2⟩ := sparse_complete h2 h3 hE hu (rg hwf.A) (rg hwf.B) (rg hwf.C) rfl hn1 hn58
      (by omega) (by omega) hge hD hO hx hy
      (tr1.evalClaims (matMLE R.A.triples rx ry, matMLE R.B.triples rx ry, matMLE R.C.triples rx ry)) tape1
    refine ⟨⟨pf, (matMLE R.A.triples rx ry, matMLE R.B.triples rx ry, matMLE R.C.triples rx ry), ps⟩, tr2, hg,
      ?_, ?_, ?_⟩
    · unfold SNARK.encode
      simp only
      rw [hcm, ok_bind]
      rfl
    · unfold SNARK.prove
      simp only
      rw [show padVars vars R.numVars = .ok (fit (2 ^ j) vars) by rw [hwf.vars]; exact padVars_eq hvl, ok_bind, p,
        ok_bind]
      simp only
      rw [e, ok_bind, p2, ok_bind]
      rfl
    · unfold SNARK.verify
      simp only
      rw [check_true (by rw [hil]), ok_bind]
      conv_lhs =>
        enter [1, 3]
        rw [hwf.vars]
      conv_lhs =>
        enter [1, 4]
        rw [hwf.cons]
      rw [v, ok_bind]
      exact v2
  · exact absurd ht (hu t)

/-- C45.  For every instance built by `Instance::new` with at least one constraint, generators made
for its sizes (`nz` rounds up to the same power of two as the largest number of entries, which is
at least two), and every satisfying assignment, transcript and tape: `SNARK::encode` succeeds, and
with its commitment `SNARK::prove` returns a proof that `SNARK::verify` accepts with the same
final transcript.  The size bounds are those of the machine; folding challenges must not be zero.
Missing: instances whose matrices have at most one entry, where no proof is produced
(`snark_prove_one_entry`). -/
theorem snark_complete_partial (h2 : (2 : F) ≠ 0) (h3 : (3 : F) ≠ 0) {E : Env F G P} (hE : E.Lawful)
    (hu : ∀ t, E.hash (t ++ [.chal "u"]) ≠ 0)
    {K : Codec F} {nc nv ni nz : Nat} {A B C : List (Nat × Nat × List UInt8)} {I : Inst F}
    (hnew : Inst.new K nc nv ni A B C = .ok (.ok I)) (hc : 1 ≤ nc)
    (hnz : nextPow2 nz = nextPow2 (max (max I.inst.A.M.length I.inst.B.M.length) I.inst.C.M.length))
    (hnz2 : 2 ≤ nextPow2 nz) (hnz58 : nextPow2 nz ≤ 2 ^ 58) (hsc : I.inst.numCons ≤ 2 ^ 61)
    (hsv : I.inst.numVars ≤ 2 ^ 60)
    (S : GenSrc G) (ls le : List UInt8) {vars inputs : List F}
    (hsat : I.isSat vars inputs = .ok (.ok true)) (tr : Tr F P) (tape : Tape F) :
    ∃ gens comm decomm pf tr', SNARKGens.new S ls le nc nv ni nz = .ok gens ∧
      SNARK.encode E I gens = .ok (comm, decomm) ∧
      SNARK.prove E I comm decomm vars inputs gens tr tape = .ok (pf, tr') ∧
      SNARK.verify E pf comm inputs gens tr = .ok tr' := by
  obtain ⟨hA, hB, hC, rfl⟩ := new_ok_entries hnew
  obtain ⟨k, j, hwf, hkc, hk, hj⟩ := builtR1CS_wf hA hB hC
  have hj60 : j ≤ 60 := (Nat.pow_le_pow_iff_right (a := 2) (by norm_num)).1 (by rw [← hj]; exact hsv)
  have hk61 : k ≤ 61 := (Nat.pow_le_pow_iff_right (a := 2) (by norm_num)).1 (by rw [← hkc]; exact hsc)
  exact snark_complete_wf (I := ⟨builtR1CS K nc nv ni A B C, K.digest (builtR1CS K nc nv ni A B C)⟩)
    h2 h3 hE hu hwf hc (hk hc) hkc hj hnz hnz2 hnz58 hk61 hj60 S ls le hsat tr tape

/-- With a single constraint every matrix with at most two given entries is stored with two. -/
theorem built_one_length (K : Codec F) (nv ni : Nat) {M : List (Nat × Nat × List UInt8)} (h : M.length ≤ 2) :
    (entriesOf (convMat K 1 nv ni M)).length = 2 := by
  have : consPadded 1 = 2 := rfl
  simp [entriesOf, convMat, padRows, parsed, this]
  omega

theorem nextPow2_two : nextPow2 2 = 2 := nextPow2_pow 1

/-- The instance `v0 * v1 = x` over ℚ with `v = (2, 3)`, `x = 6` meets the hypotheses. -/
example : ∃ I gens comm decomm pf tr',
    Inst.new toyCodec 1 2 1 [(0, 0, [1])] [(0, 1, [1])] [(0, 3, [1])] = .ok (.ok I) ∧
    SNARKGens.new (⟨fun _ i => UInt8.ofNat i, fun b => (b.getD 0 0).toNat⟩ : GenSrc ℚ) [1] [2] 1 2 1 2 = .ok gens ∧
    SNARK.encode (⟨id, some, fun _ => 5⟩ : Env ℚ ℚ ℚ) I gens = .ok (comm, decomm) ∧
    SNARK.prove (⟨id, some, fun _ => 5⟩ : Env ℚ ℚ ℚ) I comm decomm [2, 3] [6] gens [] (fun i => i) = .ok (pf, tr') ∧
    SNARK.verify (⟨id, some, fun _ => 5⟩ : Env ℚ ℚ ℚ) pf comm [6] gens [] = .ok tr' := by
  obtain ⟨I, hI⟩ := (instance_new_ok_iff toyCodec 1 2 1 [(0, 0, [1])] [(0, 1, [1])] [(0, 3, [1])]).2
    (by decide)
  have hn : I.inst.numVars = 2 := by
    obtain ⟨-, -, -, rfl⟩ := new_ok_entries hI
    show varsPadded 2 1 = 2
    rw [varsPadded_eq]
    exact nextPow2_pow 1
  have hl : I.inst.A.M.length = 2 ∧ I.inst.B.M.length = 2 ∧ I.inst.C.M.length = 2 ∧ I.inst.numCons = 2 := by
    obtain ⟨-, -, -, rfl⟩ := new_ok_entries hI
    exact ⟨built_one_length _ _ _ (by simp), built_one_length _ _ _ (by simp), built_one_length _ _ _ (by simp), rfl⟩
  obtain ⟨b, hb, hiff⟩ := padding_preserves_sat hI (vars := [2, 3]) (inputs := [6]) (by rw [hn]; simp) rfl
  have hbt : b = true := hiff.2 (by
    intro i hi
    interval_cases i
    norm_num [rowDot, parsed, toyCodec, matEntry, zvec, fit, Finset.sum_range_succ,
      show UInt8.toNat 1 = 1 from rfl])
  subst hbt
  obtain ⟨gens, comm, decomm, pf, tr', h1, h2, h3, h4⟩ := snark_complete_partial
    (E := (⟨id, some, fun _ => 5⟩ : Env ℚ ℚ ℚ))
    (by norm_num) (by norm_num) (fun _ => rfl) (fun _ => by norm_num) hI le_rfl (nz := 2)
    (by rw [hl.1, hl.2.1, hl.2.2.1]; rfl) (by rw [nextPow2_two]) (by rw [nextPow2_two]; norm_num)
    (by rw [hl.2.2.2]; norm_num) (by rw [hn]; norm_num)
    ⟨fun _ i => UInt8.ofNat i, fun b => (b.getD 0 0).toNat⟩ [1] [2] hb [] (fun i => i)
  exact ⟨I, gens, comm, decomm, pf, tr', hI, h1, h2, h3, h4⟩

/-! ### C45: tiny instances -/

/-- No product circuit for hashed tables of one entry. -/
theorem layersNew_one (rh g : F) (table : List F) {m : Nat} {ops rss : List (List Nat)} {audit : List Nat}
    (h0 : ops ≠ []) (hl : ∀ o ∈ ops, o.length = 1) (derefs : List (Dense F)) (r : ProdLayer F) :
    layersNew rh g table (addrTs m 0 ops rss audit) derefs ≠ .ok r := by
  intro h
  unfold layersNew at h
  obtain ⟨⟨init, rd, wr, aud⟩, hb, h⟩ := bind_ok h
  simp only at h
  obtain ⟨pi, -, h⟩ := bind_ok h
  obtain ⟨pr, hpr, -⟩ := bind_ok h
  unfold buildHashLayer at hb
  obtain ⟨i0, -, hb⟩ := bind_ok hb
  obtain ⟨_, -, hb⟩ := bind_ok hb
  obtain ⟨a0, -, hb⟩ := bind_ok hb
  obtain ⟨rws, hrws, hb⟩ := bind_ok hb
  cases hb
  obtain ⟨o, ops, rfl⟩ := List.exists_cons_of_ne_nil h0
  simp only [addrTs, List.map_cons, List.length_cons, List.range_succ_eq_map, List.mapM_cons] at hrws
  obtain ⟨x, hx, hrws⟩ := bind_ok hrws
  obtain ⟨xs, -, hrws⟩ := bind_ok hrws
  cases hrws
  obtain ⟨a, ha, hx⟩ := bind_ok hx
  obtain ⟨d, -, hx⟩ := bind_ok hx
  obtain ⟨t, -, hx⟩ := bind_ok hx
  have ha' : a = dn 0 (o.map fun (x : Nat) => (x : F)) := by
    simp [idx] at ha
    exact ha.symm
  unfold hashOps at hx
  obtain ⟨_, -, hx⟩ := bind_ok hx
  obtain ⟨_, -, hx⟩ := bind_ok hx
  obtain ⟨_, -, hx⟩ := bind_ok hx
  obtain ⟨rd', hrd, hx⟩ := bind_ok hx
  obtain ⟨wr', -, hx⟩ := bind_ok hx
  cases hx
  have hal : a.len = 1 := by rw [ha']; simp [dn, hl o (by simp)]
  rw [hal] at hrd
  rw [List.map_cons, List.mapM_cons] at hpr
  obtain ⟨c, hc, -⟩ := bind_ok hpr
  have := product_circuit_short (F := F) (memHash rh (a.Z.getD 0 0) (d.Z.getD 0 0) (t.Z.getD 0 0) - g)
  rw [show [memHash rh (a.Z.getD 0 0) (d.Z.getD 0 0) (t.Z.getD 0 0) - g] = (List.range 1).map fun i =>
    memHash rh (a.Z.getD i 0) (d.Z.getD i 0) (t.Z.getD i 0) - g from rfl, hrd, ok_bind, hc] at this
  cases this

/-- C45, where it fails: for an instance whose three matrices have at most one entry each, no
proof is ever produced, whatever the generators, assignment, transcript and tape. -/
theorem snark_prove_one_entry {E : Env F G P} {K : Codec F} {nc nv ni : Nat}
    {A B C : List (Nat × Nat × List UInt8)} {I : Inst F} (hnew : Inst.new K nc nv ni A B C = .ok (.ok I))
    (h1 : I.inst.A.M.length ≤ 1) (h2 : I.inst.B.M.length ≤ 1) (h3 : I.inst.C.M.length ≤ 1)
    {gens : SNARKGens G} {comm : R1CSComm P} {D : MultiDense F}
    (henc : SNARK.encode E I gens = .ok (comm, D)) (vars inputs : List F) (tr : Tr F P) (tape : Tape F)
    (r : SNARK F P × Tr F P) :
    SNARK.prove E I comm D vars inputs gens tr tape ≠ .ok r := by
  intro h
  obtain ⟨hA, hB, hC, rfl⟩ := new_ok_entries hnew
  obtain ⟨k, j, hwf, -, -, -⟩ := builtR1CS_wf hA hB hC
  simp only at h1 h2 h3 henc h
  set R := builtR1CS K nc nv ni A B C with hR
  have rg : ∀ {m : SparseMat F}, m.InRange (2 ^ k) (2 ^ j + R.numInputs + 1) → m.InRange (2 ^ k) (2 ^ (j + 1)) :=
    fun h => h.mono le_rfl hwf.cols
  have hz : 0 = nzVars R.A R.B R.C := by
    have c : ∀ x : Nat, x ≤ 1 → Nat.clog 2 x = 0 := fun x hx => Nat.clog_of_right_le_one hx 2
    unfold nzVars
    rw [c _ h1, c _ h2, c _ h3]; rfl
  obtain ⟨D', rss, audit, css, caudit, hD, e1, -, -, -, -⟩ := multiDense_ok
    ⟨hwf.nA.1, hwf.nB.1, hwf.nC.1⟩ ⟨hwf.nA.2, hwf.nB.2, hwf.nC.2⟩ (rg hwf.A) (rg hwf.B) (rg hwf.C) hz
  unfold SNARK.encode multiCommit at henc
  simp only at henc
  rw [hD, ok_bind] at henc
  obtain ⟨⟨c', d'⟩, henc, hcd⟩ := bind_ok henc
  obtain ⟨_, -, henc⟩ := bind_ok henc
  obtain ⟨_, -, henc⟩ := bind_ok henc
  obtain ⟨_, -, henc⟩ := bind_ok henc
  cases henc
  cases hcd
  unfold SNARK.prove at h
  obtain ⟨pv, -, h⟩ := bind_ok h
  obtain ⟨⟨pf, rx, ry, tr1, tape1⟩, -, h⟩ := bind_ok h
  obtain ⟨ev, -, h⟩ := bind_ok h
  obtain ⟨sp, h, -⟩ := bind_ok h
  unfold sparseProve at h
  obtain ⟨_, -, h⟩ := bind_ok h
  obtain ⟨ds, -, h⟩ := bind_ok h
  obtain ⟨cD, -, h⟩ := bind_ok h
  obtain ⟨row, hrow, -⟩ := bind_ok h
  rw [e1] at hrow
  refine layersNew_one _ _ _ (by simp) ?_ _ _ hrow
  intro o ho
  obtain ⟨m, hm, rfl⟩ := List.mem_map.1 ho
  simp only [List.mem_cons, List.not_mem_nil, or_false] at hm
  rcases hm with rfl | rfl | rfl <;> simp [padRowsOf] <;> omega

/-- Two constraints `v0 * x = 0`, `0 * 0 = 0` with one entry in two of the matrices. -/
example : ∃ I, Inst.new toyCodec 2 1 1 [(0, 0, [1])] [(0, 2, [1])] [] = .ok (.ok I) ∧
    I.inst.A.M.length ≤ 1 ∧ I.inst.B.M.length ≤ 1 ∧ I.inst.C.M.length ≤ 1 := by
  obtain ⟨I, hI⟩ := (instance_new_ok_iff toyCodec 2 1 1 [(0, 0, [1])] [(0, 2, [1])] []).2 (by decide)
  refine ⟨I, hI, ?_⟩
  obtain ⟨-, -, -, rfl⟩ := new_ok_entries hI
  simp [builtR1CS, entriesOf, convMat, padRows, parsed]

/-! ### C70 -/

/-- Product circuits for one memory whose cells are hashed by the code and whose operations are
made up: the first read table holds the product of the initial cells, the first write table the
product of the final ones, all other entries are one. -/
def forgeLayer (rh g : F) (table : List F) (audit : Dense F) (N : Nat) : Out (ProdLayer F) := do
  let (init, _, _, aud) ← buildHashLayer rh g table [] [] [] audit
  let pi ← ProductCircuit.new init
  let pa ← ProductCircuit.new aud
  let ones := List.replicate N (1 : F)
  let rd ← [init.Z.prod :: List.replicate (N - 1) 1, ones, ones].mapM Dense.new
  let wr ← [aud.Z.prod :: List.replicate (N - 1) 1, ones, ones].mapM Dense.new
  let pr ← rd.mapM ProductCircuit.new
  let pw ← wr.mapM ProductCircuit.new
  pure ⟨pi, pr, pw, pa⟩

/-- A program that makes a proof for any instance and any public input, without a witness.  It runs the
provers of the code: first on the instance with the same sizes and no matrix entries, then on
made-up lookups that are all zero.  Opened addresses are moved into the list of read timestamps,
so that the verifier, which loops over the addresses, compares no read and no write. -/
def snarkForge (E : Env F G P) (comm : R1CSComm P) (D : MultiDense F) (input : List F) (gens : SNARKGens G)
    (tr : Tr F P) (tape : Tape F) : Out (SNARK F P × Tr F P) := do
  let tr := (tr.protocol "Spartan SNARK proof").r1csComm comm
  let nx ← log2 comm.numCons
  let ny ← log2 (2 * comm.numVars)
  let Z : SparseMat F := ⟨nx, ny, []⟩
  let (pf, rx, ry, tr, tape) ← R1CSProof.prove E ⟨comm.numCons, comm.numVars, comm.numInputs, Z, Z, Z⟩
    (List.replicate comm.numVars 0) input gens.sat tr tape
  let tr := tr.evalClaims (0, 0, 0)
  let tr := tr.protocol "Sparse polynomial evaluation proof"
  let zero ← Dense.new (List.replicate comm.comm.numOps (0 : F))
  let ds ← Derefs.new [zero, zero, zero] [zero, zero, zero]
  let cD ← ds.commit E gens.eval.derefs
  let tr := tr.derefsComm "comm_poly_row_col_ops_val" cD
  let (rs, tr) := E.challengeVec tr "challenge_r_hash" 2
  let row ← forgeLayer (rs.getD 0 0) (rs.getD 1 0) (eqEvals (equalize rx ry).1) D.row.auditTs comm.comm.numOps
  let col ← forgeLayer (rs.getD 0 0) (rs.getD 1 0) (eqEvals (equalize rx ry).2) D.col.auditTs comm.comm.numOps
  let (net, tr, _) ← netProve E row col D ds [0, 0, 0] gens.eval tr tape
  let h := net.hash
  pure (⟨pf, (0, 0, 0), ⟨cD, ⟨net.prod, { h with
    row := ⟨[], h.row.addr ++ h.row.readTs, h.row.auditTs⟩
    col := ⟨[], h.col.addr ++ h.col.readTs, h.col.auditTs⟩ }⟩⟩⟩, tr)

theorem forgeLayer_eq {m n : Nat} (hm : 1 ≤ m) (hn : 1 ≤ n) (rh g : F) {table u : List F}
    (ht : table.length = 2 ^ m) (hu : u.length = 2 ^ m) :
    forgeLayer rh g table (dn m u) (2 ^ n) =
      .ok (layerOf m n (cellT rh g table (List.replicate (2 ^ m) 0))
        [(cellT rh g table (List.replicate (2 ^ m) 0)).prod :: List.replicate (2 ^ n - 1) 1,
          List.replicate (2 ^ n) 1, List.replicate (2 ^ n) 1]
        [(cellT rh g table u).prod :: List.replicate (2 ^ n - 1) 1, List.replicate (2 ^ n) 1,
          List.replicate (2 ^ n) 1] (cellT rh g table u)) := by
  have hp : 1 ≤ 2 ^ n := Nat.one_le_two_pow
  have l1 : ∀ x : F, (x :: List.replicate (2 ^ n - 1) (1 : F)).length = 2 ^ n := by
    intro x; simp; omega
  have l2 : (List.replicate (2 ^ n) (1 : F)).length = 2 ^ n := by simp
  have hi : (List.range table.length).map (fun (i : Nat) => memHash rh (i : F) (table.getD i 0) 0 - g) =
      cellT rh g table (List.replicate (2 ^ m) 0) := by
    unfold cellT
    apply List.map_congr_left
    intro i hi
    have hi : i < 2 ^ m := by rw [← ht]; exact List.mem_range.1 hi
    rw [show (List.replicate (2 ^ m) (0 : F)).getD i 0 = 0 by simp [List.getD_eq_getElem?_getD, hi]]
  have hb : buildHashLayer rh g table [] [] [] (dn m u) =
      .ok (dn m (cellT rh g table (List.replicate (2 ^ m) 0)), [], [], dn m (cellT rh g table u)) := by
    unfold buildHashLayer
    rw [hi, dn_new (by rw [cellT_length, ht]), ok_bind, check_true (by simp only [dn]; omega), ok_bind]
    have : (List.range table.length).map (fun (i : Nat) => memHash rh (i : F) (table.getD i 0)
        ((dn m u).Z.getD i 0) - g) = cellT rh g table u := rfl
    rw [this, dn_new (by rw [cellT_length, ht]), ok_bind]
    rfl
  unfold forgeLayer
  rw [hb, ok_bind]
  simp only
  rw [circ_new hm (by rw [cellT_length, ht]), ok_bind, circ_new hm (by rw [cellT_length, ht]), ok_bind]
  have hd : ∀ x : F, [x :: List.replicate (2 ^ n - 1) 1, List.replicate (2 ^ n) 1,
      List.replicate (2 ^ n) 1].mapM Dense.new = .ok [dn n (x :: List.replicate (2 ^ n - 1) 1),
        dn n (List.replicate (2 ^ n) 1), dn n (List.replicate (2 ^ n) 1)] := by
    intro x
    simp only [List.mapM_cons, List.mapM_nil, dn_new (l1 x), dn_new l2, ok_bind, pure_ok]
  have hc : ∀ x : F, [dn n (x :: List.replicate (2 ^ n - 1) 1), dn n (List.replicate (2 ^ n) 1),
      dn n (List.replicate (2 ^ n) 1)].mapM ProductCircuit.new = .ok [circ n (x :: List.replicate (2 ^ n - 1) 1),
        circ n (List.replicate (2 ^ n) 1), circ n (List.replicate (2 ^ n) 1)] := by
    intro x
    simp only [List.mapM_cons, List.mapM_nil, circ_new hn (l1 x), circ_new hn l2, ok_bind, pure_ok]
  rw [hd, ok_bind, hd, ok_bind, hc, ok_bind, hc, ok_bind]
  rfl

/-- C70 is false.  For every instance built by `Instance::new`, satisfiable or not, and every
public input of the declared length: the program `snarkForge`, which knows only public data, returns a proof
that `SNARK::verify` accepts.  (Sizes as in `snark_complete_partial`.) -/
theorem snark_forgery (h2 : (2 : F) ≠ 0) (h3 : (3 : F) ≠ 0) {E : Env F G P} (hE : E.Lawful)
    (hu : ∀ t, E.hash (t ++ [.chal "u"]) ≠ 0)
    {K : Codec F} {nc nv ni nz : Nat} {A B C : List (Nat × Nat × List UInt8)} {I : Inst F}
    (hnew : Inst.new K nc nv ni A B C = .ok (.ok I)) (hc : 1 ≤ nc)
    (hnz : nextPow2 nz = nextPow2 (max (max I.inst.A.M.length I.inst.B.M.length) I.inst.C.M.length))
    (hnz2 : 2 ≤ nextPow2 nz) (hnz58 : nextPow2 nz ≤ 2 ^ 58) (hsc : I.inst.numCons ≤ 2 ^ 61)
    (hsv : I.inst.numVars ≤ 2 ^ 60)
    (S : GenSrc G) (ls le : List UInt8) {inputs : List F} (hin : inputs.length = ni) (tr : Tr F P) (tape : Tape F) :
    ∃ gens comm decomm pf tr', SNARKGens.new S ls le nc nv ni nz = .ok gens ∧
      SNARK.encode E I gens = .ok (comm, decomm) ∧
      snarkForge E comm decomm inputs gens tr tape = .ok (pf, tr') ∧
      SNARK.verify E pf comm inputs gens tr = .ok tr' := by
  obtain ⟨hA, hB, hC, rfl⟩ := new_ok_entries hnew
  obtain ⟨k, j, hwf, hkc, hk, hj⟩ := builtR1CS_wf hA hB hC
  have hk := hk hc
  have hj60 : j ≤ 60 := (Nat.pow_le_pow_iff_right (a := 2) (by norm_num)).1 (by rw [← hj]; exact hsv)
  have hk61 : k ≤ 61 := (Nat.pow_le_pow_iff_right (a := 2) (by norm_num)).1 (by rw [← hkc]; exact hsc)
  rw [nextPow2_max3] at hnz
  have hn58 := (Nat.pow_le_pow_iff_right (a := 2) (by norm_num)).1 (hnz ▸ hnz58)
  have hn1 : 1 ≤ nzVars (builtR1CS K nc nv ni A B C).A (builtR1CS K nc nv ni A B C).B
      (builtR1CS K nc nv ni A B C).C := (Nat.pow_le_pow_iff_right (a := 2) (by norm_num)).1 (hnz ▸ hnz2)
  obtain ⟨gens, g0, h, a0, a1, a2, a3, a4, a5, hg, hgs, hge⟩ := snarkGens_wf S ls le hc hkc hj hnz hn58 (by omega)
  simp only at hge hn1 hn58
  clear hnz hnz2 hnz58
  set R := builtR1CS K nc nv ni A B C with hR
  have rg : ∀ {m : SparseMat F}, m.InRange (2 ^ k) (2 ^ j + R.numInputs + 1) → m.InRange (2 ^ k) (2 ^ (j + 1)) :=
    fun h => h.mono le_rfl hwf.cols
  obtain ⟨n, hn⟩ : ∃ n, n = nzVars R.A R.B R.C := ⟨_, rfl⟩
  rw [← hn] at hn1 hn58 hge
  obtain ⟨comm, D, rss, css, audit, caudit, hcm, hD, hO⟩ := multiCommit_ok E (A := R.A) (B := R.B) (C := R.C)
    ⟨hwf.nA.1, hwf.nB.1, hwf.nC.1⟩ ⟨hwf.nA.2, hwf.nB.2, hwf.nC.2⟩ (rg hwf.A) (rg hwf.B) (rg hwf.C) hn hge
  have hil' : inputs.length < 2 ^ j := by rw [hin, ← hj]; exact (le_varsPadded nv ni).2
  -- the empty instance
  have nil : ∀ r c, (⟨k, j + 1, []⟩ : SparseMat F).InRange r c := fun r c e he => by simp at he
  have hwf0 : R1CS.WF ⟨2 ^ k, 2 ^ j, ni, ⟨k, j + 1, []⟩, ⟨k, j + 1, []⟩, (⟨k, j + 1, []⟩ : SparseMat F)⟩ k j :=
    ⟨rfl, rfl, by rw [← hj]; exact (le_varsPadded nv ni).2, nil _ _, nil _ _, nil _ _, ⟨rfl, rfl⟩, ⟨rfl, rfl⟩,
      ⟨rfl, rfl⟩⟩
  have hS0 : Sat (SparseMat.triples (⟨k, j + 1, []⟩ : SparseMat F)) (SparseMat.triples ⟨k, j + 1, []⟩)
      (SparseMat.triples ⟨k, j + 1, []⟩) (2 ^ k) (zpad (List.replicate (2 ^ j) 0) inputs) := by
    intro i hi
    simp [SparseMat.triples, rowDot, matEntry]
  have mz : ∀ rx ry : List F, matMLE (SparseMat.triples (⟨k, j + 1, []⟩ : SparseMat F)) rx ry = 0 := by
    intro rx ry
    simp [matMLE, SparseMat.triples, matEntry]
  refine ⟨gens, ⟨R.numCons, R.numVars, R.numInputs, comm⟩, D, ?_⟩
  rcases r1csProof_complete h2 h3 hE hwf0 hk (by omega) hgs (List.length_replicate ..) hil' hS0
    ((tr.protocol "Spartan SNARK proof").r1csComm ⟨R.numCons, R.numVars, R.numInputs, comm⟩) tape with
    ⟨pf, rx, ry, tr1, tape1, evals, p, e, v⟩ | ⟨-, t, ht⟩
  swap
  · exact absurd ht (hu t)
  obtain ⟨hx, hy⟩ := evaluate_lengths hwf0 e
  have e' := hwf0.evaluate hx hy
  rw [e, mz] at e'
  cases e'
  obtain ⟨x1, x2, -, -⟩ := equalize_ok hx hy
  set rxe := (equalize rx ry).1 with hrxe
  set rye := (equalize rx ry).2 with hrye
  have mX : (eqEvals rxe).length = 2 ^ max k (j + 1) := by rw [(eqEvals_correct rxe).1, x1]
  have mY : (eqEvals rye).length = 2 ^ max k (j + 1) := by rw [(eqEvals_correct rye).1, x2]
  obtain ⟨zs, hzs⟩ : ∃ zs, zs = List.replicate (2 ^ n) (0 : F) := ⟨_, rfl⟩
  have lz : zs.length = 2 ^ n := by rw [hzs]; simp
  have hdT : ∀ T ∈ [zs, zs, zs] ++ [zs, zs, zs], T.length = 2 ^ n := by
    intro T hT
    simp at hT
    rw [hT, lz]
  have np8 : nextPow2 ([zs, zs, zs] ++ [zs, zs, zs]).length = 2 ^ 3 := by
    have c8 : Nat.clog 2 6 = 3 := by decide +kernel
    simp [nextPow2, c8]
  have nd0 : [zs, zs, zs] ++ [zs, zs, zs] ≠ [] := by simp
  obtain ⟨cD, b, t, hcD⟩ : ∃ cD b t, (dn (3 + n) (mergeT ([zs, zs, zs] ++ [zs, zs, zs]))).commit E gens.eval.derefs
      none = .ok (cD, b, t) := ⟨_, _, _, commit_eq E (mergeT_length nd0 hdT np8) hge.derefs none⟩
  have hvals : dotVals n [zs, zs, zs] [zs, zs, zs] ([R.A, R.B, R.C].map (padValsOf (2 ^ n))) = [0, 0, 0] := by
    have : ∀ w : List F, triSum n (zs, zs, w) = 0 := by
      intro w
      unfold triSum
      apply Finset.sum_eq_zero
      intro i hi
      have : zs.getD i 0 = 0 := by
        rw [hzs]
        simp [List.getD_eq_getElem?_getD, Finset.mem_range.1 hi]
      simp only
      rw [this]; ring
    simp [dotVals, this]
  set tr2 := ((tr1.evalClaims (0, 0, 0)).protocol "Sparse polynomial evaluation proof").derefsComm
    "comm_poly_row_col_ops_val" cD with htr2
  set q := E.challengeVec tr2 "challenge_r_hash" 2 with hq
  have hp2 : 1 ≤ 2 ^ n := Nat.one_le_two_pow
  have tabs : ∀ x : F, ∀ T ∈ [x :: List.replicate (2 ^ n - 1) (1 : F), List.replicate (2 ^ n) 1,
      List.replicate (2 ^ n) 1], T.length = 2 ^ n := by
    intro x T hT
    simp only [List.mem_cons, List.not_mem_nil, or_false] at hT
    rcases hT with rfl | rfl | rfl <;> simp
    omega
  have prods : ∀ x : F, ([x :: List.replicate (2 ^ n - 1) (1 : F), List.replicate (2 ^ n) 1,
      List.replicate (2 ^ n) 1].map List.prod).prod = x := by
    intro x; simp
  obtain ⟨pp, ph, randOps, tr', tape', hro, hp, b1, b2, b3, b4, hv⟩ := net_generic h2 h3 hE hu (by omega)
    (by omega) hn1 hn58 hD.tabs hge hO ⟨rfl, rfl, rfl, rfl, rfl, rfl⟩ hdT
    (tabs (cellT (q.1.getD 0 0) (q.1.getD 1 0) (eqEvals rxe) (List.replicate (2 ^ max k (j + 1)) 0)).prod)
    (tabs (cellT (q.1.getD 0 0) (q.1.getD 1 0) (eqEvals rxe) (audit.map fun (x : Nat) => (x : F))).prod)
    (tabs (cellT (q.1.getD 0 0) (q.1.getD 1 0) (eqEvals rye) (List.replicate (2 ^ max k (j + 1)) 0)).prod)
    (tabs (cellT (q.1.getD 0 0) (q.1.getD 1 0) (eqEvals rye) (caudit.map fun (x : Nat) => (x : F))).prod)
    hcD x1 x2 (q.1.getD 0 0) (q.1.getD 1 0) (by rw [prods, prods]) (by rw [prods, prods]) q.2 tape1
  rw [hvals] at hp hv
  refine ⟨⟨pf, (0, 0, 0), ⟨cD, ⟨pp, { ph with
    row := ⟨[], ph.row.addr ++ ph.row.readTs, ph.row.auditTs⟩
    col := ⟨[], ph.col.addr ++ ph.col.readTs, ph.col.auditTs⟩ }⟩⟩⟩, tr', hg, ?_, ?_, ?_⟩
  · unfold SNARK.encode
    simp only
    rw [hcm, ok_bind]
    rfl
  · unfold snarkForge
    simp only
    have hI0 : (⟨R.numCons, R.numVars, R.numInputs, ⟨k, j + 1, []⟩, ⟨k, j + 1, []⟩, ⟨k, j + 1, []⟩⟩ : R1CS F) =
        ⟨2 ^ k, 2 ^ j, ni, ⟨k, j + 1, []⟩, ⟨k, j + 1, []⟩, ⟨k, j + 1, []⟩⟩ := by
      rw [hwf.cons, hwf.vars]; rfl
    rw [log2_eq_of_pow hwf.cons, ok_bind,
      log2_eq_of_pow (show 2 * R.numVars = 2 ^ (j + 1) by rw [hwf.vars, pow_succ]; ring), ok_bind, hI0,
      show List.replicate R.numVars (0 : F) = List.replicate (2 ^ j) 0 by rw [hwf.vars], p, ok_bind]
    simp only
    have hds : Derefs.new [dn n zs, dn n zs, dn n zs] [dn n zs, dn n zs, dn n zs] =
        .ok ⟨[zs, zs, zs].map (dn n), [zs, zs, zs].map (dn n), dn (3 + n) (mergeT ([zs, zs, zs] ++ [zs, zs, zs]))⟩ := by
      unfold Derefs.new
      rw [check_true rfl, ok_bind]
      have : [dn n zs, dn n zs, dn n zs] ++ [dn n zs, dn n zs, dn n zs] = ([zs, zs, zs] ++ [zs, zs, zs]).map (dn n) :=
        rfl
      rw [this, merge_dn nd0 hdT np8, ok_bind]
      rfl
    rw [hO.numOps, ← hzs, dn_new lz, ok_bind, hds, ok_bind]
    unfold Derefs.commit
    simp only
    rw [hcD, ok_bind]
    simp only
    rw [pure_ok, ok_bind, ← htr2, ← hq, ← hrxe, ← hrye, hD.tabs.rowAud, hD.tabs.colAud,
      forgeLayer_eq (by omega) hn1 _ _ mX hD.tabs.ru, ok_bind, forgeLayer_eq (by omega) hn1 _ _ mY hD.tabs.cu,
      ok_bind, hp, ok_bind]
    rfl
  · unfold SNARK.verify
    simp only
    rw [check_true (by rw [hin]; rfl), ok_bind]
    conv_lhs =>
      enter [1, 3]
      rw [hwf.vars]
    conv_lhs =>
      enter [1, 4]
      rw [hwf.cons]
    rw [v, ok_bind]
    unfold sparseVerify
    simp only
    rw [← hrxe, ← hrye, x1, check_true hO.numCells.symm, ok_bind, ← htr2, ← hq]
    exact hv _ _ rfl rfl rfl rfl rfl rfl

/-- C70 is FALSE, concretely: for the unsatisfiable system `1 * 1 = 0` over any field of
characteristic other than two and three, with any number of variables and inputs, the program's proof is
accepted. -/
theorem snark_unsound (h2 : (2 : F) ≠ 0) (h3 : (3 : F) ≠ 0) {E : Env F G P} (hE : E.Lawful)
    (hu : ∀ t, E.hash (t ++ [.chal "u"]) ≠ 0) {K : Codec F} {one : List UInt8}
    (h1 : K.fromBytes one = some 1) (S : GenSrc G) (ls le : List UInt8) (nv ni : Nat)
    (hsz : varsPadded nv ni ≤ 2 ^ 60) {input : List F} (hi : input.length = ni) (tr : Tr F P) (tape : Tape F) :
    ∃ I gens comm decomm pf tr', Inst.new K 1 nv ni [(0, nv, one)] [(0, nv, one)] [] = .ok (.ok I) ∧
      SNARKGens.new S ls le 1 nv ni 2 = .ok gens ∧
      SNARK.encode E I gens = .ok (comm, decomm) ∧
      snarkForge E comm decomm input gens tr tape = .ok (pf, tr') ∧
      SNARK.verify E pf comm input gens tr = .ok tr' ∧
      ∀ vars : List F, vars.length ≤ I.inst.numVars → I.isSat vars input = .ok (.ok false) := by
  obtain ⟨I, hI⟩ := (instance_new_ok_iff K 1 nv ni [(0, nv, one)] [(0, nv, one)] []).2
    (by simp [h1])
  have hl : I.inst.A.M.length = 2 ∧ I.inst.B.M.length = 2 ∧ I.inst.C.M.length = 2 ∧ I.inst.numCons = 2 ∧
      I.inst.numVars = varsPadded nv ni := by
    obtain ⟨-, -, -, rfl⟩ := new_ok_entries hI
    exact ⟨built_one_length _ _ _ (by simp), built_one_length _ _ _ (by simp), built_one_length _ _ _ (by simp),
      rfl, rfl⟩
  obtain ⟨gens, comm, decomm, pf, tr', e1, e2, e3, e4⟩ := snark_forgery h2 h3 hE hu hI le_rfl (nz := 2)
    (by rw [hl.1, hl.2.1, hl.2.2.1]; rfl) (by rw [nextPow2_two]) (by rw [nextPow2_two]; norm_num)
    (by rw [hl.2.2.2.1]; norm_num) (by rw [hl.2.2.2.2]; exact hsz) S ls le hi tr tape
  refine ⟨I, gens, comm, decomm, pf, tr', hI, e1, e2, e3, e4, ?_⟩
  intro vars hvl
  obtain ⟨b, hb, hiff⟩ := padding_preserves_sat hI hvl hi
  rw [hb]
  congr 2
  rw [Bool.eq_false_iff]
  intro hbt
  have := hiff.1 hbt 0 (by norm_num)
  rw [rowDot_eq _ (by simp [parsed, zvec, fit_length]), rowDot_eq _ (by simp [parsed])] at this
  have e := zvec_getD_ge (fit nv vars) input 0
  rw [fit_length, add_zero] at e
  simp only [parsed, List.map_cons, List.map_nil, List.sum_cons, List.sum_nil, if_true, h1,
    Option.getD_some, e, List.getD_cons_zero] at this
  norm_num at this

/-- The hypotheses are met over ℚ with the constant oracle 5, two variables and one input. -/
example : ∃ I gens comm decomm pf tr', Inst.new toyCodec 1 2 1 [(0, 2, [1])] [(0, 2, [1])] [] = .ok (.ok I) ∧
    SNARKGens.new (⟨fun _ i => UInt8.ofNat i, fun b => (b.getD 0 0).toNat⟩ : GenSrc ℚ) [1] [2] 1 2 1 2 = .ok gens ∧
    SNARK.encode (⟨id, some, fun _ => 5⟩ : Env ℚ ℚ ℚ) I gens = .ok (comm, decomm) ∧
    snarkForge (⟨id, some, fun _ => 5⟩ : Env ℚ ℚ ℚ) comm decomm [7] gens [] (fun i => i) = .ok (pf, tr') ∧
    SNARK.verify (⟨id, some, fun _ => 5⟩ : Env ℚ ℚ ℚ) pf comm [7] gens [] = .ok tr' ∧
    ∀ vars : List ℚ, vars.length ≤ I.inst.numVars → I.isSat vars [7] = .ok (.ok false) :=
  snark_unsound (by norm_num) (by norm_num) (fun _ => rfl) (fun _ => by norm_num)
    (by simp [toyCodec, show UInt8.toNat 1 = 1 from rfl]) _ _ _ 2 1
    (by rw [varsPadded_eq]; exact (Nat.le_of_eq (nextPow2_pow 1)).trans (by norm_num)) rfl [] _

end Spartan
