import Verif.Lemmas.SnarkSize
import Verif.Props.Bincode
import Verif.Props.Programs

/-!
C101: dimensions and bytes of the proofs that the SNARK prover returns.
-/

namespace Spartan

open Spec MParams Programs

variable {F G P : Type} [Field F] [AddCommGroup G] [Module F G] [DecidableEq F] [DecidableEq P] [DecidableEq G]

/-- C101: the dimensions of a SNARK are determined by the dimensions of the instance: `2^k`
constraints, `2^j` variables and at most `2^n` entries in each matrix. -/
theorem snark_prove_sizes {E : Env F G P} {K : Codec F} {nc nv ni : Nat}
    {A B C : List (Nat × Nat × List UInt8)} {I : Inst F}
    (hnew : Inst.new K nc nv ni A B C = .ok (.ok I)) {gens : SNARKGens G} {comm comm' : R1CSComm P}
    {decomm : MultiDense F} (henc : SNARK.encode E I gens = .ok (comm, decomm)) {vars inputs : List F}
    {tr tr' : Tr F P} {tape : Tape F} {pf : SNARK F P} {k j n : Nat} (hk : I.inst.numCons = 2 ^ k)
    (hj : I.inst.numVars = 2 ^ j) (hn : n = max (max (Nat.clog 2 I.inst.A.M.length)
      (Nat.clog 2 I.inst.B.M.length)) (Nat.clog 2 I.inst.C.M.length)) (hv : vars.length ≤ I.inst.numVars)
    (h : SNARK.prove E I comm' decomm vars inputs gens tr tape = .ok (pf, tr')) :
    pf.Sizes k j (max k (j + 1)) n := by
  obtain ⟨k', j', hwf⟩ : ∃ k j, I.inst.WF k j := by
    obtain ⟨hA, hB, hC, rfl⟩ := new_ok_entries hnew
    obtain ⟨k, j, hwf, -, -, -⟩ := builtR1CS_wf hA hB hC
    exact ⟨k, j, hwf⟩
  obtain rfl : k' = k := Nat.pow_right_injective le_rfl (hwf.cons.symm.trans hk)
  obtain rfl : j' = j := Nat.pow_right_injective le_rfl (hwf.vars.symm.trans hj)
  have rg : ∀ {x : SparseMat F}, x.InRange (2 ^ k') (2 ^ j' + I.inst.numInputs + 1) →
      x.InRange (2 ^ k') (2 ^ (j' + 1)) := fun h => h.mono le_rfl hwf.cols
  obtain ⟨D, rss, audit, css, caudit, hMD, hrow, hcol, -, -, hT⟩ := multiDense_ok
    ⟨hwf.nA.1, hwf.nB.1, hwf.nC.1⟩ ⟨hwf.nA.2, hwf.nB.2, hwf.nC.2⟩ (rg hwf.A) (rg hwf.B) (rg hwf.C) hn
  have hD : decomm = D := by
    unfold SNARK.encode multiCommit at henc
    simp only at henc
    rw [hMD, ok_bind] at henc
    obtain ⟨q, hq, henc⟩ := bind_ok henc
    obtain ⟨_, -, hq⟩ := bind_ok hq
    obtain ⟨_, -, hq⟩ := bind_ok hq
    obtain ⟨_, -, hq⟩ := bind_ok hq
    cases hq
    cases henc
    rfl
  subst hD
  unfold SNARK.prove at h
  simp only at h
  obtain ⟨pv, hpv, h⟩ := bind_ok h
  obtain ⟨q1, s1, h⟩ := bind_ok h
  obtain ⟨_, -, h⟩ := bind_ok h
  obtain ⟨q2, s2, h⟩ := bind_ok h
  cases h
  have hpl : pv.length = 2 ^ j' := by
    rw [← hj]
    unfold padVars at hpv
    split_ifs at hpv with hc
    · unfold assignmentPad at hpv
      obtain ⟨_, -, hpv⟩ := bind_ok hpv
      cases hpv
      simp only [List.length_append, List.length_replicate]
      omega
    · cases hpv
      omega
  obtain ⟨z1, z2, z3⟩ := r1csProve_sizes hpl s1
  have cl : log2ceil I.inst.numCons = k' := by rw [hk]; exact Nat.clog_pow 2 _ (by norm_num)
  rw [cl] at z1 z2
  obtain ⟨x1, x2, -, -⟩ := equalize_ok z2 z3
  unfold sparseProve at s2
  simp only at s2
  obtain ⟨_, -, s2⟩ := bind_ok s2
  obtain ⟨ds, hds, s2⟩ := bind_ok s2
  obtain ⟨cD, hcD, s2⟩ := bind_ok s2
  obtain ⟨lr, hlr, s2⟩ := bind_ok s2
  obtain ⟨lc, hlc, s2⟩ := bind_ok s2
  obtain ⟨q3, s3, s2⟩ := bind_ok s2
  cases s2
  have tabs : ∀ m ∈ [I.inst.A, I.inst.B, I.inst.C], m.M.length ≤ 2 ^ n := by
    intro m hm
    have hle : m.M.length ≤ 2 ^ Nat.clog 2 m.M.length := Nat.le_pow_clog (by norm_num) _
    refine hle.trans (Nat.pow_le_pow_right (by norm_num) ?_)
    rw [hn]
    simp only [List.mem_cons, List.not_mem_nil, or_false] at hm
    rcases hm with rfl | rfl | rfl
    · exact (le_max_left _ _).trans (le_max_left _ _)
    · exact (le_max_right _ _).trans (le_max_left _ _)
    · exact le_max_right _ _
  have ur : ∀ o ∈ decomm.row.addrU, o.length = 2 ^ n := by
    rw [hrow]
    intro o ho
    obtain ⟨m, hm, rfl⟩ := List.mem_map.mp ho
    have := tabs m hm
    simp only [padRowsOf, List.length_append, List.length_map, List.length_replicate]
    omega
  have uc : ∀ o ∈ decomm.col.addrU, o.length = 2 ^ n := by
    rw [hcol]
    intro o ho
    obtain ⟨m, hm, rfl⟩ := List.mem_map.mp ho
    have := tabs m hm
    simp only [padColsOf, List.length_append, List.length_map, List.length_replicate]
    omega
  obtain ⟨d1, d2, d3⟩ := derefs_len ur uc (by rw [hrow]; rfl) (by rw [hcol]; rfl) hds hcD
  obtain ⟨⟨y1, y2⟩, ⟨c0, cs, y3, y4, y5⟩, -, -⟩ := layersNew_len (m := max k' (j' + 1)) (n := n)
    (a0 := dn n ((padRowsOf (2 ^ n) I.inst.A).map fun (x : Nat) => (x : F)))
    (as := [I.inst.B, I.inst.C].map fun m => dn n ((padRowsOf (2 ^ n) m).map fun (x : Nat) => (x : F)))
    (by rw [eqEvals_length, x1]) (by rw [hrow]; rfl) (by
      have := tabs I.inst.A (by simp)
      simp only [dn, padRowsOf, List.length_append, List.length_map, List.length_replicate]
      omega) hlr
  unfold netProve at s3
  simp only at s3
  obtain ⟨q5, s5, s3⟩ := bind_ok s3
  obtain ⟨q4, s4, s3⟩ := bind_ok s3
  cases s3
  obtain ⟨⟨p1, p2, p3, p4⟩, ⟨p5, p6⟩, p7, p8, p9, p10⟩ := prodLayerProve_len y1 y2 y3 y4 y5 s5
  obtain ⟨⟨g1, g2, g3, g4, g5, g6, g7⟩, ⟨o1, o2⟩, ⟨m1, m2⟩, t1, t2⟩ := hashLayerProve_len d2 d3
    (by rw [hT.rowAddr]; rfl) (by rw [hT.rowTs, List.length_map]; exact hT.lens.2.1)
    (by rw [hT.colAddr]; rfl) (by rw [hT.colTs, List.length_map]; exact hT.lens.2.2.2.1)
    (by rw [hT.val]; rfl) s4
  rw [p10] at o1 o2 t1 t2
  rw [p9] at m1 m2
  exact ⟨z1, d1, p1, p2, p3, p4, p5, p6, p7, p8, g1, g2, g3, g4, g5, g6, g7, o1, o2, m1, m2, t1, t2⟩

theorem okProdB_of_sizes {W : Wire F P} {pf : ProdProofBatched F} {n w d : Nat} (h : pf.Sizes n w d) {M : Nat}
    (hM : M ≤ 2 ^ W.bits) (hn : n < M) (hw : w < M) (hd : d < M) (h3 : 3 < M) : W.okProdB pf := by
  refine ⟨(h.layers.trans_lt hn).trans_le hM, ?_, (h.dotpL.trans_lt hd).trans_le hM,
    (h.dotpR.trans_lt hd).trans_le hM, (h.dotpW.trans_lt hd).trans_le hM⟩
  intro l hl
  obtain ⟨i, hi, rfl⟩ := List.mem_iff_getElem.mp hl
  obtain ⟨a1, a2, a3, a4⟩ := h.layer i _ (List.getElem?_eq_getElem hi)
  have hin : i < n := h.layers ▸ hi
  refine ⟨(a1.trans_lt (hin.trans hn)).trans_le hM, fun p hp => ((a2 p hp).trans_lt h3).trans_le hM,
    (a3.trans_lt hw).trans_le hM, (a4.trans_lt hw).trans_le hM⟩

theorem okSNARK_of_sizes {W : Wire F P} (h32 : 32 ≤ W.bits) {pf : SNARK F P} {k j m n : Nat} (hk : k ≤ 64)
    (hj : j ≤ 62) (hm : m ≤ 64) (hn : n ≤ 58) (h : pf.Sizes k j m n) : W.okSNARK pf := by
  have hb : 2 ^ 32 ≤ 2 ^ W.bits := Nat.pow_le_pow_right (by norm_num) h32
  have hj2 : 2 ^ (j / 2) ≤ 2 ^ 31 := Nat.pow_le_pow_right (by norm_num) (by omega)
  have hn2 : 2 ^ ((n + 3) / 2) ≤ 2 ^ 31 := Nat.pow_le_pow_right (by norm_num) (by omega)
  have h32' : (2 : Nat) ^ 32 = 4294967296 := by norm_num
  have h31 : (2 : Nat) ^ 31 = 2147483648 := by norm_num
  rw [h32'] at hb
  rw [h31] at hj2 hn2
  have q1 := okProdB_of_sizes (W := W) h.memProof hb (by omega) (by norm_num) (by norm_num) (by norm_num)
  have q2 := okProdB_of_sizes (W := W) h.opsProof hb (by omega) (by norm_num) (by norm_num) (by norm_num)
  have s := h.sat
  simp only [Wire.okSNARK, Wire.okProdLayer, Wire.okHashLayer, Wire.okR1CSProof, Wire.okZK, Wire.fits]
  obtain ⟨M, hM⟩ : ∃ M, M = 2 ^ W.bits := ⟨_, rfl⟩
  rw [← hM] at hb ⊢
  refine ⟨⟨by rw [s.commVars]; omega, ⟨by rw [s.sc1Polys]; omega, by rw [s.sc1Evals]; omega,
    by rw [s.sc1Proofs]; omega, fun d hd => by rw [s.sc1Z d hd]; omega⟩, ⟨by rw [s.sc2Polys]; omega,
    by rw [s.sc2Evals]; omega, by rw [s.sc2Proofs]; omega, fun d hd => by rw [s.sc2Z d hd]; omega⟩,
    by rw [s.foldL]; omega, by rw [s.foldR]; omega⟩, by rw [h.derefs]; omega,
    ⟨⟨by rw [h.rowRead]; omega, by rw [h.rowWrite]; omega⟩, ⟨by rw [h.colRead]; omega,
      by rw [h.colWrite]; omega⟩, ⟨by rw [h.dotpL]; omega, by rw [h.dotpR]; omega⟩, q1, q2⟩,
    ⟨by rw [h.rowAddr]; omega, by rw [h.rowTs]; omega⟩, ⟨by rw [h.colAddr]; omega, by rw [h.colTs]; omega⟩,
    by rw [h.val]; omega, ⟨by rw [h.derefRow]; omega, by rw [h.derefCol]; omega⟩,
    ⟨by rw [h.opsL]; omega, by rw [h.opsR]; omega⟩, ⟨by rw [h.memL]; omega, by rw [h.memR]; omega⟩,
    ⟨by rw [h.derefsL]; omega, by rw [h.derefsR]; omega⟩⟩

/-- C101: every SNARK that the prover returns for an instance of at most `2^62` variables, `2^64`
constraints and `2^58` entries in a matrix is read back from its bytes, also by a reader with 32-bit
`usize`. -/
theorem snark_prove_bytes {W : Wire F P} (hW : W.Lawful) (h32 : 32 ≤ W.bits) {E : Env F G P} {K : Codec F}
    {nc nv ni : Nat} {A B C : List (Nat × Nat × List UInt8)} {I : Inst F}
    (hnew : Inst.new K nc nv ni A B C = .ok (.ok I)) {gens : SNARKGens G} {comm comm' : R1CSComm P}
    {decomm : MultiDense F} (henc : SNARK.encode E I gens = .ok (comm, decomm)) {vars inputs : List F}
    {tr tr' : Tr F P} {tape : Tape F} {pf : SNARK F P} {k j : Nat} (hk : I.inst.numCons = 2 ^ k)
    (hj : I.inst.numVars = 2 ^ j) (hk64 : k ≤ 64) (hj62 : j ≤ 62) (hA : I.inst.A.M.length ≤ 2 ^ 58)
    (hB : I.inst.B.M.length ≤ 2 ^ 58) (hC : I.inst.C.M.length ≤ 2 ^ 58) (hv : vars.length ≤ I.inst.numVars)
    (h : SNARK.prove E I comm' decomm vars inputs gens tr tape = .ok (pf, tr')) :
    W.fSNARK.deserialize (W.fSNARK.enc pf) = .ok pf := by
  have c : ∀ x, x ≤ 2 ^ 58 → Nat.clog 2 x ≤ 58 := fun x hx => (Nat.clog_le_iff_le_pow (by norm_num)).2 hx
  exact snark_bytes_roundtrip hW (okSNARK_of_sizes h32 hk64 hj62 (max_le hk64 (by omega))
    (max_le (max_le (c _ hA) (c _ hB)) (c _ hC)) (snark_prove_sizes hnew henc hk hj rfl hv h))

/-! ### Bytes -/

theorem length_flatMap_arith {α : Type} {f : α → List UInt8} {c s : Nat} : ∀ {xs : List α} {t : Nat},
    (∀ (i : Nat) (x : α), xs[i]? = some x → (f x).length ≤ c + 2 * s * (t + i)) →
    (xs.flatMap f).length ≤ (c + 2 * s * t) * xs.length + s * (xs.length * (xs.length - 1))
  | [], t, _ => by simp
  | x :: xs, t, h => by
    have a := length_flatMap_arith (f := f) (c := c) (s := s) (xs := xs) (t := t + 1) fun i y hy => by
      have := h (i + 1) y (by simpa using hy)
      rwa [show t + (i + 1) = t + 1 + i by omega] at this
    have b := h 0 x rfl
    rw [List.flatMap_cons, List.length_append, List.length_cons]
    obtain ⟨n, hn⟩ : ∃ n, n = xs.length := ⟨_, rfl⟩
    rw [← hn] at a ⊢
    rw [Nat.add_zero] at b
    have e : s * ((n + 1) * (n + 1 - 1)) = s * (n * (n - 1)) + 2 * s * n := by
      cases n with
      | zero => simp
      | succ n => simp only [Nat.add_sub_cancel]; ring
    rw [e]
    nlinarith [a, b]

theorem prodB_length {W : Wire F P} (hW : W.Lawful) {pf : ProdProofBatched F} {n w d : Nat} (h : pf.Sizes n w d) :
    (W.fProdB.enc pf).length ≤ 32 + (24 + 80 * w) * n + 64 * (n * (n - 1)) + 120 * d := by
  have vs : ∀ xs : List F, (W.fScalars.enc xs).length ≤ 8 + 40 * xs.length := fun xs =>
    vec_length fun x _ => (scalar_length hW x).le
  have e8 : ∀ m, ((Fmt.usize W.bits).enc m).length = 8 := fun m => leBytes_length 8 m
  have a := length_flatMap_arith (f := W.fLayerB.enc) (c := 24 + 80 * w) (s := 64) (xs := pf.proof) (t := 0) (by
    intro i lp hi
    obtain ⟨b1, b2, b3, b4⟩ := h.layer i lp hi
    have c1 := vec_length (bits := W.bits) (f := W.fUni) (c := 128) (xs := lp.proof) (by
      intro p hp
      have := vs p.coeffs
      rw [b2 p hp] at this
      simpa only [Wire.fUni, Fmt.struct] using this)
    have c2 := vs lp.left
    have c3 := vs lp.right
    rw [b1] at c1
    rw [b3] at c2
    rw [b4] at c3
    simp only [Wire.fLayerB, Fmt.struct, Fmt.pair, List.length_append]
    omega)
  have d1 := vs pf.dotpL
  have d2 := vs pf.dotpR
  have d3 := vs pf.dotpW
  rw [h.layers] at a
  rw [h.dotpL] at d1
  rw [h.dotpR] at d2
  rw [h.dotpW] at d3
  have v : ((Fmt.vec W.bits W.fLayerB).enc pf.proof).length = 8 + (pf.proof.flatMap W.fLayerB.enc).length := by
    simp only [Fmt.vec, List.length_append, e8]
  simp only [Wire.fProdB, Fmt.struct, Fmt.pair, List.length_append, v]
  simp only [Nat.mul_zero, Nat.add_zero] at a
  omega

theorem dotLog_length {W : Wire F P} (hW : W.Lawful) (hp : ∀ p, (W.point p).length ≤ 65)
    {d : DotProductProofLog F P} {n : Nat} (hL : d.bullet.L.length = n) (hR : d.bullet.R.length = n) :
    (W.fDotLog.enc d).length ≤ 242 + 146 * n := by
  have vp : ∀ xs : List P, (W.fPoints.enc xs).length ≤ 8 + 73 * xs.length := fun xs =>
    vec_length fun x _ => point_length hp x
  have a1 := vp d.bullet.L
  have a2 := vp d.bullet.R
  have a3 := point_length hp d.delta
  have a4 := point_length hp d.beta
  rw [hL] at a1
  rw [hR] at a2
  simp only [Wire.fDotLog, Wire.fBullet, Fmt.struct, Fmt.pair, List.length_append, scalar_length hW]
  omega

theorem sat_length {W : Wire F P} (hW : W.Lawful) (hp : ∀ p, (W.point p).length ≤ 65) {pf : R1CSProof F P}
    {k j : Nat} (s : pf.Sizes k j) :
    (W.fR1CSProof.enc pf).length ≤ 1461 + 73 * 2 ^ (j / 2) + 540 * k + 500 * (j + 1) + 146 * (j - j / 2) := by
  have pl := fun p => point_length hp (W := W) p
  have vp : ∀ xs : List P, (W.fPoints.enc xs).length ≤ 8 + 73 * xs.length := fun xs =>
    vec_length fun x _ => pl x
  have z1 := zk_length hW hp s.sc1Polys s.sc1Evals s.sc1Proofs s.sc1Z
  have z2 := zk_length hW hp s.sc2Polys s.sc2Evals s.sc2Proofs s.sc2Z
  have a1 := vp pf.commVars
  have a2 := dotLog_length hW hp s.foldL s.foldR
  rw [s.commVars] at a1
  have p1 := pl pf.commAz
  have p2 := pl pf.commBz
  have p3 := pl pf.commCz
  have p4 := pl pf.commProd
  have p5 := pl pf.pokCz.alpha
  have p6 := pl pf.proofProd.alpha
  have p7 := pl pf.proofProd.beta
  have p8 := pl pf.proofProd.delta
  have p9 := pl pf.eq1.alpha
  have p10 := pl pf.commVarsAtRy
  have p13 := pl pf.eq2.alpha
  simp only [Wire.fR1CSProof, Wire.fKnowledge, Wire.fProduct, Wire.fEquality,
    Fmt.struct, Fmt.pair, List.length_append, scalar_length hW]
  omega

/-- C101: the bytes of a SNARK grow with the square roots of the number of variables and of the number
of matrix entries and with the squared logarithms of the dimensions, whatever the witness, the public
inputs and the randomness: the bound for `2^k` constraints, `2^j` variables and `2^n` entries, with
`m = max k (j+1)`. -/
theorem snark_proof_bytes_le {W : Wire F P} (hW : W.Lawful) (hp : ∀ p, (W.point p).length ≤ 65)
    {E : Env F G P} {K : Codec F} {nc nv ni : Nat} {A B C : List (Nat × Nat × List UInt8)} {I : Inst F}
    (hnew : Inst.new K nc nv ni A B C = .ok (.ok I)) {gens : SNARKGens G} {comm comm' : R1CSComm P}
    {decomm : MultiDense F} (henc : SNARK.encode E I gens = .ok (comm, decomm)) {vars inputs : List F}
    {tr tr' : Tr F P} {tape : Tape F} {pf : SNARK F P} {k j m n : Nat} (hk : I.inst.numCons = 2 ^ k)
    (hj : I.inst.numVars = 2 ^ j) (hm : m = max k (j + 1)) (hn : n = max (max (Nat.clog 2 I.inst.A.M.length)
      (Nat.clog 2 I.inst.B.M.length)) (Nat.clog 2 I.inst.C.M.length)) (hv : vars.length ≤ I.inst.numVars)
    (h : SNARK.prove E I comm' decomm vars inputs gens tr tape = .ok (pf, tr')) :
    (W.fSNARK.enc pf).length ≤ 5003 + 73 * 2 ^ (j / 2) + 73 * 2 ^ ((n + 3) / 2) + 540 * k + 500 * (j + 1) +
      344 * m + 984 * n + 64 * (m * (m - 1)) + 64 * (n * (n - 1)) +
      146 * ((j - j / 2) + (n + 4 - (n + 4) / 2) + (m + 1 - (m + 1) / 2) + (n + 3 - (n + 3) / 2)) := by
  have s := snark_prove_sizes hnew henc hk hj hn hv h
  rw [← hm] at s
  have vs : ∀ (xs : List F) (l : Nat), xs.length = l → (W.fScalars.enc xs).length ≤ 8 + 40 * l := fun xs l hl =>
    hl ▸ vec_length fun x _ => (scalar_length hW x).le
  have a1 := sat_length hW hp s.sat
  have a2 : (W.fPoints.enc pf.eval.derefs).length ≤ 8 + 73 * pf.eval.derefs.length :=
    vec_length fun x _ => point_length hp x
  rw [s.derefs] at a2
  have a3 := prodB_length hW s.memProof
  have a4 := prodB_length hW s.opsProof
  have a5 := dotLog_length hW hp s.opsL s.opsR
  have a6 := dotLog_length hW hp s.memL s.memR
  have a7 := dotLog_length hW hp s.derefsL s.derefsR
  have b1 := vs _ _ s.rowRead
  have b2 := vs _ _ s.rowWrite
  have b3 := vs _ _ s.colRead
  have b4 := vs _ _ s.colWrite
  have b5 := vs _ _ s.dotpL
  have b6 := vs _ _ s.dotpR
  have b7 := vs _ _ s.rowAddr
  have b8 := vs _ _ s.rowTs
  have b9 := vs _ _ s.colAddr
  have b10 := vs _ _ s.colTs
  have b11 := vs _ _ s.val
  have b12 := vs _ _ s.derefRow
  have b13 := vs _ _ s.derefCol
  simp only [Wire.fSNARK, Wire.fSparse, Wire.fNet, Wire.fProdLayer, Wire.fHashLayer, Wire.fMemEvals,
    Wire.fAddrEvals, Fmt.struct, Fmt.pair, List.length_append, scalar_length hW]
  omega

/-- C101, the example program `examples/cubic.rs` with the encodings of the crate: for every value of
its secret and all generators, hashes and tapes the prover returns a proof that is accepted, that takes
at most 14525 bytes and that is read back from them. -/
theorem cubic_proof_bytes {sqrt : ZMod secpN → Option (ZMod secpN)} (hs : SqrtSpec sqrt)
    (hash : Tr (ZMod secpP) EncPt → ZMod secpP) (hu : ∀ t, hash (t ++ [.chal "u"]) ≠ 0)
    (dg : R1CS (ZMod secpP) → List UInt8) (S : GenSrc Secq) {z : Nat} (hz : CoreScalar.Valid z)
    (tape : Tape (ZMod secpP)) {bits : Nat} (hb : 32 ≤ bits) (hb' : bits ≤ 64) :
    ∃ I vars inputs gens comm decomm pf tr', cubicR1CS (scalarCodec dg) z = .ok (I, vars, inputs) ∧
      SNARKGens.new S "gens_r1cs_sat".toUTF8.toList "gens_r1cs_eval".toUTF8.toList 4 4 1 8 = .ok gens ∧
      SNARK.encode (secqEnvE sqrt hash) I gens = .ok (comm, decomm) ∧
      SNARK.prove (secqEnvE sqrt hash) I comm decomm vars inputs gens (newTr "snark_example") tape = .ok (pf, tr') ∧
      SNARK.verify (secqEnvE sqrt hash) pf comm inputs gens (newTr "snark_example") = .ok tr' ∧
      ((secqWire bits).fSNARK.enc pf).length ≤ 14525 ∧
      (secqWire bits).fSNARK.deserialize ((secqWire bits).fSNARK.enc pf) = .ok pf := by
  obtain ⟨I, hI, hr, hsat⟩ := cubic_r1cs dg hz
  obtain ⟨hA, hB, hC, hc, hv⟩ := cubic_lengths dg hI
  have p8 : nextPow2 8 = 8 := nextPow2_pow 3
  have hW := secqWire_lawful (bits := bits) (by omega) hb'
  obtain ⟨gens, comm, decomm, pf, tr', h1, h2, h3, h4⟩ := snark_complete_partial (E := secqEnvE sqrt hash)
    Koblitz.secp_consts.1 Koblitz.secp_consts.2.1
    (secqEnvE_lawful hs hash) hu hI (by norm_num) (nz := 8)
    (by rw [hA, hB, hC, p8]; decide +kernel) (by rw [p8]; norm_num) (by rw [p8]; norm_num)
    (by rw [hc]; norm_num) (by rw [hv]; norm_num) S "gens_r1cs_sat".toUTF8.toList
    "gens_r1cs_eval".toUTF8.toList hsat (newTr "snark_example") tape
  refine ⟨I, _, _, gens, comm, decomm, pf, tr', hr, h1, h2, h3, h4, ?_, ?_⟩
  · have c6 : Nat.clog 2 6 = 3 := by decide
    have c4 : Nat.clog 2 4 = 2 := by decide
    have := snark_proof_bytes_le hW (fun p => sec1Shape_length p.2) hI h2 (k := 2) (j := 2) (m := 3) (n := 3)
      (by rw [hc]; rfl) (by rw [hv]; rfl) rfl (by rw [hA, hB, hC, c6, c4]; rfl) (by rw [hv]; rfl) h3
    norm_num at this
    exact this
  · exact snark_prove_bytes hW hb hI h2 (k := 2) (j := 2) (by rw [hc]; rfl) (by rw [hv]; rfl) (by norm_num)
      (by norm_num) (by rw [hA]; norm_num) (by rw [hB]; norm_num) (by rw [hC]; norm_num) (by rw [hv]; rfl) h3

end Spartan
