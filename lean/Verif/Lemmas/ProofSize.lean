import Verif.Props.NIZKSound

/-! Lengths of the vectors in a proof that the prover returns. -/

namespace Spartan

variable {F G P : Type} [Field F] [AddCommGroup G] [Module F G] [DecidableEq F] [DecidableEq P] [DecidableEq G]

theorem mapM_length {α β : Type} {f : α → Out β} : ∀ {xs : List α} {ys : List β}, xs.mapM f = .ok ys →
    ys.length = xs.length
  | [], ys, h => by
    rw [List.mapM_nil] at h
    cases h; rfl
  | x :: xs, ys, h => by
    rw [List.mapM_cons] at h
    obtain ⟨y, -, h⟩ := bind_ok h
    obtain ⟨zs, hz, h⟩ := bind_ok h
    cases h
    simp [mapM_length hz]

theorem bulletLoop_len {E : Env F G P} {Q H : G} : ∀ (k : Nat) {Gv : List G} {a b : List F} {bl : F}
    {bls : List (F × F)} {tr : Tr F P} {r : List P × List P × F × F × G × F × Tr F P},
    bulletLoop E Q H k Gv a b bl bls tr = .ok r → r.1.length = k
  | 0, Gv, a, b, bl, bls, tr, r, h => by
    unfold bulletLoop at h
    split at h
    · cases h; rfl
    · cases h
  | k + 1, Gv, a, b, bl, bls, tr, r, h => by
    unfold bulletLoop at h
    obtain ⟨cL, -, h⟩ := bind_ok h
    obtain ⟨cR, -, h⟩ := bind_ok h
    split at h
    · cases h
    obtain ⟨L, -, h⟩ := bind_ok h
    obtain ⟨R, -, h⟩ := bind_ok h
    simp only [Env.challenge] at h
    obtain ⟨ui, -, h⟩ := bind_ok h
    obtain ⟨r', hr, h⟩ := bind_ok h
    have := bulletLoop_len k hr
    cases h
    simp [this]

theorem polyEvalProve_len {E : Env F G P} {poly : Dense F} {bs : Option (List F)} {r : List F} {Zr : F}
    {bz : Option F} {gens : DotGens G} {tr : Tr F P} {tape : Tape F}
    {res : DotProductProofLog F P × P × Tr F P × Tape F}
    (h : polyEvalProve E poly bs r Zr bz gens tr tape = .ok res) :
    res.1.bullet.L.length = r.length - r.length / 2 := by
  unfold polyEvalProve at h
  simp only at h
  obtain ⟨_, -, h⟩ := bind_ok h
  obtain ⟨_, -, h⟩ := bind_ok h
  obtain ⟨_, -, h⟩ := bind_ok h
  obtain ⟨_, hR, h⟩ := bind_ok h
  obtain ⟨LZ, -, h⟩ := bind_ok h
  obtain ⟨q, hq, h⟩ := bind_ok h
  have hR := check_ok hR
  cases h
  unfold DotProductProofLog.prove at hq
  simp only at hq
  obtain ⟨_, -, hq⟩ := bind_ok hq
  obtain ⟨_, -, hq⟩ := bind_ok hq
  obtain ⟨lg, -, hq⟩ := bind_ok hq
  obtain ⟨_, -, hq⟩ := bind_ok hq
  obtain ⟨_, -, hq⟩ := bind_ok hq
  obtain ⟨g1s, -, hq⟩ := bind_ok hq
  split at hq
  · cases hq
  obtain ⟨b, hb, hq⟩ := bind_ok hq
  obtain ⟨_, -, hq⟩ := bind_ok hq
  obtain ⟨_, -, hq⟩ := bind_ok hq
  cases hq
  unfold BulletProof.prove at hb
  simp only at hb
  obtain ⟨_, -, hb⟩ := bind_ok hb
  obtain ⟨_, -, hb⟩ := bind_ok hb
  obtain ⟨_, hbl, hb⟩ := bind_ok hb
  obtain ⟨_, -, hb⟩ := bind_ok hb
  obtain ⟨l, hl, hb⟩ := bind_ok hb
  have hbl := check_ok hbl
  cases hb
  have := bulletLoop_len _ hl
  rw [this, ← hbl, hR]
  exact Nat.clog_pow 2 _ (by norm_num)

theorem dotProve_len {E : Env F G P} {g1 gn : Gens G} {tr : Tr F P} {tape : Tape F} {x : List F} {bx : F}
    {a : List F} {y by' : F} {res : DotProductProof F P × P × P × Tr F P × Tape F}
    (h : DotProductProof.prove E g1 gn tr tape x bx a y by' = .ok res) : res.1.z.length = x.length := by
  unfold DotProductProof.prove at h
  simp only [Env.challenge] at h
  obtain ⟨_, -, h⟩ := bind_ok h
  obtain ⟨_, -, h⟩ := bind_ok h
  obtain ⟨_, -, h⟩ := bind_ok h
  obtain ⟨_, -, h⟩ := bind_ok h
  obtain ⟨_, -, h⟩ := bind_ok h
  obtain ⟨_, -, h⟩ := bind_ok h
  obtain ⟨_, -, h⟩ := bind_ok h
  obtain ⟨_, -, h⟩ := bind_ok h
  cases h
  simp [Tape.nextVec]

theorem fromEvals_len {es : List F} {p : UniPoly F} (h : UniPoly.fromEvals es = .ok p) :
    p.coeffs.length = es.length := by
  unfold UniPoly.fromEvals at h
  split at h
  · obtain ⟨_, -, h⟩ := bind_ok h
    cases h; rfl
  · obtain ⟨_, -, h⟩ := bind_ok h
    obtain ⟨_, -, h⟩ := bind_ok h
    cases h; rfl
  · cases h

theorem zkProveLoop_len {S : Type} {E : Env F G P} {points : S → Out (List F)} {bind : F → S → Out S}
    {g1 gn : Gens G} {d : Nat} (hd : ∀ s es, points s = .ok es → es.length = d + 1) :
    ∀ (bs : List (F × F)) {bc c : F} {cc : P} {s : S} {tr : Tr F P} {tape : Tape F}
      {res : ZKSumcheck F P × List F × S × Tr F P × Tape F},
      zkProveLoop E points bind g1 gn bs bc c cc s tr tape = .ok res →
      res.1.commPolys.length = bs.length ∧ res.1.commEvals.length = bs.length ∧
      res.1.proofs.length = bs.length ∧ (∀ p ∈ res.1.proofs, p.z.length = d + 2) ∧
      res.2.1.length = bs.length
  | [], bc, c, cc, s, tr, tape, res, h => by
    unfold zkProveLoop at h
    cases h
    simp
  | (bp, be) :: bs, bc, c, cc, s, tr, tape, res, h => by
    unfold zkProveLoop at h
    simp only [Env.challenge] at h
    obtain ⟨es, hes, h⟩ := bind_ok h
    obtain ⟨e0, -, h⟩ := bind_ok h
    obtain ⟨poly, hp, h⟩ := bind_ok h
    obtain ⟨_, -, h⟩ := bind_ok h
    obtain ⟨_, -, h⟩ := bind_ok h
    obtain ⟨_, -, h⟩ := bind_ok h
    obtain ⟨_, -, h⟩ := bind_ok h
    obtain ⟨_, -, h⟩ := bind_ok h
    obtain ⟨_, -, h⟩ := bind_ok h
    obtain ⟨_, -, h⟩ := bind_ok h
    obtain ⟨_, -, h⟩ := bind_ok h
    obtain ⟨_, -, h⟩ := bind_ok h
    obtain ⟨q, hq, h⟩ := bind_ok h
    obtain ⟨w, hw, h⟩ := bind_ok h
    obtain ⟨a1, a2, a3, a4, a5⟩ := zkProveLoop_len hd bs hw
    have b1 := dotProve_len hq
    have b2 := fromEvals_len hp
    have b3 := hd _ _ hes
    cases h
    refine ⟨by simp [a1], by simp [a2], by simp [a3], ?_, by simp [a5]⟩
    intro p hp'
    rcases List.mem_cons.mp hp' with rfl | hp'
    · rw [b1, b2]
      simp only [List.length_cons, List.length_tail]
      omega
    · exact a4 p hp'

theorem zkProve_len {E : Env F G P} {points : List (Dense F) → Out (List F)} {d : Nat}
    (hd : ∀ s es, points s = .ok es → es.length = d + 1) {c bc : F} {n : Nat} {ts : List (Dense F)}
    {g1 gn : Gens G} {tr : Tr F P} {tape : Tape F}
    {res : ZKSumcheck F P × List F × List F × F × Tr F P × Tape F}
    (h : zkProve E points c bc n ts g1 gn tr tape = .ok res) :
    res.1.commPolys.length = n ∧ res.1.commEvals.length = n ∧
      res.1.proofs.length = n ∧ (∀ p ∈ res.1.proofs, p.z.length = d + 2) ∧ res.2.1.length = n := by
  unfold zkProve at h
  simp only at h
  obtain ⟨_, -, h⟩ := bind_ok h
  obtain ⟨w, hw, h⟩ := bind_ok h
  obtain ⟨_, -, h⟩ := bind_ok h
  obtain ⟨_, -, h⟩ := bind_ok h
  obtain ⟨_, -, h⟩ := bind_ok h
  cases h
  have := zkProveLoop_len hd _ hw
  simpa [Tape.nextVec] using this

/-- Sizes of the vectors of a satisfiability proof: `k` rounds in the first sum-check, `2^j` variables. -/
structure R1CSProof.Sizes (pf : R1CSProof F P) (k j : Nat) : Prop where
  commVars : pf.commVars.length = 2 ^ (j / 2)
  sc1Polys : pf.sc1.commPolys.length = k
  sc1Evals : pf.sc1.commEvals.length = k
  sc1Proofs : pf.sc1.proofs.length = k
  sc1Z : ∀ p ∈ pf.sc1.proofs, p.z.length = 4
  sc2Polys : pf.sc2.commPolys.length = j + 1
  sc2Evals : pf.sc2.commEvals.length = j + 1
  sc2Proofs : pf.sc2.proofs.length = j + 1
  sc2Z : ∀ p ∈ pf.sc2.proofs, p.z.length = 3
  foldL : pf.evalVars.bullet.L.length = j - j / 2
  foldR : pf.evalVars.bullet.R.length = j - j / 2

theorem log2_ok {n k : Nat} (h : log2 n = .ok k) : k = log2ceil n := by
  unfold log2 at h
  obtain ⟨_, -, h⟩ := bind_ok h
  cases h; rfl

theorem r1csProve_sizes {E : Env F G P} {I : R1CS F} {vars input : List F} {gens : R1CSGens G}
    {tr : Tr F P} {tape : Tape F} {j : Nat} (hv : vars.length = 2 ^ j)
    {res : R1CSProof F P × List F × List F × Tr F P × Tape F}
    (h : R1CSProof.prove E I vars input gens tr tape = .ok res) :
    res.1.Sizes (log2ceil I.numCons) j ∧ res.2.1.length = log2ceil I.numCons ∧ res.2.2.1.length = j + 1 := by
  unfold R1CSProof.prove at h
  simp only [Env.challenge] at h
  obtain ⟨_, hin, h⟩ := bind_ok h
  obtain ⟨pv, hpv, h⟩ := bind_ok h
  obtain ⟨cm, hcm, h⟩ := bind_ok h
  obtain ⟨nx, hnx, h⟩ := bind_ok h
  obtain ⟨ny, hny, h⟩ := bind_ok h
  obtain ⟨_, -, h⟩ := bind_ok h
  obtain ⟨_, -, h⟩ := bind_ok h
  obtain ⟨s1, hs1, h⟩ := bind_ok h
  obtain ⟨_, -, h⟩ := bind_ok h
  obtain ⟨_, -, h⟩ := bind_ok h
  obtain ⟨_, -, h⟩ := bind_ok h
  obtain ⟨_, -, h⟩ := bind_ok h
  obtain ⟨_, -, h⟩ := bind_ok h
  obtain ⟨_, -, h⟩ := bind_ok h
  obtain ⟨_, -, h⟩ := bind_ok h
  obtain ⟨_, -, h⟩ := bind_ok h
  obtain ⟨s2, hs2, h⟩ := bind_ok h
  obtain ⟨_, -, h⟩ := bind_ok h
  obtain ⟨_, -, h⟩ := bind_ok h
  obtain ⟨e, he, h⟩ := bind_ok h
  obtain ⟨_, -, h⟩ := bind_ok h
  cases h
  have hin := check_ok hin
  have hzl : (vars ++ [1] ++ input ++ List.replicate (vars.length - input.length - 1) (0 : F)).length
      = 2 ^ (j + 1) := by
    simp only [List.length_append, List.length_replicate, List.length_cons, List.length_nil]
    rw [pow_succ, ← hv]; omega
  have enx := log2_ok hnx
  have eny : ny = j + 1 := by
    have := log2_ok hny
    rw [hzl] at this
    rw [this]
    exact Nat.clog_pow 2 _ (by norm_num)
  obtain ⟨a1, a2, a3, a4, a5⟩ := zkProve_len (d := 2) (by
    intro s es hes
    obtain ⟨q, -, hes⟩ := bind_ok hes
    cases hes; rfl) hs1
  obtain ⟨b1, b2, b3, b4, b5⟩ := zkProve_len (d := 1) (by
    intro s es hes
    obtain ⟨q, -, hes⟩ := bind_ok hes
    cases hes; rfl) hs2
  have hL := polyEvalProve_len he
  have hR := polyEvalProve_shape he
  have hry : (s2.2.1.drop 1).length = j := by rw [List.length_drop, b5, eny]; omega
  rw [hry] at hL
  have hcl : cm.1.length = 2 ^ (j / 2) := by
    unfold Dense.commit at hcm
    simp only at hcm
    obtain ⟨_, -, hcm⟩ := bind_ok hcm
    obtain ⟨_, -, hcm⟩ := bind_ok hcm
    obtain ⟨C, hC, hcm⟩ := bind_ok hcm
    cases hcm
    unfold Dense.commitInner at hC
    simp only at hC
    obtain ⟨_, -, hC⟩ := bind_ok hC
    obtain ⟨_, -, hC⟩ := bind_ok hC
    have := mapM_length hC
    have hn : pv.numVars = j := by
      unfold Dense.new at hpv
      obtain ⟨k, hk, hpv⟩ := bind_ok hpv
      cases hpv
      have := log2_ok hk
      rw [hv] at this
      simp only
      rw [this]
      exact Nat.clog_pow 2 _ (by norm_num)
    simp only
    rw [this, List.length_zip, rowsOf_length]
    simp [Tape.nextVec, factoredLens, hn]
  rw [enx] at a1 a2 a3 a5
  rw [eny] at b1 b2 b3 b5
  exact ⟨⟨hcl, a1, a2, a3, a4, b1, b2, b3, b4, hL, by rw [← hR]; exact hL⟩, a5, b5⟩

end Spartan
