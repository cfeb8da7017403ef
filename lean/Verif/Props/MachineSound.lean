import Verif.Props.Anon
import Verif.Props.FiatShamir

/-!
C130: C87 on the limbs and points of the program.
-/

set_option exponentiation.threshold 2000

namespace Spartan.Mach
open MParams Spec Pt

variable {f : Formulas}

attribute [local irreducible] secpP challengeValue scalarOf

theorem fibres_val {W : Type} {red : W → Sc} {red' : W → ZMod secpP} {c : Nat} (h : ∀ w, (red w).val = red' w)
    (hf : Fibres red' c) : Fibres red c := by
  intro x
  obtain ⟨S, hS, hm⟩ := hf x.val
  exact ⟨S, hS, fun w hw => hm w (by rw [← h, hw])⟩

theorem scalarOf_val (w : Bytes64) : (scalarOf w).val = challengeValue w := by
  refine Sc.val_of ?_
  unfold scalarOf
  exact (challengeValue_eq w).2

/-- Every scalar is the challenge of at most `2^512 / p + 1` byte strings. -/
theorem scalarOf_fibres : Fibres scalarOf (2 ^ 512 / secpP + 1) :=
  fibres_val scalarOf_val challenge_fibres

/-- C130 for `NIZK::verify`: with at most `2^100` evaluations of the hash a prover obtains a proof that the program
accepts, from which neither a relation between the generators nor a satisfying assignment can be read off, for a fraction
of at most `2^-152` of all hash functions.  Scalars and points are limbs, challenges are reduced by `from_bytes_wide`. -/
theorem machine_nizk_sound (f : Formulas) (name : String) {digest : R1CS Sc → List UInt8} {nc nv ni : Nat}
    {A B C : List (Nat × Nat × List UInt8)} {I : Inst Sc}
    (hnew : Inst.new (codec digest) nc nv ni A B C = .ok (.ok I)) (hsz : I.inst.numVars ≤ 2 ^ 62) :
    ∃ j, I.inst.numVars = 2 ^ j ∧
    ∀ (S : GenSrc (GE f)) (label : List UInt8) (gens : R1CSGens (GE f)) (tr : Tr Sc EncPt)
      (D : Finset (Tr Sc EncPt)) (q : Nat) (ask : List Bytes64 → Tr Sc (EncPt × Comb Sc j))
      (out : List Bytes64 → NIZK Sc EncPt × List Sc × (EncPt → Comb Sc j)),
      NIZKGens.new S label nv ni = .ok gens → (∀ l, strip (ask l) ∈ D) → q ≤ 2 ^ 100 →
      Set.ncard {h : D → Bytes64 | ∃ (H : Tr Sc EncPt → Bytes64) (pf : NIZK Sc EncPt) (input : List Sc)
          (rep : EncPt → Comb Sc j) (ms : Tr Sc EncPt), (∀ t : D, H t = h t) ∧
          out (answers H ask q) = (pf, input, rep) ∧ Asked H ask q rep tr ms ∧
          IsRep (env f name) rep (evalComb j (stream S label)) ∧
          pf.sat.evalVars.bullet.L.length = pf.sat.evalVars.bullet.R.length ∧
          NIZK.verify ((env f name).withHash fun t => scalarOf (H t)) pf I input gens tr = .ok (tr ++ ms) ∧
          (∀ es, nizkRels ((env f name).withHash fun t => scalarOf (H t)) rep (evalComb j (stream S label)) gens
            (formalGens Sc j) (unit Sc j (width j)) (unit Sc j (width j + 1))
            pf I input tr = .ok es → ∀ e ∈ es, evalComb j (stream S label) e = 0 → e = 0) ∧
          I.isSat (extracted j rep pf.sat.commVars) input ≠ .ok (.ok true)} * 2 ^ 152 ≤
        Nat.card Bytes64 ^ D.card := by
  have : Fintype Bytes64 := Fintype.ofFinite _
  obtain ⟨j, hj, X⟩ := nizk_fiat_shamir hnew hsz
  refine ⟨j, hj, ?_⟩
  intro S label gens tr D q ask out hg hD hq
  have h := X (GE f) EncPt Bytes64 scalarOf _ (env f name) S label gens tr D q ask out
    scalarOf_fibres (machine_encodings (f := f) name).2.2 hg hD
  rw [← Nat.card_eq_fintype_card] at h
  exact secq_arith (a := 360) (b := 152) (d := 6) (q := q) (by norm_num) (by norm_num) h hq

/-- C130 for `SNARK::verify` and instances with up to `2^30` non-zero entries and dimensions: the fraction is at most
`2^-119`. -/
theorem machine_snark_sound (f : Formulas) (name : String) {digest : R1CS Sc → List UInt8} {nc nv ni nz : Nat}
    {A B C : List (Nat × Nat × List UInt8)} {I : Inst Sc}
    (hnew : Inst.new (codec digest) nc nv ni A B C = .ok (.ok I)) (hc : 1 ≤ nc)
    (hnz : nextPow2 nz = nextPow2 (max (max I.inst.A.M.length I.inst.B.M.length) I.inst.C.M.length))
    (hnz30 : nextPow2 nz ≤ 2 ^ 30) (hsc : I.inst.numCons ≤ 2 ^ 30) (hsv : 2 * I.inst.numVars ≤ 2 ^ 30) :
    ∃ k j m n, I.inst.numCons = 2 ^ k ∧ I.inst.numVars = 2 ^ j ∧ m = max k (j + 1) ∧ nextPow2 nz = 2 ^ n ∧
    ∀ (S : GenSrc (GE f)) (ls le : List UInt8) (gens : SNARKGens (GE f)) (comm : R1CSComm EncPt)
      (decomm : MultiDense Sc) (tr : Tr Sc EncPt) (D : Finset (Tr Sc EncPt)) (q : Nat)
      (ask : List Bytes64 → Tr Sc (EncPt × Comb2 Sc j (tabSize m n)))
      (out : List Bytes64 → SNARK Sc EncPt × List Sc × (EncPt → Comb2 Sc j (tabSize m n))),
      SNARKGens.new S ls le nc nv ni nz = .ok gens → SNARK.encode (env f name) I gens = .ok (comm, decomm) →
      (∀ l, strip (ask l) ∈ D) → q ≤ 2 ^ 100 →
      Set.ncard {h : D → Bytes64 | ∃ (H : Tr Sc EncPt → Bytes64) (pf : SNARK Sc EncPt) (input : List Sc)
          (rep : EncPt → Comb2 Sc j (tabSize m n)) (ms : Tr Sc EncPt), (∀ t : D, H t = h t) ∧
          out (answers H ask q) = (pf, input, rep) ∧ Asked H ask q rep tr ms ∧
          IsRep (env f name) rep (evalComb2 j (tabSize m n) (stream S ls) (stream S le)) ∧ SNARK.Shaped pf ∧
          SNARK.verify ((env f name).withHash fun t => scalarOf (H t)) pf comm input gens tr = .ok (tr ++ ms) ∧
          (∀ es, snarkRels ((env f name).withHash fun t => scalarOf (H t)) rep
            (evalComb2 j (tabSize m n) (stream S ls) (stream S le)) gens
            (satGens Sc j (tabSize m n)) (unit Sc j (width j), 0) (unit Sc j (width j + 1), 0)
            (evalBasis Sc j (tabSize m n) n m) pf comm decomm input tr = .ok es → ∀ e ∈ es,
              evalComb2 j (tabSize m n) (stream S ls) (stream S le) e = 0 → e = 0) ∧
          I.isSat (extracted j (fun p => (rep p).1) pf.sat.commVars) input ≠ .ok (.ok true)} * 2 ^ 119 ≤
        Nat.card Bytes64 ^ D.card := by
  have : Fintype Bytes64 := Fintype.ofFinite _
  have hbig : 2 ^ 33 < secpP := by decide +kernel
  obtain ⟨k, j, m, n, hk, hj, hm, hn, X⟩ := snark_fiat_shamir hnew hc hnz
    (le_trans hnz30 (by norm_num)) (le_trans hsc (by norm_num))
    (by have : (2 : ℕ) ^ 30 ≤ 2 ^ 60 := by norm_num
        omega) (by
      intro i hi0 hi h0
      have hi' : i ≤ 3 * 2 ^ 30 + 2 ^ 30 := le_trans hi (by
        have := max_le hsc hsv
        omega)
      have h0' := congrArg Sc.val h0
      rw [val_natCast, val_zero, ZMod.natCast_eq_zero_iff] at h0'
      have := Nat.le_of_dvd hi0 h0'
      have h33 : (2 : ℕ) ^ 33 = 8 * 2 ^ 30 := by norm_num
      omega)
  refine ⟨k, j, m, n, hk, hj, hm, hn, ?_⟩
  intro S ls le gens comm decomm tr D q ask out hg henc hD hq
  have h := X (GE f) EncPt Bytes64 scalarOf _ (env f name) S ls le gens comm decomm tr
    D q ask out scalarOf_fibres (machine_encodings (f := f) name).2.2 hg henc hD
  have hm30 : 2 ^ m ≤ 2 ^ 30 := by
    rw [hm]
    rcases max_cases k (j + 1) with ⟨e, -⟩ | ⟨e, -⟩
    · rw [e, ← hk]; exact hsc
    · rw [e, pow_succ, mul_comm, ← hj]; exact hsv
  have hn30 : 2 ^ n ≤ 2 ^ 30 := by rw [← hn]; exact hnz30
  have hd : 4 * (3 * 2 ^ n + 2 ^ m) ≤ 2 ^ 34 := by
    have h34 : (2 : ℕ) ^ 34 = 16 * 2 ^ 30 := by norm_num
    omega
  rw [← Nat.card_eq_fintype_card] at h
  exact secq_arith (a := 393) (b := 119) (d := 4 * (3 * 2 ^ n + 2 ^ m)) (q := q)
    (le_trans (Nat.mul_le_mul_right _ hd) (by norm_num)) (by norm_num) h hq

/-! ### the conditions on the prover can be met -/

/-- Every encoding of a point has a representation, as soon as the first generator is not the identity. -/
theorem machine_isRep (f : Formulas) (name : String) (j : Nat) (S : GenSrc (GE f)) (label : List UInt8)
    (h0 : stream S label 0 ≠ 0) :
    ∃ rep : EncPt → Comb Sc j, IsRep (env f name) rep (evalComb j (stream S label)) := by
  classical
  have hn : 0 < numGens j := lt_of_lt_of_le (by norm_num) (le_max_right _ _)
  have hs := (ge_cyclic h0).2
  refine ⟨fun p i => match (env f name).decompress p with
    | some g => if (i : ℕ) = 0 then (hs g).choose else 0
    | none => 0, ?_⟩
  intro p g hg
  change ∑ i : Fin (numGens j), _ • stream S label i = g
  rw [Finset.sum_eq_single ⟨0, hn⟩]
  · simp only [hg, if_true]
    exact (hs g).choose_spec
  · intro b _ hb
    have : (b : ℕ) ≠ 0 := fun h => hb (Fin.ext h)
    simp only [hg, if_neg this, zero_smul]
  · intro h; exact absurd (Finset.mem_univ _) h

/-- A prover who knows an assignment runs as `machine_nizk_sound` describes: the proof of the program is accepted and all
conditions on the prover hold, for a prover evaluating the hash along the transcript, unless the hash returns zero to a
folding challenge. -/
theorem machine_honest_asked (f : Formulas) (name : String) {H : Tr Sc EncPt → Bytes64}
    (hH : ∀ t, scalarOf (H (t ++ [.chal "u"])) ≠ 0) {digest : R1CS Sc → List UInt8}
    {nc nv ni : Nat} {A B C : List (Nat × Nat × List UInt8)} {I : Inst Sc}
    (hnew : Inst.new (codec digest) nc nv ni A B C = .ok (.ok I)) (hc : 1 ≤ nc)
    (hsz : I.inst.numVars ≤ 2 ^ 62) (S : GenSrc (GE f)) (label : List UInt8) (h0 : stream S label 0 ≠ 0)
    {vars inputs : List Sc} (hsat : I.isSat vars inputs = .ok (.ok true)) (tr : Tr Sc EncPt) (tape : Tape Sc) (j : Nat) :
    ∃ gens pf rep ms D q, ∃ ask : List Bytes64 → Tr Sc (EncPt × Comb Sc j),
      NIZKGens.new S label nv ni = .ok gens ∧ (∀ l, strip (ask l) ∈ (D : Finset _)) ∧
      Asked H ask q rep tr ms ∧ IsRep (env f name) rep (evalComb j (stream S label)) ∧
      pf.sat.evalVars.bullet.L.length = pf.sat.evalVars.bullet.R.length ∧
      NIZK.prove ((env f name).withHash fun t => scalarOf (H t)) I vars inputs gens tr tape = .ok (pf, tr ++ ms) ∧
      NIZK.verify ((env f name).withHash fun t => scalarOf (H t)) pf I inputs gens tr = .ok (tr ++ ms) := by
  obtain ⟨gens, pf, tr', hg, hp, hv⟩ := nizk_complete_nonzero two_ne three_ne
    ((machine_encodings (f := f) name).2.2.withHash fun t => scalarOf (H t)) hH hnew hc hsz S label hsat tr tape
  obtain ⟨ms, rfl⟩ := nizk_verify_extends hv
  obtain ⟨rep, hrep⟩ := machine_isRep f name j S label h0
  obtain ⟨D, ask, hD, hA⟩ := asked_exists H rep tr ms
  exact ⟨gens, pf, rep, ms, D, _, ask, hg, hD, hA, hrep, nizk_prove_shape hp, hp, hv⟩

theorem sc_one (digest : R1CS Sc → List UInt8) : (codec digest).fromBytes (encField 1) = some 1 := by
  obtain ⟨a, e, ha⟩ := field_bytes digest (w := 1) (by unfold secpP; norm_num)
  rw [e]
  congr 1
  refine Sc.val_inj ?_
  rw [ha, ← val_natCast, Nat.cast_one]

/-- The conditions are met by the system `x * 1 = x` with `x = 5`, generators that are all the base point, and a hash
whose output is always the bytes of one. -/
example (f : Formulas) (digest : R1CS Sc → List UInt8) (tape : Tape Sc) :
    ∃ (S : GenSrc (GE f)) (H : Tr Sc EncPt → Bytes64) (I : Inst Sc),
      Inst.new (codec digest) 1 1 0 [(0, 0, encField 1)] [(0, 1, encField 1)] [(0, 0, encField 1)] = .ok (.ok I) ∧
      I.isSat [5] [] = .ok (.ok true) ∧
    ∃ gens pf rep ms D q, ∃ ask : List Bytes64 → Tr Sc (EncPt × Comb Sc 1),
      NIZKGens.new S [] 1 0 = .ok gens ∧ (∀ l, strip (ask l) ∈ (D : Finset _)) ∧
      Asked H ask q rep [] ms ∧ IsRep (env f "test") rep (evalComb 1 (stream S [])) ∧
      pf.sat.evalVars.bullet.L.length = pf.sat.evalVars.bullet.R.length ∧
      NIZK.prove ((env f "test").withHash fun t => scalarOf (H t)) I [5] [] gens [] tape = .ok (pf, [] ++ ms) ∧
      NIZK.verify ((env f "test").withHash fun t => scalarOf (H t)) pf I [] gens [] = .ok ([] ++ ms) := by
  have hw : (1 :: List.replicate 63 (0 : UInt8)).length = 64 := rfl
  obtain ⟨I, hI⟩ := (instance_new_ok_iff (codec digest) 1 1 0 [(0, 0, encField 1)] [(0, 1, encField 1)]
    [(0, 0, encField 1)]).2 (by simp [sc_one])
  have hv : I.inst.numVars = varsPadded 1 0 := by
    obtain ⟨-, -, -, rfl⟩ := new_ok_entries hI
    rfl
  have hp : varsPadded 1 0 = 1 := by rw [varsPadded_eq]; exact nextPow2_pow 0
  obtain ⟨b, hb, hiff⟩ := padding_preserves_sat hI (vars := [5]) (inputs := []) (by rw [hv, hp]; rfl) rfl
  have hsat : I.isSat [5] [] = .ok (.ok true) := by
    rw [hb]
    congr 2
    refine hiff.2 fun i hi => ?_
    obtain rfl : i = 0 := by omega
    rw [rowDot_eq _ (by simp [parsed, zvec, fit_length]), rowDot_eq _ (by simp [parsed, zvec, fit_length])]
    simp [parsed, sc_one, zvec, fit]
  have hg : IsPoint affGenerator _ := point_constants.2.1
  have hg0 : (⟨affGenerator, _, hg⟩ : GE f) ≠ 0 := by
    intro h
    have h1 := congrArg GE.val h
    rw [GE.val_of hg, ge_zero] at h1
    have h2 := point_constants.2.2
    rw [h1, addOrderOf_zero] at h2
    exact absurd h2 (by unfold secpP; norm_num)
  exact ⟨⟨fun _ _ => 0, fun _ => ⟨affGenerator, _, hg⟩⟩, fun _ => ⟨_, hw⟩, I, hI, hsat,
    machine_honest_asked f "test" (fun t => by
      intro h
      have := congrArg Sc.val h
      rw [scalarOf_val, val_zero, (challengeValue_eq _).1] at this
      rw [show leNat (1 :: List.replicate 63 (0 : UInt8)) = 1 from rfl, Nat.cast_one] at this
      exact one_ne_zero this) hI le_rfl (by rw [hv, hp]; norm_num) ⟨fun _ _ => 0, fun _ => ⟨affGenerator, _, hg⟩⟩ [] hg0 hsat [] tape 1⟩

end Spartan.Mach
