import Verif.Lemmas.Oracle
import Verif.Lemmas.Extend
import Verif.Props.SNARKSound
import Verif.Props.Concrete
import Verif.Props.Bias

/-! C87: the non-interactive proofs when the transcript hash is a random function.  `D` is a finite set of
transcripts, and `h : D → W` varies over all functions to hash values; the prover evaluates the hash `q`
times, each time at a transcript computed from the answers so far, and then outputs a proof.  A hash value is
turned into a challenge by `red : W → F`, which takes every value at most `c` times; for `challenge_scalar`
these are the 64-byte strings and `from_bytes_wide` (C89). -/

set_option exponentiation.threshold 2000

namespace Spartan
open Spec
variable {F : Type} [Field F] [DecidableEq F]

theorem pow_pred_mul_le (q d c n : Nat) (hn : 0 < n) (x : Nat) (h : x ≤ q * d * c ^ (n - 1)) :
    x * c ≤ d * q * c ^ n := by
  refine le_trans (Nat.mul_le_mul_right c h) (le_of_eq ?_)
  obtain ⟨m, rfl⟩ : ∃ m, n = m + 1 := ⟨n - 1, by omega⟩
  rw [Nat.add_sub_cancel, pow_succ]
  ring

/-- C87 for `NIZK::verify`.  A prover that evaluates the hash `q` times obtains an accepted proof with folding
vectors of equal length, from which neither a relation between the generators nor a satisfying assignment
can be read off, for at most a fraction `6 q c / |W|` of all hash functions.

`out` is the prover's result: the proof, the public input, and the combination by which each point was made. -/
theorem nizk_fiat_shamir {K : Codec F} {nc nv ni : Nat}
    {A B C : List (Nat × Nat × List UInt8)} {I : Inst F}
    (hnew : Inst.new K nc nv ni A B C = .ok (.ok I)) (hsz : I.inst.numVars ≤ 2 ^ 62) :
    ∃ j, I.inst.numVars = 2 ^ j ∧
    ∀ (G P W : Type) [Fintype W] [Nonempty W] (red : W → F) (c : Nat) [AddCommGroup G] [Module F G] [DecidableEq P] [DecidableEq G] (E : Env F G P)
      (S : GenSrc G) (label : List UInt8) (gens : R1CSGens G) (tr : Tr F P) (D : Finset (Tr F P)) (q : Nat)
      (ask : List W → Tr F (P × Comb F j)) (out : List W → NIZK F P × List F × (P → Comb F j)),
      Fibres red c → E.Lawful → NIZKGens.new S label nv ni = .ok gens → (∀ l, strip (ask l) ∈ D) →
      Set.ncard {h : D → W | ∃ (H : Tr F P → W) (pf : NIZK F P) (input : List F) (rep : P → Comb F j)
          (ms : Tr F P), (∀ t : D, H t = h t) ∧ out (answers H ask q) = (pf, input, rep) ∧
          Asked H ask q rep tr ms ∧
          IsRep E rep (evalComb j (stream S label)) ∧
          pf.sat.evalVars.bullet.L.length = pf.sat.evalVars.bullet.R.length ∧
          NIZK.verify { E with hash := fun t => red (H t) } pf I input gens tr = .ok (tr ++ ms) ∧
          (∀ es, nizkRels { E with hash := fun t => red (H t) } rep (evalComb j (stream S label)) gens (formalGens F j)
            (unit F j (width j)) (unit F j (width j + 1)) pf I input tr = .ok es → ∀ e ∈ es,
              evalComb j (stream S label) e = 0 → e = 0) ∧
          I.isSat (extracted j rep pf.sat.commVars) input ≠ .ok (.ok true)} * Fintype.card W ≤
        6 * c * q * Fintype.card W ^ D.card := by
  obtain ⟨k, j, hk, hj, bad, hb, X⟩ := nizk_knowledge_sound hnew hsz
  refine ⟨j, hj, ?_⟩
  intro G P W _ _ red c _ _ _ _ E S label gens tr D q ask out hred hE hg hD
  refine pow_pred_mul_le q _ _ _ (Finset.card_pos.2 ⟨_, hD []⟩) _ ?_
  refine le_trans (Set.ncard_le_ncard ?_ (Set.toFinite _)) (fiat_shamir_count hred bad hb D ask hD q tr)
  rintro h ⟨H, pf, input, rep, ms, hH, -, hA, hrep, hlen, hv, hno, hns⟩
  obtain ⟨es, hes, ⟨e, he, hne, h0⟩ | hs | ⟨ms', hms, -, hhit⟩⟩ :=
    X G P { E with hash := fun t => red (H t) } S label gens rep pf input tr _ hE hg hrep hlen hv
  · exact absurd (hno es hes e he h0) hne
  · exact absurd hs hns
  · obtain rfl := List.append_cancel_left hms
    exact ⟨H, hH, rep, ms, hA, hhit⟩

/-- C87 for `SNARK::verify`: the fraction of hash functions is at most `4 (3 nz + cells) q c / |W|`. -/
theorem snark_fiat_shamir {K : Codec F} {nc nv ni nz : Nat}
    {A B C : List (Nat × Nat × List UInt8)} {I : Inst F}
    (hnew : Inst.new K nc nv ni A B C = .ok (.ok I)) (hc : 1 ≤ nc)
    (hnz : nextPow2 nz = nextPow2 (max (max I.inst.A.M.length I.inst.B.M.length) I.inst.C.M.length))
    (hnz58 : nextPow2 nz ≤ 2 ^ 58) (hsc : I.inst.numCons ≤ 2 ^ 61) (hsv : I.inst.numVars ≤ 2 ^ 60)
    (hchar : ∀ i : Nat, 0 < i → i ≤ 3 * nextPow2 nz + max I.inst.numCons (2 * I.inst.numVars) → (i : F) ≠ 0) :
    ∃ k j m n, I.inst.numCons = 2 ^ k ∧ I.inst.numVars = 2 ^ j ∧ m = max k (j + 1) ∧ nextPow2 nz = 2 ^ n ∧
    ∀ (G P W : Type) [Fintype W] [Nonempty W] (red : W → F) (c : Nat) [AddCommGroup G] [Module F G] [DecidableEq P] [DecidableEq G] (E : Env F G P)
      (S : GenSrc G) (ls le : List UInt8) (gens : SNARKGens G) (comm : R1CSComm P) (decomm : MultiDense F)
      (tr : Tr F P) (D : Finset (Tr F P)) (q : Nat) (ask : List W → Tr F (P × Comb2 F j (tabSize m n)))
      (out : List W → SNARK F P × List F × (P → Comb2 F j (tabSize m n))),
      Fibres red c → E.Lawful → SNARKGens.new S ls le nc nv ni nz = .ok gens → SNARK.encode E I gens = .ok (comm, decomm) →
      (∀ l, strip (ask l) ∈ D) →
      Set.ncard {h : D → W | ∃ (H : Tr F P → W) (pf : SNARK F P) (input : List F)
          (rep : P → Comb2 F j (tabSize m n)) (ms : Tr F P), (∀ t : D, H t = h t) ∧
          out (answers H ask q) = (pf, input, rep) ∧ Asked H ask q rep tr ms ∧
          IsRep E rep (evalComb2 j (tabSize m n) (stream S ls) (stream S le)) ∧ SNARK.Shaped pf ∧
          SNARK.verify { E with hash := fun t => red (H t) } pf comm input gens tr = .ok (tr ++ ms) ∧
          (∀ es, snarkRels { E with hash := fun t => red (H t) } rep (evalComb2 j (tabSize m n) (stream S ls) (stream S le)) gens
            (satGens F j (tabSize m n)) (unit F j (width j), 0) (unit F j (width j + 1), 0)
            (evalBasis F j (tabSize m n) n m) pf comm decomm input tr = .ok es → ∀ e ∈ es,
              evalComb2 j (tabSize m n) (stream S ls) (stream S le) e = 0 → e = 0) ∧
          I.isSat (extracted j (fun p => (rep p).1) pf.sat.commVars) input ≠ .ok (.ok true)} *
          Fintype.card W ≤
        4 * (3 * 2 ^ n + 2 ^ m) * c * q * Fintype.card W ^ D.card := by
  obtain ⟨k, j, m, n, hk, hj, hm, hn, bad, hb, X⟩ := snark_knowledge_sound hnew hc hnz hnz58 hsc hsv hchar
  refine ⟨k, j, m, n, hk, hj, hm, hn, ?_⟩
  intro G P W _ _ red c _ _ _ _ E S ls le gens comm decomm tr D q ask out hred hE hg henc hD
  refine pow_pred_mul_le q _ _ _ (Finset.card_pos.2 ⟨_, hD []⟩) _ ?_
  refine le_trans (Set.ncard_le_ncard ?_ (Set.toFinite _)) (fiat_shamir_count hred bad hb D ask hD q tr)
  rintro h ⟨H, pf, input, rep, ms, hH, -, hA, hrep, hsh, hv, hno, hns⟩
  obtain ⟨es, hes, ⟨e, he, hne, h0⟩ | hs | ⟨ms', hms, -, hhit⟩⟩ :=
    X G P { E with hash := fun t => red (H t) } S ls le gens comm decomm rep pf input tr _ hE hg henc hrep hsh hv
  · exact absurd (hno es hes e he h0) hne
  · exact absurd hs hns
  · obtain rfl := List.append_cancel_left hms
    exact ⟨H, hH, rep, ms, hA, hhit⟩

/-! ### the actual curve and scalar field -/

/-- On secq256k1 every point is a combination of the generators, as soon as the first one is not the
identity: the representation that the theorems ask for exists. -/
theorem secq_isRep_exists (sqrt : ZMod secpN → Option (ZMod secpN))
    (hash : Tr (ZMod secpP) (List UInt8) → ZMod secpP) (j : Nat) (S : GenSrc Secq) (label : List UInt8)
    (h0 : stream S label 0 ≠ 0) :
    ∃ rep : List UInt8 → Comb (ZMod secpP) j, IsRep (secqEnv sqrt hash) rep (evalComb j (stream S label)) := by
  classical
  have hn : 0 < numGens j := lt_of_lt_of_le (by norm_num) (le_max_right _ _)
  have hs := (secq_cyclic _ h0).2
  refine ⟨fun p i => match (secqEnv sqrt hash).decompress p with
    | some g => if (i : ℕ) = 0 then (hs g).choose else 0
    | none => 0, ?_⟩
  intro p g hg
  change ∑ i : Fin (numGens j), _ • stream S label i = g
  rw [Finset.sum_eq_single ⟨0, hn⟩]
  · simp only [hg, if_true]
    exact (hs g).choose_spec
  · intro b _ hb
    have : (b : ℕ) ≠ 0 := fun h => hb (Fin.ext h)
    simp only [hg, if_neg this, zero_smul]
  · intro h; exact absurd (Finset.mem_univ _) h

/-- Every scalar is the challenge of at most `2^512 / p + 1` byte strings. -/
theorem challenge_fibres : Fibres challengeValue (2 ^ 512 / secpP + 1) := by
  classical
  have : Fintype Bytes64 := Fintype.ofFinite _
  intro x
  refine ⟨Finset.univ.filter fun w => challengeValue w = x, ?_, fun w hw => by simpa using hw⟩
  have h := challenge_count x
  rw [Nat.card_eq_fintype_card, Fintype.card_subtype] at h
  rw [h]
  split_ifs <;> omega

theorem secq_arith {N q Z d a b : Nat} (hd : d * 2 ^ 357 ≤ 2 ^ a) (hab : a + b = 512)
    (h : N * Nat.card Bytes64 ≤ d * (2 ^ 512 / secpP + 1) * q * Z) (hq : q ≤ 2 ^ 100) : N * 2 ^ b ≤ Z := by
  rw [card_bytes64] at h
  have hp : 2 ^ 512 / secpP + 1 ≤ 2 ^ 257 := by decide +kernel
  generalize 2 ^ 512 / secpP + 1 = c at h hp
  have h3 : d * c * q * Z ≤ 2 ^ a * Z := Nat.mul_le_mul_right _ (by
    refine le_trans (Nat.mul_le_mul (Nat.mul_le_mul_left d hp) hq) (le_trans (le_of_eq ?_) hd)
    rw [mul_assoc, ← pow_add])
  have h4 := le_trans h h3
  rw [show (2 : ℕ) ^ 512 = 2 ^ a * 2 ^ b by rw [← pow_add, hab], mul_left_comm] at h4
  exact Nat.le_of_mul_le_mul_left h4 (by positivity)

attribute [local irreducible] challengeValue secqEnv in
theorem secqEnv_hash (sqrt : ZMod secpN → Option (ZMod secpN))
    (h1 h2 : Tr (ZMod secpP) (List UInt8) → ZMod secpP) :
    { secqEnv sqrt h1 with hash := h2 } = secqEnv sqrt h2 := by
  unfold secqEnv
  rfl

theorem secq_isRep_hash {M : Type} [AddCommGroup M] [Module (ZMod secpP) M]
    (sqrt : ZMod secpN → Option (ZMod secpN)) (h1 h2 : Tr (ZMod secpP) (List UInt8) → ZMod secpP)
    (rep : List UInt8 → M) (ev : M →ₗ[ZMod secpP] Secq) :
    IsRep (secqEnv sqrt h1) rep ev ↔ IsRep (secqEnv sqrt h2) rep ev := Iff.rfl

/-- C87 at the actual curve, scalar field and derivation of challenges from 64 bytes of hash output: with at
most `2^100` evaluations of the hash a prover succeeds for a fraction of at most `2^-152` of all hash
functions. -/
theorem nizk_fiat_shamir_secq {sqrt : ZMod secpN → Option (ZMod secpN)} (hs : SqrtSpec sqrt)
    {K : Codec (ZMod secpP)} {nc nv ni : Nat} {A B C : List (Nat × Nat × List UInt8)}
    {I : Inst (ZMod secpP)} (hnew : Inst.new K nc nv ni A B C = .ok (.ok I)) (hsz : I.inst.numVars ≤ 2 ^ 62) :
    ∃ j, I.inst.numVars = 2 ^ j ∧
    ∀ (S : GenSrc Secq) (label : List UInt8) (gens : R1CSGens Secq) (tr : Tr (ZMod secpP) (List UInt8))
      (D : Finset (Tr (ZMod secpP) (List UInt8))) (q : Nat)
      (ask : List Bytes64 → Tr (ZMod secpP) (List UInt8 × Comb (ZMod secpP) j))
      (out : List Bytes64 → NIZK (ZMod secpP) (List UInt8) × List (ZMod secpP) ×
        (List UInt8 → Comb (ZMod secpP) j)),
      NIZKGens.new S label nv ni = .ok gens → (∀ l, strip (ask l) ∈ D) → q ≤ 2 ^ 100 →
      Set.ncard {h : D → Bytes64 | ∃ (H : Tr (ZMod secpP) (List UInt8) → Bytes64)
          (pf : NIZK (ZMod secpP) (List UInt8)) (input : List (ZMod secpP))
          (rep : List UInt8 → Comb (ZMod secpP) j)
          (ms : Tr (ZMod secpP) (List UInt8)), (∀ t : D, H t = h t) ∧
          out (answers H ask q) = (pf, input, rep) ∧ Asked H ask q rep tr ms ∧
          IsRep (secqEnv sqrt fun t => challengeValue (H t)) rep (evalComb j (stream S label)) ∧
          pf.sat.evalVars.bullet.L.length = pf.sat.evalVars.bullet.R.length ∧
          NIZK.verify (secqEnv sqrt fun t => challengeValue (H t)) pf I input gens tr = .ok (tr ++ ms) ∧
          (∀ es, nizkRels (secqEnv sqrt fun t => challengeValue (H t)) rep (evalComb j (stream S label)) gens
            (formalGens (ZMod secpP) j) (unit (ZMod secpP) j (width j)) (unit (ZMod secpP) j (width j + 1))
            pf I input tr = .ok es → ∀ e ∈ es, evalComb j (stream S label) e = 0 → e = 0) ∧
          I.isSat (extracted j rep pf.sat.commVars) input ≠ .ok (.ok true)} * 2 ^ 152 ≤
        Nat.card Bytes64 ^ D.card := by
  have : Fintype Bytes64 := Fintype.ofFinite _
  obtain ⟨j, hj, X⟩ := nizk_fiat_shamir hnew hsz
  refine ⟨j, hj, ?_⟩
  intro S label gens tr D q ask out hg hD hq
  have h := X Secq (List UInt8) Bytes64 challengeValue _ (secqEnv sqrt fun _ => 0) S label gens tr D q ask out
    challenge_fibres (secqEnv_lawful hs _) hg hD
  rw [← Nat.card_eq_fintype_card] at h
  simp only [secqEnv_hash] at h
  refine secq_arith (a := 360) (b := 152) (d := 6) (q := q) (by norm_num) (by norm_num) ?_ hq
  refine le_trans (Nat.mul_le_mul_right _ (le_of_eq (congrArg Set.ncard (Set.ext fun hh => ?_)))) h
  refine exists_congr fun H => exists_congr fun pf => exists_congr fun input => exists_congr fun rep =>
    exists_congr fun ms => ?_
  refine and_congr Iff.rfl (and_congr Iff.rfl (and_congr Iff.rfl (and_congr ?_ Iff.rfl)))
  exact secq_isRep_hash sqrt _ _ rep _

/-- The same for `SNARK::verify` and instances with up to `2^30` non-zero entries and dimensions: with at
most `2^100` evaluations a prover succeeds for a fraction of at most `2^-119` of all hash functions. -/
theorem snark_fiat_shamir_secq {sqrt : ZMod secpN → Option (ZMod secpN)} (hs : SqrtSpec sqrt)
    {K : Codec (ZMod secpP)} {nc nv ni nz : Nat} {A B C : List (Nat × Nat × List UInt8)}
    {I : Inst (ZMod secpP)} (hnew : Inst.new K nc nv ni A B C = .ok (.ok I)) (hc : 1 ≤ nc)
    (hnz : nextPow2 nz = nextPow2 (max (max I.inst.A.M.length I.inst.B.M.length) I.inst.C.M.length))
    (hnz30 : nextPow2 nz ≤ 2 ^ 30) (hsc : I.inst.numCons ≤ 2 ^ 30) (hsv : 2 * I.inst.numVars ≤ 2 ^ 30) :
    ∃ k j m n, I.inst.numCons = 2 ^ k ∧ I.inst.numVars = 2 ^ j ∧ m = max k (j + 1) ∧ nextPow2 nz = 2 ^ n ∧
    ∀ (S : GenSrc Secq) (ls le : List UInt8) (gens : SNARKGens Secq) (comm : R1CSComm (List UInt8))
      (decomm : MultiDense (ZMod secpP)) (tr : Tr (ZMod secpP) (List UInt8))
      (D : Finset (Tr (ZMod secpP) (List UInt8))) (q : Nat)
      (ask : List Bytes64 → Tr (ZMod secpP) (List UInt8 × Comb2 (ZMod secpP) j (tabSize m n)))
      (out : List Bytes64 → SNARK (ZMod secpP) (List UInt8) × List (ZMod secpP) ×
        (List UInt8 → Comb2 (ZMod secpP) j (tabSize m n))),
      SNARKGens.new S ls le nc nv ni nz = .ok gens →
      SNARK.encode (secqEnv sqrt fun _ => 0) I gens = .ok (comm, decomm) →
      (∀ l, strip (ask l) ∈ D) → q ≤ 2 ^ 100 →
      Set.ncard {h : D → Bytes64 | ∃ (H : Tr (ZMod secpP) (List UInt8) → Bytes64)
          (pf : SNARK (ZMod secpP) (List UInt8)) (input : List (ZMod secpP))
          (rep : List UInt8 → Comb2 (ZMod secpP) j (tabSize m n)) (ms : Tr (ZMod secpP) (List UInt8)),
          (∀ t : D, H t = h t) ∧
          out (answers H ask q) = (pf, input, rep) ∧ Asked H ask q rep tr ms ∧
          IsRep (secqEnv sqrt fun t => challengeValue (H t)) rep
            (evalComb2 j (tabSize m n) (stream S ls) (stream S le)) ∧ SNARK.Shaped pf ∧
          SNARK.verify (secqEnv sqrt fun t => challengeValue (H t)) pf comm input gens tr = .ok (tr ++ ms) ∧
          (∀ es, snarkRels (secqEnv sqrt fun t => challengeValue (H t)) rep
            (evalComb2 j (tabSize m n) (stream S ls) (stream S le)) gens
            (satGens (ZMod secpP) j (tabSize m n)) (unit (ZMod secpP) j (width j), 0)
            (unit (ZMod secpP) j (width j + 1), 0)
            (evalBasis (ZMod secpP) j (tabSize m n) n m) pf comm decomm input tr = .ok es → ∀ e ∈ es,
              evalComb2 j (tabSize m n) (stream S ls) (stream S le) e = 0 → e = 0) ∧
          I.isSat (extracted j (fun p => (rep p).1) pf.sat.commVars) input ≠ .ok (.ok true)} * 2 ^ 119 ≤
        Nat.card Bytes64 ^ D.card := by
  have : Fintype Bytes64 := Fintype.ofFinite _
  have hbig : 2 ^ 33 < secpP := by decide +kernel
  obtain ⟨k, j, m, n, hk, hj, hm, hn, X⟩ := snark_fiat_shamir hnew hc hnz
    (le_trans hnz30 (by norm_num)) (le_trans hsc (by norm_num))
    (by have : (2 : ℕ) ^ 30 ≤ 2 ^ 60 := by norm_num
        omega) (by
      intro i hi0 hi h0
      have hi' : i ≤ 3 * 2 ^ 30 + 2 ^ 30 := le_trans hi (by
        have := max_le hsc hsv
        omega)
      rw [ZMod.natCast_eq_zero_iff] at h0
      have := Nat.le_of_dvd hi0 h0
      have h33 : (2 : ℕ) ^ 33 = 8 * 2 ^ 30 := by norm_num
      omega)
  refine ⟨k, j, m, n, hk, hj, hm, hn, ?_⟩
  intro S ls le gens comm decomm tr D q ask out hg henc hD hq
  have h := X Secq (List UInt8) Bytes64 challengeValue _ (secqEnv sqrt fun _ => 0) S ls le gens comm decomm tr
    D q ask out challenge_fibres (secqEnv_lawful hs _) hg henc hD
  have hm30 : 2 ^ m ≤ 2 ^ 30 := by
    rw [hm]
    rcases max_cases k (j + 1) with ⟨e, -⟩ | ⟨e, -⟩
    · rw [e, ← hk]; exact hsc
    · rw [e, pow_succ, mul_comm, ← hj]; exact hsv
  have hn30 : 2 ^ n ≤ 2 ^ 30 := by rw [← hn]; exact hnz30
  have hd : 4 * (3 * 2 ^ n + 2 ^ m) ≤ 2 ^ 34 := by
    have h34 : (2 : ℕ) ^ 34 = 16 * 2 ^ 30 := by norm_num
    omega
  rw [← Nat.card_eq_fintype_card] at h
  simp only [secqEnv_hash] at h
  refine secq_arith (a := 393) (b := 119) (d := 4 * (3 * 2 ^ n + 2 ^ m)) (q := q)
    (le_trans (Nat.mul_le_mul_right _ hd) (by norm_num)) (by norm_num) ?_ hq
  refine le_trans (Nat.mul_le_mul_right _ (le_of_eq (congrArg Set.ncard (Set.ext fun hh => ?_)))) h
  refine exists_congr fun H => exists_congr fun pf => exists_congr fun input => exists_congr fun rep =>
    exists_congr fun ms => ?_
  refine and_congr Iff.rfl (and_congr Iff.rfl (and_congr Iff.rfl (and_congr ?_ Iff.rfl)))
  exact secq_isRep_hash sqrt _ _ rep _

/-! ### the conditions on the prover's evaluations can be met -/

/-- Whoever has a proof can evaluate the hash as `Asked` says: along the verifier's transcript. -/
theorem asked_exists {P M W : Type} (H : Tr F P → W) (rep : P → M) (tr ms : Tr F P) :
    ∃ (D : Finset (Tr F P)) (ask : List W → Tr F (P × M)), (∀ l, strip (ask l) ∈ D) ∧
      Asked H ask ms.length rep tr ms := by
  classical
  refine ⟨(Finset.range (ms.length + 1)).image fun i => tr ++ ms.take i,
    fun l => annot rep (tr ++ ms.take (l.length + 1)), ?_, ?_, ?_, ?_⟩
  · intro l
    rw [strip_annot, Finset.mem_image]
    rcases Nat.lt_or_ge l.length ms.length with h | h
    · exact ⟨l.length + 1, Finset.mem_range.2 (by omega), rfl⟩
    · exact ⟨ms.length, Finset.mem_range.2 (by omega),
        by rw [List.take_of_length_le le_rfl, List.take_of_length_le (by omega)]⟩
  · exact fun i _ => ⟨_, rfl⟩
  · intro i hi a l b h hb
    simp only [query, strip_annot, answers_length] at h ⊢
    rw [List.append_assoc, List.append_cancel_left_eq] at h
    have hlen := congrArg List.length h
    rw [List.length_take, List.length_append, List.length_cons] at hlen
    have hb' := List.length_pos_of_ne_nil hb
    refine ⟨a.length, by omega, ?_⟩
    have h2 := congrArg (List.take (a.length + 1)) h
    rw [List.take_take, show min (a.length + 1) (i + 1) = a.length + 1 by omega] at h2
    rw [h2, List.append_assoc]
    congr 1
    rw [List.take_append, List.take_of_length_le (by omega)]
    simp
  · intro a l b h
    refine ⟨a.length, by rw [h]; simp, ?_⟩
    simp only [query, strip_annot, answers_length]
    rw [h, List.append_assoc]
    congr 1
    rw [List.take_append, List.take_of_length_le (by omega)]
    simp

/-- A prover who knows an assignment runs as the theorems describe: at the actual curve, for every
satisfied instance, every hash that does not return 0 and every random tape, the proof is accepted and all
conditions on the prover hold, for a prover evaluating the hash along the transcript. -/
theorem nizk_honest_asked {sqrt : ZMod secpN → Option (ZMod secpN)} (hs : SqrtSpec sqrt)
    {H : Tr (ZMod secpP) (List UInt8) → Bytes64} (hH : ∀ t, challengeValue (H t) ≠ 0)
    {K : Codec (ZMod secpP)} {nc nv ni : Nat} {A B C : List (Nat × Nat × List UInt8)}
    {I : Inst (ZMod secpP)} (hnew : Inst.new K nc nv ni A B C = .ok (.ok I)) (hc : 1 ≤ nc)
    (hsz : I.inst.numVars ≤ 2 ^ 62) (S : GenSrc Secq) (label : List UInt8) (h0 : stream S label 0 ≠ 0)
    {vars inputs : List (ZMod secpP)} (hsat : I.isSat vars inputs = .ok (.ok true))
    (tr : Tr (ZMod secpP) (List UInt8)) (tape : Tape (ZMod secpP)) (j : Nat) :
    ∃ gens pf rep ms D q, ∃ ask : List Bytes64 → Tr (ZMod secpP) (List UInt8 × Comb (ZMod secpP) j),
      NIZKGens.new S label nv ni = .ok gens ∧ (∀ l, strip (ask l) ∈ (D : Finset _)) ∧
      Asked H ask q rep tr ms ∧ IsRep (secqEnv sqrt fun t => challengeValue (H t)) rep (evalComb j (stream S label)) ∧
      pf.sat.evalVars.bullet.L.length = pf.sat.evalVars.bullet.R.length ∧
      NIZK.prove (secqEnv sqrt fun t => challengeValue (H t)) I vars inputs gens tr tape = .ok (pf, tr ++ ms) ∧
      NIZK.verify (secqEnv sqrt fun t => challengeValue (H t)) pf I inputs gens tr = .ok (tr ++ ms) := by
  obtain ⟨gens, hg, ⟨pf, tr', hp, hv⟩ | ⟨-, t, ht⟩⟩ := nizk_complete_secq hs (fun t => challengeValue (H t)) hnew hc hsz S label hsat tr tape
  · obtain ⟨ms, rfl⟩ := nizk_verify_extends hv
    obtain ⟨rep, hrep⟩ := secq_isRep_exists sqrt (fun t => challengeValue (H t)) j S label h0
    obtain ⟨D, ask, hD, hA⟩ := asked_exists H rep tr ms
    exact ⟨gens, pf, rep, ms, D, _, ask, hg, hD, hA, hrep, nizk_prove_shape hp, hp, hv⟩
  · exact absurd ht (hH _)

end Spartan
