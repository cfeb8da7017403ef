import Verif.Props.Poseidon
import Verif.Props.Circuits

/-!
C46, C48, C49, C56: the Poseidon, Merkle and membership circuits.
-/

namespace Spartan.Circuit

open Spec

section AnyField
variable {F : Type} [Field F]

/-- The Poseidon hash with the parameters of `k256_consts.rs`. -/
def H (a b : F) : F := (k256Params F).hash a b

/-- Rust and circom use the same constants. -/
theorem constants_agree : circomRoundKeys = k256RoundConstants ∧ circomMds = k256Mds ∧
    k256RoundConstants.length = 192 ∧ k256NumFullRounds = 8 ∧ k256NumPartialRounds = 56 := by
  refine ⟨?_, ?_, ?_, rfl, rfl⟩ <;> decide +kernel

theorem sBox_iff {x o : F} : SBox x o ↔ o = x ^ 5 := by
  constructor
  · rintro ⟨d, q, rfl, rfl, rfl⟩; ring
  · rintro rfl; exact ⟨_, _, rfl, rfl, by ring⟩

/-- A state of three signals. -/
def st (s : ℕ → F) : Fin 3 → F := fun j => s j

theorem st_eq {s t : ℕ → F} : st s = st t ↔ ∀ i < 3, s i = t i := by
  constructor
  · intro h i hi; exact congrFun h ⟨i, hi⟩
  · intro h; funext i; exact h i i.2

theorem matrixMul_iff {s o : ℕ → F} :
    MatrixMul s o ↔ st o = fun i => ∑ j, (k256Params F).mds i j * st s j := by
  constructor
  · intro h; funext i
    rw [st, h i i.2, Finset.sum_range, constants_agree.2.1]
    exact Finset.sum_congr rfl fun j _ => mul_comm _ _
  · intro h i hi
    have := congrFun h ⟨i, hi⟩
    rw [Finset.sum_range, constants_agree.2.1]
    exact this.trans (Finset.sum_congr rfl fun j _ => mul_comm _ _)

theorem addRoundConst_iff {r : ℕ} {s o : ℕ → F} :
    AddRoundConst (r * 3) s o ↔ st o = fun j => st s j + (k256Params F).rc r j := by
  have e : ∀ i, circomRoundKeys.getD (r * 3 + i) 0 = k256RoundConstants.getD (3 * r + i) 0 := by
    intro i; rw [constants_agree.1, mul_comm]
  constructor
  · intro h; funext j
    rw [st, h j j.2, e]; rfl
  · intro h i hi
    rw [e]; exact congrFun h ⟨i, hi⟩

theorem fullRound_iff {r : ℕ} {s o : ℕ → F} (hr : r < 4 ∨ 60 ≤ r) :
    FullRound (r * 3) s o ↔ st o = (k256Params F).round r (st s) := by
  have hf : (k256Params F).isFull r = true := by
    simpa [PoseidonParams.isFull, k256Params, k256NumFullRounds, k256NumPartialRounds] using hr
  have e : (k256Params F).round r (st s) = fun i => ∑ j, (k256Params F).mds i j *
      (st s j + (k256Params F).rc r j) ^ 5 := by
    funext i; simp [PoseidonParams.round, hf]
  rw [e]
  constructor
  · rintro ⟨c, b, h1, h2, h3⟩
    rw [matrixMul_iff.mp h3]
    funext i
    refine Finset.sum_congr rfl fun j _ => ?_
    rw [show st b j = _ from sBox_iff.mp (h2 j j.2), show c j = _ from congrFun (addRoundConst_iff.mp h1) j]
  · intro h
    refine ⟨fun j => if h : j < 3 then st s ⟨j, h⟩ + (k256Params F).rc r ⟨j, h⟩ else 0,
      fun j => if h : j < 3 then (st s ⟨j, h⟩ + (k256Params F).rc r ⟨j, h⟩) ^ 5 else 0, ?_, ?_, ?_⟩
    · rw [addRoundConst_iff]; funext j; simp [st]
    · intro i hi; rw [sBox_iff]; simp [hi]
    · rw [matrixMul_iff, h]; funext i
      refine Finset.sum_congr rfl fun j _ => ?_
      simp [st]

theorem partialRound_iff {r : ℕ} {s o : ℕ → F} (hr : 4 ≤ r ∧ r < 60) :
    PartialRound (r * 3) s o ↔ st o = (k256Params F).round r (st s) := by
  have hf : (k256Params F).isFull r = false := by
    simpa [PoseidonParams.isFull, k256Params, k256NumFullRounds, k256NumPartialRounds] using hr
  have e : (k256Params F).round r (st s) = fun i => ∑ j, (k256Params F).mds i j *
      (if j = 0 then (st s j + (k256Params F).rc r j) ^ 5 else st s j + (k256Params F).rc r j) := by
    funext i; simp [PoseidonParams.round, hf]
  rw [e]
  constructor
  · rintro ⟨c, b, h1, h2, h3⟩
    rw [matrixMul_iff.mp h3]
    funext i
    refine Finset.sum_congr rfl fun j _ => ?_
    have hc : ∀ j : Fin 3, c j = _ := congrFun (addRoundConst_iff.mp h1)
    congr 1
    simp only [st]
    by_cases hj : j = 0
    · subst hj
      simp only [Fin.val_zero, if_true]
      rw [sBox_iff.mp h2]
      exact congrArg (· ^ 5) (hc 0)
    · have : (j : ℕ) ≠ 0 := fun h => hj (Fin.ext h)
      rw [if_neg this, if_neg hj]
      exact hc j
  · intro h
    refine ⟨fun j => if h : j < 3 then st s ⟨j, h⟩ + (k256Params F).rc r ⟨j, h⟩ else 0,
      (st s 0 + (k256Params F).rc r 0) ^ 5, ?_, ?_, ?_⟩
    · rw [addRoundConst_iff]; funext j; simp [st]
    · rw [sBox_iff]; simp
    · rw [matrixMul_iff, h]; funext i
      refine Finset.sum_congr rfl fun j _ => ?_
      congr 1
      by_cases hj : j = 0
      · subst hj; simp [st]
      · have : (j : ℕ) ≠ 0 := fun h => hj (Fin.ext h)
        simp [st, hj]

/-- The outputs of the rounds are the states of the specification. -/
theorem poseidonWith_iff {i0 : ℕ → F} {f p l : ℕ → ℕ → F} {a b out : F} :
    PoseidonWith i0 f p l a b out ↔ st i0 = ![3, a, b] ∧
      (∀ j < 4, st (f j) = (k256Params F).rounds (j + 1) ![3, a, b]) ∧
      (∀ j < 56, st (p j) = (k256Params F).rounds (4 + j + 1) ![3, a, b]) ∧
      (∀ j < 4, st (l j) = (k256Params F).rounds (60 + j + 1) ![3, a, b]) ∧ out = H a b := by
  have hi : (i0 0 = 3 ∧ i0 1 = a ∧ i0 2 = b) ↔ st i0 = ![3, a, b] := by
    constructor
    · rintro ⟨h0, h1, h2⟩; funext i; fin_cases i
      · exact h0
      · exact h1
      · exact h2
    · intro h
      exact ⟨congrFun h 0, congrFun h 1, congrFun h 2⟩
  have hH : ∀ x : F, (st (l 3) = (k256Params F).rounds (60 + 3 + 1) ![3, a, b]) →
      (x = l 3 1 ↔ x = H a b) := by
    intro x h
    have e : 2 * ((k256Params F).rf / 2) + (k256Params F).rp = 60 + 3 + 1 := by
      norm_num [k256Params, k256NumFullRounds, k256NumPartialRounds]
    rw [H, PoseidonParams.hash, PoseidonParams.perm, e, ← h]
    exact Iff.rfl
  constructor
  · rintro ⟨h0, h1, h2, hf, hp, hl, ho⟩
    have hi0 := hi.mp ⟨h0, h1, h2⟩
    have f' : ∀ j < 4, st (f j) = (k256Params F).rounds (j + 1) ![3, a, b] := by
      intro j
      induction j with
      | zero =>
        intro _
        have := (fullRound_iff (r := 0) (by omega)).mp (hf 0 (by omega))
        rw [if_pos rfl, hi0] at this; exact this
      | succ j ih =>
        intro hj
        have := (fullRound_iff (r := j + 1) (by omega)).mp (hf (j + 1) hj)
        rw [if_neg (by omega), Nat.add_sub_cancel, ih (by omega)] at this
        exact this
    have p' : ∀ j < 56, st (p j) = (k256Params F).rounds (4 + j + 1) ![3, a, b] := by
      intro j
      induction j with
      | zero =>
        intro _
        have := (partialRound_iff (r := 4 + 0) (by omega)).mp (hp 0 (by omega))
        rw [if_pos rfl, f' 3 (by omega)] at this; exact this
      | succ j ih =>
        intro hj
        have := (partialRound_iff (r := 4 + (j + 1)) (by omega)).mp (hp (j + 1) hj)
        rw [if_neg (by omega), Nat.add_sub_cancel, ih (by omega)] at this
        exact this
    have l' : ∀ j < 4, st (l j) = (k256Params F).rounds (60 + j + 1) ![3, a, b] := by
      intro j
      induction j with
      | zero =>
        intro _
        have := (fullRound_iff (r := 60 + 0) (by omega)).mp (hl 0 (by omega))
        rw [if_pos rfl, p' 55 (by omega)] at this; exact this
      | succ j ih =>
        intro hj
        have := (fullRound_iff (r := 60 + (j + 1)) (by omega)).mp (hl (j + 1) hj)
        rw [if_neg (by omega), Nat.add_sub_cancel, ih (by omega)] at this
        exact this
    exact ⟨hi0, f', p', l', (hH out (l' 3 (by omega))).mp ho⟩
  · rintro ⟨hi0, hf, hp, hl, ho⟩
    obtain ⟨h0, h1, h2⟩ := hi.mpr hi0
    refine ⟨h0, h1, h2, ?_, ?_, ?_, (hH out (hl 3 (by omega))).mpr ho⟩
    · intro j hj
      rw [fullRound_iff (by omega), hf j hj]
      rcases j with _ | j
      · rw [if_pos rfl, hi0]; rfl
      · rw [if_neg (by omega), Nat.add_sub_cancel, hf j (by omega)]; rfl
    · intro j hj
      rw [partialRound_iff (by omega), hp j hj]
      rcases j with _ | j
      · rw [if_pos rfl, hf 3 (by omega)]; rfl
      · rw [if_neg (by omega), Nat.add_sub_cancel, hp j (by omega)]; rfl
    · intro j hj
      rw [fullRound_iff (by omega), hl j hj]
      rcases j with _ | j
      · rw [if_pos rfl, hp 55 (by omega)]; rfl
      · rw [if_neg (by omega), Nat.add_sub_cancel, hl j (by omega)]; rfl

/-- The Poseidon circuit has a solution for every input and its output is the Poseidon hash with the
constants of `k256_consts.rs`. -/
theorem poseidon_circuit_iff {a b out : F} : Poseidon a b out ↔ out = H a b := by
  constructor
  · rintro ⟨i0, f, p, l, h⟩; exact (poseidonWith_iff.mp h).2.2.2.2
  · intro h
    refine ⟨fun i => if h : i < 3 then ![3, a, b] ⟨i, h⟩ else 0,
      fun j i => if h : i < 3 then (k256Params F).rounds (j + 1) ![3, a, b] ⟨i, h⟩ else 0,
      fun j i => if h : i < 3 then (k256Params F).rounds (4 + j + 1) ![3, a, b] ⟨i, h⟩ else 0,
      fun j i => if h : i < 3 then (k256Params F).rounds (60 + j + 1) ![3, a, b] ⟨i, h⟩ else 0,
      poseidonWith_iff.mpr ⟨?_, ?_, ?_, ?_, h⟩⟩ <;> intros <;> funext i <;> simp [st]

/-- All signals of the Poseidon circuit are determined by its inputs. -/
theorem poseidon_witness_unique {i0 i0' : ℕ → F} {f p l f' p' l' : ℕ → ℕ → F} {a b out out' : F}
    (h : PoseidonWith i0 f p l a b out) (h' : PoseidonWith i0' f' p' l' a b out') :
    (∀ i < 3, i0 i = i0' i) ∧ (∀ j < 4, ∀ i < 3, f j i = f' j i) ∧
    (∀ j < 56, ∀ i < 3, p j i = p' j i) ∧ (∀ j < 4, ∀ i < 3, l j i = l' j i) ∧ out = out' := by
  obtain ⟨a1, a2, a3, a4, a5⟩ := poseidonWith_iff.mp h
  obtain ⟨b1, b2, b3, b4, b5⟩ := poseidonWith_iff.mp h'
  exact ⟨st_eq.mp (a1.trans b1.symm), fun j hj => st_eq.mp ((a2 j hj).trans (b2 j hj).symm),
    fun j hj => st_eq.mp ((a3 j hj).trans (b3 j hj).symm),
    fun j hj => st_eq.mp ((a4 j hj).trans (b4 j hj).symm), a5.trans b5.symm⟩

end AnyField

/-- C46: the circuit is satisfied exactly by the value the exported Rust function returns. -/
theorem poseidon_circuit_native {a b : Limbs} {x y : Fp} (ha : a.Rep secpP x) (hb : b.Rep secpP y) :
    ∃ h, k256Hash FieldImpl.secp a b = .ok h ∧ ∀ out : Fp, Poseidon x y out ↔ h.Rep secpP out := by
  obtain ⟨h, e, hr⟩ := k256_hash_correct ha hb
  refine ⟨h, e, fun out => ?_⟩
  rw [poseidon_circuit_iff, H]
  constructor
  · intro ho; rw [ho]; exact hr
  · intro ho
    exact MParams.rep_unique FieldCode.secp.valid ho hr

/-- Non-vacuity: the circuit accepts the native hash of 5 and 7, and no other value. -/
example : ∃ h, k256Hash FieldImpl.secp (paramsP.fromU64 5) (paramsP.fromU64 7) = .ok h ∧
    ∀ out : Fp, Poseidon 5 7 out ↔ h.Rep secpP out :=
  poseidon_circuit_native ((field_reductions .secp).2.2 5) ((field_reductions .secp).2.2 7)

/-! ### C48, C49: Merkle inclusion -/

section Merkle
variable {F : Type} [Field F]

theorem bit_cases {x : F} : x * (1 - x) = 0 ↔ ∃ b : Bool, x = if b then 1 else 0 := by
  constructor
  · intro h
    rcases mul_eq_zero.mp h with h | h
    · exact ⟨false, by simpa using h⟩
    · exact ⟨true, by simpa using (sub_eq_zero.mp h).symm⟩
  · rintro ⟨b, rfl⟩; cases b <;> simp

theorem merkle_step {h sib o : F} (b : Bool) :
    (∃ m, MultiMux1 2 (muxInput h sib) (if b then 1 else 0) m ∧ Poseidon (m 0) (m 1) o) ↔
      o = H (pairAt b h sib).1 (pairAt b h sib).2 := by
  constructor
  · rintro ⟨m, hm, hp⟩
    have h0 := hm 0 (by norm_num)
    have h1 := hm 1 (by norm_num)
    rw [poseidon_circuit_iff, h0, h1] at hp
    rw [hp]
    cases b <;> simp [pairAt, muxInput]
  · intro ho
    refine ⟨fun i => (muxInput h sib i 1 - muxInput h sib i 0) * (if b then 1 else 0)
      + muxInput h sib i 0, fun i _ => rfl, ?_⟩
    rw [poseidon_circuit_iff, ho]
    cases b <;> simp [pairAt, muxInput]

/-- The constraints of the inclusion circuit with the intermediate hashes: the indices are bits and the
hashes are the nodes of the path. -/
theorem merkle_with_iff {n : ℕ} {leaf root : F} {idx sib hashes : ℕ → F} :
    MerkleWith n leaf idx sib hashes root ↔ ∃ right : ℕ → Bool,
      (∀ i < n, idx i = if right i then 1 else 0) ∧
      (∀ i ≤ n, hashes i = pathNode H leaf right sib i) ∧ root = pathNode H leaf right sib n := by
  constructor
  · rintro ⟨h0, hs, hr⟩
    have hb : ∀ i, ∃ b : Bool, i < n → idx i = if b then 1 else 0 := by
      intro i
      by_cases hi : i < n
      · obtain ⟨b, hb⟩ := bit_cases.mp (hs i hi).1
        exact ⟨b, fun _ => hb⟩
      · exact ⟨false, fun h => absurd h hi⟩
    choose right hright using hb
    have hn : ∀ i ≤ n, hashes i = pathNode H leaf right sib i := by
      intro i
      induction i with
      | zero => intro _; exact h0
      | succ i ih =>
        intro hi
        obtain ⟨-, hm⟩ := hs i hi
        rw [hright i hi] at hm
        rw [(merkle_step _).mp hm, ih (by omega)]; rfl
    exact ⟨right, hright, hn, by rw [hr, hn n le_rfl]⟩
  · rintro ⟨right, hi, hn, hr⟩
    refine ⟨hn 0 (by omega), fun i h => ⟨bit_cases.mpr ⟨_, hi i h⟩, ?_⟩, by rw [hr, hn n le_rfl]⟩
    rw [hi i h, merkle_step, hn (i + 1) h, hn i (by omega)]; rfl

/-- C48: the inclusion circuit is satisfiable exactly when all path indices are bits and the root is
the node at the end of the path. -/
theorem merkle_circuit_iff {n : ℕ} {leaf root : F} {idx sib : ℕ → F} :
    MerkleTreeInclusionProof n leaf idx sib root ↔ ∃ right : ℕ → Bool,
      (∀ i < n, idx i = if right i then 1 else 0) ∧ root = pathNode H leaf right sib n := by
  constructor
  · rintro ⟨hashes, h⟩
    obtain ⟨right, h1, -, h3⟩ := merkle_with_iff.mp h
    exact ⟨right, h1, h3⟩
  · rintro ⟨right, h1, h3⟩
    exact ⟨fun i => pathNode H leaf right sib i, merkle_with_iff.mpr ⟨right, h1, fun _ _ => rfl, h3⟩⟩

/-- The root is determined by the leaf, the siblings and the indices. -/
theorem merkle_root_unique {n : ℕ} {leaf root root' : F} {idx sib : ℕ → F}
    (h : MerkleTreeInclusionProof n leaf idx sib root)
    (h' : MerkleTreeInclusionProof n leaf idx sib root') : root = root' := by
  obtain ⟨right, h1, h2⟩ := merkle_circuit_iff.mp h
  obtain ⟨right', h1', h2'⟩ := merkle_circuit_iff.mp h'
  have hb : ∀ i < n, right i = right' i := by
    intro i hi
    have := (h1 i hi).symm.trans (h1' i hi)
    cases hr : right i <;> cases hr' : right' i <;> simp [hr, hr'] at this <;> rfl
  have hn : ∀ i ≤ n, pathNode H leaf right sib i = pathNode H leaf right' sib i := by
    intro i
    induction i with
    | zero => intro _; rfl
    | succ i ih =>
      intro hi
      simp only [pathNode, hb i hi, ih (by omega)]
  rw [h2, h2', hn n le_rfl]

/-- C49: two accepted inclusion proofs with the same root and path indices but different leaves contain
a collision of the hash: at some level the hashed pairs differ and their hashes agree. -/
theorem merkle_binding {n : ℕ} {leaf leaf' root : F} {idx sib sib' hashes hashes' : ℕ → F}
    (h : MerkleWith n leaf idx sib hashes root) (h' : MerkleWith n leaf' idx sib' hashes' root)
    (hne : leaf ≠ leaf') :
    ∃ i < n, ∃ right : Bool, idx i = (if right then 1 else 0) ∧
      pairAt right (hashes i) (sib i) ≠ pairAt right (hashes' i) (sib' i) ∧
      H (pairAt right (hashes i) (sib i)).1 (pairAt right (hashes i) (sib i)).2 =
        H (pairAt right (hashes' i) (sib' i)).1 (pairAt right (hashes' i) (sib' i)).2 := by
  obtain ⟨h0, hs, hr⟩ := h
  obtain ⟨h0', hs', hr'⟩ := h'
  have key : ∀ i ≤ n, hashes i = hashes' i → ∃ j < n, ∃ right : Bool,
      idx j = (if right then 1 else 0) ∧
      pairAt right (hashes j) (sib j) ≠ pairAt right (hashes' j) (sib' j) ∧
      H (pairAt right (hashes j) (sib j)).1 (pairAt right (hashes j) (sib j)).2 =
        H (pairAt right (hashes' j) (sib' j)).1 (pairAt right (hashes' j) (sib' j)).2 := by
    intro i
    induction i with
    | zero => intro _ he; exact absurd (h0.symm.trans (he.trans h0')) hne
    | succ i ih =>
      intro hi he
      by_cases hc : hashes i = hashes' i
      · exact ih (by omega) hc
      · obtain ⟨hb, hm⟩ := hs i hi
        obtain ⟨-, hm'⟩ := hs' i hi
        obtain ⟨b, hbe⟩ := bit_cases.mp hb
        rw [hbe] at hm hm'
        have e := (merkle_step b).mp hm
        have e' := (merkle_step b).mp hm'
        refine ⟨i, hi, b, hbe, ?_, by rw [← e, ← e', he]⟩
        intro hp
        apply hc
        cases b
        · exact (Prod.mk.inj hp).1
        · exact (Prod.mk.inj hp).2
  exact key n le_rfl (hr.symm.trans hr')

/-- Non-vacuity: a path of two levels, going right then left. -/
example (leaf a b : F) : MerkleTreeInclusionProof 2 leaf (fun i => if i = 0 then 1 else 0)
    (fun i => if i = 0 then a else b) (H (H a leaf) b) :=
  merkle_circuit_iff.mpr ⟨fun i => i = 0, fun i _ => by simp, rfl⟩

end Merkle

/-! ### C56: membership -/

/-- The membership circuit is satisfied exactly when the key computed by the signature circuit hashes
to a leaf with a path to the root. -/
theorem pubkey_membership_iff {n : ℕ} {s root Tx Ty Ux Uy : Fp} {idx sib kBits : ℕ → Fp} {X Y : Fp} :
    PubKeyMembershipWith n s root Tx Ty Ux Uy idx sib kBits X Y ↔
      EfficientECDSA s Tx Ty Ux Uy kBits X Y ∧ ∃ right : ℕ → Bool,
        (∀ i < n, idx i = if right i then 1 else 0) ∧ root = pathNode H (H X Y) right sib n := by
  simp only [PubKeyMembershipWith, poseidon_circuit_iff, merkle_circuit_iff]
  constructor
  · rintro ⟨h, ph, mr, hp, ⟨right, h1, h2⟩, h3⟩
    rw [hp] at h2
    exact ⟨h, right, h1, h3.trans h2⟩
  · rintro ⟨h, right, h1, h2⟩
    generalize H X Y = ph at h2
    exact ⟨h, ph, root, rfl, ⟨right, h1, h2⟩, rfl⟩

/-- C56, soundness: every witness of the membership circuit carries a number `k` below `2^256`, and
outside the exceptional cases the point `(2^256 + k) T + U` hashes to a leaf of the tree. -/
theorem membership_sound_partial {n : ℕ} {s root : Fp} {T U : Secp} (hT : T ≠ 0)
    {idx sib kBits : ℕ → Fp} {X Y : Fp}
    (h : PubKeyMembershipWith n s root (xy T).1 (xy T).2 (xy U).1 (xy U).2 idx sib kBits X Y) :
    ∃ k < 2 ^ 256, AreBits 256 k kBits ∧
      (Regular T k → k + 2 ≠ tQ → ¬ FalseZero ((2 ^ 256 + k) • T) U →
        ((2 ^ 256 + k) • T = U → U = 0) →
        (X, Y) = xy ((2 ^ 256 + k) • T + U) ∧ ∃ right : ℕ → Bool,
          (∀ i < n, idx i = if right i then 1 else 0) ∧
          root = pathNode H (H (xy ((2 ^ 256 + k) • T + U)).1 (xy ((2 ^ 256 + k) • T + U)).2)
            right sib n) := by
  obtain ⟨he, right, hi, hr⟩ := pubkey_membership_iff.mp h
  obtain ⟨mX, mY, hm, -⟩ := id he
  obtain ⟨k, hk, hb⟩ := mul_bits hm
  refine ⟨k, hk, hb, fun h1 h2 h3 h4 => ?_⟩
  have hxy := (eff_ecdsa_circuit_partial T U hT s kBits k hk hb h1 h2 h3 h4 (X, Y)).mp he
  refine ⟨hxy, right, hi, ?_⟩
  rw [← hxy]; exact hr

/-- C56, completeness: the honest signer, whose key `s T + U` is the leaf of a path to the root, has a
witness outside the exceptional cases of the signature circuit. -/
theorem membership_honest_partial {n : ℕ} (T U : Secp) (hT : T ≠ 0) (s : Fp)
    (hs : ¬ (2 ^ 128 ≤ s.val + tQlo ∧ s.val < 2 ^ 128))
    (hz : ¬ FalseZero (s.val • T) U) (hd : s.val • T = U → U = 0) :
    ∃ k < 2 ^ 256, (∀ kBits, KHonest s kBits ↔ AreBits 256 k kBits) ∧ (Regular T k →
      ∀ (right : ℕ → Bool) (sib : ℕ → Fp),
        PubKeyMembership n s
          (pathNode H (H (xy (s.val • T + U)).1 (xy (s.val • T + U)).2) right sib n)
          (xy T).1 (xy T).2 (xy U).1 (xy U).2 (fun i => if right i then 1 else 0) sib) := by
  obtain ⟨k, hk, hh, hm⟩ := eff_ecdsa_honest_partial T U hT s hs hz hd
  refine ⟨k, hk, hh, fun hr right sib => ?_⟩
  obtain ⟨⟨kBits, -, he⟩, -⟩ := hm hr
  exact ⟨kBits, _, _, pubkey_membership_iff.mpr ⟨he, right, fun _ _ => rfl, rfl⟩⟩

/-- The membership circuit does not constrain `s`. -/
theorem membership_ignores_s (n : ℕ) (s s' root Tx Ty Ux Uy : Fp) (idx sib : ℕ → Fp) :
    PubKeyMembership n s root Tx Ty Ux Uy idx sib ↔
      PubKeyMembership n s' root Tx Ty Ux Uy idx sib := by
  simp only [PubKeyMembership, PubKeyMembershipWith, eff_ecdsa_ignores_s s s']

/-- The membership circuit can be satisfied with a leaf that is the hash of no point: for a fixed `T`
and `U` and every path, the root above the hash of a pair off the curve is accepted. -/
theorem membership_off_curve : ∃ (T U : Secp) (x y : Fp), T ≠ 0 ∧ (∀ P : Secp, (x, y) ≠ xy P) ∧
    ∀ (n : ℕ) (s : Fp) (right : ℕ → Bool) (sib : ℕ → Fp),
      PubKeyMembership n s (pathNode H (H x y) right sib n)
        (xy T).1 (xy T).2 (xy U).1 (xy U).2 (fun i => if right i then 1 else 0) sib := by
  obtain ⟨T, U, kBits, out, hT, ho, h⟩ := eff_ecdsa_not_sound
  exact ⟨T, U, out.1, out.2, hT, ho, fun n s right sib =>
    ⟨kBits, out.1, out.2, pubkey_membership_iff.mpr ⟨h s, right, fun _ _ => rfl, rfl⟩⟩⟩

end Spartan.Circuit
