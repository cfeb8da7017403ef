import Verif.Lemmas.Tree
import Verif.Props.Lib
import Verif.Props.Poseidon
import Verif.Props.Membership

/-!
C77–C82: the hash and the Merkle tree of the TypeScript library, and the circuits' view of the tree.
-/

set_option exponentiation.threshold 2000

namespace Spartan
open Spec MParams Lib

/-! ### C77: Poseidon.hash -/

/-- The hash of two numbers below `p`, as a number. -/
noncomputable def poseidonNat (a b : ℕ) : ℕ :=
  ((k256Params (ZMod secpP)).hash (a : ZMod secpP) (b : ZMod secpP)).val

theorem poseidonNat_def (a b : ℕ) :
    poseidonNat a b = ((k256Params (ZMod secpP)).hash (a : ZMod secpP) (b : ZMod secpP)).val := rfl

theorem poseidonNat_cast (a b : ℕ) :
    (poseidonNat a b : ZMod secpP) = (k256Params (ZMod secpP)).hash (a : ZMod secpP) (b : ZMod secpP) := by
  rw [poseidonNat_def, ZMod.natCast_zmod_val]

theorem poseidonNat_lt (a b : ℕ) : poseidonNat a b < secpP := by
  rw [poseidonNat_def]
  exact ZMod.val_lt _

attribute [local irreducible] poseidonNat k256Hash PoseidonParams.hash

theorem setAt_length {arr src out : List UInt8} {off : ℕ} (h : setAt arr src off = some out) :
    out.length = arr.length := by
  unfold setAt at h
  split_ifs at h with hc
  cases h
  simp only [List.length_append, List.length_take, List.length_drop]
  omega

theorem fillInputs_length : ∀ (ns : List ℕ) (i : ℕ) (bs out : List UInt8), fillInputs ns i bs = some out →
    out.length = bs.length
  | [], _, bs, out, h => by simp only [fillInputs, Option.some.injEq] at h; rw [h]
  | n :: ns, i, bs, out, h => by
    simp only [fillInputs] at h
    cases hs : setAt bs (bigIntToLeBytes n 32) (i * 32) with
    | none => rw [hs] at h; cases h
    | some bs' =>
      rw [hs] at h
      rw [fillInputs_length ns (i + 1) bs' out h, setAt_length hs]

/-- C77: other than two inputs throw. -/
theorem poseidon_arity {inputs : List ℕ} (h : inputs.length ≠ 2) : poseidonHash inputs = none := by
  unfold poseidonHash
  cases hf : fillInputs inputs 0 (List.replicate (32 * inputs.length) 0) with
  | none => rfl
  | some bs =>
    have hl := fillInputs_length _ _ _ _ hf
    rw [List.length_replicate] at hl
    have : wasmPoseidon bs = .error .panic := by
      unfold wasmPoseidon
      rw [check_false (by omega)]
      rfl
    simp only [Option.bind_eq_bind, Option.bind_some, this]

theorem bigIntToLeBytes_eq {n : ℕ} (h : n < 2 ^ 256) : bigIntToLeBytes n 32 = leBytes 32 n :=
  (bigint_bytes_roundtrip (size := 32) (by norm_num) (by rw [show (256 : ℕ) ^ 32 = 2 ^ 256 by norm_num]; exact h)).2.2.1

theorem fillInputs_two {a b : ℕ} (ha : a < 2 ^ 256) (hb : b < 2 ^ 256) :
    fillInputs [a, b] 0 (List.replicate 64 0) = some (leBytes 32 a ++ leBytes 32 b) := by
  have s1 := setAt_step (pre := []) (src := leBytes 32 a) (off := 0) (k := 32) (m := 32) rfl (leBytes_length 32 a)
  have s2 := setAt_step (pre := leBytes 32 a) (src := leBytes 32 b) (off := 32) (k := 32) (m := 0)
    (leBytes_length 32 a) (leBytes_length 32 b)
  rw [List.nil_append, List.nil_append] at s1
  simp only [List.replicate_zero, List.append_nil, add_zero] at s2
  simp only [fillInputs, bigIntToLeBytes_eq ha, bigIntToLeBytes_eq hb, zero_mul, zero_add, one_mul,
    Option.bind_eq_bind]
  rw [s1, Option.bind_some, s2, Option.bind_some]

attribute [local irreducible] wasmPoseidon

theorem hash_le_iff {a b : ℕ} (ha : a < 2 ^ 256) (hb : b < 2 ^ 256) (out : List UInt8) :
    wasmPoseidon (leBytes 32 a ++ leBytes 32 b) = .ok out ↔
      a < secpP ∧ b < secpP ∧ out = leBytes 32 (poseidonNat a b) := by
  have hp : (256 : ℕ) ^ 32 = 2 ^ 256 := by norm_num
  have e1 : (leBytes 32 a ++ leBytes 32 b).take 32 = leBytes 32 a := List.take_left' (leBytes_length 32 a)
  have e2 : (leBytes 32 a ++ leBytes 32 b).drop 32 = leBytes 32 b := List.drop_left' (leBytes_length 32 a)
  have n1 : leNat (leBytes 32 a) = a := by rw [leNat_leBytes, hp, Nat.mod_eq_of_lt ha]
  have n2 : leNat (leBytes 32 b) = b := by rw [leNat_leBytes, hp, Nat.mod_eq_of_lt hb]
  rw [wasm_poseidon_iff, e1, e2, n1, n2, ← poseidonNat_def]
  exact and_iff_right (by rw [List.length_append, leBytes_length, leBytes_length])

theorem secpP_lt_256 : secpP < 2 ^ 256 := by decide +kernel

theorem poseidonHash_error {inputs : List ℕ} {bs : List UInt8} {e : Fail}
    (h : fillInputs inputs 0 (List.replicate (32 * inputs.length) 0) = some bs) (hw : wasmPoseidon bs = .error e) :
    poseidonHash inputs = none := by
  unfold poseidonHash
  rw [h]
  change (match wasmPoseidon bs with | .ok result => bytesLeToBigInt result | .error _ => none) = none
  rw [hw]

theorem poseidonHash_ok {inputs : List ℕ} {bs out : List UInt8}
    (h : fillInputs inputs 0 (List.replicate (32 * inputs.length) 0) = some bs) (hw : wasmPoseidon bs = .ok out) :
    poseidonHash inputs = bytesLeToBigInt out := by
  unfold poseidonHash
  rw [h]
  change (match wasmPoseidon bs with | .ok result => bytesLeToBigInt result | .error _ => none) = _
  rw [hw]

/-- C77: on two numbers below `2^256` the hash of the library is the hash of the field elements, and it
throws when one of them is not a field element. -/
theorem poseidon_two {a b : ℕ} (ha : a < 2 ^ 256) (hb : b < 2 ^ 256) :
    poseidonHash [a, b] = if a < secpP ∧ b < secpP then some (poseidonNat a b) else none := by
  have hlt := (poseidonNat_lt a b).trans secpP_lt_256
  have key := hash_le_iff ha hb
  have hf := fillInputs_two ha hb
  generalize leBytes 32 a ++ leBytes 32 b = bs at key hf
  generalize poseidonNat a b = n at key hlt ⊢
  have hn := (bigint_bytes_roundtrip (n := n) (size := 32) (by norm_num)
    (by rw [show (256 : ℕ) ^ 32 = 2 ^ 256 by norm_num]; exact hlt)).2.2.2
  rw [bigIntToLeBytes_eq hlt] at hn
  by_cases hc : a < secpP ∧ b < secpP
  · rw [if_pos hc, poseidonHash_ok hf ((key _).2 ⟨hc.1, hc.2, rfl⟩)]
    exact hn
  · rw [if_neg hc]
    cases hw : wasmPoseidon bs with
    | error e => exact poseidonHash_error hf hw
    | ok out => exact absurd ⟨((key out).1 hw).1, ((key out).1 hw).2.1⟩ hc

theorem leBytes_take : ∀ (m k x : ℕ), (leBytes (m + k) x).take m = leBytes m x
  | 0, _, _ => by simp [leBytes]
  | m + 1, k, x => by
    rw [show m + 1 + k = (m + k) + 1 by ring, leBytes, leBytes, List.take_succ_cons, leBytes_take m k]

theorem leBytes_add : ∀ (m x c : ℕ), leBytes m (x + 256 ^ m * c) = leBytes m x
  | 0, _, _ => rfl
  | m + 1, x, c => by
    have h1 : (x + 256 ^ (m + 1) * c) / 256 = x / 256 + 256 ^ m * c := by
      rw [pow_succ, mul_comm (256 ^ m) 256, mul_assoc, Nat.add_mul_div_left _ _ (by norm_num)]
    have h2 : UInt8.ofNat (x + 256 ^ (m + 1) * c) = UInt8.ofNat x := by
      apply UInt8.toNat_inj.mp
      rw [UInt8.toNat_ofNat', UInt8.toNat_ofNat', pow_succ, mul_comm (256 ^ m) 256, mul_assoc,
        show 2 ^ 8 = 256 from rfl, Nat.add_mul_mod_self_left]
    rw [leBytes, leBytes, h1, h2, leBytes_add m]

/-- C77 is false for larger numbers: the first input is silently replaced by another number.  The hash
of `x + 2^260` is the hash of `x`. -/
theorem poseidon_truncates {x b : ℕ} (hx : x < 2 ^ 256) (hb : b < 2 ^ 256) :
    poseidonHash [x + 2 ^ 260, b] = poseidonHash [x, b] := by
  have hpow : (2 : ℕ) ^ 260 = 256 ^ 32 * 16 := by norm_num
  have hd : (Nat.digits 16 (x + 2 ^ 260)).length = 66 := by
    apply Nat.le_antisymm
    · rw [Nat.digits_length_le_iff (by norm_num)]
      calc x + 2 ^ 260 < 2 ^ 256 + 2 ^ 260 := by omega
        _ ≤ 16 ^ 66 := by norm_num
    · rw [Nat.succ_le_iff, Nat.lt_digits_length_iff (by norm_num)]
      calc 16 ^ 65 = 2 ^ 260 := by norm_num
        _ ≤ x + 2 ^ 260 := by omega
  have hl : bigIntToLeBytes (x + 2 ^ 260) 32 = leBytes 33 (x + 2 ^ 260) := by
    unfold bigIntToLeBytes bigIntToBytes
    have : max (32 * 2) (hexLen (x + 2 ^ 260)) = 66 := by unfold hexLen; omega
    simp only [this]
    rw [if_pos (by norm_num), beBytes, List.reverse_reverse]
  have htake : (leBytes 33 (x + 2 ^ 260)).take 32 = leBytes 32 x := by
    rw [show 33 = 32 + 1 from rfl, leBytes_take, hpow, leBytes_add]
  have hf : fillInputs [x + 2 ^ 260, b] 0 (List.replicate 64 0) = some (leBytes 32 x ++ leBytes 32 b) := by
    have s1 := setAt_step (pre := []) (src := leBytes 33 (x + 2 ^ 260)) (off := 0) (k := 33) (m := 31) rfl
      (leBytes_length 33 _)
    rw [List.nil_append, List.nil_append] at s1
    have s2 : setAt (leBytes 33 (x + 2 ^ 260) ++ List.replicate 31 0) (leBytes 32 b) 32 =
        some (leBytes 32 x ++ leBytes 32 b) := by
      have hl33 := leBytes_length 33 (x + 2 ^ 260)
      unfold setAt
      rw [if_pos (by simp [leBytes_length]), List.take_append_of_le_length (by omega), htake,
        List.drop_of_length_le (by simp [leBytes_length]), List.append_nil]
    simp only [fillInputs, hl, bigIntToLeBytes_eq hb, zero_mul, zero_add, one_mul, Option.bind_eq_bind]
    rw [s1, Option.bind_some, s2, Option.bind_some]
  unfold poseidonHash
  rw [show 32 * [x + 2 ^ 260, b].length = 64 from rfl, show 32 * [x, b].length = 64 from rfl, hf,
    fillInputs_two hx hb]

/-- C77: the hash of a public key, given by its two coordinates in 32 big-endian bytes each, is the hash of
the coordinates.  Bytes behind the 64th are ignored. -/
theorem hash_pub_key {x y : ℕ} (hx : x < secpP) (hy : y < secpP) (rest : List UInt8) :
    hashPubKey (beBytes 32 x ++ beBytes 32 y ++ rest) = some (poseidonNat x y) := by
  have hx' := hx.trans secpP_lt_256
  have hy' := hy.trans secpP_lt_256
  have lx := beBytes_length 32 x
  have ly := beBytes_length 32 y
  have e1 : slice (beBytes 32 x ++ beBytes 32 y ++ rest) 0 32 = beBytes 32 x := by
    have := slice_mid (a := []) (b := beBytes 32 x) (c := beBytes 32 y ++ rest) (i := 0) (j := 32) rfl (by rw [lx]; rfl)
    rwa [List.nil_append, ← List.append_assoc] at this
  have e2 : slice (beBytes 32 x ++ beBytes 32 y ++ rest) 32 64 = beBytes 32 y :=
    slice_mid lx (by rw [lx, ly])
  unfold hashPubKey
  rw [e1, e2, bytesToBigInt_be hx', bytesToBigInt_be hy']
  change poseidonHash [x, y] = _
  rw [poseidon_two hx' hy', if_pos ⟨hx, hy⟩]

/-- C77: the hash of the library is the hash that the circuit computes. -/
theorem poseidon_ts_circuit {a b n : ℕ} (ha : a < secpP) (hb : b < secpP) (h : poseidonHash [a, b] = some n) :
    ∀ out : ZMod secpP, Circuit.Poseidon (a : ZMod secpP) (b : ZMod secpP) out ↔ out = (n : ZMod secpP) := by
  intro out
  rw [poseidon_two (ha.trans secpP_lt_256) (hb.trans secpP_lt_256), if_pos ⟨ha, hb⟩, Option.some.injEq] at h
  rw [Circuit.poseidon_circuit_iff, ← h, poseidonNat_cast, Circuit.H]

/-- The hypotheses of the theorems above can be met. -/
example : poseidonHash [3, secpP - 1] = some (poseidonNat 3 (secpP - 1)) ∧ poseidonHash [3, secpP] = none ∧
    poseidonHash [3 + 2 ^ 260, 5] = poseidonHash [3, 5] ∧ poseidonHash [3] = none := by
  have h3 : 3 < secpP := by decide +kernel
  have hm : secpP - 1 < secpP := by decide +kernel
  have h5 : 5 < 2 ^ 256 := by norm_num
  refine ⟨?_, ?_, poseidon_truncates (h3.trans secpP_lt_256) h5, poseidon_arity (by simp)⟩
  · rw [poseidon_two (h3.trans secpP_lt_256) (hm.trans secpP_lt_256), if_pos ⟨h3, hm⟩]
  · rw [poseidon_two (h3.trans secpP_lt_256) secpP_lt_256, if_neg fun h => lt_irrefl _ h.2]

theorem poseidon_hashOk : HashOk poseidonHash poseidonNat (· < secpP) where
  eq := fun a b ha hb => by
    rw [poseidon_two (ha.trans secpP_lt_256) (hb.trans secpP_lt_256), if_pos ⟨ha, hb⟩]
  mem := fun a b _ _ => poseidonNat_lt a b
  zero := by decide +kernel

attribute [local irreducible] poseidonHash

/-! ### C78: histories -/

/-- The tree that the library has after a sequence of calls on a new tree, and which calls returned. -/
noncomputable def treeAfter (d : ℕ) (ops : List TreeOp) : Option (MerkleTree × List Bool) :=
  (MerkleTree.new poseidonHash d).map fun t => t.run poseidonHash ops

/-- Every leaf that is inserted is a field element. -/
def FieldLeaves (ops : List TreeOp) : Prop := ∀ v, .insert v ∈ ops → v < secpP

theorem treeAfter_holds {d : ℕ} (h1 : 1 ≤ d) (h32 : d ≤ 32) {ops : List TreeOp} (hops : FieldLeaves ops) :
    ∃ t, treeAfter d ops = some (t, (treeRun d ops []).2) ∧ t.Holds poseidonNat d (treeRun d ops []).1 ∧
      ∀ x ∈ (treeRun d ops []).1, x < secpP := by
  obtain ⟨t, e, ht⟩ := new_holds poseidon_hashOk h1 h32
  obtain ⟨r1, r2, r3⟩ := run_holds poseidon_hashOk ops [] t ht (fun x hx => by cases hx) hops
  refine ⟨(t.run poseidonHash ops).1, ?_, r2, r3⟩
  unfold treeAfter
  rw [e, ← r1]
  rfl

theorem idxOf_map_some (L : List ℕ) (x : ℕ) : (L.map some).idxOf? (some x) = L.idxOf? x := by
  induction L with
  | nil => rfl
  | cons a L ih =>
    rw [List.map_cons, List.idxOf?_cons, List.idxOf?_cons, ih]
    by_cases h : a = x
    · subst h; simp
    · simp [h]

/-- C78: after every sequence of insertions of field elements and deletions the tree has the leaves of the
specification, each call returned or threw as specified, the root is the Merkle root of the leaves and
`indexOf` is the index of the first occurrence. -/
theorem tree_history {d : ℕ} (h1 : 1 ≤ d) (h32 : d ≤ 32) {ops : List TreeOp} (hops : FieldLeaves ops) :
    ∃ t, treeAfter d ops = some (t, (treeRun d ops []).2) ∧
      t.leaves = (treeRun d ops []).1.map some ∧ t.root = merkleRoot poseidonNat 0 d (treeRun d ops []).1 ∧
      ∀ x, t.indexOf x = (treeRun d ops []).1.idxOf? x := by
  obtain ⟨t, e, ht, -⟩ := treeAfter_holds h1 h32 hops
  refine ⟨t, e, Holds_row_zero ht, ht.root, fun x => ?_⟩
  rw [MerkleTree.indexOf, MerkleTree.leaves, Holds_row_zero ht, idxOf_map_some]

/-- A depth outside 1 to 32 throws. -/
theorem tree_depth {d : ℕ} (h : d < 1 ∨ 32 < d) (ops : List TreeOp) : treeAfter d ops = none := by
  unfold treeAfter MerkleTree.new
  rw [if_pos h]
  rfl

theorem field_getD {L : List ℕ} (hL : ∀ x ∈ L, x < secpP) (j : ℕ) : L.getD j 0 < secpP := by
  rcases Nat.lt_or_ge j L.length with h3 | h3
  · rw [List.getD_eq_getElem _ _ h3]; exact hL _ (List.getElem_mem h3)
  · rw [List.getD_eq_default _ _ h3]; exact poseidon_hashOk.zero

theorem field_subtree {L : List ℕ} (hL : ∀ x ∈ L, x < secpP) (l i : ℕ) :
    subtree poseidonNat (fun j => L.getD j 0) l i < secpP :=
  subtree_mem poseidon_hashOk.mem (field_getD hL) l i

theorem field_hash {L : List ℕ} (hL : ∀ x ∈ L, x < secpP) (l i : ℕ) :
    poseidonHash [subtree poseidonNat (fun j => L.getD j 0) l (2 * i),
      subtree poseidonNat (fun j => L.getD j 0) l (2 * i + 1)] =
      some (subtree poseidonNat (fun j => L.getD j 0) (l + 1) i) := by
  have a := field_subtree hL l (2 * i)
  have b := field_subtree hL l (2 * i + 1)
  rw [subtree]
  generalize subtree poseidonNat (fun j => L.getD j 0) l (2 * i) = x at a ⊢
  generalize subtree poseidonNat (fun j => L.getD j 0) l (2 * i + 1) = y at b ⊢
  exact poseidon_hashOk.eq x y a b

/-- C78: the root commits to the leaves.  If two histories end with the same root then the leaves are the
same up to zeros at the end, or the two trees contain, at the same place, two different pairs of siblings
with the same hash. -/
theorem tree_root_binds {d : ℕ} (h1 : 1 ≤ d) (h32 : d ≤ 32) {ops ops' : List TreeOp} (hops : FieldLeaves ops)
    (hops' : FieldLeaves ops') {t t' : MerkleTree} {b b' : List Bool} (ht : treeAfter d ops = some (t, b))
    (ht' : treeAfter d ops' = some (t', b')) (he : t.root = t'.root) :
    (∀ i, (treeRun d ops []).1.getD i 0 = (treeRun d ops' []).1.getD i 0) ∨
      ∃ l < d, ∃ i, let S := subtree poseidonNat fun j => (treeRun d ops []).1.getD j 0
        let S' := subtree poseidonNat fun j => (treeRun d ops' []).1.getD j 0
        (S l (2 * i), S l (2 * i + 1)) ≠ (S' l (2 * i), S' l (2 * i + 1)) ∧
          poseidonHash [S l (2 * i), S l (2 * i + 1)] = poseidonHash [S' l (2 * i), S' l (2 * i + 1)] := by
  obtain ⟨u, eu, hu, hL⟩ := treeAfter_holds h1 h32 hops
  obtain ⟨u', eu', hu', hL'⟩ := treeAfter_holds h1 h32 hops'
  rw [ht, Option.some.injEq, Prod.mk.injEq] at eu
  rw [ht', Option.some.injEq, Prod.mk.injEq] at eu'
  rw [← eu.1] at hu
  rw [← eu'.1] at hu'
  rw [hu.root, hu'.root] at he
  rcases subtree_binds (field_hash hL) (field_hash hL') d 0 he with h | h
  · left
    intro i
    rcases Nat.lt_or_ge i (2 ^ d) with hi | hi
    · exact h i (Nat.div_eq_of_lt hi)
    · rw [List.getD_eq_default _ _ (hu.fits.trans hi), List.getD_eq_default _ _ (hu'.fits.trans hi)]
  · exact .inr h

/-- The hypotheses of C78 can be met. -/
example : ∃ t, treeAfter 2 [.insert 5, .insert 7, .delete 0, .delete 2, .insert 7] =
      some (t, [true, true, true, false, true]) ∧ t.leaves = [some 0, some 7, some 7] ∧ t.indexOf 7 = some 1 ∧
      t.root = poseidonNat (poseidonNat 0 7) (poseidonNat 7 0) := by
  obtain ⟨t, e, h1, h2, h3⟩ := tree_history (d := 2) (by norm_num) (by norm_num)
    (ops := [.insert 5, .insert 7, .delete 0, .delete 2, .insert 7]) (by
      have h5 : 5 < secpP := by decide +kernel
      have h7 : 7 < secpP := by decide +kernel
      intro v hv
      simp only [List.mem_cons, TreeOp.insert.injEq, reduceCtorEq, List.not_mem_nil, or_false, false_or] at hv
      rcases hv with rfl | rfl | rfl <;> assumption)
  exact ⟨t, e, h1, h3 7, h2⟩

/-! ### C79: membership proofs -/

/-- C79: for every leaf of every tree `createProof` returns a proof for the root of the tree, with as many
siblings and indices as the tree is deep, and `verifyProof` accepts it. -/
theorem tree_proof_verifies {d : ℕ} (h1 : 1 ≤ d) (h32 : d ≤ 32) {ops : List TreeOp} (hops : FieldLeaves ops)
    {t : MerkleTree} {b : List Bool} (ht : treeAfter d ops = some (t, b)) (i : ℕ) :
    (∀ leaf, t.leaves[i]? = some (some leaf) → ∃ proof, t.createProof i = some proof ∧ proof.root = t.root ∧
      proof.siblings.length = d ∧ proof.pathIndices.length = d ∧
      verifyMerkleProof poseidonHash proof leaf = some true) ∧
    (t.leaves.length ≤ i → t.createProof i = none) := by
  obtain ⟨u, eu, hu, hL⟩ := treeAfter_holds h1 h32 hops
  rw [ht, Option.some.injEq, Prod.mk.injEq] at eu
  rw [← eu.1] at hu
  generalize (treeRun d ops []).1 = L at hu hL
  constructor
  · intro leaf hi
    rw [MerkleTree.leaves, Holds_row_zero hu, List.getElem?_map, Option.map_eq_some_iff] at hi
    obtain ⟨x, hx, hxl⟩ := hi
    cases hxl
    have hlt : i < L.length := (List.getElem?_eq_some_iff.1 hx).1
    have hget : L.getD i 0 = leaf := by rw [List.getD_eq_getElem?_getD, hx]; rfl
    obtain ⟨p1, p2, -⟩ := pathLoop_eq hu d 0 i (by omega)
    have hv := verifyLoop_path poseidon_hashOk hu hL d 0 i (by omega)
    rw [subtree, hget, Nat.div_eq_of_lt (lt_of_lt_of_le hlt hu.fits)] at hv
    refine ⟨⟨t.root, (pathLoop t t.depth 0 i).1, (pathLoop t t.depth 0 i).2⟩, ?_, rfl, by rw [hu.depth]; exact p1,
      by rw [hu.depth]; exact p2, ?_⟩
    · unfold MerkleTree.createProof
      rw [Holds_row_zero hu, List.length_map, if_pos hlt]
    · unfold verifyMerkleProof
      simp only [hu.depth]
      rw [hv, hu.root]
      simp [merkleRoot]
  · intro hi
    unfold MerkleTree.createProof
    exact if_neg (Nat.not_lt.2 hi)

theorem subtree_cast (f : ℕ → ℕ) : ∀ l i, ((subtree poseidonNat f l i : ℕ) : ZMod secpP) =
    subtree Circuit.H (fun j => (f j : ZMod secpP)) l i
  | 0, _ => rfl
  | l + 1, i => by
    rw [subtree, subtree, poseidonNat_cast, subtree_cast f l, subtree_cast f l, Circuit.H]

/-- The numbers of a proof as the signals of the circuit. -/
def MerkleProof.sibSignal (p : MerkleProof) (k : ℕ) : ZMod secpP := ((p.siblings.getD k none).getD 0 : ℕ)

/-- The path indices of a proof as the signals of the circuit. -/
def MerkleProof.idxSignal (p : MerkleProof) (k : ℕ) : ZMod secpP := (p.pathIndices.getD k 0 : ℕ)

theorem tree_proof_path {d : ℕ} {L : List ℕ} {t : MerkleTree} (hu : t.Holds poseidonNat d L) {i : ℕ}
    (hlt : i < 2 ^ d) {proof : MerkleProof} (hp : t.createProof i = some proof) :
    ∃ right : ℕ → Bool, (∀ k < d, MerkleProof.idxSignal proof k = if right k then 1 else 0) ∧
      ((t.root : ℕ) : ZMod secpP) =
        pathNode Circuit.H ((L.getD i 0 : ℕ) : ZMod secpP) right (MerkleProof.sibSignal proof) d := by
  unfold MerkleTree.createProof at hp
  split_ifs at hp with hc
  simp only [Option.some.injEq] at hp
  obtain ⟨-, -, p3⟩ := pathLoop_eq hu d 0 i (by omega)
  rw [hu.depth] at hp
  refine ⟨fun k => decide (i / 2 ^ k % 2 = 1), fun k hk => ?_, ?_⟩
  · rw [MerkleProof.idxSignal, ← hp]
    simp only
    rw [List.getD_eq_getElem?_getD, (p3 k hk).2, Option.getD_some]
    rcases Nat.mod_two_eq_zero_or_one (i / 2 ^ k) with h | h <;> simp [h]
  · have key : ∀ n ≤ d, pathNode Circuit.H ((L.getD i 0 : ℕ) : ZMod secpP) (fun k => decide (i / 2 ^ k % 2 = 1))
        (MerkleProof.sibSignal proof) n = ((subtree poseidonNat (fun j => L.getD j 0) n (i / 2 ^ n) : ℕ) : ZMod secpP) := by
      intro n
      induction n with
      | zero => intro _; rw [pathNode, pow_zero, Nat.div_one, subtree]
      | succ n ih =>
        intro hn
        have hsib : MerkleProof.sibSignal proof n = ((subtree poseidonNat (fun j => L.getD j 0) n
            (if i / 2 ^ n % 2 = 0 then i / 2 ^ n + 1 else i / 2 ^ n - 1) : ℕ) : ZMod secpP) := by
          rw [MerkleProof.sibSignal, ← hp]
          simp only
          rw [List.getD_eq_getElem?_getD, (p3 n hn).1, Option.getD_some, Option.getD_some, zero_add]
        have hpar : i / 2 ^ (n + 1) = i / 2 ^ n / 2 := by rw [pow_succ, Nat.div_div_eq_div_mul]
        rw [pathNode, ih (by omega), hsib, subtree, poseidonNat_cast, hpar]
        generalize i / 2 ^ n = m
        rcases Nat.mod_two_eq_zero_or_one m with h | h
        · rw [if_pos h, pairAt, if_neg (by simp [h]), show 2 * (m / 2) = m by omega, Circuit.H]
        · rw [if_neg (by omega), pairAt, if_pos (by simp [h]), show 2 * (m / 2) = m - 1 by omega,
            show m - 1 + 1 = m by omega, Circuit.H]
    rw [hu.root, key d le_rfl, Nat.div_eq_of_lt hlt, merkleRoot]

/-- C79: the proof that `createProof` returns satisfies the inclusion circuit of the tree's depth with the
tree's root. -/
theorem tree_proof_circuit {d : ℕ} (h1 : 1 ≤ d) (h32 : d ≤ 32) {ops : List TreeOp} (hops : FieldLeaves ops)
    {t : MerkleTree} {b : List Bool} (ht : treeAfter d ops = some (t, b)) {i leaf : ℕ} {proof : MerkleProof}
    (hi : t.leaves[i]? = some (some leaf)) (hp : t.createProof i = some proof) :
    Circuit.MerkleTreeInclusionProof d (leaf : ZMod secpP) (MerkleProof.idxSignal proof)
      (MerkleProof.sibSignal proof) (t.root : ZMod secpP) := by
  obtain ⟨u, eu, hu, hL⟩ := treeAfter_holds h1 h32 hops
  rw [ht, Option.some.injEq, Prod.mk.injEq] at eu
  rw [← eu.1] at hu
  generalize (treeRun d ops []).1 = L at hu hL
  rw [MerkleTree.leaves, Holds_row_zero hu, List.getElem?_map, Option.map_eq_some_iff] at hi
  obtain ⟨x, hx, hxl⟩ := hi
  cases hxl
  have hlt : i < L.length := (List.getElem?_eq_some_iff.1 hx).1
  have hget : L.getD i 0 = leaf := by rw [List.getD_eq_getElem?_getD, hx]; rfl
  obtain ⟨right, r1, r2⟩ := tree_proof_path hu (lt_of_lt_of_le hlt hu.fits) hp
  rw [Circuit.merkle_circuit_iff]
  refine ⟨right, r1, ?_⟩
  rw [r2, hget]

theorem holds_leaf {d : ℕ} {L : List ℕ} {t : MerkleTree} (hu : t.Holds poseidonNat d L) {i leaf : ℕ}
    (hi : t.leaves[i]? = some (some leaf)) : i < L.length ∧ i < 2 ^ d ∧ L.getD i 0 = leaf := by
  rw [MerkleTree.leaves, Holds_row_zero hu, List.getElem?_map, Option.map_eq_some_iff] at hi
  obtain ⟨x, hx, hxl⟩ := hi
  cases hxl
  have hlt : i < L.length := (List.getElem?_eq_some_iff.1 hx).1
  exact ⟨hlt, lt_of_lt_of_le hlt hu.fits, by rw [List.getD_eq_getElem?_getD, hx]; rfl⟩

/-- C79: a signer whose public key hash is a leaf of the tree can satisfy the membership circuit with the
root of the tree and the proof of the library, with the honest hints and with that key as the computed key, outside the exceptional cases of the signature circuit. -/
theorem tree_member_proves_partial {d : ℕ} (h1 : 1 ≤ d) (h32 : d ≤ 32) {ops : List TreeOp} (hops : FieldLeaves ops)
    {t : MerkleTree} {b : List Bool} (ht : treeAfter d ops = some (t, b)) {i : ℕ} {proof : MerkleProof}
    (T U : Secp) (hT : T ≠ 0) (s : ZMod secpP) (hs : ¬ (2 ^ 128 ≤ s.val + Circuit.tQlo ∧ s.val < 2 ^ 128))
    (hz : ¬ FalseZero (s.val • T) U) (hd : s.val • T = U → U = 0)
    (hi : t.leaves[i]? = some (hashPubKey (beBytes 32 (xy (s.val • T + U)).1.val ++
      beBytes 32 (xy (s.val • T + U)).2.val)))
    (hp : t.createProof i = some proof) :
    ∃ k < 2 ^ 256, (∀ kBits, Circuit.KHonest s kBits ↔ AreBits 256 k kBits) ∧ (Regular T k →
      ∃ kBits, Circuit.KHonest s kBits ∧
        Circuit.PubKeyMembershipWith d s (t.root : ZMod secpP) (xy T).1 (xy T).2 (xy U).1
          (xy U).2 (MerkleProof.idxSignal proof) (MerkleProof.sibSignal proof) kBits
          (xy (s.val • T + U)).1 (xy (s.val • T + U)).2) := by
  obtain ⟨u, eu, hu, hL⟩ := treeAfter_holds h1 h32 hops
  rw [ht, Option.some.injEq, Prod.mk.injEq] at eu
  rw [← eu.1] at hu
  generalize (treeRun d ops []).1 = L at hu hL
  obtain ⟨k, hk, hh, hm⟩ := Circuit.eff_ecdsa_honest_partial T U hT s hs hz hd
  refine ⟨k, hk, hh, fun hr => ?_⟩
  obtain ⟨⟨kBits, hb, he⟩, -⟩ := hm hr
  generalize xy (s.val • T + U) = Q at hi he ⊢
  have hkey := hash_pub_key (ZMod.val_lt Q.1) (ZMod.val_lt Q.2) []
  rw [List.append_nil] at hkey
  rw [hkey] at hi
  obtain ⟨-, hlt, hget⟩ := holds_leaf hu hi
  obtain ⟨right, r1, r2⟩ := tree_proof_path hu hlt hp
  rw [hget, poseidonNat_cast, ZMod.natCast_zmod_val, ZMod.natCast_zmod_val] at r2
  refine ⟨kBits, hb, Circuit.pubkey_membership_iff.mpr ⟨he, right, r1, ?_⟩⟩
  rw [r2, Circuit.H]

/-! ### C80: what verifyProof accepts -/

/-- C80: a proof for the root of a tree that has as many siblings as the tree is deep is accepted only for
the leaf at the position of the path, or verification hashes a pair that collides with a pair of siblings
of the tree. -/
theorem tree_verify_binds_partial {d : ℕ} (h1 : 1 ≤ d) (h32 : d ≤ 32) {ops : List TreeOp} (hops : FieldLeaves ops)
    {t : MerkleTree} {b : List Bool} (ht : treeAfter d ops = some (t, b)) {proof : MerkleProof} {leaf : ℕ}
    (hr : proof.root = t.root) (hlen : proof.siblings.length = d)
    (hv : verifyMerkleProof poseidonHash proof leaf = some true) :
    leaf = (treeRun d ops []).1.getD (pathIndex d proof.pathIndices) 0 ∨
      CollidesWithTree poseidonHash poseidonNat (fun j => (treeRun d ops []).1.getD j 0)
        (hashedPairs poseidonHash proof.siblings proof.pathIndices leaf) := by
  obtain ⟨u, eu, hu, hL⟩ := treeAfter_holds h1 h32 hops
  rw [ht, Option.some.injEq, Prod.mk.injEq] at eu
  rw [← eu.1] at hu
  generalize (treeRun d ops []).1 = L at hu hL
  have hroot : verifyLoop poseidonHash proof.siblings proof.pathIndices leaf =
      some (subtree poseidonNat (fun j => L.getD j 0) d 0) := by
    unfold verifyMerkleProof at hv
    cases hc : verifyLoop poseidonHash proof.siblings proof.pathIndices leaf with
    | none => rw [hc] at hv; cases hv
    | some n =>
      rw [hc] at hv
      change some (proof.root == n) = some true at hv
      rw [Option.some.injEq, beq_iff_eq, hr, hu.root, merkleRoot] at hv
      rw [hv]
  have := verifyLoop_binds (field_hash hL) proof.siblings proof.pathIndices leaf 0 (by rw [zero_add]; exact hlen) hroot
  rwa [subtree, hlen] at this

/-- C80 is false for shorter proofs: every node of the tree, up to the root itself, is accepted as a leaf. -/
theorem tree_verify_accepts_nodes {d : ℕ} (h1 : 1 ≤ d) (h32 : d ≤ 32) {ops : List TreeOp} (hops : FieldLeaves ops)
    {t : MerkleTree} {b : List Bool} (ht : treeAfter d ops = some (t, b)) {l i : ℕ} (hl : l ≤ d) (hi : i < 2 ^ (d - l)) :
    ∃ proof, proof.root = t.root ∧ verifyMerkleProof poseidonHash proof
      (subtree poseidonNat (fun j => (treeRun d ops []).1.getD j 0) l i) = some true := by
  obtain ⟨u, eu, hu, hL⟩ := treeAfter_holds h1 h32 hops
  rw [ht, Option.some.injEq, Prod.mk.injEq] at eu
  rw [← eu.1] at hu
  generalize (treeRun d ops []).1 = L at hu hL
  have hv := verifyLoop_path poseidon_hashOk hu hL (d - l) l i (by omega)
  rw [Nat.div_eq_of_lt hi] at hv
  refine ⟨⟨t.root, (pathLoop t (d - l) l i).1, (pathLoop t (d - l) l i).2⟩, rfl, ?_⟩
  unfold verifyMerkleProof
  simp only
  rw [hv, hu.root]
  simp [merkleRoot]

theorem verify_left_congr {h : List ℕ → Option ℕ} {r a a' s : ℕ} {ss : List (Option ℕ)} {ps : List ℕ}
    (e : h [a, s] = h [a', s]) :
    verifyMerkleProof h ⟨r, some s :: ss, 0 :: ps⟩ a = verifyMerkleProof h ⟨r, some s :: ss, 0 :: ps⟩ a' := by
  unfold verifyMerkleProof
  simp only [verifyLoop, List.head?_cons, List.tail_cons, splice, hashChildren, Option.bind_eq_bind, Option.bind_some, e]

theorem createProof_even {H : ℕ → ℕ → ℕ} {n : ℕ} {L : List ℕ} {t : MerkleTree} (hu : t.Holds H (n + 1) L) {i : ℕ}
    (hlt : i < L.length) (heven : i % 2 = 0) : ∃ ss ps, t.createProof i =
      some ⟨t.root, some (subtree H (fun j => L.getD j 0) 0 (i + 1)) :: ss, 0 :: ps⟩ := by
  unfold MerkleTree.createProof
  rw [Holds_row_zero hu, List.length_map, if_pos hlt, hu.depth]
  simp only [pathLoop, heven, if_true]
  rw [nodeOrZero_eq (hu.zeroes 0 (by omega)) (hu.row 0 (by omega))]
  exact ⟨_, _, rfl⟩

/-- C80 is false for numbers that are not field elements: `verifyProof` accepts the proof of a leaf `x` at
an even position for `x + 2^260`. -/
theorem tree_verify_accepts_shifted {d : ℕ} (h1 : 1 ≤ d) (h32 : d ≤ 32) {ops : List TreeOp}
    (hops : FieldLeaves ops) {t : MerkleTree} {b : List Bool} (ht : treeAfter d ops = some (t, b)) {i leaf : ℕ}
    (hi : t.leaves[i]? = some (some leaf)) (heven : i % 2 = 0) {proof : MerkleProof}
    (hp : t.createProof i = some proof) : verifyMerkleProof poseidonHash proof (leaf + 2 ^ 260) = some true := by
  obtain ⟨proof', hp', -, -, -, hv⟩ := (tree_proof_verifies h1 h32 hops ht i).1 leaf hi
  rw [hp, Option.some.injEq] at hp'
  subst hp'
  rw [← hv]
  obtain ⟨u, eu, hu, hL⟩ := treeAfter_holds h1 h32 hops
  rw [ht, Option.some.injEq, Prod.mk.injEq] at eu
  rw [← eu.1] at hu
  generalize (treeRun d ops []).1 = L at hu hL
  obtain ⟨hlt, -, hget⟩ := holds_leaf hu hi
  have hleaf : leaf < secpP := by rw [← hget]; exact field_getD hL i
  have hsib := (field_subtree hL 0 (i + 1)).trans secpP_lt_256
  obtain ⟨n, rfl⟩ := Nat.exists_eq_add_of_le' h1
  obtain ⟨ss, ps, e⟩ := createProof_even hu hlt heven
  rw [hp, Option.some.injEq] at e
  rw [e]
  exact verify_left_congr (poseidon_truncates (hleaf.trans secpP_lt_256) hsib)

/-- The hypotheses of C79 and C80 can be met. -/
example : ∃ t b proof, treeAfter 2 [.insert 5, .insert 7] = some (t, b) ∧ t.createProof 0 = some proof ∧
    proof.root = t.root ∧ proof.siblings.length = 2 ∧ verifyMerkleProof poseidonHash proof 5 = some true ∧
    verifyMerkleProof poseidonHash proof (5 + 2 ^ 260) = some true := by
  have hops : FieldLeaves [.insert 5, .insert 7] := by
    have h5 : 5 < secpP := by decide +kernel
    have h7 : 7 < secpP := by decide +kernel
    intro v hv
    simp only [List.mem_cons, TreeOp.insert.injEq, List.not_mem_nil, or_false] at hv
    rcases hv with rfl | rfl <;> assumption
  obtain ⟨t, e, h1, -⟩ := tree_history (d := 2) (by norm_num) (by norm_num) hops
  have hi : t.leaves[0]? = some (some 5) := by rw [h1]; rfl
  obtain ⟨proof, p1, p2, p3, -, p5⟩ := (tree_proof_verifies (by norm_num) (by norm_num) hops e 0).1 5 hi
  exact ⟨t, _, proof, e, p1, p2, p3, p5,
    tree_verify_accepts_shifted (by norm_num) (by norm_num) hops e hi rfl p1⟩

/-! ### C81: calls that throw -/

/-- C81: a call that throws leaves the tree as it was, if the leaves that are inserted are field elements. -/
theorem tree_throw_unchanged_partial {d : ℕ} (h1 : 1 ≤ d) (h32 : d ≤ 32) {ops : List TreeOp} (hops : FieldLeaves ops)
    {t : MerkleTree} {b : List Bool} (ht : treeAfter d ops = some (t, b)) (op : TreeOp) (hop : FieldLeaves [op])
    (hf : (t.apply poseidonHash op).2 = false) : (t.apply poseidonHash op).1 = t := by
  obtain ⟨u, eu, hu, hL⟩ := treeAfter_holds h1 h32 hops
  rw [ht, Option.some.injEq, Prod.mk.injEq] at eu
  rw [← eu.1] at hu
  exact (apply_holds poseidon_hashOk hu hL op fun v hv => hop v (by rw [hv]; exact List.mem_singleton.2 rfl)).2.2.2 hf

theorem spoilt_run {d v : ℕ} (hv : ∀ w < secpP, poseidonHash [v, w] = none) : ∀ (ws : List ℕ) (M : List ℕ)
    (t : MerkleTree), (∀ w ∈ ws, w < secpP) → t.depth = d → Spoilt d v t.nodes → t.nodes.getD 0 [] = M.map some →
    1 ≤ M.length → M.length + ws.length ≤ 2 ^ d →
    ∃ t', t.run poseidonHash (ws.map .insert) = (t', List.replicate ws.length false) ∧
      t'.leaves = (M ++ ws).map some ∧ t'.root = t.root
  | [], M, t, _, _, _, hM, _, _ => ⟨t, rfl, by rw [List.append_nil]; exact hM, rfl⟩
  | w :: ws, M, t, hws, hd, hs, hM, hpos, hlen => by
    have hml : (t.nodes.getD 0 []).length = M.length := by rw [hM, List.length_map]
    rw [List.length_cons] at hlen
    obtain ⟨nodes', e, hs', hr'⟩ := climb_spoilt (zs := t.zeroes) (hv w (hws w (List.mem_cons_self ..))) d 0 M.length w
      t.nodes (by omega) hpos (by omega) hs (fun _ h => ⟨by rw [hml, h], rfl⟩)
    have hins : t.insert poseidonHash w = ({ t with nodes := nodes' }, false) := by
      unfold MerkleTree.insert
      simp only
      rw [hml, hd, if_neg (by omega), e, ← hd]
      rfl
    have hM' : nodes'.getD 0 [] = (M ++ [w]).map some := by
      rw [hr', if_pos rfl, hM, assign, if_neg (by rw [List.length_map]; omega), List.length_map, Nat.sub_self,
        List.replicate_zero, List.append_nil, List.map_append]
      rfl
    obtain ⟨t', e', l', r'⟩ := spoilt_run hv ws (M ++ [w]) { t with nodes := nodes' }
      (fun x hx => hws x (List.mem_cons_of_mem _ hx)) hd hs' hM' (by simp) (by simp; omega)
    refine ⟨t', ?_, by rw [l', List.append_assoc]; rfl, r'⟩
    simp only [List.map_cons, MerkleTree.run, MerkleTree.apply, hins, e', List.length_cons, List.replicate_succ]

/-- C81 is false in general: the insertion of a number that is not a field element throws, but the number
is then a leaf of the tree, and every later insertion throws as well and never changes the root. -/
theorem tree_failed_insert_corrupts {d : ℕ} (h1 : 1 ≤ d) (h32 : d ≤ 32) {v : ℕ} (hv : secpP ≤ v) (hv' : v < 2 ^ 256)
    {ws : List ℕ} (hws : ∀ w ∈ ws, w < secpP) (hlen : ws.length < 2 ^ d) :
    ∃ t0 t, MerkleTree.new poseidonHash d = some t0 ∧
      t0.run poseidonHash (.insert v :: ws.map .insert) = (t, List.replicate (ws.length + 1) false) ∧
      t.leaves = (v :: ws).map some ∧ t.root = t0.root := by
  have hnone : ∀ w < secpP, poseidonHash [v, w] = none := fun w hw => by
    rw [poseidon_two hv' (hw.trans secpP_lt_256), if_neg fun h => Nat.not_lt.2 hv h.1]
  obtain ⟨t0, e, ht⟩ := new_holds poseidon_hashOk h1 h32
  have hrow := Holds_row_zero ht
  rw [List.map_nil] at hrow
  have hempty : ∀ l, t0.nodes.getD l [] = [] := by
    intro l
    rcases Nat.lt_or_ge l d with hl | hl
    · have := (ht.row l hl).len
      have h0 := @lt_rowLen 0 l 0
      rw [List.length_nil] at this
      exact List.length_eq_zero_iff.1 (by omega)
    · exact List.getD_eq_default _ _ (by rw [ht.rows]; exact hl)
  obtain ⟨n, rfl⟩ := Nat.exists_eq_add_of_le' h1
  have hz : t0.zeroes[0]? = some 0 := ht.zeroes 0 (by omega)
  obtain ⟨nodes1, hn1⟩ : ∃ nodes1, nodes1 = t0.nodes.set 0 [some v] := ⟨_, rfl⟩
  have hl0 : 0 < t0.nodes.length := by rw [ht.rows]; omega
  have hrow1 : nodes1.getD 0 [] = [some v] := by rw [hn1, getD_set_self hl0]
  have hins : t0.insert poseidonHash v = ({ t0 with nodes := nodes1 }, false) := by
    unfold MerkleTree.insert
    simp only
    rw [hrow, ht.depth, List.length_nil, if_neg (by have := Nat.two_pow_pos (n + 1); omega)]
    simp only [climb]
    have ha : assign (t0.nodes.getD 0 []) 0 v = [some v] := by rw [hrow]; rfl
    rw [ha, ← hn1]
    have e0 : nodeOrZero t0.zeroes nodes1 0 (0 - 0 % 2) = some v := by
      unfold nodeOrZero
      simp only
      rw [hrow1]
      rfl
    have e1 : nodeOrZero t0.zeroes nodes1 0 (0 - 0 % 2 + 1) = some 0 := by
      unfold nodeOrZero
      simp only
      rw [hrow1, hz]
      rfl
    have e2 : hashChildren poseidonHash (some v) (some 0) = none := by
      change poseidonHash [v, 0] = none
      exact hnone 0 poseidon_hashOk.zero
    rw [e0, e1, e2, ← ht.depth]
    rfl
  have hs : Spoilt (n + 1) v nodes1 := by
    refine ⟨by rw [hn1, List.length_set, ht.rows], h1, by rw [hrow1]; rfl, fun l hl => ?_⟩
    rw [hn1, getD_set_ne (by omega), hempty]
    rfl
  obtain ⟨t, et, lt, rt⟩ := spoilt_run hnone ws [v] { t0 with nodes := nodes1 } hws ht.depth hs hrow1 (by simp)
    (by rw [List.length_singleton]; omega)
  refine ⟨t0, t, e, ?_, lt, rt⟩
  simp only [MerkleTree.run, MerkleTree.apply, hins, et, List.replicate_succ]

/-- The hypotheses of C81 can be met. -/
example : ∃ t0 t, MerkleTree.new poseidonHash 2 = some t0 ∧
    t0.run poseidonHash [.insert secpP, .insert 5, .insert 7] = (t, [false, false, false]) ∧
    t.leaves = [some secpP, some 5, some 7] ∧ t.root = t0.root := by
  have h5 : 5 < secpP := by decide +kernel
  have h7 : 7 < secpP := by decide +kernel
  exact tree_failed_insert_corrupts (d := 2) (by norm_num) (by norm_num) (le_refl secpP) secpP_lt_256 (ws := [5, 7])
    (by
      intro w hw
      simp only [List.mem_cons, List.not_mem_nil, or_false] at hw
      rcases hw with rfl | rfl <;> assumption) (by norm_num)

/-! ### C82: what the circuits accept -/

theorem bits_index (right : ℕ → Bool) : ∀ d : ℕ, ∃ i < 2 ^ d, ∀ k < d, right k = decide (i / 2 ^ k % 2 = 1)
  | 0 => ⟨0, by norm_num, fun k hk => by omega⟩
  | d + 1 => by
    obtain ⟨i, hi, hb⟩ := bits_index right d
    have hp : 0 < 2 ^ d := Nat.two_pow_pos d
    refine ⟨i + 2 ^ d * (right d).toNat, ?_, fun k hk => ?_⟩
    · rw [pow_succ]
      cases right d <;> simp <;> omega
    · rcases Nat.lt_or_ge k d with hkd | hkd
      · obtain ⟨m, rfl⟩ := Nat.exists_eq_add_of_lt hkd
        rw [hb k hkd]
        have : (i + 2 ^ (k + m + 1) * (right (k + m + 1)).toNat) / 2 ^ k =
            i / 2 ^ k + 2 * (2 ^ m * (right (k + m + 1)).toNat) := by
          rw [show 2 ^ (k + m + 1) * (right (k + m + 1)).toNat = 2 ^ k * (2 * (2 ^ m * (right (k + m + 1)).toNat)) by
            rw [pow_succ, pow_add]; ring, Nat.add_mul_div_left _ _ (Nat.two_pow_pos k)]
        rw [this, Nat.add_mul_mod_self_left]
      · have : k = d := by omega
        subst this
        rw [Nat.add_mul_div_left _ _ hp, Nat.div_eq_of_lt hi, zero_add]
        cases right k <;> rfl

/-- The side of the node at height `k` on the path from leaf `i`. -/
def sideOf (i k : ℕ) : Bool := decide (i / 2 ^ k % 2 = 1)

theorem pathNode_binds {F : Type} [DecidableEq F] {Hf : F → F → F} {f sib : ℕ → F} {leaf : F} (i : ℕ) :
    ∀ n, pathNode Hf leaf (sideOf i) sib n = subtree Hf f n (i / 2 ^ n) → leaf = f i ∨
      ∃ l < n, let p := pairAt (sideOf i l) (pathNode Hf leaf (sideOf i) sib l) (sib l)
        let q := (subtree Hf f l (2 * (i / 2 ^ (l + 1))), subtree Hf f l (2 * (i / 2 ^ (l + 1)) + 1))
        p ≠ q ∧ Hf p.1 p.2 = Hf q.1 q.2
  | 0, h => by
    rw [pathNode, pow_zero, Nat.div_one, subtree] at h
    exact .inl h
  | n + 1, h => by
    rw [pathNode, subtree] at h
    by_cases hpq : pairAt (sideOf i n) (pathNode Hf leaf (sideOf i) sib n) (sib n) =
        (subtree Hf f n (2 * (i / 2 ^ (n + 1))), subtree Hf f n (2 * (i / 2 ^ (n + 1)) + 1))
    · have hpar : i / 2 ^ (n + 1) = i / 2 ^ n / 2 := by rw [pow_succ, Nat.div_div_eq_div_mul]
      have : pathNode Hf leaf (sideOf i) sib n = subtree Hf f n (i / 2 ^ n) := by
        rw [hpar] at hpq
        unfold pairAt sideOf at hpq
        rcases Nat.mod_two_eq_zero_or_one (i / 2 ^ n) with hm | hm
        · rw [if_neg (by simp [hm])] at hpq
          rw [show i / 2 ^ n = 2 * (i / 2 ^ n / 2) by omega]
          exact (Prod.mk.inj hpq).1
        · rw [if_pos (by simp [hm])] at hpq
          rw [show i / 2 ^ n = 2 * (i / 2 ^ n / 2) + 1 by omega]
          exact (Prod.mk.inj hpq).2
      rcases pathNode_binds i n this with h' | ⟨l, hl, h'⟩
      · exact .inl h'
      · exact .inr ⟨l, by omega, h'⟩
    · exact .inr ⟨n, by omega, hpq, h⟩

/-- C82: a witness of the inclusion circuit for the root of a tree describes a position of the tree, and
its leaf is the leaf at that position (0 where the tree is empty), or the path of the witness hashes a
pair that collides with the pair of siblings at the same place of the tree. -/
theorem tree_circuit_binds {d : ℕ} (h1 : 1 ≤ d) (h32 : d ≤ 32) {ops : List TreeOp} (hops : FieldLeaves ops)
    {t : MerkleTree} {b : List Bool} (ht : treeAfter d ops = some (t, b)) {leaf : ZMod secpP} {idx sib : ℕ → ZMod secpP}
    (hc : Circuit.MerkleTreeInclusionProof d leaf idx sib (t.root : ZMod secpP)) :
    ∃ i < 2 ^ d, (∀ k < d, idx k = if sideOf i k then 1 else 0) ∧
      (leaf = (((treeRun d ops []).1.getD i 0 : ℕ) : ZMod secpP) ∨
        ∃ l < d, let S := subtree Circuit.H fun j => (((treeRun d ops []).1.getD j 0 : ℕ) : ZMod secpP)
          let p := pairAt (sideOf i l) (pathNode Circuit.H leaf (sideOf i) sib l) (sib l)
          let q := (S l (2 * (i / 2 ^ (l + 1))), S l (2 * (i / 2 ^ (l + 1)) + 1))
          p ≠ q ∧ Circuit.H p.1 p.2 = Circuit.H q.1 q.2) := by
  obtain ⟨u, eu, hu, hL⟩ := treeAfter_holds h1 h32 hops
  rw [ht, Option.some.injEq, Prod.mk.injEq] at eu
  rw [← eu.1] at hu
  generalize (treeRun d ops []).1 = L at hu hL
  obtain ⟨right, r1, r2⟩ := Circuit.merkle_circuit_iff.1 hc
  obtain ⟨i, hi, hb⟩ := bits_index right d
  refine ⟨i, hi, fun k hk => by rw [r1 k hk, hb k hk, sideOf], ?_⟩
  have hcongr : ∀ n ≤ d, pathNode Circuit.H leaf right sib n = pathNode Circuit.H leaf (sideOf i) sib n := by
    intro n
    induction n with
    | zero => intro _; rw [pathNode, pathNode]
    | succ n ih => intro hn; rw [pathNode, pathNode, ih (by omega), hb n hn, sideOf]
  have h0 : i / 2 ^ d = 0 := Nat.div_eq_of_lt hi
  rw [hu.root, merkleRoot, subtree_cast, hcongr d le_rfl] at r2
  exact pathNode_binds i d (by rw [h0]; exact r2.symm)

/-- C82: the key that a witness of the membership circuit for the root of a tree computes hashes to a leaf
of the tree, in the same sense. -/
theorem tree_membership_binds {d : ℕ} (h1 : 1 ≤ d) (h32 : d ≤ 32) {ops : List TreeOp} (hops : FieldLeaves ops)
    {t : MerkleTree} {b : List Bool} (ht : treeAfter d ops = some (t, b)) {s Tx Ty Ux Uy X Y : ZMod secpP}
    {idx sib kBits : ℕ → ZMod secpP}
    (hc : Circuit.PubKeyMembershipWith d s (t.root : ZMod secpP) Tx Ty Ux Uy idx sib kBits X Y) :
    ∃ i < 2 ^ d, (∀ k < d, idx k = if sideOf i k then 1 else 0) ∧
      (Circuit.H X Y = (((treeRun d ops []).1.getD i 0 : ℕ) : ZMod secpP) ∨
        ∃ l < d, let S := subtree Circuit.H fun j => (((treeRun d ops []).1.getD j 0 : ℕ) : ZMod secpP)
          let p := pairAt (sideOf i l) (pathNode Circuit.H (Circuit.H X Y) (sideOf i) sib l) (sib l)
          let q := (S l (2 * (i / 2 ^ (l + 1))), S l (2 * (i / 2 ^ (l + 1)) + 1))
          p ≠ q ∧ Circuit.H p.1 p.2 = Circuit.H q.1 q.2) := by
  obtain ⟨-, right, r1, r2⟩ := Circuit.pubkey_membership_iff.1 hc
  exact tree_circuit_binds h1 h32 hops ht (Circuit.merkle_circuit_iff.2 ⟨right, r1, r2⟩)

/-- The hypotheses of C79 and C82 can be met. -/
example : ∃ t b proof, treeAfter 2 [.insert 5, .insert 7] = some (t, b) ∧ t.createProof 1 = some proof ∧
    Circuit.MerkleTreeInclusionProof 2 (7 : ZMod secpP) (MerkleProof.idxSignal proof) (MerkleProof.sibSignal proof)
      (t.root : ZMod secpP) := by
  have hops : FieldLeaves [.insert 5, .insert 7] := by
    have h5 : 5 < secpP := by decide +kernel
    have h7 : 7 < secpP := by decide +kernel
    intro v hv
    simp only [List.mem_cons, TreeOp.insert.injEq, List.not_mem_nil, or_false] at hv
    rcases hv with rfl | rfl <;> assumption
  obtain ⟨t, e, h1, -⟩ := tree_history (d := 2) (by norm_num) (by norm_num) hops
  have hi : t.leaves[1]? = some (some 7) := by rw [h1]; rfl
  obtain ⟨proof, p1, -⟩ := (tree_proof_verifies (by norm_num) (by norm_num) hops e 1).1 7 hi
  have := tree_proof_circuit (by norm_num) (by norm_num) hops e hi p1
  exact ⟨t, _, proof, e, p1, by exact_mod_cast this⟩

end Spartan
