import Verif.Props.CircuitFile
import Verif.Props.AddrProverEx

/-!
The hypotheses of C131 can be met: the key and signature of `Props/ProverEx`, the trees with that key and its address, and
the r1cs files and witness generators of `membership_file` and `addr_membership_file`.
-/

set_option exponentiation.threshold 2000
set_option maxRecDepth 100000

namespace Spartan.Example
open Spec MParams Lib Mach Circuit Spec.Keccak

theorem zero_hash_readable : Readable (poseidonNat 0 0) := by decide +kernel

attribute [local irreducible] poseidonNat k256Hash PoseidonParams.hash wasmPoseidon poseidonHash ethAddress

theorem readable_of_swapped {x : ℕ} (h : swapped x < secpP) : Readable x :=
  lt_of_lt_of_eq h (by decide +kernel)

theorem sib_zero (H : ℕ → ℕ → ℕ) (x : ℕ) : subtree H (fun j => [x].getD j 0) (0 + 0)
    (if 0 / 2 ^ 0 % 2 = 0 then 0 / 2 ^ 0 + 1 else 0 / 2 ^ 0 - 1) = 0 := rfl

theorem sib_one (H : ℕ → ℕ → ℕ) (x : ℕ) : subtree H (fun j => [x].getD j 0) (0 + 1)
    (if 0 / 2 ^ 1 % 2 = 0 then 0 / 2 ^ 1 + 1 else 0 / 2 ^ 1 - 1) = H 0 0 := rfl

/-- The inputs of the circuit can be read, for the tree of depth 2 with one leaf. -/
theorem inputs_readable {leaf : ℕ} (hops : FieldLeaves [.insert leaf]) {t : MerkleTree} {b : List Bool}
    (ht : treeAfter 2 [.insert leaf] = some (t, b)) (hroot : swapped t.root < secpP) {mp : MerkleProof}
    (hmp : t.createProof 0 = some mp) :
    InputsReadable 2 ⟨s, mp.root, mp.siblings, mp.pathIndices, (xy (effT r G)).1.val, (xy (effT r G)).2.val,
      (xy (effU r (msgNum msgHash))).1.val, (xy (effU r (msgNum msgHash))).2.val⟩ := by
  obtain ⟨u, eu, hu, hL⟩ := treeAfter_holds (d := 2) (by norm_num) (by norm_num) hops
  rw [ht, Option.some.injEq, Prod.mk.injEq] at eu
  rw [← eu.1] at hu
  have hrun : (treeRun 2 [.insert leaf] []).1 = [leaf] := rfl
  rw [hrun] at hu
  have hrl := tree_root_lt (by norm_num) (by norm_num) hops ht
  obtain ⟨-, -, p3⟩ := pathLoop_eq hu 2 0 0 (by omega)
  unfold MerkleTree.createProof at hmp
  split_ifs at hmp with hc
  simp only [Option.some.injEq] at hmp
  rw [hu.depth] at hmp
  obtain ⟨a0, b0⟩ := p3 0 (by norm_num)
  obtain ⟨a1, b1⟩ := p3 1 (by norm_num)
  rw [sib_zero] at a0
  rw [sib_one] at a1
  intro v hv
  rw [T_eq, U_eq, T_xy, U_xy] at hv
  unfold inputSignals wireValues at hv
  rw [← hmp] at hv
  simp only [List.range_succ, List.range_zero, List.nil_append, List.map_cons, List.map_nil,
    List.getD_eq_getElem?_getD, a0, a1, b0, b1, List.append_nil, List.cons_append, Option.getD_some, ZMod.natCast_zmod_val] at hv
  simp only [List.mem_cons, List.not_mem_nil, or_false] at hv
  have hz : Readable 0 := by decide +kernel
  have hq : ∀ x : ℕ, x < secpP → Readable x → Readable ((x : ℕ) : ZMod secpP).val := by
    intro x h1 h2
    rw [val_of h1]
    exact h2
  rcases hv with rfl | rfl | rfl | rfl | rfl | rfl | rfl | rfl | rfl | rfl | rfl
  · rw [ZMod.val_one]; decide +kernel
  · exact hq _ hrl (readable_of_swapped hroot)
  · exact hq _ (by decide +kernel) (by decide +kernel)
  · exact hq _ (by decide +kernel) (by decide +kernel)
  · exact hq _ (by decide +kernel) (by decide +kernel)
  · exact hq _ (by decide +kernel) (by decide +kernel)
  · exact hq _ (by decide +kernel) (by decide +kernel)
  · exact hq _ (by decide +kernel) (by decide +kernel)
  · exact hq _ (by decide +kernel) (by decide +kernel)
  · exact hq 0 (by decide +kernel) hz
  · refine hq (poseidonNat 0 0) ?_ zero_hash_readable
    exact poseidonNat_lt _ _

/-- The hypotheses of `member_file_partial` hold of this signature and a tree with this key: the tool writes a
circuit file, and the prover runs with it and gets a proof that the verifier accepts, if no folding challenge is zero. -/
example (f : Pt.Formulas) (label : List UInt8) (tape : Tape Sc) : ∃ h cs m secs values witnessGen circuit t b mp p ser wit pub pf T,
    FileFor 2 (PubKeyMembership 2) h cs m secs ∧
    GeneratesFile 2 (fun w => ∃ X Y, HonestInputs 2 w X Y) h.nWires cs values witnessGen ∧
    genSpartanInst (wire 64) (codec (fun _ => [1, 2, 3])) (fun p => if p = "a.r1cs" then some (encR1cs secs) else none)
      ["gen_spartan_inst", "a.r1cs", "a.circuit", "5"] = .ok ("a.circuit", circuit) ∧
    treeAfter 2 ops = some (t, b) ∧ t.createProof 0 = some mp ∧ p.serialize = some ser ∧
    wasmProveRun ((wire 32).wasmEnv ((env f "nizk_example").withHash (nonzeroFold (env f "nizk_example").hash))
      (src f) (codec (fun _ => [1, 2, 3]))) label [] tape circuit wit pub = .ok (pf, T) ∧
    (NoZeroFold (env f "nizk_example").hash T → ∃ proof,
      Lib.prove witnessGen (wasmProve (wasm f 32 (fun _ => [1, 2, 3])) label [] tape circuit) sig msgHash mp =
        some (proof, p) ∧
      Lib.verify (wasmVerify (wasm f 32 (fun _ => [1, 2, 3])) label [] circuit proof) ser = some true) := by
  obtain ⟨h, cs, m, secs, values, witnessGen, hf, hgen, hread⟩ := membership_file (d := 2) (by norm_num)
  obtain ⟨t, ht, hl, hroot, -⟩ := tree_history (d := 2) (by norm_num) (by norm_num) fieldLeaves
  have hkey := hash_pub_key (x := Qx) (y := Qy) (by decide +kernel) (by decide +kernel) []
  rw [List.append_nil] at hkey
  have hleaf0 : t.leaves[0]? = some (some (poseidonNat Qx Qy)) := by rw [hl]; rfl
  obtain ⟨mp, hmp, -⟩ := (tree_proof_verifies (by norm_num) (by norm_num) fieldLeaves ht 0).1 _ hleaf0
  have hQx : (xy Q).1.val = Qx := by rw [Q_xy]; exact val_of (by decide +kernel)
  have hQy : (xy Q).2.val = Qy := by rw [Q_xy]; exact val_of (by decide +kernel)
  have hrootsw : swapped t.root < secpP := by
    rw [hroot]
    exact root_swapped
  obtain ⟨-, -, -, hin, -, -⟩ := prover_inputs (mp := mp) (Q := Q) (by decide +kernel) (by norm_num) sig_eq msg_ne signed
  obtain ⟨circuit, w, p, ser, wit, pub, pf, T, e1, e2, -, -, e3, -, -, e4, e5⟩ := member_file_partial f
    (digest := fun _ => [1, 2, 3]) (fun _ => by norm_num) (by norm_num) (by norm_num) hf hgen
    (files := fun p => if p = "a.r1cs" then some (encR1cs secs) else none)
    (args := ["gen_spartan_inst", "a.r1cs", "a.circuit", "5"]) (inPath := "a.r1cs") (outPath := "a.circuit") (num := "5")
    rfl rfl rfl (by decide +kernel) (if_pos rfl)
    fieldLeaves ht (i := 0) hmp (by decide +kernel) (by decide +kernel) (by norm_num) sig_eq msg_ne signed
    (by rw [hQx, hQy, hkey]; exact hleaf0)
    (by decide +kernel)
    (by
      rw [T_eq, U_eq, sT_eq]
      exact not_falseZero (rep_ladM (by decide +kernel)) (rep_ladM (n := u) (by decide +kernel)) (by decide +kernel))
    (by
      rw [T_eq, U_eq, sT_eq]
      intro h
      rw [← natCast_zsmul, ← natCast_zsmul, ← sub_eq_zero, ← sub_smul, zsmul_eq_zero_iff G_ne] at h
      exact absurd h (by decide +kernel))
    (by
      rw [T_eq]
      exact regular_mul (by decide +kernel))
    (by
      rw [T_eq, U_eq, T_xy, U_xy]
      intro x hx
      simp only [List.mem_cons, List.not_mem_nil, or_false] at hx
      rcases hx with rfl | rfl | rfl | rfl | rfl
      · exact hrootsw
      all_goals rw [val_of (by decide +kernel)]; decide +kernel)
    (by
      intro w p hw hH
      rw [hin, Option.some.injEq, Prod.mk.injEq] at hw
      refine hread w hH ?_
      rw [← hw.1]
      exact inputs_readable fieldLeaves ht hrootsw hmp) label tape
  exact ⟨h, cs, m, secs, values, witnessGen, circuit, t, _, mp, p, ser, wit, pub, pf, T, hf, hgen, e1, ht, hmp, e3, e4, e5⟩

/-- The hypotheses of `address_file_partial` hold of this signature and a tree with this address: the tool writes a
circuit file, and the prover runs with it and gets a proof that the verifier accepts, if no folding challenge is zero. -/
example (f : Pt.Formulas) (label : List UInt8) (tape : Tape Sc) : ∃ h cs m secs values witnessGen circuit t b mp p ser wit pub pf T,
    FileFor 2 (AddrMembership 2) h cs m secs ∧
    GeneratesFile 2 (fun w => ∃ X Y, HonestAddrInputs 2 w X Y) h.nWires cs values witnessGen ∧
    genSpartanInst (wire 64) (codec (fun _ => [1, 2, 3])) (fun p => if p = "a.r1cs" then some (encR1cs secs) else none)
      ["gen_spartan_inst", "a.r1cs", "a.circuit", "5"] = .ok ("a.circuit", circuit) ∧
    treeAfter 2 addrOps = some (t, b) ∧ t.createProof 0 = some mp ∧ p.serialize = some ser ∧
    wasmProveRun ((wire 32).wasmEnv ((env f "nizk_example").withHash (nonzeroFold (env f "nizk_example").hash))
      (src f) (codec (fun _ => [1, 2, 3]))) label [] tape circuit wit pub = .ok (pf, T) ∧
    (NoZeroFold (env f "nizk_example").hash T → ∃ proof,
      Lib.prove witnessGen (wasmProve (wasm f 32 (fun _ => [1, 2, 3])) label [] tape circuit) sig msgHash mp =
        some (proof, p) ∧
      Lib.verify (wasmVerify (wasm f 32 (fun _ => [1, 2, 3])) label [] circuit proof) ser = some true) := by
  obtain ⟨h, cs, m, secs, values, witnessGen, hf, hgen, hread⟩ := addr_membership_file (d := 2) (by norm_num)
  obtain ⟨t, ht, hl, hroot, -⟩ := tree_history (d := 2) (by norm_num) (by norm_num) addrLeaves
  have hleaf0 : t.leaves[0]? = some (some (addr)) := by rw [hl]; rfl
  obtain ⟨mp, hmp, -⟩ := (tree_proof_verifies (by norm_num) (by norm_num) addrLeaves ht 0).1 _ hleaf0
  have hQx : (xy Q).1.val = Qx := by rw [Q_xy]; exact val_of (by decide +kernel)
  have hQy : (xy Q).2.val = Qy := by rw [Q_xy]; exact val_of (by decide +kernel)
  have hrootsw : swapped t.root < secpP := by
    rw [hroot]
    exact addr_root_swapped
  obtain ⟨-, -, -, hin, -, -⟩ := prover_inputs (mp := mp) (Q := Q) (by decide +kernel) (by norm_num) sig_eq msg_ne signed
  obtain ⟨circuit, w, p, ser, wit, pub, pf, T, e1, e2, -, -, e3, -, -, e4, e5⟩ := address_file_partial f
    (digest := fun _ => [1, 2, 3]) (fun _ => by norm_num) (by norm_num) (by norm_num) hf hgen
    (files := fun p => if p = "a.r1cs" then some (encR1cs secs) else none)
    (args := ["gen_spartan_inst", "a.r1cs", "a.circuit", "5"]) (inPath := "a.r1cs") (outPath := "a.circuit") (num := "5")
    rfl rfl rfl (by decide +kernel) (if_pos rfl)
    addrLeaves ht (i := 0) hmp (by decide +kernel) (by decide +kernel) (by norm_num) sig_eq msg_ne signed
    (by rw [hQx, hQy, key_address]; exact hleaf0)
    (by decide +kernel)
    (by
      rw [T_eq, U_eq, sT_eq]
      exact not_falseZero (rep_ladM (by decide +kernel)) (rep_ladM (n := u) (by decide +kernel)) (by decide +kernel))
    (by
      rw [T_eq, U_eq, sT_eq]
      intro h
      rw [← natCast_zsmul, ← natCast_zsmul, ← sub_eq_zero, ← sub_smul, zsmul_eq_zero_iff G_ne] at h
      exact absurd h (by decide +kernel))
    (by
      rw [T_eq]
      exact regular_mul (by decide +kernel))
    (by
      rw [T_eq, U_eq, T_xy, U_xy]
      intro x hx
      simp only [List.mem_cons, List.not_mem_nil, or_false] at hx
      rcases hx with rfl | rfl | rfl | rfl | rfl
      · exact hrootsw
      all_goals rw [val_of (by decide +kernel)]; decide +kernel)
    (by
      intro w p hw hH
      rw [hin, Option.some.injEq, Prod.mk.injEq] at hw
      refine hread w hH ?_
      rw [← hw.1]
      exact inputs_readable addrLeaves ht hrootsw hmp) label tape
  exact ⟨h, cs, m, secs, values, witnessGen, circuit, t, _, mp, p, ser, wit, pub, pf, T, hf, hgen, e1, ht, hmp, e3, e4, e5⟩

end Spartan.Example
