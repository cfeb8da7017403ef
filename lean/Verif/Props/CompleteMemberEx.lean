import Verif.Props.CompleteMember
import Verif.Props.CircuitFileEx

/-!
The hypotheses of C132 for the library can be met, as those of C131.
-/

set_option exponentiation.threshold 2000
set_option maxRecDepth 100000

namespace Spartan.Example
open Spec MParams Lib Mach Circuit Spec.Keccak

attribute [local irreducible] poseidonNat k256Hash PoseidonParams.hash wasmPoseidon poseidonHash ethAddress scalarOf challengeValue

/-- The hypotheses of `member_file_random_partial` hold of this signature and a tree with this key: the tool writes a
circuit file, and the prover gets a proof that the verifier accepts, for all but a fraction of `2^-250` of the hash functions. -/
example (f : Pt.Formulas) (label : List UInt8) (tape : Tape Sc) : ∃ h cs m secs values witnessGen circuit t b mp p ser,
    FileFor 2 (PubKeyMembership 2) h cs m secs ∧
    GeneratesFile 2 (fun w => ∃ X Y, HonestInputs 2 w X Y) h.nWires cs values witnessGen ∧
    genSpartanInst (wire 64) (codec (fun _ => [1, 2, 3])) (fun p => if p = "a.r1cs" then some (encR1cs secs) else none)
      ["gen_spartan_inst", "a.r1cs", "a.circuit", "5"] = .ok ("a.circuit", circuit) ∧
    treeAfter 2 ops = some (t, b) ∧ t.createProof 0 = some mp ∧ p.serialize = some ser ∧
    ∃ D₀ : Finset (Tr Sc EncPt), ∀ D, D₀ ⊆ D →
      Set.ncard {h : D → Bytes64 | ∃ H : Tr Sc EncPt → Bytes64, (∀ t : D, H t = h t) ∧ ¬ ∃ proof,
        Lib.prove witnessGen (wasmProve ((wire 32).wasmEnv
          ((env f "nizk_example").withHash fun t => scalarOf (H t)) (src f) (codec (fun _ => [1, 2, 3]))) label [] tape circuit) sig msgHash mp = some (proof, p) ∧
        Lib.verify (wasmVerify ((wire 32).wasmEnv
          ((env f "nizk_example").withHash fun t => scalarOf (H t)) (src f) (codec (fun _ => [1, 2, 3]))) label [] circuit proof) ser = some true} * 2 ^ 250 ≤ Nat.card Bytes64 ^ D.card := by
  obtain ⟨h, cs, m, secs, values, witnessGen, hf, hgen, hread⟩ := membership_file (d := 2) (by norm_num)
  obtain ⟨t, ht, hl, hroot, -⟩ := tree_history (d := 2) (by norm_num) (by norm_num) fieldLeaves
  have hkey := hash_pub_key (x := Qx) (y := Qy) (by decide +kernel) (by decide +kernel) []
  rw [List.append_nil] at hkey
  have hleaf0 : t.leaves[0]? = some (some (poseidonNat Qx Qy)) := by rw [hl]; rfl
  obtain ⟨mp, hmp, -⟩ := (tree_proof_verifies (by norm_num) (by norm_num) fieldLeaves ht 0).1 _ hleaf0
  have hQx : (xy Q).1.val = Qx := by rw [Q_xy]; exact val_of (by decide +kernel)
  have hQy : (xy Q).2.val = Qy := by rw [Q_xy]; exact val_of (by decide +kernel)
  have hrootsw : swapped t.root < secpP := by
    rw [hroot]
    exact root_swapped
  obtain ⟨-, -, -, hin, -, -⟩ := prover_inputs (mp := mp) (Q := Q) (by decide +kernel) (by norm_num) sig_eq msg_ne signed
  obtain ⟨circuit, w, p, ser, e1, e2, -, -, e3, e4⟩ := member_file_random_partial f
    (digest := fun _ => [1, 2, 3]) (fun _ => by norm_num) (by norm_num) (by norm_num) hf hgen
    (files := fun p => if p = "a.r1cs" then some (encR1cs secs) else none)
    (args := ["gen_spartan_inst", "a.r1cs", "a.circuit", "5"]) (inPath := "a.r1cs") (outPath := "a.circuit") (num := "5")
    rfl rfl rfl (by decide +kernel) (if_pos rfl)
    fieldLeaves ht (i := 0) hmp (by decide +kernel) (by decide +kernel) (by norm_num) sig_eq msg_ne signed
    (by rw [hQx, hQy, hkey]; exact hleaf0)
    (by decide +kernel)
    (by
      rw [T_eq, U_eq, sT_eq]
      exact not_falseZero (rep_ladM (by decide +kernel)) (rep_ladM (n := u) (by decide +kernel)) (by decide +kernel))
    (by
      rw [T_eq, U_eq, sT_eq]
      intro h
      rw [← natCast_zsmul, ← natCast_zsmul, ← sub_eq_zero, ← sub_smul, zsmul_eq_zero_iff G_ne] at h
      exact absurd h (by decide +kernel))
    (by
      rw [T_eq]
      exact regular_mul (by decide +kernel))
    (by
      rw [T_eq, U_eq, T_xy, U_xy]
      intro x hx
      simp only [List.mem_cons, List.not_mem_nil, or_false] at hx
      rcases hx with rfl | rfl | rfl | rfl | rfl
      · exact hrootsw
      all_goals rw [val_of (by decide +kernel)]; decide +kernel)
    (by
      intro w p hw hH
      rw [hin, Option.some.injEq, Prod.mk.injEq] at hw
      refine hread w hH ?_
      rw [← hw.1]
      exact inputs_readable fieldLeaves ht hrootsw hmp) label tape
  exact ⟨h, cs, m, secs, values, witnessGen, circuit, t, _, mp, p, ser, hf, hgen, e1, ht, hmp, e3, e4⟩

/-- The hypotheses of `address_file_random_partial` hold of this signature and a tree with this address: the tool writes a
circuit file, and the prover gets a proof that the verifier accepts, for all but a fraction of `2^-250` of the hash functions. -/
example (f : Pt.Formulas) (label : List UInt8) (tape : Tape Sc) : ∃ h cs m secs values witnessGen circuit t b mp p ser,
    FileFor 2 (AddrMembership 2) h cs m secs ∧
    GeneratesFile 2 (fun w => ∃ X Y, HonestAddrInputs 2 w X Y) h.nWires cs values witnessGen ∧
    genSpartanInst (wire 64) (codec (fun _ => [1, 2, 3])) (fun p => if p = "a.r1cs" then some (encR1cs secs) else none)
      ["gen_spartan_inst", "a.r1cs", "a.circuit", "5"] = .ok ("a.circuit", circuit) ∧
    treeAfter 2 addrOps = some (t, b) ∧ t.createProof 0 = some mp ∧ p.serialize = some ser ∧
    ∃ D₀ : Finset (Tr Sc EncPt), ∀ D, D₀ ⊆ D →
      Set.ncard {h : D → Bytes64 | ∃ H : Tr Sc EncPt → Bytes64, (∀ t : D, H t = h t) ∧ ¬ ∃ proof,
        Lib.prove witnessGen (wasmProve ((wire 32).wasmEnv
          ((env f "nizk_example").withHash fun t => scalarOf (H t)) (src f) (codec (fun _ => [1, 2, 3]))) label [] tape circuit) sig msgHash mp = some (proof, p) ∧
        Lib.verify (wasmVerify ((wire 32).wasmEnv
          ((env f "nizk_example").withHash fun t => scalarOf (H t)) (src f) (codec (fun _ => [1, 2, 3]))) label [] circuit proof) ser = some true} * 2 ^ 250 ≤ Nat.card Bytes64 ^ D.card := by
  obtain ⟨h, cs, m, secs, values, witnessGen, hf, hgen, hread⟩ := addr_membership_file (d := 2) (by norm_num)
  obtain ⟨t, ht, hl, hroot, -⟩ := tree_history (d := 2) (by norm_num) (by norm_num) addrLeaves
  have hleaf0 : t.leaves[0]? = some (some (addr)) := by rw [hl]; rfl
  obtain ⟨mp, hmp, -⟩ := (tree_proof_verifies (by norm_num) (by norm_num) addrLeaves ht 0).1 _ hleaf0
  have hQx : (xy Q).1.val = Qx := by rw [Q_xy]; exact val_of (by decide +kernel)
  have hQy : (xy Q).2.val = Qy := by rw [Q_xy]; exact val_of (by decide +kernel)
  have hrootsw : swapped t.root < secpP := by
    rw [hroot]
    exact addr_root_swapped
  obtain ⟨-, -, -, hin, -, -⟩ := prover_inputs (mp := mp) (Q := Q) (by decide +kernel) (by norm_num) sig_eq msg_ne signed
  obtain ⟨circuit, w, p, ser, e1, e2, -, -, e3, e4⟩ := address_file_random_partial f
    (digest := fun _ => [1, 2, 3]) (fun _ => by norm_num) (by norm_num) (by norm_num) hf hgen
    (files := fun p => if p = "a.r1cs" then some (encR1cs secs) else none)
    (args := ["gen_spartan_inst", "a.r1cs", "a.circuit", "5"]) (inPath := "a.r1cs") (outPath := "a.circuit") (num := "5")
    rfl rfl rfl (by decide +kernel) (if_pos rfl)
    addrLeaves ht (i := 0) hmp (by decide +kernel) (by decide +kernel) (by norm_num) sig_eq msg_ne signed
    (by rw [hQx, hQy, key_address]; exact hleaf0)
    (by decide +kernel)
    (by
      rw [T_eq, U_eq, sT_eq]
      exact not_falseZero (rep_ladM (by decide +kernel)) (rep_ladM (n := u) (by decide +kernel)) (by decide +kernel))
    (by
      rw [T_eq, U_eq, sT_eq]
      intro h
      rw [← natCast_zsmul, ← natCast_zsmul, ← sub_eq_zero, ← sub_smul, zsmul_eq_zero_iff G_ne] at h
      exact absurd h (by decide +kernel))
    (by
      rw [T_eq]
      exact regular_mul (by decide +kernel))
    (by
      rw [T_eq, U_eq, T_xy, U_xy]
      intro x hx
      simp only [List.mem_cons, List.not_mem_nil, or_false] at hx
      rcases hx with rfl | rfl | rfl | rfl | rfl
      · exact hrootsw
      all_goals rw [val_of (by decide +kernel)]; decide +kernel)
    (by
      intro w p hw hH
      rw [hin, Option.some.injEq, Prod.mk.injEq] at hw
      refine hread w hH ?_
      rw [← hw.1]
      exact inputs_readable addrLeaves ht hrootsw hmp) label tape
  exact ⟨h, cs, m, secs, values, witnessGen, circuit, t, _, mp, p, ser, hf, hgen, e1, ht, hmp, e3, e4⟩

end Spartan.Example
