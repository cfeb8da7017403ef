import Verif.Props.Compile
import Verif.Props.AddrProverEx

/-!
The hypotheses of C128 can be met: the key and signature of `Props/ProverEx` and the trees with that key and its address.
-/

set_option exponentiation.threshold 2000
set_option maxRecDepth 100000

namespace Spartan.Example
open Spec MParams Lib Mach Circuit Spec.Keccak

attribute [local irreducible] poseidonNat k256Hash PoseidonParams.hash wasmPoseidon poseidonHash ethAddress


/-- The hypotheses of `member_machine_partial` hold of this signature and a tree with this key, for a system of constraints of the
circuit, except that nothing is known about the values of the internal signals. -/
example (f : Pt.Formulas) (label : List UInt8) (tape : Tape Sc) : ∃ rc values witnessGen t b mp w p,
    SystemFor 2 (PubKeyMembership 2) rc ∧ Generates 2 (fun w => ∃ X Y, HonestInputs 2 w X Y) rc values witnessGen ∧
    treeAfter 2 ops = some (t, b) ∧ t.createProof 0 = some mp ∧ proverInputs sig msgHash mp = some (w, p) ∧
    ((∀ x ∈ values w, Readable x) → ∃ I ser wit pub pf T, convertToSpartan (codec (fun _ => [1, 2, 3])) rc 5 = .ok I ∧
      p.serialize = some ser ∧
      wasmProveRun ((wire 32).wasmEnv ((env f "nizk_example").withHash (nonzeroFold (env f "nizk_example").hash))
        (src f) (codec (fun _ => [1, 2, 3]))) label [] tape ((wire 32).fInst.enc I) wit pub = .ok (pf, T) ∧
      (NoZeroFold (env f "nizk_example").hash T → ∃ proof,
        Lib.prove witnessGen (wasmProve (wasm f 32 (fun _ => [1, 2, 3])) label [] tape ((wire 32).fInst.enc I)) sig msgHash
          mp = some (proof, p) ∧
        Lib.verify (wasmVerify (wasm f 32 (fun _ => [1, 2, 3])) label [] ((wire 32).fInst.enc I) proof) ser =
          some true)) := by
  obtain ⟨rc, hsys⟩ := membership_r1cs (d := 2) (by norm_num)
  obtain ⟨values, witnessGen, hgen⟩ := generator_exists hsys
  have hgen' : Generates 2 (fun w => ∃ X Y, HonestInputs 2 w X Y) rc values witnessGen := by
    rintro w ⟨X, Y, kBits, -, h⟩
    exact hgen w ⟨kBits, X, Y, h⟩
  obtain ⟨t, ht, hl, hroot, -⟩ := tree_history (d := 2) (by norm_num) (by norm_num) fieldLeaves
  have hkey := hash_pub_key (x := Qx) (y := Qy) (by decide +kernel) (by decide +kernel) []
  rw [List.append_nil] at hkey
  have hleaf0 : t.leaves[0]? = some (some (poseidonNat Qx Qy)) := by rw [hl]; rfl
  obtain ⟨mp, hmp, -⟩ := (tree_proof_verifies (by norm_num) (by norm_num) fieldLeaves ht 0).1 _ hleaf0
  have hQx : (xy Q).1.val = Qx := by rw [Q_xy]; exact val_of (by decide +kernel)
  have hQy : (xy Q).2.val = Qy := by rw [Q_xy]; exact val_of (by decide +kernel)
  have hrootsw : swapped t.root < secpP := by
    rw [hroot]
    exact root_swapped
  obtain ⟨-, -, -, hin, -, -⟩ := prover_inputs (mp := mp) (Q := Q) (by decide +kernel) (by norm_num) sig_eq msg_ne signed
  refine ⟨rc, values, witnessGen, t, _, mp, _, _, hsys, hgen', ht, hmp, hin, fun hread => ?_⟩
  obtain ⟨I, w, p, ser, wit, pub, pf, T, e1, e2, -, -, e3, -, -, e4, e5⟩ := member_machine_partial f (bits := 32) (by norm_num)
    (by norm_num) (digest := fun _ => [1, 2, 3]) (fun _ => by norm_num) (by norm_num) (by norm_num) hsys hgen'
    fieldLeaves ht (i := 0) hmp (by decide +kernel) (by decide +kernel) (by norm_num) sig_eq msg_ne signed
    (by rw [hQx, hQy, hkey]; exact hleaf0)
    (by decide +kernel)
    (by
      rw [T_eq, U_eq, sT_eq]
      exact not_falseZero (rep_ladM (by decide +kernel)) (rep_ladM (n := u) (by decide +kernel)) (by decide +kernel))
    (by
      rw [T_eq, U_eq, sT_eq]
      intro h
      rw [← natCast_zsmul, ← natCast_zsmul, ← sub_eq_zero, ← sub_smul, zsmul_eq_zero_iff G_ne] at h
      exact absurd h (by decide +kernel))
    (by
      rw [T_eq]
      exact regular_mul (by decide +kernel))
    (by
      rw [T_eq, U_eq, T_xy, U_xy]
      intro x hx
      simp only [List.mem_cons, List.not_mem_nil, or_false] at hx
      rcases hx with rfl | rfl | rfl | rfl | rfl
      · exact hrootsw
      all_goals rw [val_of (by decide +kernel)]; decide +kernel)
    (by
      intro w p hw _
      rw [hin, Option.some.injEq, Prod.mk.injEq] at hw
      rw [← hw.1]
      exact hread) label tape
  rw [hin, Option.some.injEq, Prod.mk.injEq] at e2
  obtain ⟨-, e2⟩ := e2
  rw [← e2] at e3 e5
  exact ⟨I, ser, wit, pub, pf, T, e1, e3, e4, e5⟩

/-- The hypotheses of `address_machine_partial` hold of this signature and a tree with this address, for a system of constraints of the
circuit, except that nothing is known about the values of the internal signals. -/
example (f : Pt.Formulas) (label : List UInt8) (tape : Tape Sc) : ∃ rc values witnessGen t b mp w p,
    SystemFor 2 (AddrMembership 2) rc ∧ Generates 2 (fun w => ∃ X Y, HonestAddrInputs 2 w X Y) rc values witnessGen ∧
    treeAfter 2 addrOps = some (t, b) ∧ t.createProof 0 = some mp ∧ proverInputs sig msgHash mp = some (w, p) ∧
    ((∀ x ∈ values w, Readable x) → ∃ I ser wit pub pf T, convertToSpartan (codec (fun _ => [1, 2, 3])) rc 5 = .ok I ∧
      p.serialize = some ser ∧
      wasmProveRun ((wire 32).wasmEnv ((env f "nizk_example").withHash (nonzeroFold (env f "nizk_example").hash))
        (src f) (codec (fun _ => [1, 2, 3]))) label [] tape ((wire 32).fInst.enc I) wit pub = .ok (pf, T) ∧
      (NoZeroFold (env f "nizk_example").hash T → ∃ proof,
        Lib.prove witnessGen (wasmProve (wasm f 32 (fun _ => [1, 2, 3])) label [] tape ((wire 32).fInst.enc I)) sig msgHash
          mp = some (proof, p) ∧
        Lib.verify (wasmVerify (wasm f 32 (fun _ => [1, 2, 3])) label [] ((wire 32).fInst.enc I) proof) ser =
          some true)) := by
  obtain ⟨rc, hsys⟩ := addr_membership_r1cs (d := 2) (by norm_num)
  obtain ⟨values, witnessGen, hgen⟩ := generator_exists hsys
  have hgen' : Generates 2 (fun w => ∃ X Y, HonestAddrInputs 2 w X Y) rc values witnessGen := by
    rintro w ⟨X, Y, kBits, -, h⟩
    exact hgen w ⟨kBits, X, Y, _, h⟩
  obtain ⟨t, ht, hl, hroot, -⟩ := tree_history (d := 2) (by norm_num) (by norm_num) addrLeaves
  have hleaf0 : t.leaves[0]? = some (some addr) := by rw [hl]; rfl
  obtain ⟨mp, hmp, -⟩ := (tree_proof_verifies (by norm_num) (by norm_num) addrLeaves ht 0).1 _ hleaf0
  have hQx : (xy Q).1.val = Qx := by rw [Q_xy]; exact val_of (by decide +kernel)
  have hQy : (xy Q).2.val = Qy := by rw [Q_xy]; exact val_of (by decide +kernel)
  have hrootsw : swapped t.root < secpP := by
    rw [hroot]
    exact addr_root_swapped
  obtain ⟨-, -, -, hin, -, -⟩ := prover_inputs (mp := mp) (Q := Q) (by decide +kernel) (by norm_num) sig_eq msg_ne signed
  refine ⟨rc, values, witnessGen, t, _, mp, _, _, hsys, hgen', ht, hmp, hin, fun hread => ?_⟩
  obtain ⟨I, w, p, ser, wit, pub, pf, T, e1, e2, -, -, e3, -, -, e4, e5⟩ := address_machine_partial f (bits := 32) (by norm_num)
    (by norm_num) (digest := fun _ => [1, 2, 3]) (fun _ => by norm_num) (by norm_num) (by norm_num) hsys hgen'
    addrLeaves ht (i := 0) hmp (by decide +kernel) (by decide +kernel) (by norm_num) sig_eq msg_ne signed
    (by rw [hQx, hQy, key_address]; exact hleaf0)
    (by decide +kernel)
    (by
      rw [T_eq, U_eq, sT_eq]
      exact not_falseZero (rep_ladM (by decide +kernel)) (rep_ladM (n := u) (by decide +kernel)) (by decide +kernel))
    (by
      rw [T_eq, U_eq, sT_eq]
      intro h
      rw [← natCast_zsmul, ← natCast_zsmul, ← sub_eq_zero, ← sub_smul, zsmul_eq_zero_iff G_ne] at h
      exact absurd h (by decide +kernel))
    (by
      rw [T_eq]
      exact regular_mul (by decide +kernel))
    (by
      rw [T_eq, U_eq, T_xy, U_xy]
      intro x hx
      simp only [List.mem_cons, List.not_mem_nil, or_false] at hx
      rcases hx with rfl | rfl | rfl | rfl | rfl
      · exact hrootsw
      all_goals rw [val_of (by decide +kernel)]; decide +kernel)
    (by
      intro w p hw _
      rw [hin, Option.some.injEq, Prod.mk.injEq] at hw
      rw [← hw.1]
      exact hread) label tape
  rw [hin, Option.some.injEq, Prod.mk.injEq] at e2
  obtain ⟨-, e2⟩ := e2
  rw [← e2] at e3 e5
  exact ⟨I, ser, wit, pub, pf, T, e1, e3, e4, e5⟩

end Spartan.Example
