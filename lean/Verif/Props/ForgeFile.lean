import Verif.Props.Forge
import Verif.Props.CircuitFileEx

/-!
C66 on the files of the membership circuits: the tool's circuit file, a witness file of zeros, and any root.
-/

set_option exponentiation.threshold 2000
set_option maxRecDepth 100000

namespace Spartan
open Spec MParams Lib Mach
open Spec.Keccak (ethAddress)

attribute [local irreducible] poseidonNat k256Hash PoseidonParams.hash wasmPoseidon poseidonHash Circuit.Poseidon
  Circuit.EfficientECDSA Circuit.CoordsToAddress ethAddress

variable {files : String → Option (List UInt8)} {args : List String} {inPath outPath num : String}

theorem file_forgery (f : Pt.Formulas) {d : ℕ}
    {R : (s root Tx Ty Ux Uy : ZMod secpP) → (path sib : ℕ → ZMod secpP) → Prop}
    (hne : ∀ rc, SystemFor d R rc → rc.constraints ≠ [])
    {digest : R1CS Sc → List UInt8} (hdig : ∀ i, (digest i).length < 2 ^ 32)
    {h : Head} {cs : List Con} {m : List ℕ} {secs : List (ℕ × List UInt8)} (hf : FileFor d R h cs m secs)
    (h1 : args[1]? = some inPath) (h2 : args[2]? = some outPath)
    (h3 : args[3]? = some num) (hnum : parseUsize 64 num.toList = some 5) (hfile : files inPath = some (encR1cs secs))
    {ser : List UInt8} {p : PublicInput} (hser : PublicInput.deserialize ser = some p)
    (hver : verifyEffEcdsaPubInput p = some true)
    (hswap : ∀ x ∈ [p.circuitPubInput.merkleRoot, p.circuitPubInput.Tx, p.circuitPubInput.Ty, p.circuitPubInput.Ux,
      p.circuitPubInput.Uy], swapped x < secpP) (label : List UInt8) (tape : Tape Sc) :
    ∃ circuit zeros pub pf T, genSpartanInst (wire 64) (codec digest) files args = .ok (outPath, circuit) ∧
      zeros = encWtns 2 (List.replicate 32 0) (32 * h.nWires) (List.replicate h.nWires 0) ∧
      p.circuitPubInput.serialize = some pub ∧
      wasmProveRun ((wire 32).wasmEnv ((env f "nizk_example").withHash (nonzeroFold (env f "nizk_example").hash))
        (src f) (codec digest)) label [] tape circuit zeros pub = .ok (pf, T) ∧
      (NoZeroFold (env f "nizk_example").hash T → ∃ proof,
        wasmProve (wasm f 32 digest) label [] tape circuit zeros pub = .ok proof ∧
        Lib.verify (wasmVerify (wasm f 32 digest) label [] circuit proof) ser = some true) := by
  obtain ⟨rc, wm, hrc, hsys, hnv, -⟩ := file_system hf
  have hfit := deserialize_fits hser
  obtain ⟨pub, hb, hch⟩ := pub_input_chunks hfit
  have hlen : 5 * 32 ≤ pub.length := by
    obtain ⟨bs', hb', hl, -⟩ := circuit_pub_input_roundtrip hfit
    rw [hb] at hb'
    cases hb'
    omega
  obtain ⟨I, hI, hok, hsz⟩ := systemFor_inst hsys (le_refl 32) hdig
  obtain ⟨pf, T, e1, e2⟩ := machine_forgery f (le_refl 32) (by norm_num) (digest := digest) hsys.1 (hne rc hsys)
    (lt_trans hsys.2.1 (by norm_num)) hI hok hsz hlen (by
    rw [hch]
    intro b hb
    simp only [List.mem_cons, List.not_mem_nil, or_false] at hb
    rcases hb with rfl | rfl | rfl | rfl | rfl <;> exact hswap _ (by simp)) (le_refl 2)
    (List.length_replicate (n := 32) (a := 0)) label tape
  rw [hnv] at e1 e2
  exact ⟨_, _, pub, pf, T, machine_gen hrc hI h1 h2 h3 hnum hfile, rfl, hb, e1, fun hz =>
    ⟨_, (e2 hz).1, lib_verify_iff.mpr ⟨p, pub, hser, hver, hb, (e2 hz).2⟩⟩⟩

open Example in
theorem addr_signer_exists {d : ℕ} (hd1 : 1 ≤ d) (hd32 : d ≤ 32) : ∃ t b mp, treeAfter d addrOps = some (t, b) ∧
    Signer t addressLeaf Q Circuit.G r s 27 sig msgHash 0 mp := by
  obtain ⟨t, ht, hl, -, -⟩ := tree_history hd1 hd32 addrLeaves
  have hQx : (xy Q).1.val = Qx := by rw [Q_xy]; exact val_of (by decide +kernel)
  have hQy : (xy Q).2.val = Qy := by rw [Q_xy]; exact val_of (by decide +kernel)
  have hrun : (treeRun d addrOps []).1 = [addr] := by
    have h0 : 0 < 2 ^ d := Nat.two_pow_pos d
    simp [addrOps, treeRun, treeStep, h0]
  have hleaf0 : t.leaves[0]? = some (some addr) := by rw [hl, hrun]; rfl
  obtain ⟨mp, hmp, -⟩ := (tree_proof_verifies hd1 hd32 addrLeaves ht 0).1 _ hleaf0
  refine ⟨t, _, mp, ht, hmp, by rw [addressLeaf, hQx, hQy, key_address]; exact hleaf0, by decide +kernel, sig_eq, signed,
    by decide +kernel, ?_, ?_, ?_⟩
  · rw [T_eq, U_eq, sT_eq]
    exact Circuit.not_falseZero (rep_ladM (by decide +kernel)) (rep_ladM (n := u) (by decide +kernel)) (by decide +kernel)
  · rw [T_eq, U_eq, sT_eq]
    intro h
    rw [← natCast_zsmul, ← natCast_zsmul, ← sub_eq_zero, ← sub_smul, Circuit.zsmul_eq_zero_iff Circuit.G_ne] at h
    exact absurd h (by decide +kernel)
  · rw [T_eq]
    exact regular_mul (by decide +kernel)

open Example in
theorem addr_system_ne {d : ℕ} (hd1 : 1 ≤ d) (hd32 : d ≤ 32) {rc : CircomR1CS}
    (hsys : SystemFor d (Circuit.AddrMembership d) rc) : rc.constraints ≠ [] := by
  obtain ⟨t, b, mp, ht, h⟩ := addr_signer_exists hd1 hd32
  obtain ⟨-, -, -, hne⟩ := signer_addr_inputs hd1 hd32 addrLeaves ht (by decide +kernel) (by norm_num) msg_ne h
  exact hne rc hsys

/-- C66, files: with the circuit file that the tool writes from any r1cs file of the public key membership circuit, every
public input that the check of the verifier accepts, with any root, has a proof made by the program from a witness file of
zeros, and the verifier accepts it, unless a folding challenge of the run is zero. -/
theorem member_file_forgery (f : Pt.Formulas) {d : ℕ} (hd1 : 1 ≤ d) (hd32 : d ≤ 32)
    {digest : R1CS Sc → List UInt8} (hdig : ∀ i, (digest i).length < 2 ^ 32)
    {h : Head} {cs : List Con} {m : List ℕ} {secs : List (ℕ × List UInt8)} (hf : FileFor d (Circuit.PubKeyMembership d) h cs m secs)
    (h1 : args[1]? = some inPath) (h2 : args[2]? = some outPath)
    (h3 : args[3]? = some num) (hnum : parseUsize 64 num.toList = some 5) (hfile : files inPath = some (encR1cs secs))
    {ser : List UInt8} {p : PublicInput} (hser : PublicInput.deserialize ser = some p)
    (hver : verifyEffEcdsaPubInput p = some true)
    (hswap : ∀ x ∈ [p.circuitPubInput.merkleRoot, p.circuitPubInput.Tx, p.circuitPubInput.Ty, p.circuitPubInput.Ux,
      p.circuitPubInput.Uy], swapped x < secpP) (label : List UInt8) (tape : Tape Sc) :
    ∃ circuit zeros pub pf T, genSpartanInst (wire 64) (codec digest) files args = .ok (outPath, circuit) ∧
      zeros = encWtns 2 (List.replicate 32 0) (32 * h.nWires) (List.replicate h.nWires 0) ∧
      p.circuitPubInput.serialize = some pub ∧
      wasmProveRun ((wire 32).wasmEnv ((env f "nizk_example").withHash (nonzeroFold (env f "nizk_example").hash))
        (src f) (codec digest)) label [] tape circuit zeros pub = .ok (pf, T) ∧
      (NoZeroFold (env f "nizk_example").hash T → ∃ proof,
        wasmProve (wasm f 32 digest) label [] tape circuit zeros pub = .ok proof ∧
        Lib.verify (wasmVerify (wasm f 32 digest) label [] circuit proof) ser = some true) :=
  file_forgery f (fun _ => membership_system_ne hd1 hd32) hdig hf h1 h2 h3 hnum hfile hser hver hswap label tape

/-- C66, files: the same for the address membership circuit. -/
theorem address_file_forgery (f : Pt.Formulas) {d : ℕ} (hd1 : 1 ≤ d) (hd32 : d ≤ 32)
    {digest : R1CS Sc → List UInt8} (hdig : ∀ i, (digest i).length < 2 ^ 32)
    {h : Head} {cs : List Con} {m : List ℕ} {secs : List (ℕ × List UInt8)} (hf : FileFor d (Circuit.AddrMembership d) h cs m secs)
    (h1 : args[1]? = some inPath) (h2 : args[2]? = some outPath)
    (h3 : args[3]? = some num) (hnum : parseUsize 64 num.toList = some 5) (hfile : files inPath = some (encR1cs secs))
    {ser : List UInt8} {p : PublicInput} (hser : PublicInput.deserialize ser = some p)
    (hver : verifyEffEcdsaPubInput p = some true)
    (hswap : ∀ x ∈ [p.circuitPubInput.merkleRoot, p.circuitPubInput.Tx, p.circuitPubInput.Ty, p.circuitPubInput.Ux,
      p.circuitPubInput.Uy], swapped x < secpP) (label : List UInt8) (tape : Tape Sc) :
    ∃ circuit zeros pub pf T, genSpartanInst (wire 64) (codec digest) files args = .ok (outPath, circuit) ∧
      zeros = encWtns 2 (List.replicate 32 0) (32 * h.nWires) (List.replicate h.nWires 0) ∧
      p.circuitPubInput.serialize = some pub ∧
      wasmProveRun ((wire 32).wasmEnv ((env f "nizk_example").withHash (nonzeroFold (env f "nizk_example").hash))
        (src f) (codec digest)) label [] tape circuit zeros pub = .ok (pf, T) ∧
      (NoZeroFold (env f "nizk_example").hash T → ∃ proof,
        wasmProve (wasm f 32 digest) label [] tape circuit zeros pub = .ok proof ∧
        Lib.verify (wasmVerify (wasm f 32 digest) label [] circuit proof) ser = some true) :=
  file_forgery f (fun _ => addr_system_ne hd1 hd32) hdig hf h1 h2 h3 hnum hfile hser hver hswap label tape

open Example in
/-- For the message of the example and the root 7 of a tree of addresses of depth 20, of which no leaf is known. -/
example (f : Pt.Formulas) (label : List UInt8) (tape : Tape Sc) : ∃ h cs m secs circuit ser p zeros pub pf T,
    FileFor 20 (Circuit.AddrMembership 20) h cs m secs ∧
    genSpartanInst (wire 64) (codec (fun _ => [1, 2, 3])) (fun p => if p = "a.r1cs" then some (encR1cs secs) else none)
      ["gen_spartan_inst", "a.r1cs", "a.circuit", "5"] = .ok ("a.circuit", circuit) ∧
    PublicInput.deserialize ser = some p ∧ p.circuitPubInput.merkleRoot = 7 ∧ p.msgHash = msgHash ∧
    wasmProveRun ((wire 32).wasmEnv ((env f "nizk_example").withHash (nonzeroFold (env f "nizk_example").hash))
      (src f) (codec (fun _ => [1, 2, 3]))) label [] tape circuit zeros pub = .ok (pf, T) ∧
    (NoZeroFold (env f "nizk_example").hash T → ∃ proof,
      Lib.verify (wasmVerify (wasm f 32 (fun _ => [1, 2, 3])) label [] circuit proof) ser = some true) := by
  obtain ⟨h, cs, m, secs, -, -, hf, -, -⟩ := addr_membership_file (d := 20) (by norm_num)
  obtain ⟨-, -, -, -, hver, hser⟩ := prover_inputs (mp := ⟨7, [], []⟩) (Q := Q) (by decide +kernel) (by norm_num) sig_eq msg_ne
    signed
  obtain ⟨ser, -, hs⟩ := hser (by norm_num)
  obtain ⟨circuit, zeros, pub, pf, T, e1, -, -, e3, e4⟩ := address_file_forgery f (d := 20) (by norm_num) (by norm_num)
    (digest := fun _ => [1, 2, 3]) (fun _ => by norm_num) hf
    (files := fun p => if p = "a.r1cs" then some (encR1cs secs) else none)
    (args := ["gen_spartan_inst", "a.r1cs", "a.circuit", "5"]) (inPath := "a.r1cs") (outPath := "a.circuit") (num := "5")
    rfl rfl rfl (by decide +kernel) (if_pos rfl) hs hver (by
      rw [T_eq, U_eq, T_xy, U_xy]
      intro x hx
      simp only [List.mem_cons, List.not_mem_nil, or_false] at hx
      rcases hx with rfl | rfl | rfl | rfl | rfl
      · decide +kernel
      all_goals rw [val_of (by decide +kernel)]; decide +kernel) label tape
  exact ⟨h, cs, m, secs, circuit, ser, _, zeros, pub, pf, T, hf, e1, hs, rfl, rfl, e3, fun hz => by
    obtain ⟨proof, -, h⟩ := e4 hz
    exact ⟨proof, h⟩⟩

end Spartan
