import Verif.Props.AnonEx

/-!
C66 is false on the limbs, points and transcript of the program: the file with zeros only is a witness for the constraints of
the membership circuits, and the proof made with it is accepted for every root and message.
-/

set_option exponentiation.threshold 2000

namespace Spartan
open Spec MParams Lib Mach

attribute [local irreducible] poseidonNat k256Hash PoseidonParams.hash wasmPoseidon poseidonHash Circuit.Poseidon
  Circuit.EfficientECDSA Circuit.CoordsToAddress

/-- C66, wasm: for every circuit and every public input below `p` the program makes a proof from a witness file of zeros,
and accepts it, unless a folding challenge of the run is zero. -/
theorem machine_forgery (f : Pt.Formulas) {bits : Nat} (h32 : 32 ≤ bits) (h64 : bits ≤ 64)
    {digest : R1CS Sc → List UInt8} {r : CircomR1CS}
    (hr : ∀ c ∈ r.constraints, ∀ t ∈ c.1 ++ c.2.1 ++ c.2.2, t.1 < r.numVariables ∧ leNat (coreToRepr t.2) < secpP)
    (hc : r.constraints ≠ []) (hn : r.numVariables < 2 ^ 27) {numPub : Nat} {I : Inst Sc}
    (hI : convertToSpartan (codec digest) r numPub = .ok I) (hok : (wire bits).okInst I) (hsz : I.inst.numVars ≤ 2 ^ 62)
    {pub : List UInt8} (hlen : numPub * 32 ≤ pub.length) (hcanon : ∀ b ∈ chunks pub numPub, leNat b < secpP)
    {version : Nat} {prime : List UInt8} (hv : version ≤ 2) (hp : prime.length = 32) (label : List UInt8) (tape : Tape Sc) :
    let zeros := encWtns version prime (32 * r.numVariables) (List.replicate r.numVariables 0)
    ∃ pf T, wasmProveRun ((wire bits).wasmEnv ((env f "nizk_example").withHash (nonzeroFold (env f "nizk_example").hash))
        (src f) (codec digest)) label [] tape ((wire bits).fInst.enc I) zeros pub = .ok (pf, T) ∧
      (NoZeroFold (env f "nizk_example").hash T →
        wasmProve (wasm f bits digest) label [] tape ((wire bits).fInst.enc I) zeros pub =
          .ok ((wire bits).fNIZK.enc pf) ∧
        wasmVerify (wasm f bits digest) label [] ((wire bits).fInst.enc I) ((wire bits).fNIZK.enc pf) pub = .ok true) := by
  have hz : ∀ w ∈ List.replicate r.numVariables 0, Readable w ∧ w < secpP := by
    intro w hw
    rw [List.eq_of_mem_replicate hw]
    decide +kernel
  have := machine_prove_verify f h32 h64 (digest := digest) hr hc hI hok hsz hlen hcanon hv hp
    (ws := List.replicate r.numVariables 0) (by rw [List.length_replicate]; exact hn) List.length_replicate hz (by
      rw [List.map_replicate, Nat.cast_zero]
      intro c _
      rw [evalLC_zero, evalLC_zero, evalLC_zero, mul_zero]) label tape
  rw [List.length_replicate] at this
  exact this

open Example in
theorem signer_exists {d : ℕ} (hd1 : 1 ≤ d) (hd32 : d ≤ 32) : ∃ t b mp, treeAfter d ops = some (t, b) ∧
    Signer t keyLeaf Q Circuit.G r s 27 sig msgHash 0 mp := by
  obtain ⟨t, ht, hl, -, -⟩ := tree_history hd1 hd32 fieldLeaves
  have hkey := hash_pub_key (x := Qx) (y := Qy) (by decide +kernel) (by decide +kernel) []
  rw [List.append_nil] at hkey
  have hQx : (xy Q).1.val = Qx := by rw [Q_xy]; exact val_of (by decide +kernel)
  have hQy : (xy Q).2.val = Qy := by rw [Q_xy]; exact val_of (by decide +kernel)
  have hrun : (treeRun d ops []).1 = [poseidonNat Qx Qy] := by
    have h0 : 0 < 2 ^ d := Nat.two_pow_pos d
    simp [ops, treeRun, treeStep, h0]
  have hleaf0 : t.leaves[0]? = some (some (poseidonNat Qx Qy)) := by rw [hl, hrun]; rfl
  obtain ⟨mp, hmp, -⟩ := (tree_proof_verifies hd1 hd32 fieldLeaves ht 0).1 _ hleaf0
  refine ⟨t, _, mp, ht, hmp, by rw [keyLeaf, hQx, hQy, hkey]; exact hleaf0, by decide +kernel, sig_eq, signed,
    by decide +kernel, ?_, ?_, ?_⟩
  · rw [T_eq, U_eq, sT_eq]
    exact Circuit.not_falseZero (rep_ladM (by decide +kernel)) (rep_ladM (n := u) (by decide +kernel)) (by decide +kernel)
  · rw [T_eq, U_eq, sT_eq]
    intro h
    rw [← natCast_zsmul, ← natCast_zsmul, ← sub_eq_zero, ← sub_smul, Circuit.zsmul_eq_zero_iff Circuit.G_ne] at h
    exact absurd h (by decide +kernel)
  · rw [T_eq]
    exact regular_mul (by decide +kernel)

open Example in
theorem membership_system_ne {d : ℕ} (hd1 : 1 ≤ d) (hd32 : d ≤ 32) {rc : CircomR1CS}
    (hsys : SystemFor d (Circuit.PubKeyMembership d) rc) : rc.constraints ≠ [] := by
  obtain ⟨t, b, mp, ht, h⟩ := signer_exists hd1 hd32
  obtain ⟨-, -, -, hne⟩ := signer_inputs hd1 hd32 fieldLeaves ht (by decide +kernel) (by norm_num) msg_ne h
  exact hne rc hsys

/-- C66, library: every public input that the check of the verifier accepts, with any root, has a proof made by the program
from a witness file of zeros, and the verifier accepts it, unless a folding challenge of the run is zero. -/
theorem member_forgery (f : Pt.Formulas) {bits : ℕ} (h32 : 32 ≤ bits) (h64 : bits ≤ 64)
    {digest : R1CS Sc → List UInt8} (hdig : ∀ i, (digest i).length < 2 ^ 32)
    {d : ℕ} (hd1 : 1 ≤ d) (hd32 : d ≤ 32) {rc : CircomR1CS} (hsys : SystemFor d (Circuit.PubKeyMembership d) rc)
    {ser : List UInt8} {p : PublicInput} (hser : PublicInput.deserialize ser = some p)
    (hver : verifyEffEcdsaPubInput p = some true)
    (hswap : ∀ x ∈ [p.circuitPubInput.merkleRoot, p.circuitPubInput.Tx, p.circuitPubInput.Ty, p.circuitPubInput.Ux,
      p.circuitPubInput.Uy], swapped x < secpP) (label : List UInt8) (tape : Tape Sc) :
    let zeros := encWtns 2 (List.replicate 32 0) (32 * rc.numVariables) (List.replicate rc.numVariables 0)
    ∃ I pub pf T, convertToSpartan (codec digest) rc 5 = .ok I ∧ p.circuitPubInput.serialize = some pub ∧
      wasmProveRun ((wire bits).wasmEnv ((env f "nizk_example").withHash (nonzeroFold (env f "nizk_example").hash))
        (src f) (codec digest)) label [] tape ((wire bits).fInst.enc I) zeros pub = .ok (pf, T) ∧
      (NoZeroFold (env f "nizk_example").hash T → ∃ proof,
        wasmProve (wasm f bits digest) label [] tape ((wire bits).fInst.enc I) zeros pub = .ok proof ∧
        Lib.verify (wasmVerify (wasm f bits digest) label [] ((wire bits).fInst.enc I) proof) ser = some true) := by
  have hfit := deserialize_fits hser
  obtain ⟨pub, hb, hch⟩ := pub_input_chunks hfit
  have hlen : 5 * 32 ≤ pub.length := by
    obtain ⟨bs', hb', hl, -⟩ := circuit_pub_input_roundtrip hfit
    rw [hb] at hb'
    cases hb'
    omega
  obtain ⟨I, hI, hok, hsz⟩ := systemFor_inst hsys h32 hdig
  obtain ⟨pf, T, e1, e2⟩ := machine_forgery f h32 h64 (digest := digest) hsys.1 (membership_system_ne hd1 hd32 hsys)
    (lt_trans hsys.2.1 (by norm_num)) hI hok hsz hlen (by
    rw [hch]
    intro b hb
    simp only [List.mem_cons, List.not_mem_nil, or_false] at hb
    rcases hb with rfl | rfl | rfl | rfl | rfl <;> exact hswap _ (by simp)) (le_refl 2)
    (List.length_replicate (n := 32) (a := 0)) label tape
  exact ⟨I, pub, pf, T, hI, hb, e1, fun hz => ⟨_, (e2 hz).1, lib_verify_iff.mpr ⟨p, pub, hser, hver, hb, (e2 hz).2⟩⟩⟩

open Example in
/-- For the message of the example and the root 7 of a tree of depth 20, of which no leaf is known. -/
example (f : Pt.Formulas) (label : List UInt8) (tape : Tape Sc) : ∃ rc I ser p zeros pub pf T,
    SystemFor 20 (Circuit.PubKeyMembership 20) rc ∧ convertToSpartan (codec (fun _ => [1, 2, 3])) rc 5 = .ok I ∧
    PublicInput.deserialize ser = some p ∧ p.circuitPubInput.merkleRoot = 7 ∧ p.msgHash = msgHash ∧
    wasmProveRun ((wire 32).wasmEnv ((env f "nizk_example").withHash (nonzeroFold (env f "nizk_example").hash))
      (src f) (codec (fun _ => [1, 2, 3]))) label [] tape ((wire 32).fInst.enc I) zeros pub = .ok (pf, T) ∧
    (NoZeroFold (env f "nizk_example").hash T → ∃ proof,
      Lib.verify (wasmVerify (wasm f 32 (fun _ => [1, 2, 3])) label [] ((wire 32).fInst.enc I) proof) ser = some true) := by
  obtain ⟨rc, hsys⟩ := membership_r1cs (d := 20) (by norm_num)
  obtain ⟨-, -, -, -, hver, hser⟩ := prover_inputs (mp := ⟨7, [], []⟩) (Q := Q) (by decide +kernel) (by norm_num) sig_eq msg_ne
    signed
  obtain ⟨ser, -, hs⟩ := hser (by norm_num)
  obtain ⟨I, pub, pf, T, e1, -, e3, e4⟩ := member_forgery f (bits := 32) (by norm_num) (by norm_num)
    (digest := fun _ => [1, 2, 3]) (fun _ => by norm_num) (by norm_num) (by norm_num) hsys hs hver (by
      rw [T_eq, U_eq, T_xy, U_xy]
      intro x hx
      simp only [List.mem_cons, List.not_mem_nil, or_false] at hx
      rcases hx with rfl | rfl | rfl | rfl | rfl
      · decide +kernel
      all_goals rw [val_of (by decide +kernel)]; decide +kernel) label tape
  exact ⟨rc, I, ser, _, _, pub, pf, T, hsys, e1, hs, rfl, rfl, e3, fun hz => by
    obtain ⟨proof, -, h⟩ := e4 hz
    exact ⟨proof, h⟩⟩

end Spartan
