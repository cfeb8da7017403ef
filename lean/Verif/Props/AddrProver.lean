import Verif.Props.Prover
import Verif.Props.Address

/-!
Property C100: the address variant of C79 and C85.  The leaves of the tree are Ethereum addresses and the circuit is
`AddrMembership`, as in `benchmark/node/src/node.bench_addr_membership.ts`.
-/

set_option exponentiation.threshold 2000

namespace Spartan
open Spec MParams Lib Spec.Keccak

attribute [local irreducible] poseidonNat k256Hash PoseidonParams.hash wasmPoseidon poseidonHash ethAddress

/-- C100: a signer whose Ethereum address is a leaf of the tree can satisfy the address membership circuit with the root of the tree
and the proof of the library, with the honest hints, outside the exceptional cases of the signature circuit. -/
theorem tree_address_proves_partial {d : ℕ} (h1 : 1 ≤ d) (h32 : d ≤ 32) {ops : List TreeOp} (hops : FieldLeaves ops)
    {t : MerkleTree} {b : List Bool} (ht : treeAfter d ops = some (t, b)) {i : ℕ} {proof : MerkleProof}
    (T U : Secp) (hT : T ≠ 0) (s : ZMod secpP) (hs : ¬ (2 ^ 128 ≤ s.val + Circuit.tQlo ∧ s.val < 2 ^ 128))
    (hz : ¬ FalseZero (s.val • T) U) (hd : s.val • T = U → U = 0)
    (hi : t.leaves[i]? = some (ethAddress (xy (s.val • T + U)).1.val (xy (s.val • T + U)).2.val))
    (hp : t.createProof i = some proof) :
    ∃ k < 2 ^ 256, (∀ kBits, Circuit.KHonest s kBits ↔ AreBits 256 k kBits) ∧ (Regular T k →
      ∃ kBits, Circuit.KHonest s kBits ∧
        Circuit.AddrMembershipWith d s (t.root : ZMod secpP) (xy T).1 (xy T).2 (xy U).1
          (xy U).2 (MerkleProof.idxSignal proof) (MerkleProof.sibSignal proof) kBits
          (xy (s.val • T + U)).1 (xy (s.val • T + U)).2
          ((ethAddress (xy (s.val • T + U)).1.val (xy (s.val • T + U)).2.val : ℕ) : ZMod secpP)) := by
  obtain ⟨u, eu, hu, hL⟩ := treeAfter_holds h1 h32 hops
  rw [ht, Option.some.injEq, Prod.mk.injEq] at eu
  rw [← eu.1] at hu
  generalize (treeRun d ops []).1 = L at hu hL
  obtain ⟨k, hk, hh, hm⟩ := Circuit.eff_ecdsa_honest_partial T U hT s hs hz hd
  refine ⟨k, hk, hh, fun hr => ?_⟩
  obtain ⟨⟨kBits, hb, he⟩, -⟩ := hm hr
  generalize xy (s.val • T + U) = Q at hi he ⊢
  obtain ⟨-, hlt, hget⟩ := holds_leaf hu hi
  obtain ⟨right, r1, r2⟩ := tree_proof_path hu hlt hp
  rw [hget] at r2
  have h3 : secpP < 2 ^ 256 := by decide +kernel
  refine ⟨kBits, hb, he, Circuit.coords_to_address_iff.mpr ⟨_, (ZMod.val_lt Q.1).trans h3, _, (ZMod.val_lt Q.2).trans h3,
    ZMod.natCast_zmod_val _, ZMod.natCast_zmod_val _, rfl⟩, _, Circuit.merkle_circuit_iff.mpr ⟨right, r1, r2⟩, rfl⟩
/-- The address circuit holds of the inputs, with the values its witness generator computes for the hints and the key `(X, Y)`:
the bits of the coordinates are those of their canonical representatives. -/
def HonestAddrInputs (d : ℕ) (w : WitnessInput) (X Y : ZMod secpP) : Prop :=
  ∃ kBits, Circuit.KHonest (w.s : ZMod secpP) kBits ∧
    Circuit.AddrMembershipWith d (w.s : ZMod secpP) (w.root : ZMod secpP) (w.Tx : ZMod secpP) (w.Ty : ZMod secpP)
      (w.Ux : ZMod secpP) (w.Uy : ZMod secpP) (fun k => (w.pathIndices.getD k 0 : ℕ))
      (fun k => ((w.siblings.getD k none).getD 0 : ℕ)) kBits X Y
      ((ethAddress X.val Y.val : ℕ) : ZMod secpP)

/-- What is assumed of the compiled address circuit and its witness generator, which are not in the repository. -/
def AddrWitnessGenOk (d : ℕ) (digest : R1CS (ZMod secpP) → List UInt8) (r : CircomR1CS)
    (values : WitnessInput → List ℕ) (witnessGen : WitnessInput → Option (List UInt8)) : Prop :=
  ∀ w X Y, HonestAddrInputs d w X Y → ∃ version prime,
    witnessGen w = some (encWtns version prime (32 * (values w).length) (values w)) ∧ version ≤ 2 ∧
    prime.length = 32 ∧ (values w).length < 2 ^ 27 ∧ (values w).length = r.numVariables ∧
    (∀ x ∈ values w, x < secpP) ∧
    ConsHold (coefVal (secpCodec digest)) (r.constraints.map toCon) ((values w).map fun w : ℕ => (w : ZMod secpP))

/-- C100: a member of a tree of addresses with a signature gets a proof from the prover, and the verifier accepts it with the
serialized public input.  The exceptional cases are those of C85. -/
theorem address_prove_verify_partial {sqrt : ZMod secpN → Option (ZMod secpN)} (hsq : SqrtSpec sqrt)
    {hash : Tr (ZMod secpP) EncPt → ZMod secpP} (hu : ∀ t, hash (t ++ [.chal "u"]) ≠ 0)
    {bits : ℕ} (h32 : 32 ≤ bits) (h64 : bits ≤ 64) {src : GenSrc Secq} {digest : R1CS (ZMod secpP) → List UInt8}
    {rc : CircomR1CS} (hrc : Convertible (secpCodec digest) rc) (hc : rc.constraints ≠ [])
    {I : Inst (ZMod secpP)} (hI : convertToSpartan (secpCodec digest) rc 5 = .ok I)
    (hok : (secqWire bits).okInst I) (hsz : I.inst.numVars ≤ 2 ^ 62)
    (label : List UInt8) (tr0 : Tr (ZMod secpP) EncPt) (tape : Tape (ZMod secpP))
    -- the tree and the proof
    {d : ℕ} (hd1 : 1 ≤ d) (hd32 : d ≤ 32) {ops : List TreeOp} (hops : FieldLeaves ops)
    {t : MerkleTree} {b : List Bool} (ht : treeAfter d ops = some (t, b)) {i : ℕ} {mp : MerkleProof}
    (hmp : t.createProof i = some mp)
    -- the witness generator
    {values : WitnessInput → List ℕ} {witnessGen : WitnessInput → Option (List UInt8)}
    (hgen : AddrWitnessGenOk d digest rc values witnessGen)
    (hread : ∀ w X Y, HonestAddrInputs d w X Y → ∀ x ∈ values w, Readable x)
    -- the key and the signature
    {Q R : Secp} {r s v : ℕ} {sig msgHash : List UInt8} (hr : r < secpN) (hs : s < secpN) (hv : v < 256)
    (hsig : fromSig sig = some (r, s, v)) (hm : msgNum msgHash ≠ 0)
    (hS : SignedWith Q R (msgNum msgHash) r s (decide (v % 2 = 0)))
    (hleaf : t.leaves[i]? = some (ethAddress (xy Q).1.val (xy Q).2.val))
    -- the exceptional cases
    (hlow : ¬ (2 ^ 128 ≤ s + Circuit.tQlo ∧ s < 2 ^ 128))
    (hz : ¬ FalseZero (s • effT r R) (effU r (msgNum msgHash))) (hd : s • effT r R ≠ effU r (msgNum msgHash))
    (hreg : Regular (effT r R) ((s + Circuit.tQ) % Circuit.q))
    (hswap : ∀ x ∈ [t.root, (xy (effT r R)).1.val, (xy (effT r R)).2.val, (xy (effU r (msgNum msgHash))).1.val,
      (xy (effU r (msgNum msgHash))).2.val], swapped x < secpP) :
    ∃ proof p ser,
      Lib.prove witnessGen (wasmProve ((secqWire bits).wasmEnv (secqEnvE sqrt hash) src (secpCodec digest)) label tr0
        tape ((secqWire bits).fInst.enc I)) sig msgHash mp = some (proof, p) ∧
      p.circuitPubInput.merkleRoot = t.root ∧ p.msgHash = msgHash ∧ p.serialize = some ser ∧
      Lib.verify (wasmVerify ((secqWire bits).wasmEnv (secqEnvE sqrt hash) src (secpCodec digest)) label tr0
        ((secqWire bits).fInst.enc I) proof) ser = some true := by
  obtain ⟨hT0, hU0, hQ, hin, hver, hser⟩ := prover_inputs (mp := mp) hr hv hsig hm hS
  generalize effT r R = T at *
  generalize effU r (msgNum msgHash) = U at *
  have hroot : mp.root = t.root := by
    unfold MerkleTree.createProof at hmp
    split_ifs at hmp
    rw [← Option.some.inj hmp]
  have hroot_lt : t.root < 2 ^ 256 := (tree_root_lt hd1 hd32 hops ht).trans secpP_lt_256
  have hsP : s < secpP := hs.trans (by decide +kernel)
  have hsv : ((s : ℕ) : ZMod secpP).val = s := by rw [ZMod.val_natCast, Nat.mod_eq_of_lt hsP]
  obtain ⟨k, hk, hkb, hmem⟩ := tree_address_proves_partial hd1 hd32 hops ht T U hT0 (s : ZMod secpP)
    (by rw [hsv]; exact hlow) (by rw [hsv]; exact hz) (by rw [hsv]; exact fun h => absurd h hd)
    (by rw [hsv, ← hQ]; exact hleaf) hmp
  obtain ⟨kBits, kb1, kb2⟩ := hmem (by rw [honest_k hsP hlow hk hkb]; exact hreg)
  have hh : HonestAddrInputs d ⟨s, mp.root, mp.siblings, mp.pathIndices, (xy T).1.val, (xy T).2.val, (xy U).1.val,
      (xy U).2.val⟩ (xy ((s : ZMod secpP).val • T + U)).1 (xy ((s : ZMod secpP).val • T + U)).2 := ⟨kBits, kb1, by
    simp only [ZMod.natCast_zmod_val, hroot]
    exact kb2⟩
  obtain ⟨version, prime, hw, g1, g2, g3, g4, g5, g6⟩ := hgen _ _ _ hh
  obtain ⟨ser, hser1, hser2⟩ := hser (by rw [hroot]; exact hroot_lt)
  have hlt : ∀ x : ZMod secpP, x.val < 2 ^ 256 := fun x => (ZMod.val_lt x).trans secpP_lt_256
  have hfit : PubFits ⟨mp.root, (xy T).1.val, (xy T).2.val, (xy U).1.val, (xy U).2.val⟩ :=
    ⟨by rw [hroot]; exact hroot_lt, hlt _, hlt _, hlt _, hlt _⟩
  obtain ⟨pub, hb, hch⟩ := pub_input_chunks hfit
  have hlen : 5 * 32 ≤ pub.length := by
    obtain ⟨bs', hb', hl, -⟩ := circuit_pub_input_roundtrip hfit
    rw [hb] at hb'
    cases hb'
    omega
  obtain ⟨proof, hp1, hp2⟩ := wasm_prove_verify_secq hsq hu h32 h64 (src := src) hrc hc hI hok hsz hlen (by
    rw [hch, hroot]
    intro b hb
    simp only [List.mem_cons, List.not_mem_nil, or_false] at hb
    rcases hb with rfl | rfl | rfl | rfl | rfl <;> exact hswap _ (by simp)) g1 g2 g3 g4
    (fun x hx => ⟨hread _ _ _ hh x hx, g5 x hx⟩) g6 label tr0 tape
  exact ⟨proof, _, ser, prove_of hin hw hb hp1, hroot, rfl, hser1, lib_verify_iff.mpr ⟨_, pub, hser2, hver, hb, hp2⟩⟩

end Spartan
