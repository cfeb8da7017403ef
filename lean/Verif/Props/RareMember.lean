import Verif.Props.CompleteMember
import Verif.Props.Rare
import Verif.Props.Anon

/-!
C136 for the library: whatever the nonce and the message, the proofs of members are made and accepted for all but a
fraction of `2^-128` of the keys.
-/

set_option linter.unusedSectionVars false
set_option exponentiation.threshold 2000

namespace Spartan
open Spec MParams Lib Mach Rank1
open Spec.Keccak (ethAddress)

attribute [local irreducible] poseidonNat k256Hash PoseidonParams.hash wasmPoseidon poseidonHash Circuit.Poseidon
  Circuit.EfficientECDSA Circuit.CoordsToAddress ethAddress

attribute [local irreducible] scalarOf challengeValue

/-- C136: for every nonce point and message, all keys but a fraction of `2^-128` are such that a member of a tree of
keys gets a proof with the circuit file that the tool writes for an r1cs file of the circuit, and the verifier accepts it,
for all but a fraction of `2^-250` of the hash functions. What is missing is that the byte orders of the library and of the
prover agree on the size of the values, `hswap` and `hread`. -/
theorem member_almost_all_partial {R : Secp} {r v : ℕ} {msgHash : List UInt8} (hr : r < secpN) (hv : v < 256)
    (hm : msgNum msgHash ≠ 0) :
    ∃ B : Set Secp, B.ncard * 2 ^ 128 ≤ Nat.card Secp ∧ ∀ Q, Q ∉ B →
      ∀ (f : Pt.Formulas) {digest : R1CS Sc → List UInt8} (_ : ∀ i, (digest i).length < 2 ^ 32)
      -- the r1cs file and the witness generator
      {d : ℕ} (_ : 1 ≤ d) (_ : d ≤ 32) {h : Head} {cs : List Con} {m : List ℕ} {secs : List (ℕ × List UInt8)}
      (_ : FileFor d (Circuit.PubKeyMembership d) h cs m secs)
      {values : WitnessInput → List ℕ} {witnessGen : WitnessInput → Option (List UInt8)}
      (_ : GeneratesFile d (fun w => ∃ X Y, HonestInputs d w X Y) h.nWires cs values witnessGen)
      -- the run of the tool
      {files : String → Option (List UInt8)} {args : List String} {inPath outPath num : String}
      (_ : args[1]? = some inPath) (_ : args[2]? = some outPath)
      (_ : args[3]? = some num) (_ : parseUsize 64 num.toList = some 5) (_ : files inPath = some (encR1cs secs))
      -- the tree and the proof
      {ops : List TreeOp} (_ : FieldLeaves ops) {t : MerkleTree} {b : List Bool} (_ : treeAfter d ops = some (t, b))
      {i : ℕ} {mp : MerkleProof} (_ : t.createProof i = some mp)
      -- the signature
      {s : ℕ} {sig : List UInt8} (_ : s < secpN) (_ : fromSig sig = some (r, s, v))
      (_ : SignedWith Q R (msgNum msgHash) r s (decide (v % 2 = 0)))
      (_ : t.leaves[i]? = some (hashPubKey (beBytes 32 (xy Q).1.val ++ beBytes 32 (xy Q).2.val)))
      -- the byte orders
      (_ : ∀ x ∈ [t.root, (xy (effT r R)).1.val, (xy (effT r R)).2.val, (xy (effU r (msgNum msgHash))).1.val,
        (xy (effU r (msgNum msgHash))).2.val], swapped x < secpP)
      (_ : ∀ w p, proverInputs sig msgHash mp = some (w, p) → (∃ X Y, HonestInputs d w X Y) →
        ∀ x ∈ values w, Readable x)
      (label : List UInt8) (tape : Tape Sc),
      ∃ circuit w p ser, genSpartanInst (wire 64) (codec digest) files args = .ok (outPath, circuit) ∧
        proverInputs sig msgHash mp = some (w, p) ∧ p.circuitPubInput.merkleRoot = t.root ∧ p.msgHash = msgHash ∧
        p.serialize = some ser ∧ ∃ D₀ : Finset (Tr Sc EncPt), ∀ D, D₀ ⊆ D →
        Set.ncard {h : D → Bytes64 | ∃ H : Tr Sc EncPt → Bytes64, (∀ t : D, H t = h t) ∧
          ¬ ∃ proof,
            Lib.prove witnessGen (wasmProve ((wire 32).wasmEnv
              ((env f "nizk_example").withHash fun t => scalarOf (H t)) (src f) (codec digest)) label [] tape circuit) sig msgHash mp = some (proof, p) ∧
            Lib.verify (wasmVerify ((wire 32).wasmEnv
              ((env f "nizk_example").withHash fun t => scalarOf (H t)) (src f) (codec digest)) label [] circuit proof) ser = some true} * 2 ^ 250 ≤ Nat.card Bytes64 ^ D.card := by
  refine ⟨_, Rare.exceptional_keys R (msgNum msgHash) r (decide (v % 2 = 0)), ?_⟩
  intro Q hQ f digest hdig d hd1 hd32 h cs m secs hf values witnessGen hgen files args inPath outPath num h1 h2 h3 hnum hfile
    ops hops t b ht i mp hmp s sig hs hsig hS hleaf hswap hread label tape
  have hex : ¬ (2 ^ 128 ≤ s + Circuit.tQlo ∧ s < 2 ^ 128) ∧ ¬ FalseZero (s • effT r R) (effU r (msgNum msgHash)) ∧
      s • effT r R ≠ effU r (msgNum msgHash) ∧ Regular (effT r R) ((s + Circuit.tQ) % Circuit.q) :=
    by_contra fun hn => hQ ⟨s, hs, hS, hn⟩
  obtain ⟨hlow, hz, hd, hreg⟩ := hex
  exact member_file_random_partial f hdig hd1 hd32 hf hgen h1 h2 h3 hnum hfile hops ht hmp hr hs hv hsig hm hS hleaf hlow hz
    hd hreg hswap hread label tape

/-- C136: for every nonce point and message, all keys but a fraction of `2^-128` are such that a member of a tree of
addresses gets a proof with the circuit file that the tool writes for an r1cs file of the circuit, and the verifier accepts it,
for all but a fraction of `2^-250` of the hash functions. What is missing is that the byte orders of the library and of the
prover agree on the size of the values, `hswap` and `hread`. -/
theorem address_almost_all_partial {R : Secp} {r v : ℕ} {msgHash : List UInt8} (hr : r < secpN) (hv : v < 256)
    (hm : msgNum msgHash ≠ 0) :
    ∃ B : Set Secp, B.ncard * 2 ^ 128 ≤ Nat.card Secp ∧ ∀ Q, Q ∉ B →
      ∀ (f : Pt.Formulas) {digest : R1CS Sc → List UInt8} (_ : ∀ i, (digest i).length < 2 ^ 32)
      -- the r1cs file and the witness generator
      {d : ℕ} (_ : 1 ≤ d) (_ : d ≤ 32) {h : Head} {cs : List Con} {m : List ℕ} {secs : List (ℕ × List UInt8)}
      (_ : FileFor d (Circuit.AddrMembership d) h cs m secs)
      {values : WitnessInput → List ℕ} {witnessGen : WitnessInput → Option (List UInt8)}
      (_ : GeneratesFile d (fun w => ∃ X Y, HonestAddrInputs d w X Y) h.nWires cs values witnessGen)
      -- the run of the tool
      {files : String → Option (List UInt8)} {args : List String} {inPath outPath num : String}
      (_ : args[1]? = some inPath) (_ : args[2]? = some outPath)
      (_ : args[3]? = some num) (_ : parseUsize 64 num.toList = some 5) (_ : files inPath = some (encR1cs secs))
      -- the tree and the proof
      {ops : List TreeOp} (_ : FieldLeaves ops) {t : MerkleTree} {b : List Bool} (_ : treeAfter d ops = some (t, b))
      {i : ℕ} {mp : MerkleProof} (_ : t.createProof i = some mp)
      -- the signature
      {s : ℕ} {sig : List UInt8} (_ : s < secpN) (_ : fromSig sig = some (r, s, v))
      (_ : SignedWith Q R (msgNum msgHash) r s (decide (v % 2 = 0)))
      (_ : t.leaves[i]? = some (ethAddress (xy Q).1.val (xy Q).2.val))
      -- the byte orders
      (_ : ∀ x ∈ [t.root, (xy (effT r R)).1.val, (xy (effT r R)).2.val, (xy (effU r (msgNum msgHash))).1.val,
        (xy (effU r (msgNum msgHash))).2.val], swapped x < secpP)
      (_ : ∀ w p, proverInputs sig msgHash mp = some (w, p) → (∃ X Y, HonestAddrInputs d w X Y) →
        ∀ x ∈ values w, Readable x)
      (label : List UInt8) (tape : Tape Sc),
      ∃ circuit w p ser, genSpartanInst (wire 64) (codec digest) files args = .ok (outPath, circuit) ∧
        proverInputs sig msgHash mp = some (w, p) ∧ p.circuitPubInput.merkleRoot = t.root ∧ p.msgHash = msgHash ∧
        p.serialize = some ser ∧ ∃ D₀ : Finset (Tr Sc EncPt), ∀ D, D₀ ⊆ D →
        Set.ncard {h : D → Bytes64 | ∃ H : Tr Sc EncPt → Bytes64, (∀ t : D, H t = h t) ∧
          ¬ ∃ proof,
            Lib.prove witnessGen (wasmProve ((wire 32).wasmEnv
              ((env f "nizk_example").withHash fun t => scalarOf (H t)) (src f) (codec digest)) label [] tape circuit) sig msgHash mp = some (proof, p) ∧
            Lib.verify (wasmVerify ((wire 32).wasmEnv
              ((env f "nizk_example").withHash fun t => scalarOf (H t)) (src f) (codec digest)) label [] circuit proof) ser = some true} * 2 ^ 250 ≤ Nat.card Bytes64 ^ D.card := by
  refine ⟨_, Rare.exceptional_keys R (msgNum msgHash) r (decide (v % 2 = 0)), ?_⟩
  intro Q hQ f digest hdig d hd1 hd32 h cs m secs hf values witnessGen hgen files args inPath outPath num h1 h2 h3 hnum hfile
    ops hops t b ht i mp hmp s sig hs hsig hS hleaf hswap hread label tape
  have hex : ¬ (2 ^ 128 ≤ s + Circuit.tQlo ∧ s < 2 ^ 128) ∧ ¬ FalseZero (s • effT r R) (effU r (msgNum msgHash)) ∧
      s • effT r R ≠ effU r (msgNum msgHash) ∧ Regular (effT r R) ((s + Circuit.tQ) % Circuit.q) :=
    by_contra fun hn => hQ ⟨s, hs, hS, hn⟩
  obtain ⟨hlow, hz, hd, hreg⟩ := hex
  exact address_file_random_partial f hdig hd1 hd32 hf hgen h1 h2 h3 hnum hfile hops ht hmp hr hs hv hsig hm hS hleaf hlow hz
    hd hreg hswap hread label tape

/-- C136: for every nonce point and message, all keys but a fraction of `2^-128` are such that every member of a tree with a
signature is a `Signer`, so that C129 applies: nothing is lost by the exceptional cases. -/
theorem signer_almost_all (R : Secp) (r v : ℕ) (msgHash : List UInt8) :
    ∃ B : Set Secp, B.ncard * 2 ^ 128 ≤ Nat.card Secp ∧ ∀ Q, Q ∉ B → ∀ (t : MerkleTree) (leaf : Secp → Option ℕ) (s : ℕ)
      (sig : List UInt8) (i : ℕ) (mp : MerkleProof), t.createProof i = some mp → t.leaves[i]? = some (leaf Q) → s < secpN →
      fromSig sig = some (r, s, v) → SignedWith Q R (msgNum msgHash) r s (decide (v % 2 = 0)) →
      Signer t leaf Q R r s v sig msgHash i mp := by
  refine ⟨_, Rare.exceptional_keys R (msgNum msgHash) r (decide (v % 2 = 0)), ?_⟩
  intro Q hQ t leaf s sig i mp h1 h2 hs h4 hS
  have hex : ¬ (2 ^ 128 ≤ s + Circuit.tQlo ∧ s < 2 ^ 128) ∧ ¬ FalseZero (s • effT r R) (effU r (msgNum msgHash)) ∧
      s • effT r R ≠ effU r (msgNum msgHash) ∧ Regular (effT r R) ((s + Circuit.tQ) % Circuit.q) :=
    by_contra fun hn => hQ ⟨s, hs, hS, hn⟩
  obtain ⟨hlow, hz, hd, hreg⟩ := hex
  exact ⟨h1, h2, hs, h4, hS, hlow, hz, hd, hreg⟩

end Spartan
