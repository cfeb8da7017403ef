import Verif.Model.Circuits
import Verif.Model.PoseidonConsts

/-!
The Poseidon, Merkle tree and membership circuits, as the constraints they generate (see
`Verif.Model.Circuits` for the conventions).
-/

namespace Spartan.Circuit

variable {F : Type} [Field F]

/-- `packages/circuits/poseidon/poseidon.circom:5-14` -/
def SBox (inp out : F) : Prop :=
  ∃ inDouble inQuadruple, inDouble = inp * inp ∧ inQuadruple = inDouble * inDouble ∧
    out = inQuadruple * inp

/-- `poseidon.circom:16-29` -/
def MatrixMul (state out : ℕ → F) : Prop :=
  ∀ i < 3, out i = ∑ j ∈ Finset.range 3, state j * ((circomMds.getD i []).getD j 0 : ℕ)

/-- `poseidon.circom:31-40` -/
def AddRoundConst (pos : ℕ) (state out : ℕ → F) : Prop :=
  ∀ i < 3, out i = state i + (circomRoundKeys.getD (pos + i) 0 : ℕ)

/-- `poseidon.circom:42-66` -/
def FullRound (pos : ℕ) (state out : ℕ → F) : Prop :=
  ∃ constAdded sBoxes : ℕ → F, AddRoundConst pos state constAdded ∧
    (∀ i < 3, SBox (constAdded i) (sBoxes i)) ∧ MatrixMul sBoxes out

/-- `poseidon.circom:68-93` -/
def PartialRound (pos : ℕ) (state out : ℕ → F) : Prop :=
  ∃ (constAdded : ℕ → F) (sBox : F), AddRoundConst pos state constAdded ∧
    SBox (constAdded 0) sBox ∧ MatrixMul (fun i => if i = 0 then sBox else constAdded i) out

/-- `poseidon.circom:95-158`, with the signals `initState` and the outputs of the components
`fRoundsFirst`, `pRounds` and `fRoundsLast` exposed. -/
def PoseidonWith (initState : ℕ → F) (fRoundsFirst pRounds fRoundsLast : ℕ → ℕ → F)
    (in0 in1 out : F) : Prop :=
  initState 0 = 3 ∧ initState 1 = in0 ∧ initState 2 = in1 ∧
  (∀ j < 4, FullRound (j * 3) (if j = 0 then initState else fRoundsFirst (j - 1))
    (fRoundsFirst j)) ∧
  (∀ j < 56, PartialRound ((4 + j) * 3) (if j = 0 then fRoundsFirst 3 else pRounds (j - 1))
    (pRounds j)) ∧
  (∀ j < 4, FullRound ((60 + j) * 3) (if j = 0 then pRounds 55 else fRoundsLast (j - 1))
    (fRoundsLast j)) ∧
  out = fRoundsLast 3 1

/-- `poseidon.circom:95-158` -/
def Poseidon (in0 in1 out : F) : Prop :=
  ∃ initState fRoundsFirst pRounds fRoundsLast,
    PoseidonWith initState fRoundsFirst pRounds fRoundsLast in0 in1 out

/-- circomlib `MultiMux1(n)`.  External (circomlib), used at `tree.circom` l. 31. -/
def MultiMux1 (n : ℕ) (c : ℕ → ℕ → F) (s : F) (out : ℕ → F) : Prop :=
  ∀ i < n, out i = (c i 1 - c i 0) * s + c i 0

/-- The inputs `c` of `mux[i]`, `packages/circuits/eff_ecdsa_membership/tree.circom:33-37`. -/
def muxInput (hash sibling : F) : ℕ → ℕ → F
  | 0, 0 => hash
  | 0, _ => sibling
  | _, 0 => sibling
  | _, _ => hash

/-- `tree.circom:14-48` (`MerkleTreeInclusionProof`), with the signals `hashes` exposed. -/
def MerkleWith (nLevels : ℕ) (leaf : F) (pathIndices siblings : ℕ → F) (hashes : ℕ → F)
    (root : F) : Prop :=
  hashes 0 = leaf ∧
  (∀ i < nLevels,
    pathIndices i * (1 - pathIndices i) = 0 ∧
    ∃ muxOut, MultiMux1 2 (muxInput (hashes i) (siblings i)) (pathIndices i) muxOut ∧
      Poseidon (muxOut 0) (muxOut 1) (hashes (i + 1))) ∧
  root = hashes nLevels

/-- `tree.circom:14-48` -/
def MerkleTreeInclusionProof (nLevels : ℕ) (leaf : F) (pathIndices siblings : ℕ → F)
    (root : F) : Prop :=
  ∃ hashes, MerkleWith nLevels leaf pathIndices siblings hashes root

/-- `packages/circuits/eff_ecdsa_membership/pubkey_membership.circom:17-46`, with the bits
`ecdsa.sMultT.kBits.out` and the outputs of `ecdsa` exposed. -/
def PubKeyMembershipWith (nLevels : ℕ) (s root Tx Ty Ux Uy : F) (pathIndices siblings : ℕ → F)
    (kBits : ℕ → F) (pubKeyX pubKeyY : F) : Prop :=
  EfficientECDSA s Tx Ty Ux Uy kBits pubKeyX pubKeyY ∧
  ∃ pubKeyHash merkleRoot, Poseidon pubKeyX pubKeyY pubKeyHash ∧
    MerkleTreeInclusionProof nLevels pubKeyHash pathIndices siblings merkleRoot ∧
    root = merkleRoot

/-- `pubkey_membership.circom:17-46` -/
def PubKeyMembership (nLevels : ℕ) (s root Tx Ty Ux Uy : F) (pathIndices siblings : ℕ → F) : Prop :=
  ∃ kBits pubKeyX pubKeyY,
    PubKeyMembershipWith nLevels s root Tx Ty Ux Uy pathIndices siblings kBits pubKeyX pubKeyY

end Spartan.Circuit
