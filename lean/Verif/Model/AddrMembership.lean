import Verif.Model.Keccak
import Verif.Model.Membership

/-! The circuits on addresses, as the constraints they generate. -/

namespace Spartan.Circuit

variable {F : Type} [Field F]

/-- `packages/circuits/eff_ecdsa_membership/eff_ecdsa_to_addr.circom:12-42`, with the bits chosen by the
recoding and the public key exposed. -/
def EfficientECDSAToAddrWith (s Tx Ty Ux Uy : F) (kBits : ℕ → F) (pubKeyX pubKeyY addr : F) : Prop :=
  EfficientECDSA s Tx Ty Ux Uy kBits pubKeyX pubKeyY ∧ CoordsToAddress pubKeyX pubKeyY addr

/-- `eff_ecdsa_to_addr.circom:12-42` -/
def EfficientECDSAToAddr (s Tx Ty Ux Uy addr : F) : Prop :=
  ∃ kBits pubKeyX pubKeyY, EfficientECDSAToAddrWith s Tx Ty Ux Uy kBits pubKeyX pubKeyY addr

/-- `packages/circuits/eff_ecdsa_membership/addr_membership.circom:18-57`, with the bits chosen by the
recoding, the public key and the address exposed. -/
def AddrMembershipWith (nLevels : ℕ) (s root Tx Ty Ux Uy : F) (pathIndices siblings : ℕ → F)
    (kBits : ℕ → F) (pubKeyX pubKeyY addr : F) : Prop :=
  EfficientECDSA s Tx Ty Ux Uy kBits pubKeyX pubKeyY ∧ CoordsToAddress pubKeyX pubKeyY addr ∧
  ∃ merkleRoot, MerkleTreeInclusionProof nLevels addr pathIndices siblings merkleRoot ∧
    root = merkleRoot

/-- `addr_membership.circom:18-57` -/
def AddrMembership (nLevels : ℕ) (s root Tx Ty Ux Uy : F) (pathIndices siblings : ℕ → F) : Prop :=
  ∃ kBits pubKeyX pubKeyY addr, AddrMembershipWith nLevels s root Tx Ty Ux Uy pathIndices siblings
    kBits pubKeyX pubKeyY addr

end Spartan.Circuit
