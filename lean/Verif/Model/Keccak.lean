import Verif.Model.Circuits

/-!
The Keccak and address circuits, as the constraints they generate (see `Verif.Model.Circuits` for the
conventions).  Loops that only copy signals into a component are replaced by passing the signals.
Where the source unrolls the same component over the lanes of the state, the lanes are listed in a
table copied from the source.  `XOR`, `Xor3`, `ShR` and `Bits2Num` are transcribed from circomlib
2.0.5 (`gates.circom`, `sha256/xor3.circom`, `sha256/shift.circom`, `bitify.circom`).
-/

namespace Spartan.Circuit

variable {F : Type} [Field F]

/-- circomlib `XOR`.  Used at `vocdoni-keccak/utils.circom` l. 45, 61. -/
def XOR (a b out : F) : Prop := out = a + b - 2 * a * b

/-- circomlib `Xor3(n)`.  Used at `vocdoni-keccak/utils.circom` l. 16. -/
def Xor3 (n : ℕ) (a b c out : ℕ → F) : Prop :=
  ∃ mid : ℕ → F, ∀ k < n, mid k = b k * c k ∧
    out k = a k * (1 - 2 * b k - 2 * c k + 4 * mid k) + b k + c k - 2 * mid k

/-- circomlib `ShR(n, r)`.  Used at `vocdoni-keccak/permutations.circom` l. 15, 358. -/
def ShR (n r : ℕ) (inp out : ℕ → F) : Prop :=
  ∀ i < n, out i = if i + r ≥ n then 0 else inp (i + r)

/-- circomlib `Bits2Num(n)`.  Used at `zk-identity/eth.circom` l. 83. -/
def Bits2Num (n : ℕ) (inp : ℕ → F) (out : F) : Prop :=
  out = ∑ i ∈ Finset.range n, inp i * 2 ^ i

/-- `packages/circuits/eff_ecdsa_membership/to_address/vocdoni-keccak/utils.circom:37-52` -/
def XorArray (n : ℕ) (a b out : ℕ → F) : Prop := ∀ i < n, XOR (a i) (b i) (out i)

/-- `packages/circuits/eff_ecdsa_membership/to_address/vocdoni-keccak/utils.circom:54-68` -/
def XorArraySingle (n : ℕ) (a out : ℕ → F) : Prop := ∀ i < n, XOR (a i) 1 (out i)

/-- `packages/circuits/eff_ecdsa_membership/to_address/vocdoni-keccak/utils.circom:70-85` -/
def OrArray (n : ℕ) (a b out : ℕ → F) : Prop := ∀ i < n, OR (a i) (b i) (out i)

/-- `packages/circuits/eff_ecdsa_membership/to_address/vocdoni-keccak/utils.circom:87-102` -/
def AndArray (n : ℕ) (a b out : ℕ → F) : Prop := ∀ i < n, AND (a i) (b i) (out i)

/-- `packages/circuits/eff_ecdsa_membership/to_address/vocdoni-keccak/utils.circom:104-115` -/
def ShL (n r : ℕ) (inp out : ℕ → F) : Prop :=
  ∀ i < n, out i = if i < r then 0 else inp (i - r)

/-- `packages/circuits/eff_ecdsa_membership/to_address/vocdoni-keccak/utils.circom:7-35` -/
def Xor5 (n : ℕ) (a b c d e out : ℕ → F) : Prop :=
  ∃ xor3 xor4, Xor3 n a b c xor3 ∧ XorArray n xor3 d xor4 ∧ XorArray n xor4 e out

/-- `packages/circuits/eff_ecdsa_membership/to_address/vocdoni-keccak/permutations.circom:8-36`
(the array length is 64 in the body, whatever `n` is). -/
def D (shl shr : ℕ) (a b out : ℕ → F) : Prop :=
  ∃ aux0 aux1 aux2, ShR 64 shr a aux0 ∧ ShL 64 shl a aux1 ∧ OrArray 64 aux0 aux1 aux2 ∧
    XorArray 64 b aux2 out

/-- The signals `s[l*64]` to `s[l*64+63]`.
The indexing of `vocdoni-keccak/permutations.circom` l. 15–40. -/
def lane (s : ℕ → F) (l : ℕ) : ℕ → F := fun i => s (l * 64 + i)

/-- The lanes read by `c0` to `c4`, `packages/circuits/eff_ecdsa_membership/to_address/vocdoni-keccak/permutations.circom:44-87`. -/
def thetaColumns : List (ℕ × ℕ × ℕ × ℕ × ℕ × ℕ) :=
  [(0, 0, 5, 10, 15, 20), (1, 1, 6, 11, 16, 21), (2, 2, 7, 12, 17, 22), (3, 3, 8, 13, 18, 23),
   (4, 4, 9, 14, 19, 24)]

/-- `(d, a, b)` for the components `d0` to `d4`, which read `c_a` and `c_b`
(permutations.circom:89-94, 141-146, 193-198, 245-250, 297-302). -/
def thetaD : List (ℕ × ℕ × ℕ) := [(0, 1, 4), (1, 2, 0), (2, 3, 1), (3, 4, 2), (4, 0, 3)]

/-- `(r, a, d)`: lane `r` of the output is lane `a` of the input plus `d_d`
(permutations.circom:95-347). -/
def thetaOut : List (ℕ × ℕ × ℕ) :=
  [(0, 0, 0), (5, 5, 0), (10, 10, 0), (15, 15, 0), (20, 20, 0), (1, 1, 1), (6, 6, 1), (11, 11,
   1), (16, 16, 1), (21, 21, 1), (2, 2, 2), (7, 7, 2), (12, 12, 2), (17, 17, 2), (22, 22, 2),
   (3, 3, 3), (8, 8, 3), (13, 13, 3), (18, 18, 3), (23, 23, 3), (4, 4, 4), (9, 9, 4), (14, 14,
   4), (19, 19, 4), (24, 24, 4)]

/-- `packages/circuits/eff_ecdsa_membership/to_address/vocdoni-keccak/permutations.circom:38-348` -/
def Theta (inp out : ℕ → F) : Prop :=
  ∃ c d : ℕ → ℕ → F,
    (∀ t ∈ thetaColumns, Xor5 64 (lane inp t.2.1) (lane inp t.2.2.1) (lane inp t.2.2.2.1)
      (lane inp t.2.2.2.2.1) (lane inp t.2.2.2.2.2) (c t.1)) ∧
    (∀ t ∈ thetaD, D 1 (64 - 1) (c t.2.1) (c t.2.2) (d t.1)) ∧
    (∀ t ∈ thetaOut, XorArray 64 (lane inp t.2.1) (d t.2.2) (lane out t.1))

/-- `packages/circuits/eff_ecdsa_membership/to_address/vocdoni-keccak/permutations.circom:352-374` -/
def stepRhoPi (shl shr : ℕ) (a out : ℕ → F) : Prop :=
  ∃ aux0 aux1, ShR 64 shr a aux0 ∧ ShL 64 shl a aux1 ∧ OrArray 64 aux0 aux1 out

/-- `(r, a, k)`: lane `r` of the output is lane `a` of the input rotated by `k`
(permutations.circom:381-528). -/
def rhoPiSteps : List (ℕ × ℕ × ℕ) :=
  [(10, 1, 1), (7, 10, 3), (11, 7, 6), (17, 11, 10), (18, 17, 15), (3, 18, 21), (5, 3, 28), (16,
   5, 36), (8, 16, 45), (21, 8, 55), (24, 21, 2), (4, 24, 14), (15, 4, 27), (23, 15, 41), (19,
   23, 56), (13, 19, 8), (12, 13, 25), (2, 12, 43), (20, 2, 62), (14, 20, 18), (22, 14, 39), (9,
   22, 61), (6, 9, 20), (1, 6, 44)]

/-- `packages/circuits/eff_ecdsa_membership/to_address/vocdoni-keccak/permutations.circom:375-529` -/
def RhoPi (inp out : ℕ → F) : Prop :=
  (∀ i < 64, lane out 0 i = lane inp 0 i) ∧
  ∀ t ∈ rhoPiSteps, stepRhoPi t.2.2 (64 - t.2.2) (lane inp t.2.1) (lane out t.1)

/-- `packages/circuits/eff_ecdsa_membership/to_address/vocdoni-keccak/permutations.circom:534-562` -/
def stepChi (a b c out : ℕ → F) : Prop :=
  ∃ bXor bc, XorArraySingle 64 b bXor ∧ AndArray 64 bXor c bc ∧ XorArray 64 a bc out

/-- `(r, a, b, c)`: lane `r` of the output is computed from the lanes `a`, `b`, `c` of the input
(permutations.circom:570-754). -/
def chiSteps : List (ℕ × ℕ × ℕ × ℕ) :=
  [(0, 0, 1, 2), (1, 1, 2, 3), (2, 2, 3, 4), (3, 3, 4, 0), (4, 4, 0, 1), (5, 5, 6, 7), (6, 6, 7,
   8), (7, 7, 8, 9), (8, 8, 9, 5), (9, 9, 5, 6), (10, 10, 11, 12), (11, 11, 12, 13), (12, 12,
   13, 14), (13, 13, 14, 10), (14, 14, 10, 11), (15, 15, 16, 17), (16, 16, 17, 18), (17, 17, 18,
   19), (18, 18, 19, 15), (19, 19, 15, 16), (20, 20, 21, 22), (21, 21, 22, 23), (22, 22, 23,
   24), (23, 23, 24, 20), (24, 24, 20, 21)]

/-- `packages/circuits/eff_ecdsa_membership/to_address/vocdoni-keccak/permutations.circom:564-755` -/
def Chi (inp out : ℕ → F) : Prop :=
  ∀ t ∈ chiSteps, stepChi (lane inp t.2.1) (lane inp t.2.2.1) (lane inp t.2.2.2) (lane out t.1)

/-- The table `rc`, `packages/circuits/eff_ecdsa_membership/to_address/vocdoni-keccak/permutations.circom:762-771`. -/
def rcTable : List ℕ :=
  [0x0000000000000001, 0x0000000000008082, 0x800000000000808A, 0x8000000080008000,
   0x000000000000808B, 0x0000000080000001, 0x8000000080008081, 0x8000000000008009,
   0x000000000000008A, 0x0000000000000088, 0x0000000080008009, 0x000000008000000A,
   0x000000008000808B, 0x800000000000008B, 0x8000000000008089, 0x8000000000008003,
   0x8000000000008002, 0x8000000000000080, 0x000000000000800A, 0x800000008000000A,
   0x8000000080008081, 0x8000000000008080, 0x0000000080000001, 0x8000000080008008]

/-- `packages/circuits/eff_ecdsa_membership/to_address/vocdoni-keccak/permutations.circom:760-775` -/
def RC (r : ℕ) (out : ℕ → F) : Prop :=
  ∀ i < 64, out i = ((rcTable.getD r 0 >>> i &&& 1 : ℕ) : F)

/-- `packages/circuits/eff_ecdsa_membership/to_address/vocdoni-keccak/permutations.circom:777-796` -/
def Iota (r : ℕ) (inp out : ℕ → F) : Prop :=
  ∃ rc, RC r rc ∧ XorArray 64 inp rc out ∧ ∀ i, 64 ≤ i → i < 25 * 64 → out i = inp i

/-- `packages/circuits/eff_ecdsa_membership/to_address/vocdoni-keccak/keccak.circom:38-63` -/
def KeccakfRound (r : ℕ) (inp out : ℕ → F) : Prop :=
  ∃ theta rhopi chi, Theta inp theta ∧ RhoPi theta rhopi ∧ Chi rhopi chi ∧ Iota r chi out

/-- `packages/circuits/eff_ecdsa_membership/to_address/vocdoni-keccak/keccak.circom:136-165`; `round i` is the
output of component `round[i]`. -/
def Keccakf (inp out : ℕ → F) : Prop :=
  ∃ round : ℕ → ℕ → F,
    (∀ i < 24, KeccakfRound i (if i = 0 then inp else round (i - 1)) (round i)) ∧
    ∀ j < 25 * 64, out j = round 23 j

/-- `packages/circuits/eff_ecdsa_membership/to_address/vocdoni-keccak/keccak.circom:6-36`
(needs `nBits + 8 ≤ 136*8`, otherwise the template does not compile). -/
def Pad (nBits : ℕ) (inp out : ℕ → F) : Prop :=
  ∃ out2 aux : ℕ → F,
    (∀ i < nBits, out2 i = inp i) ∧
    (∀ i < 8, out2 (nBits + i) = ((0x01 >>> i &&& 1 : ℕ) : F)) ∧
    (∀ i, nBits + 8 ≤ i → i < 136 * 8 → out2 i = 0) ∧
    OrArray 8 (fun i => out2 (136 * 8 - 8 + i)) (fun i => ((0x80 >>> i &&& 1 : ℕ) : F)) aux ∧
    (∀ i < 8, out (136 * 8 - 8 + i) = aux i) ∧
    ∀ i < 136 * 8 - 8, out i = out2 i

/-- `packages/circuits/eff_ecdsa_membership/to_address/vocdoni-keccak/keccak.circom:65-95` -/
def Absorb (s block out : ℕ → F) : Prop :=
  ∃ newS : ℕ → F,
    (∀ i < 136 / 8, XorArray 64 (lane s i) (lane block i) (lane newS i)) ∧
    (∀ i, 136 / 8 * 64 ≤ i → i < 25 * 64 → newS i = s i) ∧
    Keccakf newS out

/-- `packages/circuits/eff_ecdsa_membership/to_address/vocdoni-keccak/keccak.circom:97-119` -/
def Final (nBits : ℕ) (inp out : ℕ → F) : Prop :=
  ∃ pad, Pad nBits inp pad ∧ Absorb (fun _ => 0) pad out

/-- `packages/circuits/eff_ecdsa_membership/to_address/vocdoni-keccak/keccak.circom:121-134` -/
def Squeeze (nBits : ℕ) (s out : ℕ → F) : Prop :=
  ∀ i < 25, ∀ j < 64, i * 64 + j < nBits → out (i * 64 + j) = s (i * 64 + j)

/-- `packages/circuits/eff_ecdsa_membership/to_address/vocdoni-keccak/keccak.circom:167-183` -/
def Keccak (nBitsIn nBitsOut : ℕ) (inp out : ℕ → F) : Prop :=
  ∃ f, Final nBitsIn inp f ∧ Squeeze nBitsOut f out

/-- `packages/circuits/eff_ecdsa_membership/to_address/zk-identity/eth.circom:57-90` -/
def PubkeyToAddress (pubkeyBits : ℕ → F) (address : F) : Prop :=
  ∃ reverse keccakIn keccakOut bits2Num : ℕ → F,
    (∀ i < 512, reverse i = pubkeyBits (511 - i)) ∧
    (∀ i < 512 / 8, ∀ j < 8, keccakIn (8 * i + j) = reverse (8 * i + (7 - j))) ∧
    Keccak 512 256 keccakIn keccakOut ∧
    (∀ i < 20, ∀ j < 8, bits2Num (8 * i + j) = keccakOut (256 - 8 * (i + 1) + j)) ∧
    Bits2Num 160 bits2Num address

/-- The bits of both coordinates and the address,
`packages/circuits/eff_ecdsa_membership/eff_ecdsa_to_addr.circom:26-41` and
`addr_membership.circom:35-48`. -/
def CoordsToAddress (pubKeyX pubKeyY address : F) : Prop :=
  ∃ pubKeyXBits pubKeyYBits pubkeyBits : ℕ → F,
    Num2Bits 256 pubKeyX pubKeyXBits ∧ Num2Bits 256 pubKeyY pubKeyYBits ∧
    (∀ i < 256, pubkeyBits i = pubKeyYBits i ∧ pubkeyBits (i + 256) = pubKeyXBits i) ∧
    PubkeyToAddress pubkeyBits address

end Spartan.Circuit
