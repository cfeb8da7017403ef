import Verif.Lemmas.Templates

/-!
The Keccak and address templates have rank-1 constraints.
-/

set_option linter.unusedVariables false
set_option linter.unnecessarySeqFocus false

namespace Spartan.Circuit
open Rank1

variable {F : Type} [Field F] {ι : Type}

attribute [local irreducible] Num2Bits XOR Xor3 ShR ShL Bits2Num XorArray XorArraySingle OrArray AndArray Xor5 D Theta stepRhoPi
  RhoPi stepChi Chi RC Iota KeccakfRound Keccakf Pad Absorb Final Squeeze Keccak PubkeyToAddress CoordsToAddress
  EfficientECDSA MerkleTreeInclusionProof rcTable

section
variable {a b c d e o : (ι → F) → ℕ → F} (ha : ∀ i, Aff 2 (fun x => a x i)) (hb : ∀ i, Aff 2 (fun x => b x i))
  (hc : ∀ i, Aff 2 (fun x => c x i)) (hd : ∀ i, Aff 2 (fun x => d x i)) (he : ∀ i, Aff 2 (fun x => e x i))
  (ho : ∀ i, Aff 2 (fun x => o x i))
include ha ho

theorem r1_xorArray (hb : ∀ i, Aff 2 (fun x => b x i)) : R1 1000 (fun x => XorArray 64 (a x) (b x) (o x)) := by
  unfold XorArray XOR
  r1le (r1 <;> r1eq [(ha _), (hb _), (ho _)])

theorem r1_xorArraySingle : R1 1000 (fun x => XorArraySingle 64 (a x) (o x)) := by
  unfold XorArraySingle XOR
  r1le (r1 <;> r1eq [(ha _), (ho _)])

theorem r1_orArray (hb : ∀ i, Aff 2 (fun x => b x i)) (n : ℕ) (hn : n ≤ 64) :
    R1 1000 (fun x => OrArray n (a x) (b x) (o x)) := by
  unfold OrArray OR
  eapply R1.mono
  case h => r1 <;> r1eq [(ha _), (hb _), (ho _)]
  case hm => omega

theorem r1_andArray (hb : ∀ i, Aff 2 (fun x => b x i)) : R1 1000 (fun x => AndArray 64 (a x) (b x) (o x)) := by
  unfold AndArray AND
  r1le (r1 <;> r1eq [(ha _), (hb _), (ho _)])

theorem r1_shL (r : ℕ) : R1 1000 (fun x => ShL 64 r (a x) (o x)) := by
  unfold ShL
  r1le (r1 <;> r1eq [(ha _), (ho _)])

theorem r1_shR (r : ℕ) : R1 1000 (fun x => ShR 64 r (a x) (o x)) := by
  unfold ShR
  r1le (r1 <;> r1eq [(ha _), (ho _)])

include hb hc hd he in
theorem r1_xor5 : R1 5000 (fun x => Xor5 64 (a x) (b x) (c x) (d x) (e x) (o x)) := by
  unfold Xor5 Xor3
  r1le (r1 <;> first
    | r1eq [(ha _), (hb _), (hc _), (ho _)]
    | tcomp r1_xorArray [(hd _), (he _), (ho _)])

theorem r1_d (hb : ∀ i, Aff 2 (fun x => b x i)) (l r : ℕ) : R1 4000 (fun x => D l r (a x) (b x) (o x)) := by
  unfold D
  r1le (r1 <;> first
    | tcomp r1_shR [(ha _)]
    | tcomp r1_shL [(ha _)]
    | tcomp r1_orArray []
    | tcomp r1_xorArray [(hb _), (ho _)])

theorem r1_theta : R1 80000 (fun x => Theta (a x) (o x)) := by
  unfold Theta
  eapply R1.mono
  case h =>
    r1 <;> first
      | tcomp r1_xor5 [(ha _)]
      | tcomp r1_d []
      | tcomp r1_xorArray [(ha _), (ho _)]
  case hm => norm_num [thetaColumns, thetaD, thetaOut]

theorem r1_stepRhoPi (l r : ℕ) : R1 3000 (fun x => stepRhoPi l r (a x) (o x)) := by
  unfold stepRhoPi
  r1le (r1 <;> first
    | tcomp r1_shR [(ha _)]
    | tcomp r1_shL [(ha _)]
    | tcomp r1_orArray [(ho _)])

theorem r1_rhoPi : R1 80000 (fun x => RhoPi (a x) (o x)) := by
  unfold RhoPi
  eapply R1.mono
  case h =>
    r1 <;> first
      | (simp only [lane]; r1eq [(ha _), (ho _)])
      | tcomp r1_stepRhoPi [(ha _), (ho _)]
  case hm => norm_num [rhoPiSteps]

include hb hc in
theorem r1_stepChi : R1 3000 (fun x => stepChi (a x) (b x) (c x) (o x)) := by
  unfold stepChi
  r1le (r1 <;> first
    | tcomp r1_xorArraySingle [(hb _)]
    | tcomp r1_andArray [(hc _)]
    | tcomp r1_xorArray [(ha _), (ho _)])

theorem r1_chi : R1 80000 (fun x => Chi (a x) (o x)) := by
  unfold Chi
  eapply R1.mono
  case h =>
    r1 <;> tcomp r1_stepChi [(ha _), (ho _)]
  case hm => norm_num [chiSteps]

theorem r1_iota (r : ℕ) : R1 20000 (fun x => Iota r (a x) (o x)) := by
  unfold Iota RC
  r1le (r1 <;> first
    | r1eq [(ha _), (ho _)]
    | tcomp r1_xorArray [(ha _), (ho _)])

theorem r1_keccakfRound (r : ℕ) : R1 300000 (fun x => KeccakfRound r (a x) (o x)) := by
  unfold KeccakfRound
  r1le (r1 <;> first
    | tcomp r1_theta [(ha _)]
    | tcomp r1_rhoPi []
    | tcomp r1_chi []
    | tcomp r1_iota [(ho _)])

theorem r1_keccakf : R1 8000000 (fun x => Keccakf (a x) (o x)) := by
  unfold Keccakf
  r1le (r1 <;> first
    | r1eq [(ho _)]
    | tcomp r1_keccakfRound [(ha _)])

theorem r1_pad : R1 50000 (fun x => Pad 512 (a x) (o x)) := by
  unfold Pad
  r1le (r1 <;> first
    | r1eq [(ha _), (ho _)]
    | tcomp r1_orArray [])

theorem r1_absorb (hb : ∀ i, Aff 2 (fun x => b x i)) : R1 9000000 (fun x => Absorb (a x) (b x) (o x)) := by
  unfold Absorb
  r1le (r1 <;> first
    | r1eq [(ha _)]
    | tcomp r1_xorArray [(ha _), (hb _)]
    | tcomp r1_keccakf [(ho _)])

theorem r1_keccak : R1 10000000 (fun x => Keccak 512 256 (a x) (o x)) := by
  unfold Keccak Final Squeeze
  r1le (r1 <;> first
    | r1eq [(ho _)]
    | tcomp r1_pad [(ha _)]
    | tcomp r1_absorb [])

end

theorem r1_pubkeyToAddress {a : (ι → F) → ℕ → F} {o : (ι → F) → F} (ha : ∀ i, Aff 2 (fun x => a x i)) (ho : Aff 2 o) :
    R1 11000000 (fun x => PubkeyToAddress (a x) (o x)) := by
  unfold PubkeyToAddress Bits2Num
  r1le (r1 <;> first
    | r1eq [(ha _), ho]
    | tcomp r1_keccak [])

theorem r1_coordsToAddress {a b o : (ι → F) → F} (ha : Aff 2 a) (hb : Aff 2 b) (ho : Aff 2 o) :
    R1 12000000 (fun x => CoordsToAddress (a x) (b x) (o x)) := by
  unfold CoordsToAddress
  r1le (r1 <;> first
    | r1eq []
    | tcomp r1_num2Bits [ha, hb]
    | tcomp r1_pubkeyToAddress [ho])

theorem r1_addrMembership (d : ℕ) {s r tx ty ux uy : (ι → F) → F} {p q : (ι → F) → ℕ → F} (h0 : Aff 2 r)
    (h1 : Aff 2 tx) (h2 : Aff 2 ty) (h3 : Aff 2 ux) (h4 : Aff 2 uy) (hp : ∀ i, Aff 2 (fun x => p x i))
    (hq : ∀ i, Aff 2 (fun x => q x i)) :
    R1 (d * 26000 + 13000000)
      (fun x => AddrMembership d (s x) (r x) (tx x) (ty x) (ux x) (uy x) (p x) (q x)) := by
  unfold AddrMembership AddrMembershipWith
  eapply R1.mono
  case h =>
    r1 <;> first
      | r1eq [h0]
      | tcomp r1_effEcdsa [h1, h2, h3, h4]
      | tcomp r1_coordsToAddress []
      | tcomp r1_merkle [(hp _), (hq _)]
  case hm => omega

end Spartan.Circuit
