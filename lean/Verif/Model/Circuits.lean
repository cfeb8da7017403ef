import Verif.Spec.Curve
import Mathlib.Algebra.BigOperators.Group.Finset.Basic

/-!
The circom circuits, as the constraints they generate.

A template is modelled by a relation between its input and output signals (and, where a theorem
refers to them, some of its internal signals) that holds when the remaining internal signals can be
chosen so that all constraints (`===`, `<==`) hold.  Hints (`<--`) generate no constraint; where the
values computed by the hints matter they are modelled separately.  Signal arrays are functions from
indices; only the indices below the array's length are constrained.

`circomlib` is not part of the repository: `IsZero`, `IsEqual`, `AND`, `OR`, `Num2Bits`, `LessThan`,
`GreaterThan`, `GreaterEqThan` and `MultiMux1` are transcribed from circomlib 2.0.5
(`comparators.circom`, `gates.circom`, `bitify.circom`, `mux1.circom`).
-/

namespace Spartan.Circuit

section Gadgets

variable {F : Type} [Field F]

/-- circomlib `IsZero`: `out <== -in*inv + 1; in*out === 0`.
External (circomlib), used at `secp256k1/add.circom` l. 61–67. -/
def IsZero (inp out : F) : Prop :=
  ∃ inv, out = -inp * inv + 1 ∧ inp * out = 0

/-- circomlib `IsEqual`.  External (circomlib), used at `secp256k1/add.circom` l. 57, 103. -/
def IsEqual (a b out : F) : Prop := IsZero (b - a) out

/-- circomlib `AND`.  External (circomlib), used at `secp256k1/add.circom` l. 108. -/
def AND (a b out : F) : Prop := out = a * b

/-- circomlib `OR`.  External (circomlib), used at `secp256k1/add.circom` l. 114. -/
def OR (a b out : F) : Prop := out = a + b - a * b

/-- circomlib `Num2Bits(n)`.  External (circomlib), used at `secp256k1/mul.circom` l. 128, 180, 183. -/
def Num2Bits (n : ℕ) (inp : F) (out : ℕ → F) : Prop :=
  (∀ i < n, out i * (out i - 1) = 0) ∧ ∑ i ∈ Finset.range n, out i * 2 ^ i = inp

/-- circomlib `LessThan(n)`.
External (circomlib), used by `GreaterThan` and `GreaterEqThan`.  (`secp256k1/mul.circom` l. 147, 155) -/
def LessThan (n : ℕ) (a b out : F) : Prop :=
  ∃ bits, Num2Bits (n + 1) (a + 2 ^ n - b) bits ∧ out = 1 - bits n

/-- circomlib `GreaterThan(n)`.  External (circomlib), used at `secp256k1/mul.circom` l. 147, 168. -/
def GreaterThan (n : ℕ) (a b out : F) : Prop := LessThan n b a out

/-- circomlib `GreaterEqThan(n)`.  External (circomlib), used at `secp256k1/mul.circom` l. 155. -/
def GreaterEqThan (n : ℕ) (a b out : F) : Prop := LessThan n b (a + 1) out

/-- `packages/circuits/eff_ecdsa_membership/secp256k1/add.circom:16-36` -/
def AddIncomplete (xP yP xQ yQ outX outY : F) : Prop :=
  ∃ lambda dx dy, dx = xP - xQ ∧ dy = yP - yQ ∧ dx * lambda = dy ∧
    outX = lambda * lambda - xP - xQ ∧ outY = lambda * (xP - outX) - yP

/-- `packages/circuits/eff_ecdsa_membership/secp256k1/add.circom:46-125` -/
def AddComplete (xP yP xQ yQ outX outY : F) : Prop :=
  ∃ xPSquared isXEqual isXpZero isXqZero isXEitherZero dx dy lambdaA lambdaB lambda
    outAx outAy outBx outBy outCx outCy outDx outDy zeroizeA zeroizeB zeroize,
    xPSquared = xP * xP ∧
    IsEqual xP xQ isXEqual ∧
    IsZero xP isXpZero ∧
    IsZero xQ isXqZero ∧
    IsZero ((1 - isXpZero) * (1 - isXqZero)) isXEitherZero ∧
    dx = xQ - xP ∧
    dy = (yQ - yP) * (1 - isXEqual) ∧
    dx * lambdaA = dy ∧
    lambdaB * 2 * yP = 3 * xPSquared ∧
    lambda = lambdaB * isXEqual + lambdaA ∧
    outAx = lambda * lambda - xP - xQ ∧
    outAy = lambda * (xP - outAx) - yP ∧
    outBx = outAx * (1 - isXEitherZero) ∧
    outBy = outAy * (1 - isXEitherZero) ∧
    outCx = isXpZero * xQ ∧
    outCy = isXpZero * yQ ∧
    outDx = isXqZero * xP ∧
    outDy = isXqZero * yP ∧
    IsEqual isXEqual (1 - (yP + yQ)) zeroizeA ∧
    AND isXpZero isXqZero zeroizeB ∧
    OR zeroizeA zeroizeB zeroize ∧
    outX = (outBx + outCx + outDx) * (1 - zeroize) ∧
    outY = (outBy + outCy + outDy) * (1 - zeroize)

/-- `packages/circuits/eff_ecdsa_membership/secp256k1/double.circom:10-27` -/
def Double (xP yP outX outY : F) : Prop :=
  ∃ lambda xPSquared, xPSquared = xP * xP ∧ lambda * 2 * yP = 3 * xPSquared ∧
    outX = lambda * lambda - 2 * xP ∧ outY = lambda * (xP - outX) - yP

/-- `secp256k1/mul.circom:117`: the order of the group. -/
def q : ℕ := 0xfffffffffffffffffffffffffffffffebaaedce6af48a03bbfd25e8cd0364141
/-- `secp256k1/mul.circom:118` -/
def qlo : ℕ := q % 2 ^ 128
/-- `secp256k1/mul.circom:119` -/
def qhi : ℕ := q / 2 ^ 128
/-- `secp256k1/mul.circom:120` -/
def tQ : ℕ := 115792089237316195423570985008687907852405143892509244725752742275123193348738
/-- `secp256k1/mul.circom:121` -/
def tQlo : ℕ := tQ % 2 ^ 128
/-- `secp256k1/mul.circom:122` -/
def tQhi : ℕ := tQ / 2 ^ 128

/-- `secp256k1/mul.circom:110-190` (`K`), with the signals `slo`, `shi`, `kloBits.out` and
`khiBits.out` exposed.  The input `s` occurs in no constraint: `slo` and `shi` are assigned by
hints. -/
def KWith (slo shi : F) (kloBits khiBits out : ℕ → F) : Prop :=
  ∃ (inBits : ℕ → F) (carry ahi bhi alo blo alpha beta gamma betaANDgamma isQuotientOne theta
    borrow klo khi : F),
    Num2Bits (128 + 1) (slo + tQlo) inBits ∧
    carry = inBits 128 ∧
    ahi = shi + tQhi + carry ∧
    bhi = qhi ∧
    alo = slo + tQlo - carry * 2 ^ 128 ∧
    blo = qlo ∧
    GreaterThan 129 ahi bhi alpha ∧
    IsEqual ahi bhi beta ∧
    GreaterEqThan 129 alo blo gamma ∧
    AND beta gamma betaANDgamma ∧
    OR betaANDgamma alpha isQuotientOne ∧
    GreaterThan 129 (qlo : F) (slo + tQlo) theta ∧
    AND theta isQuotientOne borrow ∧
    klo = (slo + tQlo + borrow * 2 ^ 128) - isQuotientOne * qlo ∧
    khi = (shi + tQhi - borrow * 1) - isQuotientOne * qhi ∧
    Num2Bits 256 klo kloBits ∧
    Num2Bits 256 khi khiBits ∧
    ∀ i < 128, out i = kloBits i ∧ out (i + 128) = khiBits i

/-- `secp256k1/mul.circom:110-190` (`K`). -/
def K (_s : F) (out : ℕ → F) : Prop :=
  ∃ slo shi kloBits khiBits, KWith slo shi kloBits khiBits out

/-- The signals `b` are the bits of a number below the field's order, as the hint
`out[i] <-- (in >> i) & 1` of circomlib's `Num2Bits` writes them.
What `Num2Bits(256)` at `secp256k1/mul.circom` l. 180 and 183 is taken to give. -/
def Canonical (n p : ℕ) (b : ℕ → F) : Prop :=
  ∃ v < p, ∀ i < n, b i = if v.testBit i then 1 else 0

/-- `secp256k1/mul.circom:37-102`: the constraints of `Secp256k1Mul` other than those of `K`, for the
bits `k`.  `pI`, `aI`, `pC`, `aC` are the outputs of the components `PIncomplete`, `accIncomplete`,
`PComplete` and `accComplete`. -/
def MulSteps (k : ℕ → F) (xP yP outX outY : F) : Prop :=
  ∃ (a0x a0y : F) (pIx pIy aIx aIy pCx pCy aCx aCy : ℕ → F),
    Double xP yP a0x a0y ∧
    AddIncomplete xP (-yP) a0x a0y (pIx 0) (pIy 0) ∧
    AddIncomplete a0x a0y (pIx 0) (pIy 0) (aIx 0) (aIy 0) ∧
    (∀ i, 1 ≤ i → i < 253 →
      AddIncomplete xP ((2 * k (256 - i) - 1) * yP) (aIx (i - 1)) (aIy (i - 1)) (pIx i) (pIy i) ∧
      AddIncomplete (aIx (i - 1)) (aIy (i - 1)) (pIx i) (pIy i) (aIx i) (aIy i)) ∧
    AddComplete xP ((2 * k 3 - 1) * yP) (aIx 252) (aIy 252) (pCx 0) (pCy 0) ∧
    AddComplete (aIx 252) (aIy 252) (pCx 0) (pCy 0) (aCx 0) (aCy 0) ∧
    (∀ i, 1 ≤ i → i < 3 →
      AddComplete xP ((2 * k (3 - i) - 1) * yP) (aCx (i - 1)) (aCy (i - 1)) (pCx i) (pCy i) ∧
      AddComplete (aCx (i - 1)) (aCy (i - 1)) (pCx i) (pCy i) (aCx i) (aCy i)) ∧
    AddComplete (aCx 2) (aCy 2) ((1 - k 0) * xP) ((1 - k 0) * -yP) outX outY

/-- `secp256k1/mul.circom:19-103` (`Secp256k1Mul`), with the signals `kBits.out` exposed. -/
def Mul (scalar xP yP : F) (kBits : ℕ → F) (outX outY : F) : Prop :=
  K scalar kBits ∧ MulSteps kBits xP yP outX outY

/-- `packages/circuits/eff_ecdsa_membership/eff_ecdsa.circom:13-39` (`EfficientECDSA`), with the
signals `sMultT.kBits.out` exposed. -/
def EfficientECDSA (s Tx Ty Ux Uy : F) (kBits : ℕ → F) (pubKeyX pubKeyY : F) : Prop :=
  ∃ mX mY, Mul s Tx Ty kBits mX mY ∧ AddComplete mX mY Ux Uy pubKeyX pubKeyY

end Gadgets

/-- `secp256k1/mul.circom:110-190` (`K`) with the values an honest prover's witness generator computes
for the hints: `slo` and `shi` are the halves of `s` (lines 123-124) and the bit decompositions are
those of the canonical representatives. -/
def KHonest (s : ZMod secpP) (out : ℕ → ZMod secpP) : Prop :=
  ∃ kloBits khiBits,
    KWith ((s.val % 2 ^ 128 : ℕ) : ZMod secpP) ((s.val / 2 ^ 128 : ℕ) : ZMod secpP)
      kloBits khiBits out ∧
    Canonical 256 secpP kloBits ∧ Canonical 256 secpP khiBits

end Spartan.Circuit
